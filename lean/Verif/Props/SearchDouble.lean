import Verif.Lemmas.DblModest
import Verif.Props.LocalSearch
import Verif.Lemmas.DblArith
import Verif.Lemmas.AnyLocalOpt

/-!
# C73: the local search in double precision
-/

namespace Verif
open F64 Dbl LS Spec

variable {ρ : Rounding}

/-- **C73** (data of modest size). In double precision, with any monotone rounding, every run of the local
search ends, after at most `cost · 2²¹` accepted moves where `cost` is the exact penalized cost before; the
result is valid, keeps the number of routes, and its exact penalized cost is not higher. Missing for the full
claim: sizes beyond those of `FineData`, where it can fail (`C73_search_ends_refuted`). -/
theorem C73_search_ends_partial (atan2 : Dbl ρ → Dbl ρ → Dbl ρ) (ctx : Ctx (Dbl ρ)) (f : MoveFlags) (ω : Oracle)
    (penMult : Dbl ρ) (s : LS (Dbl ρ)) (x : Individual (Dbl ρ)) (d : ℕ → ℕ → ℚ) (q : ℕ → ℤ) (p D : ℚ) (Q W : ℤ)
    (K : ℕ) (hfine : FineData ctx d q p D Q W K) (hpen : ctx.pen *. penMult = fin p) (hn0 : 0 < ctx.n)
    (la ln : ℕ → ℚ) (b : ℕ) (hb : b ≤ 900) (hlat : ∀ c, ctx.lat c = fin (la c)) (hlng : ∀ c, ctx.lng c = fin (ln c))
    (hla : ∀ c, |la c| ≤ 2 ^ b) (hln : ∀ c, |ln c| ≤ 2 ^ b)
    (hat : ∀ y x, (atan2 (fin y) (fin x) ≤. atan2 (fin y) (fin x)) = true)
    (hs : Ready s) (hn : NbrOK ctx s) (hp : IsPartition ctx.n x.phenotype)
    (hlen : x.phenotype.length = s.numRoutes) (fuel : ℕ)
    (hfuel : ⌊solCost d (fun c => (q c : ℚ)) Q p x.phenotype * 2 ^ 21⌋.toNat < fuel) :
    ∃ s' y, LS.run atan2 ctx f ω fuel penMult s x = some (s', y) ∧
      IsPartition ctx.n y.phenotype ∧ y.phenotype.length = x.phenotype.length ∧
      y.genotype = y.phenotype.flatten ∧
      solCost d (fun c => (q c : ℚ)) Q p y.phenotype ≤ solCost d (fun c => (q c : ℚ)) Q p x.phenotype ∧
      evaluate ctx x.evaluation y.phenotype = some y.evaluation ∧
      Ready s' ∧ NbrOK ctx s' ∧ s'.numRoutes = s.numRoutes := by
  obtain ⟨ed, hm, hsm⟩ := hfine.modest hn0
  obtain ⟨s1, e1, hr1, hn1, hp1, hnum1, hc1, -⟩ := load_run hs hn penMult hp hlen
  rw [hpen] at hp1
  obtain ⟨s2, R', k, e2, hr2, hn2, hp2, hnum2, hc2, st⟩ := searchLoop_ends (Dbl.arith ctx) (f := f) (ω := ω) _
    fuel 0 0 s1 _ hr1 hn1 hfuel (fun k R' hst => by
      rw [hp1] at hst
      exact hm.steps_le hsm hst)
  rw [hp1] at st
  have hlen2 : x.phenotype.length = s2.numRoutes := by rw [hnum2, hnum1]; exact hlen
  have hn40 := hfine.sized.count
  obtain ⟨y, e3⟩ := write_total_any hr2 atan2 hn0 hlen2 (fun r hr => by
    obtain ⟨j, hj⟩ := List.getElem?_of_mem hr
    have := part_short hr2.part hj
    exact routeAngle_self hb hlat hlng hla hln hat r (by omega))
  obtain ⟨w1, w2, w3, w4⟩ := write_run hr2 atan2 hlen2 e3
  refine ⟨s2, y, ?_, w1.flatten.trans hr2.part, by rw [w1.length_eq, st.perm.2], w2, ?_, w4, hr2.ready, hn2,
    hnum2.trans hnum1⟩
  · rw [LS.run, e1, Option.bind_some, LS.search, e2, Option.bind_some, e3]; rfl
  · have h1 := hm.steps hsm st
    have h2 : (0 : ℚ) ≤ k * (1 / 2 ^ 21) := by positivity
    rw [solCost_perm _ _ _ _ w1]
    have h3 : solCost d (fun c => (q c : ℚ)) Q p R' ≤
        solCost d (fun c => (q c : ℚ)) Q p x.phenotype - k * (1 / 2 ^ 21) := h1
    linarith

/-- A reported delta that is not a gain is above `-1e-6`, up to one rounding. -/
theorem approxLt_zero_false {x : ℚ} (h : approxLt (fin x : Dbl ρ) (lit 0) = false) :
    -(1 / 1000000 + 1 / 2 ^ 53) ≤ x := by
  obtain ⟨e, he, e0, e1, hfix⟩ := eps_ge (ρ := ρ)
  have p1 : (0 : ℚ) < 1 / 2 ^ 20 := by norm_num
  have he' : e = ρ.fl 0.000001 := by
    have t : (eps : Dbl ρ) = fin (ρ.fl 0.000001) :=
      ofRat_le (m := 0) (by norm_num) (by rw [abs_of_nonneg (by norm_num)]; norm_num)
    rw [he, fin.injEq] at t
    exact t
  have hnear := (abs_le.mp (fl_near_abs ρ (m := 0) (x := 0.000001)
    (by rw [abs_of_nonneg (by norm_num)]; norm_num))).2
  rw [← he'] at hnear
  unfold approxLt at h
  rw [lit_zero, he, sub_fin, zero_sub, ofRat_le (m := 0) (by norm_num) (by
    rw [abs_neg, abs_of_nonneg (by linarith)]; norm_num; linarith), lt_fin, decide_eq_false_iff_not, ρ.odd, hfix] at h
  norm_num at hnear h ⊢
  linarith

theorem Modest.local_optimum {atan2 : Dbl ρ → Dbl ρ → Dbl ρ} {ctx : Ctx (Dbl ρ)} {cq : Ctx ℚ} {p : ℚ} {K : ℕ}
    {ed M : ℚ} {T : ℤ} (hm : Modest ctx cq p K ed M T) {f : MoveFlags} {ω : Oracle} {fuel : ℕ} {penMult : Dbl ρ}
    (hpen : ctx.pen *. penMult = fin p) {s s' : LS (Dbl ρ)} {x y : Individual (Dbl ρ)} (hs : Ready s)
    (hn : NbrOK ctx s) (hp : IsPartition ctx.n x.phenotype) (hlen : x.phenotype.length = s.numRoutes)
    (hrun : LS.run atan2 ctx f ω fuel penMult s x = some (s', y)) {u v : ℕ} (hu : u ∈ s.customers)
    (hv : Neighbour s u v) :
    NoGainBy (1 / 1000000 + 1 / 2 ^ 53 + (8 * ed + 23 * (2 ^ K / 2 ^ 53))) cq p y.phenotype f.neighbor u (.cust v) := by
  obtain ⟨R, k, hr, hperm, hpen', -, -, hq⟩ := run_quiet (Dbl.arith ctx) hs hn hp hlen hrun
  have hR : IsPartition cq.n R := by rw [hm.n]; exact hr.part
  refine NoGainBy.perm hR hperm ?_
  intro m hmem R' heff
  obtain ⟨dl, ed1, hlt⟩ := hq u hu v hv m hmem
  obtain ⟨z, rfl, hz⟩ := hm.move hr (hpen'.trans hpen) ed1 heff
  have h1 := approxLt_zero_false hlt
  have h2 := (abs_le.mp hz).2
  linarith

/-- **C74**. In double precision, with any monotone rounding: when the local search ends, no enabled move of any
customer `u` towards any of its neighbours `v` lowers the exact penalized cost of the result by more than `1e-6`
plus `8 n + 24` roundings of numbers below `2 ^ K`. In particular the test that skips pairs whose routes did not
change since they were examined skips no improving pair, although the stored numbers it relies on are rounded. -/
theorem C74_local_optimum (atan2 : Dbl ρ → Dbl ρ → Dbl ρ) (ctx : Ctx (Dbl ρ)) (f : MoveFlags) (ω : Oracle) (fuel : ℕ)
    (penMult : Dbl ρ) (s : LS (Dbl ρ)) (x : Individual (Dbl ρ)) (d : ℕ → ℕ → ℚ) (q : ℕ → ℤ) (p D : ℚ) (Q W : ℤ)
    (K : ℕ) (hd : SizedData ctx d q p D Q W K) (hpen : ctx.pen *. penMult = fin p) (hn0 : 0 < ctx.n)
    (hs : Ready s) (hn : NbrOK ctx s) (hcust : ∀ u, 0 < u → u < ctx.n → u ∈ s.customers)
    (hp : IsPartition ctx.n x.phenotype) (hlen : x.phenotype.length = s.numRoutes) (s' : LS (Dbl ρ))
    (y : Individual (Dbl ρ)) (hrun : LS.run atan2 ctx f ω fuel penMult s x = some (s', y)) (u v : ℕ) (hu : 0 < u)
    (hun : u < ctx.n) (hv : Neighbour s u v) (m : MoveKind) (hm : m ∈ f.neighbor) (R : List (List ℕ))
    (hR : MoveEffect y.phenotype u (.cust v) m R) :
    solCost d (fun c => (q c : ℚ)) Q p y.phenotype ≤ solCost d (fun c => (q c : ℚ)) Q p R +
      (1 / 1000000 + 1 / 2 ^ 53 + (8 * ctx.n + 23) * (2 ^ K / 2 ^ 53)) := by
  have t := (hd.modest hn0).local_optimum hpen hs hn hp hlen hrun (hcust u hu hun) hv m hm R hR
  have t' : solCost d (fun c => (q c : ℚ)) Q p y.phenotype ≤ solCost d (fun c => (q c : ℚ)) Q p R +
    (1 / 1000000 + 1 / 2 ^ 53 + (8 * (ctx.n * (2 ^ K / 2 ^ 53)) + 23 * (2 ^ K / 2 ^ 53))) := t
  linarith

/-- **C74** (whole distances). As before with 23 roundings only: the lengths are exact. -/
theorem C74_local_optimum_whole (atan2 : Dbl ρ → Dbl ρ → Dbl ρ) (ctx : Ctx (Dbl ρ)) (f : MoveFlags) (ω : Oracle)
    (fuel : ℕ) (penMult : Dbl ρ) (s : LS (Dbl ρ)) (x : Individual (Dbl ρ)) (d : ℕ → ℕ → ℚ) (q : ℕ → ℤ) (p D : ℚ)
    (Q W : ℤ) (K : ℕ) (hd : WholeData ctx d q p D Q W K) (hpen : ctx.pen *. penMult = fin p) (hn0 : 0 < ctx.n)
    (hs : Ready s) (hn : NbrOK ctx s) (hcust : ∀ u, 0 < u → u < ctx.n → u ∈ s.customers)
    (hp : IsPartition ctx.n x.phenotype) (hlen : x.phenotype.length = s.numRoutes) (s' : LS (Dbl ρ))
    (y : Individual (Dbl ρ)) (hrun : LS.run atan2 ctx f ω fuel penMult s x = some (s', y)) (u v : ℕ) (hu : 0 < u)
    (hun : u < ctx.n) (hv : Neighbour s u v) (m : MoveKind) (hm : m ∈ f.neighbor) (R : List (List ℕ))
    (hR : MoveEffect y.phenotype u (.cust v) m R) :
    solCost d (fun c => (q c : ℚ)) Q p y.phenotype ≤ solCost d (fun c => (q c : ℚ)) Q p R +
      (1 / 1000000 + 1 / 2 ^ 53 + 23 * (2 ^ K / 2 ^ 53)) := by
  have t := (hd.modest hn0).local_optimum hpen hs hn hp hlen hrun (hcust u hu hun) hv m hm R hR
  have t' : solCost d (fun c => (q c : ℚ)) Q p y.phenotype ≤ solCost d (fun c => (q c : ℚ)) Q p R +
    (1 / 1000000 + 1 / 2 ^ 53 + (8 * 0 + 23 * (2 ^ K / 2 ^ 53))) := t
  linarith

end Verif
