import Verif.Lemmas.AnyLocalOpt
import Verif.Props.SearchDouble

/-!
# C73: the local search need not end in double precision
-/

namespace Verif
open F64 Dbl LS Spec

/-- A search that has not ended has performed at least one move in every round. -/
theorem searchLoop_none {α : Type} [F64 α] {ctx : Ctx α} (A : Arith ctx) {f : MoveFlags} {ω : Oracle} :
    ∀ (fuel i lc : ℕ) (s : LS α) (R : List (List ℕ)), Repr ctx s R → NbrOK ctx s →
    searchLoop ctx f ω fuel i lc s = none → ∃ k R', fuel ≤ k ∧ Steps ctx f s.pen k R R'
  | 0, _, _, s, R, _, _, _ => ⟨0, R, le_refl _, .zero R⟩
  | fuel + 1, i, lc, s, R, h, hn, e => by
    obtain ⟨s1, R1, k1, e1, hr1, hn1, hp1, -, -, st1⟩ := pass_ran A (f := f) (lc := lc) (ω := ω.sub i) h hn
    rw [searchLoop, e1, Option.bind_some] at e
    dsimp only at e
    split at e
    · next hk =>
      rw [decide_eq_true_eq] at hk
      obtain ⟨k2, R2, hk2, st2⟩ := searchLoop_none A fuel (i + 1) _ s1 R1 hr1 hn1 e
      exact ⟨k1 + k2, R2, by omega, st1.trans (hp1 ▸ st2)⟩
    · cases e

namespace Hang

/-- Half of a distance, in units of `2 ^ (-e)`: `2 ^ 51`, and one more for the depot and the customers 1 and 2. -/
def w (e a : ℕ) : ℚ := (2 ^ 51 + if a < 3 then 1 else 0) / 2 ^ e

/-- The distances. For `e = 0` they are whole numbers of about `4.5 · 10 ^ 15` that differ by 1, for `e = 18`
they are about `1.7 · 10 ^ 10` and differ by some `4 · 10 ^ (-6)`. -/
def d (e a b : ℕ) : ℚ := if a < 4 ∧ b < 4 ∧ a ≠ b then w e a + w e b else 0

/-- Three customers with demand 1. -/
def q (c : ℕ) : ℤ := if 0 < c ∧ c < 4 then 1 else 0

/-- The instance in double precision: one vehicle can take all customers; coordinates and penalty are left
open. -/
structure Inst (ctx : Ctx (Dbl nearestEven)) (e : ℕ) : Prop where
  n : ctx.n = 4
  cap : ctx.cap = ofInt 10
  demand : ∀ c, ctx.demand c = ofInt (q c)
  dist : ∀ a b, ctx.dist a b = fin (d e a b)

/-- All the numbers are double precision numbers. -/
theorem exact : ∀ e < 19, ∀ a < 4, ∀ b < 4, nearestEven.fl (d e a b) = d e a b := by decide +kernel

theorem w_ge {e : ℕ} (he : e ≤ 18) (a : ℕ) : 2 ^ 33 ≤ w e a := by
  have h : (2 : ℚ) ^ e ≤ 2 ^ 18 := pow_le_pow_right₀ (by norm_num) he
  unfold w
  rw [le_div_iff₀ (by positivity)]
  split <;> nlinarith

theorem w_le (e a : ℕ) : w e a ≤ 2 ^ 52 := by
  have h : (1 : ℚ) ≤ 2 ^ e := one_le_pow₀ (by norm_num)
  unfold w
  rw [div_le_iff₀ (by positivity)]
  split <;> nlinarith

variable {ctx : Ctx (Dbl nearestEven)} {e : ℕ}

theorem sized (hi : Inst ctx e) {p : ℚ} (h0 : 0 ≤ p) (h1 : p ≤ 2 ^ 50) :
    SizedData ctx (d e) q p (2 ^ 53) 10 1 61 where
  dist := hi.dist
  dist0 a b := by
    unfold d w
    split
    · positivity
    · rfl
  distD a b := by
    unfold d
    split
    · have := w_le e a
      have := w_le e b
      linarith [show (2 : ℚ) ^ 53 = 2 ^ 52 + 2 ^ 52 by norm_num]
    · norm_num
  sym a b := by
    unfold d
    by_cases h : a < 4 ∧ b < 4 ∧ a ≠ b
    · rw [if_pos h, if_pos ⟨h.2.1, h.1, h.2.2.symm⟩, add_comm]
    · rw [if_neg h, if_neg (fun t => h ⟨t.2.1, t.1, t.2.2.symm⟩)]
  demand := hi.demand
  demand0 c := by unfold q; split <;> decide
  demandW c := by unfold q; split <;> decide
  depot := rfl
  cap := hi.cap
  cap0 := by decide
  pen0 := h0
  loads := by norm_num [hi.n]
  lengths := by norm_num [hi.n]
  penalties := by
    norm_num [hi.n] at h1 ⊢
    linarith
  exp := by decide
  count := by norm_num [hi.n]

/-- A clear gain is accepted. -/
theorem accept {ρ : Rounding} {x : ℚ} (h : x < -(1 / 2)) : approxLt (fin x : Dbl ρ) (lit 0) = true := by
  obtain ⟨e, he, e0, e1, hfix⟩ := eps_ge (ρ := ρ)
  have p1 : (0 : ℚ) < 1 / 2 ^ 20 := by norm_num
  unfold approxLt
  rw [lit_zero, he, sub_fin, zero_sub, ofRat_le (m := 0) (by norm_num) (by
    rw [abs_neg, abs_of_nonneg (by linarith)]; norm_num; linarith), lt_fin, decide_eq_true_eq, ρ.odd, hfix]
  linarith

/-- One route visiting all: turning its end around seems to gain one unit. -/
theorem turn : ∀ e < 19, ∀ a ∈ [1, 2, 3], ∀ b ∈ [1, 2, 3], ∀ c ∈ [1, 2, 3], (a ≠ b ∧ a ≠ c ∧ b ≠ c) →
    approxLt (F64.neg (fin (d e a b) : Dbl nearestEven) -. fin (d e c 0) +. fin (d e a c) +. fin (d e b 0)) (lit 0) =
      true := by
  decide +kernel

/-- Three customers are in one route, or one of them is alone in a route. -/
theorem cases3 {R : List (List ℕ)} (hp : IsPartition 4 R) :
    (∃ r a b c : ℕ, R[r]? = some [a, b, c] ∧ a ∈ [1, 2, 3] ∧ b ∈ [1, 2, 3] ∧ c ∈ [1, 2, 3] ∧
      (a ≠ b ∧ a ≠ c ∧ b ≠ c)) ∨
    ∃ (r1 r2 u v : ℕ) (t : List ℕ), r1 ≠ r2 ∧ R[r1]? = some [u] ∧ R[r2]? = some (v :: t) ∧ t.length ≤ 1 := by
  have hmem : ∀ (r : ℕ) (l : List ℕ), R[r]? = some l → l ⊆ [1, 2, 3] := by
    intro r l hr c hc
    have := (part_mem hp).mp (List.mem_flatten.mpr ⟨l, List.mem_of_getElem? hr, hc⟩)
    simp only [List.mem_cons, List.not_mem_nil, or_false]
    omega
  have hnd : ∀ (r : ℕ) (l : List ℕ), R[r]? = some l → l.Nodup := fun r l hr => part_nodup hp hr
  have len : ∀ l : List ℕ, l.Nodup → l ⊆ [1, 2, 3] → l.length ≤ 3 := fun l h1 h2 =>
    (h1.subperm h2).length_le
  have get : ∀ c : ℕ, c ∈ [1, 2, 3] → ∃ (r : ℕ) (l : List ℕ), R[r]? = some l ∧ c ∈ l := by
    intro c hc
    simp only [List.mem_cons, List.not_mem_nil, or_false] at hc
    obtain ⟨l, hl, hcl⟩ := List.mem_flatten.mp ((part_mem hp (c := c)).mpr (by omega))
    obtain ⟨r, hr⟩ := List.getElem?_of_mem hl
    exact ⟨r, l, hr, hcl⟩
  have two : ∀ (r r' : ℕ) (l l' : List ℕ), r ≠ r' → R[r]? = some l → R[r']? = some l' →
      l.length + l'.length ≤ 3 := by
    intro r r' l l' hne h h'
    rw [← List.length_append]
    refine len _ (List.nodup_append'.mpr ⟨hnd r l h, hnd r' l' h', ?_⟩) ?_
    · intro c hc hc'
      exact hne (route_unique hp h h' hc hc')
    · intro c hc
      rcases List.mem_append.mp hc with hc | hc
      · exact hmem r l h hc
      · exact hmem r' l' h' hc
  obtain ⟨r, l, hr, hl⟩ := get 1 (by simp)
  have hl3 := len l (hnd r l hr) (hmem r l hr)
  match l, hl, hr, hl3 with
  | [a, b, c], _, hr, _ =>
    have h1 := hmem r _ hr
    have h2 := hnd r _ hr
    simp only [List.nodup_cons, List.mem_cons, List.not_mem_nil, or_false, not_or] at h2
    exact .inl ⟨r, a, b, c, hr, h1 (by simp), h1 (by simp), h1 (by simp), h2.1.1, h2.1.2, h2.2.1⟩
  | [a], hl, hr, _ =>
    obtain ⟨r', l', hr', hl'⟩ := get 2 (by simp)
    have hne : r ≠ r' := by
      rintro rfl
      rw [hr] at hr'
      cases hr'
      simp only [List.mem_singleton] at hl hl'
      omega
    have := two r r' _ _ hne hr hr'
    match l', hl', hr', this with
    | v :: t, _, hr', this =>
      simp only [List.length_cons, List.length_nil] at this
      exact .inr ⟨r, r', a, v, t, hne, hr, hr', by omega⟩
  | [a, b], hl, hr, _ =>
    have : ∃ x ∈ [1, 2, 3], x ∉ [a, b] := by
      by_contra hc
      push Not at hc
      have h1 := hc 2 (by simp)
      have h2 := hc 3 (by simp)
      simp only [List.mem_cons, List.not_mem_nil, or_false] at hl h1 h2
      omega
    obtain ⟨x, hx, hxn⟩ := this
    obtain ⟨r', l', hr', hl'⟩ := get x hx
    have hne : r' ≠ r := by
      rintro rfl
      rw [hr] at hr'
      cases hr'
      exact hxn hl'
    have := two r' r _ _ hne hr' hr
    match l', hl', hr', this with
    | [u], _, hr', this => exact .inr ⟨r', r, u, a, [b], hne, hr', hr, by simp⟩
    | u :: z :: t, _, hr', this => simp at this

theorem d_ne {a b : ℕ} (ha : a < 4) (hb : b < 4) (h : a ≠ b) : d e a b = w e a + w e b := if_pos ⟨ha, hb, h⟩

theorem d_depot : d e 0 0 = 0 := if_neg (by simp)

theorem cost_small (p : ℚ) {l : List ℕ} (h : l.length ≤ 3) :
    Spec.routeCost (d e) (fun c => (q c : ℚ)) 10 p l = routeDist (d e) l := by
  have h1 := (loadZ_bounds (q := q) (D := 1) (fun c => by unfold q; split <;> decide)
    (fun c => by unfold q; split <;> decide) l).2
  have h2 : routeLoad (fun c => (q c : ℚ)) l ≤ 3 := by
    rw [loadZ_cast q l]
    exact_mod_cast (by omega : loadZ q l ≤ 3)
  rw [Spec.routeCost, max_eq_left (by linarith), mul_zero, add_zero]

/-- In every state some neighbour move reports a gain. -/
theorem not_quiet (hi : Inst ctx e) (he : e ≤ 18) {p : ℚ} (h0 : 0 ≤ p) (h1 : p ≤ 2 ^ 50) {f : MoveFlags}
    (hf : f.relocateSingle = true) (hf' : f.twoOptIntraReverse = true) {s : LS (Dbl nearestEven)}
    {R : List (List ℕ)} (h : Repr ctx s R) (hp : s.pen = fin p) :
    ∃ u v : ℕ, (0 < u ∧ u < 4) ∧ (0 < v ∧ v < 4) ∧ u ≠ v ∧ ¬ Quiet ctx f.neighbor s u v := by
  have hm := (sized hi h0 h1).modest (by rw [hi.n]; decide)
  have hpart : IsPartition 4 R := hi.n ▸ h.part
  rcases cases3 hpart with ⟨r, a, b, c, hr, ha, hb, hc, hne⟩ | ⟨r1, r2, u, v, t, hne, h1, h2, ht⟩
  · have ha' : 0 < a ∧ a < 4 := by
      simp only [List.mem_cons, List.not_mem_nil, or_false] at ha; omega
    have hc' : 0 < c ∧ c < 4 := by
      simp only [List.mem_cons, List.not_mem_nil, or_false] at hc; omega
    refine ⟨a, c, ha', hc', hne.2.1, fun hq => ?_⟩
    obtain ⟨x, ex, hx⟩ := hq .twoOptIntraReverse (by simp [MoveFlags.neighbor, hf'])
    rw [MoveKind.delta, twoOptIntraReverse_delta h (p := []) (m := [b]) (q := []) (by simp) (by simpa using hr)] at ex
    cases ex
    have := turn e (by omega) a ha b hb c hc hne
    simp only [headRef, List.head?_cons, List.head?_nil, Option.map_some, Option.map_none, Option.getD_some,
      Option.getD_none, Ref.number, hi.dist] at hx
    exact absurd (this.symm.trans hx) (by simp)
  · have mem : ∀ (r : ℕ) (l : List ℕ) (c : ℕ), R[r]? = some l → c ∈ l → 0 < c ∧ c < 4 := fun r l c hr hc =>
      (part_mem hpart).mp (List.mem_flatten.mpr ⟨l, List.mem_of_getElem? hr, hc⟩)
    have hu := mem r1 _ u h1 (by simp)
    have hv := mem r2 _ v h2 (by simp)
    have huv : u ∉ v :: t := fun hc => hne (route_unique hpart h1 h2 (by simp) hc)
    simp only [List.mem_cons, not_or] at huv
    refine ⟨u, v, hu, hv, huv.1, fun hq => ?_⟩
    obtain ⟨x, ex, hx⟩ := hq .relocateSingle (by simp [MoveFlags.neighbor, hf])
    obtain ⟨y, rfl, hy⟩ := hm.move h hp ex
      (.relocateSingle (.inter r1 r2 [] [] [v] t hne (by simpa using h1) (by simpa using h2) (by simp [lastRef])))
    have hcost : solCost (d e) (fun c => (q c : ℚ)) 10 p ((R.set r1 ([] ++ [])).set r2 ([v] ++ [u] ++ t)) -
        solCost (d e) (fun c => (q c : ℚ)) 10 p R = - 2 * w e 0 := by
      rw [solCost_set_two hne h1 h2, cost_small p (by simp), cost_small p (by simp; omega), cost_small p (by simp),
        cost_small p (by simp; omega)]
      have hnd := part_nodup hpart h2
      match t, ht with
      | [], _ =>
        simp only [routeDist, pathDist, List.append_nil, List.nil_append, List.cons_append]
        rw [d_ne (a := 0) (b := v) (by omega) (by omega) (by omega), d_ne hv.2 hu.2 (Ne.symm huv.1),
          d_ne (a := u) (b := 0) (by omega) (by omega) (by omega),
          d_ne (a := 0) (b := u) (by omega) (by omega) (by omega),
          d_ne (a := v) (b := 0) (by omega) (by omega) (by omega), d_depot]
        ring
      | [z], _ =>
        have hz := mem r2 _ z h2 (by simp)
        simp only [List.nodup_cons, List.mem_singleton] at hnd
        simp only [List.mem_singleton] at huv
        simp only [routeDist, pathDist, List.append_nil, List.nil_append, List.cons_append]
        rw [d_ne (a := 0) (b := v) (by omega) (by omega) (by omega), d_ne hv.2 hu.2 (Ne.symm huv.1),
          d_ne hu.2 hz.2 huv.2, d_ne (a := z) (b := 0) (by omega) (by omega) (by omega),
          d_ne (a := 0) (b := u) (by omega) (by omega) (by omega),
          d_ne (a := u) (b := 0) (by omega) (by omega) (by omega), d_ne hv.2 hz.2 hnd.1, d_depot]
        ring
    have hy2 : |y - (solCost (d e) (fun c => (q c : ℚ)) (10 : ℤ) p ((R.set r1 ([] ++ [])).set r2 ([v] ++ [u] ++ t)) -
        solCost (d e) (fun c => (q c : ℚ)) (10 : ℤ) p R)| ≤
          8 * ((ctx.n : ℚ) * (2 ^ 61 / 2 ^ 53)) + 23 * (2 ^ 61 / 2 ^ 53) := hy
    rw [show ((10 : ℤ) : ℚ) = 10 by norm_num, hcost, hi.n] at hy2
    have := w_ge he 0
    have hy' := (abs_le.mp hy2).2
    rw [accept (by norm_num at hy' this ⊢; linarith)] at hx
    simp at hx

end Hang

/-- **C73** (refuted). Three customers whose distances are double precision numbers: whole numbers of about
`4.5 · 10 ^ 15` differing by 1 (`e = 0`) down to numbers of about `1.7 · 10 ^ 10` differing by `2 ^ (-18)`
(`e = 18`). With all pairs of customers as neighbours, the two move types below and a penalty up to `2 ^ 50`, no
run of the local search ends, whatever the routes it starts from, the number of vehicles, the random choices and
the other move types: there is always a move that seems to gain, although it gains nothing. The search does not
panic: it performs as many moves as one allows rounds. -/
theorem C73_search_ends_refuted (atan2 : Dbl nearestEven → Dbl nearestEven → Dbl nearestEven)
    (ctx : Ctx (Dbl nearestEven)) (e : ℕ) (hi : Hang.Inst ctx e) (he : e ≤ 18)
    (penMult : Dbl nearestEven) (p : ℚ) (hp0 : 0 ≤ p) (hp1 : p ≤ 2 ^ 50) (hpen : ctx.pen *. penMult = fin p)
    (f : MoveFlags) (hf : f.relocateSingle = true) (hf' : f.twoOptIntraReverse = true) (ω : Oracle)
    (s : LS (Dbl nearestEven)) (x : Individual (Dbl nearestEven)) (hs : Ready s) (hn : NbrOK ctx s)
    (hc : ∀ u, 0 < u → u < 4 → u ∈ s.customers)
    (hnb : ∀ u v, 0 < u → u < 4 → 0 < v → v < 4 → u ≠ v → Neighbour s u v)
    (hp : IsPartition 4 x.phenotype) (hlen : x.phenotype.length = s.numRoutes) (fuel : ℕ) :
    LS.run atan2 ctx f ω fuel penMult s x = none ∧
      ∃ k R, fuel ≤ k ∧ Steps ctx f (fin p) k x.phenotype R := by
  have hp4 : IsPartition ctx.n x.phenotype := by rw [hi.n]; exact hp
  constructor
  · rw [Option.eq_none_iff_forall_not_mem]
    rintro ⟨s', y⟩ hrun
    obtain ⟨R, k, hr, -, hpen', -, -, hq⟩ := run_quiet (Dbl.arith _) hs hn hp4 hlen hrun
    obtain ⟨u, v, hu, hv, hne, hnq⟩ := Hang.not_quiet hi he hp0 hp1 hf hf' hr (hpen'.trans hpen)
    exact hnq (hq u (hc u hu.1 hu.2) v (hnb u v hu.1 hu.2 hv.1 hv.2 hne))
  · obtain ⟨s1, e1, hr1, hn1, hpe, hnum1, hc1, hm1, hl1, ht1, hco, hcc, hg, -⟩ := load_run hs hn penMult hp4 hlen
    have hnone : searchLoop ctx f ω fuel 0 0 s1 = none := by
      rw [Option.eq_none_iff_forall_not_mem]
      intro s' hrun
      have ho : AnyOpt ctx f.neighbor s1 x.phenotype := by
        constructor
        · intro u _ _ v _ r r' l l' hr _ _ _ hle
          rw [ht1, hl1 r (by rw [← hlen]; exact get_lt hr)] at hle
          simp at hle
        · intro u; rw [ht1, hm1]; simp
      obtain ⟨R, k, hr2, -, hp2, -, -, hq⟩ := searchLoop_quiet (Dbl.arith _) fuel 0 0 s1 _ s' hr1 hn1 ho hrun
      obtain ⟨u, v, hu, hv, hne, hnq⟩ := Hang.not_quiet hi he hp0 hp1 hf hf' hr2 ((hp2.trans hpe).trans hpen)
      exact hnq (hq u (by rw [hc1]; exact hc u hu.1 hu.2) v
        ((Neighbour.congr hco hcc hg).mpr (hnb u v hu.1 hu.2 hv.1 hv.2 hne)))
    obtain ⟨k, R, hk, st⟩ := searchLoop_none (Dbl.arith _) fuel 0 0 s1 _ hr1 hn1 hnone
    exact ⟨k, R, hk, by rw [hpe, hpen] at st; exact st⟩

namespace Hang

/-- The instance with the depot and the customers at one point and a penalty of 100. -/
def ctx (e : ℕ) : Ctx (Dbl nearestEven) :=
  { n := 4, cap := ofInt 10, demand := fun c => ofInt (q c), dist := fun a b => fin (d e a b),
    lat := fun _ => fin 0, lng := fun _ => fin 0, pen := fin 100 }

/-- A new local search with two vehicles and the two other customers as neighbours. -/
def ls (e : ℕ) : LS (Dbl nearestEven) :=
  LS.new (ctx e) 2 2 (fun _ => 0) [1, 2, 2, 3, 1, 3, 1, 2] 2 (lit 1)

/-- All customers in one route. -/
def ind : Individual (Dbl nearestEven) := ⟨0, [], [[1, 2, 3], []], lit 0, SolEval.new⟩

theorem ls_nbr (e : ℕ) : NbrOK (ctx e) (ls e) := by
  constructor
  · show 0 < 2; decide
  · show 2 ≤ 2; decide
  · rfl
  · intro u i hu hun hi v hv
    have h1 : u < 4 := hun
    have h2 : i < 2 := hi
    interval_cases u <;> interval_cases i <;> simp [ls, LS.new] at hv <;> subst hv <;> simp [ctx]
  · intro u hu
    simp [ls, LS.new, ctx] at hu ⊢
    omega

/-- All hypotheses of `C73_search_ends_refuted` hold for it. -/
example (e : ℕ) : Inst (ctx e) e ∧ (ctx e).pen *. lit 1 = fin 100 ∧ (0 : ℚ) ≤ 100 ∧ (100 : ℚ) ≤ 2 ^ 50 ∧
    Ready (ls e) ∧ NbrOK (ctx e) (ls e) ∧ (∀ u, 0 < u → u < 4 → u ∈ (ls e).customers) ∧
    (∀ u v, 0 < u → u < 4 → 0 < v → v < 4 → u ≠ v → Neighbour (ls e) u v) ∧
    IsPartition 4 ind.phenotype ∧ ind.phenotype.length = (ls e).numRoutes := by
  refine ⟨⟨rfl, rfl, fun _ => rfl, fun _ _ => rfl⟩, ?_, by norm_num, by norm_num, C10_new_ready _ _ _ _ _ _ _,
    ls_nbr e, ?_, ?_, by rw [IsPartition]; decide, rfl⟩
  · show fin 100 *. (lit 1 : Dbl nearestEven) = fin 100
    decide +kernel
  · intro u h0 h1
    simp [ls, LS.new, ctx]
    omega
  · intro u v hu hu' hv hv' hne
    have : ∃ i < 2, [1, 2, 2, 3, 1, 3, 1, 2][u * 2 + i]? = some v := by
      interval_cases u <;> interval_cases v <;> first | exact absurd rfl hne | exact ⟨0, by decide⟩ | exact ⟨1, by decide⟩
    exact this

/-- The first pass on it already accepts a move, as every later one does. -/
example : (((loadIndividual (ctx 0) ind ((ls 0).reset.updatePenalty (ctx 0) (lit 1))).bind
    (pass (ctx 0) ⟨true, true, true, true, true, true, true, true, true, false⟩ (fun k => k) 0)).map
      fun p => p.2.1) = some true := by
  decide +kernel

end Hang

namespace SearchEx

/-- Four nodes on a line, capacity 2. -/
def d (a b : ℕ) : ℚ := |((min a 4 : ℕ) : ℚ) - (min b 4 : ℕ)|

def q (c : ℕ) : ℤ := if c = 0 then 0 else 1

def ctx : Ctx (Dbl nearestEven) :=
  { n := 4, cap := ofInt 2, demand := fun c => ofInt (q c), dist := fun a b => fin (d a b),
    lat := fun c => fin (min c 4 : ℕ), lng := fun _ => fin 0, pen := fin 1 }

/-- The hypothesis on the sizes in `C73_search_ends_partial` holds for it. -/
theorem small : SmallData ctx d q 1 4 2 1 10 where
  dist _ _ := rfl
  dist0 _ _ := abs_nonneg _
  distD a b := by
    have ha : ((min a 4 : ℕ) : ℚ) ≤ 4 := by exact_mod_cast min_le_right a 4
    have hb : ((min b 4 : ℕ) : ℚ) ≤ 4 := by exact_mod_cast min_le_right b 4
    have ha0 : (0 : ℚ) ≤ (min a 4 : ℕ) := Nat.cast_nonneg _
    have hb0 : (0 : ℚ) ≤ (min b 4 : ℕ) := Nat.cast_nonneg _
    rw [d, abs_le]; constructor <;> linarith
  sym a b := abs_sub_comm _ _
  demand _ := rfl
  demand0 c := by unfold q; split <;> decide
  demandW c := by unfold q; split <;> decide
  depot := rfl
  cap := rfl
  cap0 := by decide
  pen0 := by norm_num
  loads := by norm_num [ctx]
  lengths := by norm_num [ctx]
  penalties := by norm_num [ctx]
  exp := by decide
  count := by norm_num [ctx]
  roundings := by norm_num [ctx]

def ls : LS (Dbl nearestEven) := LS.new ctx 2 2 (fun _ => 0) [1, 2, 2, 3, 1, 3, 1, 2] 2 (lit 1)

def ind : Individual (Dbl nearestEven) := ⟨0, [], [[2, 1, 3], []], lit 0, SolEval.new⟩

/-- The other hypotheses of `C73_search_ends_partial`. -/
example : ctx.pen *. lit 1 = fin 1 ∧ 0 < ctx.n ∧ (∀ c, |((min c 4 : ℕ) : ℚ)| ≤ 2 ^ 2) ∧ Ready ls ∧ NbrOK ctx ls ∧
    IsPartition ctx.n ind.phenotype ∧ ind.phenotype.length = ls.numRoutes := by
  refine ⟨by show fin 1 *. (lit 1 : Dbl nearestEven) = fin 1; decide +kernel, by decide, fun c => ?_,
    C10_new_ready _ _ _ _ _ _ _, ?_, by rw [IsPartition]; decide, rfl⟩
  · have ha : ((min c 4 : ℕ) : ℚ) ≤ 4 := by exact_mod_cast min_le_right c 4
    rw [abs_of_nonneg (Nat.cast_nonneg _)]
    linarith
  · constructor
    · show 0 < 2; decide
    · show 2 ≤ 2; decide
    · rfl
    · intro u i hu hun hi v hv
      have h1 : u < 4 := hun
      have h2 : i < 2 := hi
      interval_cases u <;> interval_cases i <;> simp [ls, LS.new] at hv <;> subst hv <;> simp [ctx]
    · intro u hu
      simp [ls, LS.new, ctx] at hu ⊢
      omega

/-- A run of it ends; with it and the above all hypotheses of `C74_local_optimum` and (as the distances are
whole) of `C74_local_optimum_whole` hold. -/
example : ((LS.run (fun _ _ => lit 0) ctx ⟨true, true, true, true, true, true, true, true, true, true⟩ (fun k => k)
    10 (lit 1) ls ind).map fun r => (r.2.phenotype, r.2.evaluation.cost)) = some ([[2, 3, 1], []], fin 7) := by
  decide +kernel

theorem whole : WholeData ctx d q 1 4 2 1 10 where
  toSizedData := small.toSizedData
  whole a b := ⟨|((min a 4 : ℕ) : ℤ) - (min b 4 : ℕ)|, by simp [d]⟩
  sum := by decide

/-- Data of the size of the largest benchmark instances are fine: 1000 nodes, whole distances up to 1500, demands
up to 100, capacity 150, penalty 14. -/
example (ctx : Ctx (Dbl nearestEven)) (d : ℕ → ℕ → ℚ) (q : ℕ → ℤ) (hn : ctx.n = 1000)
    (hd : ∀ a b, ctx.dist a b = fin (d a b) ∧ d a b = d b a ∧ 0 ≤ d a b ∧ d a b ≤ 1500 ∧ ∃ k : ℤ, d a b = k)
    (hq : ∀ c, ctx.demand c = ofInt (q c) ∧ 0 ≤ q c ∧ q c ≤ 100) (h0 : q 0 = 0) (hc : ctx.cap = ofInt 150) :
    FineData ctx d q 14 1500 150 100 26 :=
  .inr ⟨⟨⟨fun a b => (hd a b).1, fun a b => (hd a b).2.2.1, fun a b => (hd a b).2.2.2.1, fun a b => (hd a b).2.1,
    fun c => (hq c).1, fun c => (hq c).2.1, fun c => (hq c).2.2, h0, hc, by decide, by norm_num,
    by norm_num [hn], by norm_num [hn], by norm_num [hn], by decide, by norm_num [hn]⟩,
    fun a b => (hd a b).2.2.2.2, by decide⟩, by decide⟩

end SearchEx
end Verif
