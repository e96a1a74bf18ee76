import Verif.Lemmas.Elites
import Verif.Lemmas.DblCalm
import Verif.Lemmas.DblNear
import Verif.Props.Clones

/-!
# C87: no clones, elites and parents in double precision

The members of a subpopulation are pairwise different, the cheapest ones survive every insertion and the fittest
contestant becomes parent. The first part holds in any arithmetic, the others in exact and in double precision.
-/

namespace Verif
open F64 SubPop

namespace SubPop

theorem ordered_rat : Ordered ℚ fun _ => True :=
  ⟨fun a b _ _ h => by simp only [rat_le, decide_eq_false_iff_not, not_le, decide_eq_true_eq] at *; exact h.le,
    fun a b c _ _ _ h1 h2 => by simp only [rat_le, decide_eq_true_eq] at *; exact h1.trans h2⟩

theorem rankOK_rat {E N : ℕ} (h2 : 2 ≤ N) : RankOK ℚ (fun _ => True) E N where
  start := trivial
  valid _ _ _ _ := trivial
  elite k k' i hk hk' hE hi := by
    have h1 := biased_last (k := k) hE h2
    have h3 := biased_elite hE h2 hk' hi
    rw [rat_le]
    exact decide_eq_false (by linarith)
  last k hk hE := by
    have h1 := biased_last (k := k) hE h2
    rw [rat_le, rat_lit]
    exact decide_eq_false (by linarith)

/-! ### Double precision -/

section double
open Dbl

variable {ρ : Rounding}

/-- A finite number. -/
def Finite (x : Dbl ρ) : Prop := ∃ v, x = fin v

theorem ordered_dbl : Ordered (Dbl ρ) Finite := by
  constructor
  · rintro _ _ ⟨a, rfl⟩ ⟨b, rfl⟩ h
    simp only [le_fin, decide_eq_false_iff_not, not_le, decide_eq_true_eq] at *
    exact h.le
  · rintro _ _ _ ⟨a, rfl⟩ ⟨b, rfl⟩ ⟨c, rfl⟩ h1 h2
    simp only [le_fin, decide_eq_true_eq] at *
    exact h1.trans h2

theorem lt_not_le_dbl (a b : Dbl ρ) (ha : Finite a) (hb : Finite b) : (a <. b) = !(b ≤. a) := by
  obtain ⟨x, rfl⟩ := ha
  obtain ⟨y, rfl⟩ := hb
  rw [lt_fin, le_fin]
  by_cases h : x < y
  · simp [h, not_le.mpr h]
  · simp [h, not_lt.mp h]

/-- A number from 0 to 1 after rounding. -/
theorem unit_dbl {q : ℚ} (h0 : 0 ≤ q) (h1 : q ≤ 1) : ∃ r, (ofRat q : Dbl ρ) = fin r ∧ 0 ≤ r ∧ r ≤ 1 ∧
    |r - q| ≤ 1 / 2 ^ 53 ∧ r = ρ.fl q := by
  have hq : q ≤ 2 ^ 0 := by simpa using h1
  refine ⟨ρ.fl q, ofRat_le (m := 0) (by norm_num) (by rw [abs_of_nonneg h0]; exact hq), ρ.nonneg h0, ?_, ?_, rfl⟩
  · have := ρ.le_pow (m := 0) hq
    simpa using this
  · have := fl_near ρ (m := 0) h0 hq
    simpa using this

/-- A rank from 0 to 1. -/
theorem rank_dbl {k N : ℕ} (h2 : 2 ≤ N) (hN : N ≤ 2 ^ 24) (hk : k < N) :
    ∃ r, (lit (k : ℚ) : Dbl ρ) /. (lit (N : ℚ) -. lit 1) = fin r ∧ 0 ≤ r ∧ r ≤ 1 ∧
      |r - (k : ℚ) / (N - 1)| ≤ 1 / 2 ^ 53 ∧ (k = N - 1 → r = 1) := by
  have e1 : (lit (k : ℚ) : Dbl ρ) = fin k := ofRat_nat (by omega)
  have e2 : (lit (N : ℚ) : Dbl ρ) = fin N := ofRat_nat (by omega)
  have e3 : (lit (1 : ℚ) : Dbl ρ) = fin 1 := by
    have := ofRat_nat (ρ := ρ) (k := 1) (by norm_num)
    rwa [Nat.cast_one] at this
  have e4 : (lit (N : ℚ) : Dbl ρ) -. lit 1 = fin ((N : ℚ) - 1) := by
    rw [e2, e3, sub_fin]
    have := ofRat_nat (ρ := ρ) (k := N - 1) (by omega)
    rwa [Nat.cast_sub (by omega), Nat.cast_one] at this
  have hk' : (k : ℚ) ≤ (N : ℚ) - 1 := by
    have : (k : ℚ) + 1 ≤ N := by exact_mod_cast hk
    linarith
  have hN' : (0 : ℚ) < (N : ℚ) - 1 := by
    have : (2 : ℚ) ≤ N := by exact_mod_cast h2
    linarith
  obtain ⟨r, h1, h3, h4, h5, h6⟩ := unit_dbl (ρ := ρ) (q := (k : ℚ) / (N - 1)) (by positivity)
    ((div_le_one hN').mpr hk')
  refine ⟨r, ?_, h3, h4, h5, fun h => ?_⟩
  · rw [e1, e4, div_fin _ _ hN'.ne', h1]
  · have hkn : (k : ℚ) = (N : ℚ) - 1 := by rw [h, Nat.cast_sub (by omega), Nat.cast_one]
    rw [h6, hkn, div_self hN'.ne']
    have := ρ.nat (k := 1) (by norm_num)
    simpa using this

/-- The computed biased fitness: within eight roundings of the exact one, and at least 1 for the last member. -/
theorem biased_dbl {N E k i : ℕ} (h2 : 2 ≤ N) (hN : N ≤ 2 ^ 24) (hk : k < N) (hi : i < N) :
    ∃ v, (biasedFitness false N E k i : Dbl ρ) = fin v ∧ 0 ≤ v ∧ (E < N →
      v ≤ (i : ℚ) / (N - 1) + (1 - (E : ℚ) / N) * (k / (N - 1)) + 8 / 2 ^ 53 ∧ (i = N - 1 → 1 ≤ v)) := by
  obtain ⟨r, hr, r0, r1, rn, -⟩ := rank_dbl (ρ := ρ) h2 hN hk
  obtain ⟨f, hf, f0, f1, fn, fl⟩ := rank_dbl (ρ := ρ) h2 hN hi
  unfold biasedFitness
  simp only [Bool.false_eq_true, if_false]
  by_cases hE : N ≤ E
  · rw [if_pos hE, hf]
    exact ⟨f, rfl, f0, fun h => by omega⟩
  rw [if_neg hE, hf, hr]
  have eE : (lit (E : ℚ) : Dbl ρ) = fin E := ofRat_nat (by omega)
  have eN : (lit (N : ℚ) : Dbl ρ) = fin N := ofRat_nat (by omega)
  have e1 : (lit (1 : ℚ) : Dbl ρ) = fin 1 := by
    have := ofRat_nat (ρ := ρ) (k := 1) (by norm_num)
    rwa [Nat.cast_one] at this
  have N0 : (0 : ℚ) < N := by
    have : (2 : ℚ) ≤ N := by exact_mod_cast h2
    linarith
  have EN : (E : ℚ) ≤ N := by exact_mod_cast (by omega : E ≤ N)
  obtain ⟨a, ha, a0, a1, an, -⟩ := unit_dbl (ρ := ρ) (q := (E : ℚ) / N) (by positivity) ((div_le_one N0).mpr EN)
  obtain ⟨b, hb, b0, b1, bn, -⟩ := unit_dbl (ρ := ρ) (q := 1 - a) (by linarith) (by linarith)
  have hbr : b * r ≤ 1 := mul_le_one₀ b1 r0 r1
  obtain ⟨c, hc, c0, c1, cn, -⟩ := unit_dbl (ρ := ρ) (q := b * r) (mul_nonneg b0 r0) hbr
  have hs : f + c ≤ 2 ^ 1 := by norm_num; linarith
  have ev : (fin f : Dbl ρ) +. (lit 1 -. lit (E : ℚ) /. lit (N : ℚ)) *. fin r = fin (ρ.fl (f + c)) := by
    rw [eE, eN, e1, div_fin _ _ N0.ne', ha, sub_fin, hb, mul_fin, hc, add_fin]
    exact ofRat_le (m := 1) (by norm_num) (by rw [abs_of_nonneg (by linarith)]; exact hs)
  refine ⟨_, ev, ρ.nonneg (by linarith), fun hEN => ⟨?_, fun hl => ?_⟩⟩
  · have sn := (abs_le.mp (fl_near ρ (m := 1) (by linarith : 0 ≤ f + c) hs)).2
    have q1 := (abs_le.mp cn).2
    have q2 := (abs_le.mp bn).2
    have q3 := (abs_le.mp an).1
    have q4 := (abs_le.mp rn).2
    have q5 := (abs_le.mp fn).2
    have hb' : b ≤ (1 - (E : ℚ) / N) + 2 / 2 ^ 53 := by linarith
    have x0 : (0 : ℚ) ≤ 1 - (E : ℚ) / N := by
      rw [sub_nonneg, div_le_one N0]; exact EN
    have hp : b * r ≤ (1 - (E : ℚ) / N) * (k / (N - 1)) + 3 / 2 ^ 53 := by
      have x1 : (1 - (E : ℚ) / N) ≤ 1 := by
        have : (0 : ℚ) ≤ (E : ℚ) / N := by positivity
        linarith
      have s1 : b * r ≤ ((1 - (E : ℚ) / N) + 2 / 2 ^ 53) * r := mul_le_mul_of_nonneg_right hb' r0
      have s2 : (1 - (E : ℚ) / N) * r ≤ (1 - (E : ℚ) / N) * (k / (N - 1) + 1 / 2 ^ 53) :=
        mul_le_mul_of_nonneg_left (by linarith) x0
      have s3 : (1 - (E : ℚ) / N) * (1 / 2 ^ 53) ≤ 1 / 2 ^ 53 := by
        have := mul_le_mul_of_nonneg_right x1 (by positivity : (0 : ℚ) ≤ 1 / 2 ^ 53)
        linarith
      have s4 : (2 : ℚ) / 2 ^ 53 * r ≤ 2 / 2 ^ 53 := by
        have := mul_le_mul_of_nonneg_left r1 (by positivity : (0 : ℚ) ≤ 2 / 2 ^ 53)
        linarith
      have s5 : ((1 - (E : ℚ) / N) + 2 / 2 ^ 53) * r = (1 - (E : ℚ) / N) * r + 2 / 2 ^ 53 * r := by ring
      have s6 : (1 - (E : ℚ) / N) * (k / (N - 1) + 1 / 2 ^ 53) =
        (1 - (E : ℚ) / N) * (k / (N - 1)) + (1 - (E : ℚ) / N) * (1 / 2 ^ 53) := by ring
      linarith
    linarith
  · have := fl hl
    rw [this]
    have h1 := ρ.nat_le (k := 1) (x := 1 + c) (by norm_num) (by push_cast; linarith)
    simpa using h1

theorem rankOK_dbl {E N : ℕ} (h2 : 2 ≤ N) (hN : N ≤ 2 ^ 24) : RankOK (Dbl ρ) Finite E N where
  start := ⟨-1, by
    have := ofRat_int (ρ := ρ) (k := -1) (by norm_num)
    push_cast at this
    exact this⟩
  valid k i hk hi := by
    obtain ⟨v, hv, -⟩ := biased_dbl (ρ := ρ) (E := E) h2 hN hk hi
    exact ⟨v, hv⟩
  elite k k' i hk hk' hE hi := by
    obtain ⟨v, hv, -, h⟩ := biased_dbl (ρ := ρ) (E := E) h2 hN hk (by omega : N - 1 < N)
    obtain ⟨w, hw, -, h'⟩ := biased_dbl (ρ := ρ) (E := E) h2 hN hk' (by omega : i < N)
    have h1 := (h hE).2 rfl
    have h3 := (h' hE).1
    rw [hv, hw, le_fin]
    refine decide_eq_false ?_
    rw [not_le]
    have hN2 : (2 : ℚ) ≤ N := by exact_mod_cast h2
    have hE' : (E : ℚ) + 1 ≤ N := by exact_mod_cast hE
    have hk2 : (k' : ℚ) + 1 ≤ N := by exact_mod_cast hk'
    have hi' : (i : ℚ) + 1 ≤ E := by exact_mod_cast hi
    have hNm : (N : ℚ) ≤ 2 ^ 24 := by exact_mod_cast hN
    have p1 : (0 : ℚ) < N - 1 := by linarith
    have p2 : (0 : ℚ) < N := by linarith
    have a1 : (i : ℚ) / (N - 1) ≤ (E - 1) / (N - 1) := by
      apply div_le_div_of_nonneg_right _ p1.le
      linarith
    have a2 : (k' : ℚ) / (N - 1) ≤ 1 := by
      rw [div_le_one p1]; linarith
    have a3 : (0 : ℚ) ≤ 1 - E / N := by
      rw [sub_nonneg, div_le_one p2]; linarith
    have a4 : (1 - (E : ℚ) / N) * (k' / (N - 1)) ≤ (1 - E / N) * 1 := mul_le_mul_of_nonneg_left a2 a3
    have a5 : (E : ℚ) / N - ((E : ℚ) - 1) / (N - 1) = (N - E) / (N * (N - 1)) := by
      field_simp
      ring
    have a6 : (1 : ℚ) / (2 ^ 24 * 2 ^ 24) ≤ (N - E) / (N * (N - 1)) := by
      rw [div_le_div_iff₀ (by norm_num) (by positivity)]
      have : (N : ℚ) * (N - 1) ≤ 2 ^ 24 * 2 ^ 24 := mul_le_mul hNm (by linarith) p1.le (by norm_num)
      nlinarith
    have a7 : (8 : ℚ) / 2 ^ 53 < 1 / (2 ^ 24 * 2 ^ 24) := by norm_num
    linarith
  last k hk hE := by
    obtain ⟨v, hv, -, h⟩ := biased_dbl (ρ := ρ) (E := E) h2 hN hk (by omega : N - 1 < N)
    have h1 := (h hE).2 rfl
    have : (lit (-1) : Dbl ρ) = fin (-1) := by
      have := ofRat_int (ρ := ρ) (k := -1) (by norm_num)
      push_cast at this
      exact this
    rw [hv, this, le_fin]
    exact decide_eq_false (by linarith)

end double
end SubPop

/-! ### The theorems -/

/-- **C87, no clones.** After every history any two members of a subpopulation have different routes, and are not at
distance zero in both directions; no member passes the clone test, so survivor selection goes by fitness alone. -/
theorem C87_no_clones {α : Type} [F64 α] (ctx : Ctx α) (cfg : PopCfg) (bs : BSearch) (hbs : BSearchOK bs)
    (sort : List (Individual α) → Option (List (Individual α))) (hsort : Population.SortPerm sort)
    (p : Population α) (hs : List Bool) (h : p.Run ctx cfg bs sort (fun _ => True) hs) :
    ∀ s ∈ [p.feasible, p.infeasible], ∀ (i j : ℕ) (x y : Individual α), s.pop[i]? = some x → s.pop[j]? = some y →
      i ≠ j →
      x.phenotype ≠ y.phenotype ∧ ¬ (x.brokenPairs y = some 0 ∧ y.brokenPairs x = some 0) ∧
      s.isClone x = some false := by
  have hI := h.inv hbs hsort
  have hA := h.apart hbs hsort
  have key : ∀ f t (s : SubPop α), s.Inv ctx cfg t f → Apart s →
      ∀ (i j : ℕ) (x y : Individual α), s.pop[i]? = some x → s.pop[j]? = some y → i ≠ j →
      x.phenotype ≠ y.phenotype ∧ ¬ (x.brokenPairs y = some 0 ∧ y.brokenPairs x = some 0) ∧
      s.isClone x = some false := by
    intro f t s hI hA i j x y hx hy hij
    have mx := List.mem_of_getElem? hx
    have my := List.mem_of_getElem? hy
    have h2 : 2 ≤ s.pop.length := by
      have := (List.getElem?_eq_some_iff.mp hx).1
      have := (List.getElem?_eq_some_iff.mp hy).1
      omega
    have hne : y.number ≠ x.number := by
      intro e
      have hn := hI.table.nodup
      unfold nums at hn
      refine hij ?_
      refine (List.Nodup.getElem_inj_iff hn (i := i) (j := j) (hi := by
          rw [List.length_map]; exact (List.getElem?_eq_some_iff.mp hx).1) (hj := by
          rw [List.length_map]; exact (List.getElem?_eq_some_iff.mp hy).1)).mp ?_
      rw [List.getElem_map, List.getElem_map, (List.getElem?_eq_some_iff.mp hx).2,
        (List.getElem?_eq_some_iff.mp hy).2, e]
    have kx : x.number ∈ nums s.pop := List.mem_map_of_mem mx
    have ky : y.number ∈ nums s.pop := List.mem_map_of_mem my
    have hm : y.number ∈ (vec s.div x.number).map (·.target) :=
      (hI.table.targets _ kx).mem_iff.mpr ((List.mem_erase_of_ne hne).mpr ky)
    obtain ⟨d, hd, hdt⟩ := List.mem_map.mp hm
    obtain ⟨z, hz, hzn, hval⟩ := hI.table.value x mx d hd
    have hzy : z = y := by
      have hnd := hI.table.nodup
      unfold nums at hnd
      exact List.inj_on_of_nodup_map hnd hz my (hzn.trans hdt)
    subst hzy
    have h0 := hA _ d hd
    have hb : ¬ (x.brokenPairs z = some 0 ∧ z.brokenPairs x = some 0) := by
      rintro ⟨e1, e2⟩
      rw [e1, e2, Option.some.injEq] at hval
      rcases hval with e | e <;> exact h0 e.symm
    refine ⟨fun e => hb ?_, hb, hA.notClone hI.table h2 mx⟩
    obtain ⟨q, hq⟩ := hI.good x mx
    obtain ⟨q', hq'⟩ := hI.good z my
    exact ⟨Individual.brokenPairs_self (Individual.Good.nbrEq (ctx := RR.ctxAt ctx q) (ctx' := RR.ctxAt ctx q')
        rfl hq hq' e),
      Individual.brokenPairs_self (Individual.Good.nbrEq (ctx := RR.ctxAt ctx q') (ctx' := RR.ctxAt ctx q)
        rfl hq' hq e.symm)⟩
  intro s hs
  simp only [List.mem_cons, List.not_mem_nil, or_false] at hs
  rcases hs with rfl | rfl
  · exact key _ _ _ hI.feasible hA.1
  · exact key _ _ _ hI.infeasible hA.2

namespace Spec

/-- What an insertion of `x` may do to the members `P`, in the order of their costs: `x` is put in some place or
rejected, some of the members that come after the first `E` then may go, and all `Q` that is left is as before (but for
the fitness, which `same` leaves out of account). -/
def KeepsFirst {β γ : Type} (same : β → γ) (E : ℕ) (x : β) (P Q : List β) : Prop :=
  ∃ L : List β, (L = P ∨ ∃ i ≤ P.length, L = P.insertIdx i x) ∧ (Q.map same).Sublist (L.map same) ∧
    (Q.map same).take E = (L.map same).take E

end Spec

theorem elites_kept {α : Type} [F64 α] {V : α → Prop} (hV : Ordered α V) (ctx : Ctx α) (cfg : PopCfg)
    (hR : ∀ N, 2 ≤ N → N ≤ cfg.minSize + cfg.lambda + 1 → RankOK α V cfg.numElites N)
    (hm : 1 ≤ cfg.minSize) (hE : cfg.numElites ≤ cfg.minSize) (bs : BSearch) (hbs : BSearchOK bs)
    (sort : List (Individual α) → Option (List (Individual α))) (hsort : Population.SortPerm sort)
    (p p' : Population α) (hs : List Bool) (h : p.Run ctx cfg bs sort (fun _ => True) hs)
    (x : Individual α) (upd : Bool) (ha : p.add cfg bs x upd = some p') :
    Spec.KeepsFirst strip cfg.numElites { x with number := p.total } p.feasible.pop p'.feasible.pop ∧
    Spec.KeepsFirst strip cfg.numElites { x with number := p.total } p.infeasible.pop p'.infeasible.pop := by
  have hI := h.inv hbs hsort
  have hA := h.apart hbs hsort
  have same : ∀ l : List (Individual α), Spec.KeepsFirst strip cfg.numElites { x with number := p.total } l l :=
    fun l => ⟨l, Or.inl rfl, List.Sublist.refl _, rfl⟩
  unfold Population.add at ha
  dsimp only at ha
  split at ha
  · obtain ⟨s, hs', rfl⟩ := Option.map_eq_some_iff.mp ha
    have := hI.feasible.size
    exact ⟨add_elites hV hbs hR hm hE hI.feasible.table hI.feasible.fresh hA.1 hI.feasible.focus (by omega) hs',
      same _⟩
  · obtain ⟨s, hs', rfl⟩ := Option.map_eq_some_iff.mp ha
    have := hI.infeasible.size
    exact ⟨same _, add_elites hV hbs hR hm hE hI.infeasible.table hI.infeasible.fresh hA.2 hI.infeasible.focus
      (by omega) hs'⟩

/-- **C87, elites, exact arithmetic.** With no more elites than the least size of a subpopulation, an insertion into a
reachable population keeps the first `numElites` members, the new one counted in. -/
theorem C87_elites_exact (ctx : Ctx ℚ) (cfg : PopCfg) (hm : 1 ≤ cfg.minSize) (hE : cfg.numElites ≤ cfg.minSize)
    (bs : BSearch) (hbs : BSearchOK bs)
    (sort : List (Individual ℚ) → Option (List (Individual ℚ))) (hsort : Population.SortPerm sort)
    (p p' : Population ℚ) (hs : List Bool) (h : p.Run ctx cfg bs sort (fun _ => True) hs)
    (x : Individual ℚ) (upd : Bool) (ha : p.add cfg bs x upd = some p') :
    Spec.KeepsFirst strip cfg.numElites { x with number := p.total } p.feasible.pop p'.feasible.pop ∧
    Spec.KeepsFirst strip cfg.numElites { x with number := p.total } p.infeasible.pop p'.infeasible.pop :=
  elites_kept ordered_rat ctx cfg (fun _ h2 _ => rankOK_rat h2) hm hE bs hbs sort hsort p p' hs h x upd ha

/-- **C87, elites, double precision.** The same for doubles and subpopulations of up to `2 ^ 24` members: the
roundings of the biased fitness never let an elite look worse than the last member. -/
theorem C87_elites {ρ : Rounding} (ctx : Ctx (Dbl ρ)) (cfg : PopCfg) (hm : 1 ≤ cfg.minSize)
    (hE : cfg.numElites ≤ cfg.minSize) (hN : cfg.minSize + cfg.lambda < 2 ^ 24) (bs : BSearch) (hbs : BSearchOK bs)
    (sort : List (Individual (Dbl ρ)) → Option (List (Individual (Dbl ρ)))) (hsort : Population.SortPerm sort)
    (p p' : Population (Dbl ρ)) (hs : List Bool) (h : p.Run ctx cfg bs sort (fun _ => True) hs)
    (x : Individual (Dbl ρ)) (upd : Bool) (ha : p.add cfg bs x upd = some p') :
    Spec.KeepsFirst strip cfg.numElites { x with number := p.total } p.feasible.pop p'.feasible.pop ∧
    Spec.KeepsFirst strip cfg.numElites { x with number := p.total } p.infeasible.pop p'.infeasible.pop :=
  elites_kept ordered_dbl ctx cfg (fun _ h2 h3 => rankOK_dbl h2 (by omega)) hm hE bs hbs sort hsort p p' hs h x upd ha

/-- **C87, best and no panic, double precision.** No insertion into a reachable population panics, and afterwards the
first member of each subpopulation is the inserted individual or the former first one. -/
theorem C87_best {ρ : Rounding} (ctx : Ctx (Dbl ρ)) (cfg : PopCfg) (hn : 1 ≤ cfg.numClosest)
    (hn' : cfg.numClosest ≤ 2 ^ 53) (hm : 1 ≤ cfg.minSize) (bs : BSearch) (hbs : BSearchOK bs)
    (sort : List (Individual (Dbl ρ)) → Option (List (Individual (Dbl ρ)))) (hsort : Population.SortPerm sort)
    (p : Population (Dbl ρ)) (hs : List Bool) (h : p.Run ctx cfg bs sort (fun _ => True) hs) (pen : Dbl ρ)
    (x : Individual (Dbl ρ)) (hx : x.Good (RR.ctxAt ctx pen)) (upd : Bool)
    (hc : ∀ y ∈ p.feasible.pop ++ p.infeasible.pop, (y.cmp x).isSome) :
    ∃ p', p.add cfg bs x upd = some p' ∧
      ((p'.feasible.pop.map strip)[0]? = (p.feasible.pop.map strip)[0]? ∨
        (p'.feasible.pop.map strip)[0]? = some (strip { x with number := p.total })) ∧
      ((p'.infeasible.pop.map strip)[0]? = (p.infeasible.pop.map strip)[0]? ∨
        (p'.infeasible.pop.map strip)[0]? = some (strip { x with number := p.total })) :=
  C30_insertion_keeps_best ctx cfg hn hm (avgOK_dbl hn') bs hbs sort hsort p hs h pen x hx upd hc

/-- **C87, parents, double precision.** In a reachable population that is not empty a tournament returns a contestant
whose fitness, a finite number, is lowest among the contestants; contestant `j` is the member number `ω j mod size`. -/
theorem C87_parents {ρ : Rounding} (ctx : Ctx (Dbl ρ)) (cfg : PopCfg) (hN : cfg.minSize + cfg.lambda < 2 ^ 24)
    (bs : BSearch) (hbs : BSearchOK bs)
    (sort : List (Individual (Dbl ρ)) → Option (List (Individual (Dbl ρ)))) (hsort : Population.SortPerm sort)
    (p : Population (Dbl ρ)) (hs : List Bool) (h : p.Run ctx cfg bs sort (fun _ => True) hs) (ω : Oracle)
    (hp : p.feasible.pop ≠ [] ∨ p.infeasible.pop ≠ []) (hk : 1 ≤ cfg.tournamentSize) :
    ∃ x v, p.parent cfg ω = some x ∧ x.fitness = .fin v ∧
      (∃ j < cfg.tournamentSize,
        (p.feasible.pop ++ p.infeasible.pop)[ω j % (p.feasible.pop ++ p.infeasible.pop).length]?
          = some x) ∧
      ∀ j < cfg.tournamentSize, ∀ y,
        (p.feasible.pop ++ p.infeasible.pop)[ω j % (p.feasible.pop ++ p.infeasible.pop).length]?
          = some y → ∃ w, y.fitness = .fin w ∧ v ≤ w := by
  have h0 : Finite (lit 0 : Dbl ρ) := ⟨0, Dbl.lit_zero⟩
  have hr := h.rated hbs hsort h0 (fun _ h2 h3 => rankOK_dbl h2 (by omega))
  have hall : ∀ x ∈ p.feasible.pop ++ p.infeasible.pop, Finite x.fitness := by
    intro x hx
    rw [List.mem_append] at hx
    exact hx.elim (hr.1 x) (hr.2 x)
  have hs : 0 < p.size := by
    unfold Population.size
    rcases hp with hp | hp
    · have := List.length_pos_iff.mpr hp; omega
    · have := List.length_pos_iff.mpr hp; omega
  have es : (p.feasible.pop ++ p.infeasible.pop).length = p.size := by
    rw [List.length_append]; rfl
  obtain ⟨l, h1, hl⟩ := p.draws_some ω hs cfg.tournamentSize
  have hlt : ∀ i ∈ l, i < p.size := by
    intro i hi
    rw [hl, List.mem_reverse, List.mem_map] at hi
    obtain ⟨j, -, rfl⟩ := hi
    exact Nat.mod_lt _ hs
  have hne : l ≠ [] := by
    rw [hl]
    simp
    omega
  obtain ⟨x, h2, h3, h4, -, ⟨v, hv⟩⟩ := p.contest_top ordered_dbl lt_not_le_dbl hall l none hlt (Or.inl hne)
    (by simp)
  refine ⟨x, v, ?_, hv, ?_, ?_⟩
  · unfold Population.parent
    rw [h1, Option.bind_some, h2]
    rfl
  · rcases h3 with ⟨i, hi, h3⟩ | h3
    · rw [hl, List.mem_reverse, List.mem_map] at hi
      obtain ⟨j, hj, rfl⟩ := hi
      exact ⟨j, List.mem_range.mp hj, es ▸ h3⟩
    · simp at h3
  · intro j hj y hy
    have := h4 (ω j % p.size) (by
      rw [hl, List.mem_reverse, List.mem_map]
      exact ⟨j, List.mem_range.mpr hj, rfl⟩) y (es ▸ hy)
    obtain ⟨w, hw⟩ := hall y (List.mem_of_getElem? hy)
    rw [hv, hw, Dbl.le_fin, decide_eq_true_eq] at this
    exact ⟨w, hw, this⟩

/-! ### A concrete case -/

namespace ElitesEx

open Dbl

/-- Three customers one unit from the depot, in double precision. -/
def ctx : Ctx (Dbl nearestEven) where
  n := 4
  dist a b :=
    if a = b then fin 0 else if a = 0 ∨ b = 0 then fin 1
    else if (a = 1 ∧ b = 2) ∨ (a = 2 ∧ b = 1) then fin 3
    else if (a = 2 ∧ b = 3) ∨ (a = 3 ∧ b = 2) then fin 2 else fin 1
  demand _ := fin 1
  cap := fin 10
  pen := fin 1
  lng _ := fin 0
  lat _ := fin 0

/-- Subpopulations of fewer than four individuals, cut down to two of which one is an elite. -/
def cfg : PopCfg := ⟨2, 1, 1, 5, 2⟩

/-- An individual with one route of three stops. -/
def tour (a b c : ℕ) (cost : ℚ) (preds succs : List ℕ) : Individual (Dbl nearestEven) :=
  ⟨0, [a, b, c], [[a, b, c]], fin 0, ⟨fin cost, true, [⟨fin cost, fin (-7), fin cost⟩], preds, succs⟩⟩

def x1 : Individual (Dbl nearestEven) := tour 1 2 3 7 [0, 0, 1, 2] [1, 2, 3, 0]
def x2 : Individual (Dbl nearestEven) := tour 2 1 3 6 [0, 2, 0, 1] [2, 3, 1, 0]
def x3 : Individual (Dbl nearestEven) := tour 1 3 2 5 [0, 0, 3, 1] [1, 3, 0, 2]

theorem good1 : x1.Good (RR.ctxAt ctx (fin 1)) :=
  ⟨by unfold Spec.IsPartition; decide, rfl, SolEval.new, by decide +kernel⟩
theorem good2 : x2.Good (RR.ctxAt ctx (fin 1)) :=
  ⟨by unfold Spec.IsPartition; decide, rfl, SolEval.new, by decide +kernel⟩
theorem good3 : x3.Good (RR.ctxAt ctx (fin 1)) :=
  ⟨by unfold Spec.IsPartition; decide, rfl, SolEval.new, by decide +kernel⟩

/-- Two insertions. -/
def two : Option (Population (Dbl nearestEven)) :=
  ((Population.new cfg).add cfg bsearchNew x1 true).bind fun p => p.add cfg bsearchNew x2 true

/-- With a third one the most expensive individual has to go; the clone of a member is rejected. -/
theorem values : two.map (fun p => p.feasible.pop.map (·.phenotype)) = some [[[2, 1, 3]], [[1, 2, 3]]] ∧
    (two.bind fun p => p.add cfg bsearchNew x3 true).map (fun p => p.feasible.pop.map fun x => (x.phenotype, x.fitness)) =
      some [([[1, 3, 2]], fin 0), ([[2, 1, 3]], fin (3 / 2))] := by
  constructor <;> decide +kernel

/-- The hypotheses of the theorems of C87 are met by the population with two members and by the one after the third
insertion. -/
theorem reached : ∃ p p' hs, Population.Run ctx cfg bsearchNew some (fun _ => True) p hs ∧
    p.feasible.pop.length = 2 ∧ p.add cfg bsearchNew x3 true = some p' ∧
    p'.feasible.pop.map (·.phenotype) = [[[1, 3, 2]], [[2, 1, 3]]] ∧
    (∀ y ∈ p.feasible.pop ++ p.infeasible.pop, (y.cmp x3).isSome) := by
  obtain ⟨h1, h2⟩ := values
  obtain ⟨p, hp, e⟩ := Option.map_eq_some_iff.mp h1
  rw [hp, Option.bind_some] at h2
  obtain ⟨p', hp', e'⟩ := Option.map_eq_some_iff.mp h2
  unfold two at hp
  obtain ⟨q, hq, hp⟩ := Option.bind_eq_some_iff.mp hp
  have r := ((Population.Run.new (ctx := ctx) (cfg := cfg) (bs := bsearchNew) (sort := some)
    (ok := fun _ => True)).add good1 trivial hq).add good2 trivial hp
  refine ⟨p, p', _, r, by simpa using congrArg List.length e, hp', ?_, ?_⟩
  · have := congrArg (List.map Prod.fst) e'
    simpa [List.map_map, Function.comp_def] using this
  · have hall : (two.map fun p => (p.feasible.pop ++ p.infeasible.pop).all fun y => (y.cmp x3).isSome) = some true := by
      decide +kernel
    unfold two at hall
    rw [hq, Option.bind_some, hp, Option.map_some, Option.some.injEq, List.all_eq_true] at hall
    exact hall

/-- The theorems applied. -/
example : ∃ p p' : Population (Dbl nearestEven),
    Spec.KeepsFirst strip 1 { x3 with number := p.total } p.feasible.pop p'.feasible.pop ∧
    p.feasible.pop.length = 2 ∧ p'.feasible.pop.map (·.phenotype) = [[[1, 3, 2]], [[2, 1, 3]]] := by
  obtain ⟨p, p', hs, r, hl, ha, he, -⟩ := reached
  exact ⟨p, p', (C87_elites ctx cfg (by decide) (by decide) (by decide) bsearchNew bsearchNew_ok some
    (fun l l' h => by rw [Option.some.injEq] at h; rw [h]) p p' hs r x3 true ha).1, hl, he⟩

end ElitesEx
end Verif
