import Verif.Lemmas.SwapStarCost
import Verif.Lemmas.Three
import Verif.Props.Moves

/-!
# C12, C13: SWAP* and its insertion cache
-/

namespace Verif
open F64 LS

section
variable {α : Type} [F64 α]

/-- **C12** (structure, any arithmetic). SWAP* on two different routes of a consistent state never
fails and leaves a consistent state; if it reports no improvement the routes are unchanged, otherwise
customers moved between the two routes as `SwapStarEffect` says, with every customer still in exactly
one route. The hypotheses on the arithmetic hold for `f64`: infinity is not approximately below `0`,
and nothing exceeds infinity. -/
theorem C12_swap_star_structure (ctx : Ctx α) (s : LS α) (R : List (List ℕ)) (h : Repr ctx s R)
    (hf : ∀ a u b, (inf <. (ctx.dist a u +. ctx.dist u b -. ctx.dist a b)) = false)
    (hinf : approxGte (inf : α) (lit 0) = true) (r1 r2 : ℕ) (hne : r1 ≠ r2) (h1 : r1 < R.length)
    (h2 : r2 < R.length) :
    ∃ s' imp R', SwapStar.run ctx r1 r2 s = some (s', imp) ∧ Repr ctx s' R' ∧
      Spec.IsPartition ctx.n R' ∧ R'.length = R.length ∧ (imp = false → R' = R) ∧
      (imp = true → SwapStarEffect R r1 r2 R') := by
  obtain ⟨s', imp, R', e, hr, f, -, hfalse, htrue⟩ := swapStar_run h hf hinf hne h1 h2
  exact ⟨s', imp, R', e, hr, hr.part, by rw [hr.len, f.numRoutes, h.len], fun hi => (hfalse hi).1, fun hi => (htrue hi).1⟩

end

/-- **C12** (exact arithmetic). When SWAP* reports success, the penalized cost of the solution has
changed by exactly the predicted cost of the move it chose, and that is at most `-1e-6`; otherwise the
routes are unchanged. -/
theorem C12_swap_star_exact (ctx : Ctx ℚ) (s : LS ℚ) (R : List (List ℕ)) (h : Repr ctx s R)
    (h0 : ctx.demand 0 = 0) (hd : ∀ a b, 0 ≤ ctx.dist a b ∧ ctx.dist a b ≤ (maxv : ℚ))
    (r1 r2 : ℕ) (hne : r1 ≠ r2) (h1 : r1 < R.length) (h2 : r2 < R.length) :
    ∃ s1 s2 b s' imp R', preprocess ctx r1 r2 s = some s1 ∧ preprocess ctx r2 r1 s1 = some s2 ∧
      SwapStar.bestMove ctx s2 r1 r2 = some b ∧
      SwapStar.run ctx r1 r2 s = some (s', imp) ∧ Repr ctx s' R' ∧ Spec.IsPartition ctx.n R' ∧
      (imp = false → R' = R) ∧
      (imp = true → SwapStarEffect R r1 r2 R' ∧ b.cost ≤ -(1 / 1000000) ∧
        Spec.solCost ctx.dist ctx.demand ctx.cap s.pen R' =
          Spec.solCost ctx.dist ctx.demand ctx.cap s.pen R + b.cost) := by
  have hf := insertFinite_rat hd
  have g1 : R[r1]? = some R[r1] := List.getElem?_eq_getElem h1
  have g2 : R[r2]? = some R[r2] := List.getElem?_eq_getElem h2
  obtain ⟨s1, s2, e1, e2, hr, hc, hp1, hp2⟩ := preprocess_repr h hne g1 g2
  obtain ⟨b, eb, R', hg⟩ := bestMove_good hr hf g1 g2 hp1 hp2
  by_cases hge : approxGte b.cost (lit 0) = true
  · refine ⟨s1, s2, b, s2, false, R, e1, e2, eb, ?_, hr, hr.part, fun _ => rfl, by simp⟩
    rw [SwapStar.run, e1, Option.bind_some, e2, Option.bind_some, eb, Option.bind_some, if_pos hge]
  · have hb : b ≠ SwapStar.best0 := by
      rintro rfl
      refine hge ?_
      rw [rat_approxGte, decide_eq_true_eq]
      left
      simp only [SwapStar.best0, rat_lit, rat_inf]
      positivity
    obtain ⟨⟨s3, e3, hr3, hf3, -⟩, heff⟩ := hg.perform hr hne hb
    have hcost := hg.cost_rat hr h0 hne hb
    rw [hc.frame.pen] at hcost
    refine ⟨s1, s2, b, s3, true, R', e1, e2, eb, ?_, hr3, hr3.part, by simp, fun _ => ⟨heff, ?_, ?_⟩⟩
    · rw [SwapStar.run, e1, Option.bind_some, e2, Option.bind_some, eb, Option.bind_some, if_neg hge, e3]
      rfl
    · rw [rat_approxGte, decide_eq_true_eq] at hge
      simp only [rat_lit, not_or, not_lt, sub_zero] at hge
      rw [abs_of_nonpos hge.1] at hge
      linarith [hge.2]
    · rw [hcost]; ring

/-- The hypotheses of both theorems are met by a state the code reaches. -/
example : ∃ s, Repr MoveEx.ctx s [[1, 3], [2, 4], []] ∧ MoveEx.ctx.demand 0 = 0 ∧
    (0 : ℕ) ≠ 1 ∧ (1 : ℕ) < ([[1, 3], [2, 4], []] : List (List ℕ)).length ∧
    approxGte (inf : ℚ) (lit 0) = true := by
  obtain ⟨s, -, h, -⟩ := MoveEx.loaded
  exact ⟨s, h, rfl, by simp, by simp, by
    rw [rat_approxGte, decide_eq_true_eq]; left; simp only [rat_lit, rat_inf]; positivity⟩

/-- Distances between 0 and the largest float, not all equal. -/
example : ∃ ctx : Ctx ℚ, (∀ a b, 0 ≤ ctx.dist a b ∧ ctx.dist a b ≤ (maxv : ℚ)) ∧ ctx.dist 0 1 = 1 ∧
    ctx.demand 0 = 0 := by
  refine ⟨{ MoveEx.ctx with dist := fun a b => if a = b then 0 else 1 }, ?_, by simp, rfl⟩
  intro a b
  have : (1 : ℚ) ≤ 2 ^ 1023 := one_le_pow₀ (by norm_num)
  simp only [rat_maxv]
  split
  · exact ⟨le_refl _, le_trans zero_le_one this⟩
  · exact ⟨by norm_num, this⟩

/-- **C13**. After adding the locations `L` (each with a node and a finite cost) to an empty cache entry
the occupied slots come first, hold three of the added locations (all of them if fewer), in ascending
cost order, and every location left out costs at least as much as every one kept. -/
theorem C13_three_cheapest (L : List (Loc ℚ)) (t : ℤ)
    (hL : ∀ x ∈ L, x.node.isSome ∧ x.cost ≤ (inf : ℚ)) :
    ∃ l0 l1 l2 kept rest,
      L.foldl Three.add (⟨Loc.new, Loc.new, Loc.new, t⟩ : Three ℚ) = ⟨l0, l1, l2, t⟩ ∧
      kept = [l0, l1, l2].take (min 3 L.length) ∧
      (∀ x ∈ [l0, l1, l2].drop (min 3 L.length), x.node = none) ∧
      (kept ++ rest).Perm L ∧ kept.Pairwise (fun x y => x.cost ≤ y.cost) ∧
      ∀ x ∈ kept, ∀ y ∈ rest, x.cost ≤ y.cost := by
  obtain ⟨⟨s1, s2⟩, -, rest, hp, hc⟩ := Three.foldl_sorted L
    (⟨Loc.new, Loc.new, Loc.new, t⟩ : Three ℚ) ⟨le_refl _, le_refl _⟩
  have hlast := (Three.foldl_perm L (⟨Loc.new, Loc.new, Loc.new, t⟩ : Three ℚ)).choose_spec.2
  have hfill : Filled (0 + L.length) (L.foldl Three.add (⟨Loc.new, Loc.new, Loc.new, t⟩ : Three ℚ)) :=
    Filled.foldl L 0 _ ⟨fun _ => rfl, fun _ => rfl, fun _ => rfl, by omega, by omega, by omega⟩
      (fun x hx => ⟨(hL x hx).1, by rw [rat_lt, decide_eq_false_iff_not, not_lt]; exact (hL x hx).2⟩)
  rw [Nat.zero_add] at hfill
  generalize L.foldl Three.add (⟨Loc.new, Loc.new, Loc.new, t⟩ : Three ℚ) = T at *
  obtain ⟨l0, l1, l2, t'⟩ := T
  dsimp only at *
  subst hlast
  have hkeep : [l0, l1, l2].take (min 3 L.length) = [l0, l1, l2].filter (·.node.isSome) ∧
      ∀ x ∈ [l0, l1, l2].drop (min 3 L.length), x.node = none := by
    have e0 := hfill.e0; have e1 := hfill.e1; have e2 := hfill.e2
    have f0 := hfill.f0; have f1 := hfill.f1; have f2 := hfill.f2
    dsimp only at e0 e1 e2 f0 f1 f2
    have hl : L.length = 0 ∨ L.length = 1 ∨ L.length = 2 ∨ 3 ≤ L.length := by omega
    rcases hl with h | h | h | h
    · rw [h] at e0 e1 e2
      simp [h, e0 rfl, e1 (by omega), e2 (by omega), Loc.new]
    · rw [h] at e1 e2 f0
      simp [h, e1 (by omega), e2 (by omega), f0 (by omega), Loc.new]
    · rw [h] at e2 f0 f1
      simp [h, e2 (by omega), f0 (by omega), f1 (by omega), Loc.new]
    · simp [min_eq_left h, f0 (by omega), f1 (by omega), f2 (by omega)]
  refine ⟨l0, l1, l2, _, rest.filter (·.node.isSome), rfl, rfl, hkeep.2, ?_, ?_, ?_⟩
  · have := hp.filter (·.node.isSome)
    rw [List.filter_append, List.filter_append] at this
    rw [hkeep.1]
    refine this.trans ?_
    have e : L.filter (·.node.isSome) = L := List.filter_eq_self.mpr (fun x hx => (hL x hx).1)
    rw [e]
    simp [Loc.new]
  · refine List.Pairwise.sublist (List.take_sublist _ _) ?_
    simp only [List.pairwise_cons, List.mem_cons, List.not_mem_nil, or_false, forall_eq_or_imp,
      forall_eq, List.Pairwise.nil, and_true]
    exact ⟨⟨s1, s1.trans s2⟩, s2, by simp⟩
  · intro x hx y hy
    have hx' := List.mem_of_mem_take hx
    have hy' := hc y (List.mem_filter.mp hy).1
    simp only [List.mem_cons, List.not_mem_nil, or_false] at hx'
    rcases hx' with rfl | rfl | rfl
    · exact (s1.trans s2).trans hy'
    · exact s2.trans hy'
    · exact hy'

/-- Five locations meet the hypotheses. -/
example : ∀ x ∈ ([⟨5, some (.cust 1)⟩, ⟨2, some (.start 0)⟩, ⟨7, some (.cust 3)⟩, ⟨2, some (.cust 4)⟩,
    ⟨-1, some (.cust 9)⟩] : List (Loc ℚ)), x.node.isSome ∧ x.cost ≤ (inf : ℚ) := by
  have : (1 : ℚ) ≤ 2 ^ 1020 := one_le_pow₀ (by norm_num)
  have e : (2 : ℚ) ^ 1024 = 2 ^ 1020 * 16 := by rw [show (1024 : ℕ) = 1020 + 4 from rfl, pow_add]; norm_num
  intro x hx
  simp only [List.mem_cons, List.not_mem_nil, or_false] at hx
  simp only [rat_inf, e]
  clear e
  generalize (2 : ℚ) ^ 1020 = z at this
  rcases hx with rfl | rfl | rfl | rfl | rfl <;> refine ⟨rfl, ?_⟩ <;> simp only [] <;> linarith

end Verif
