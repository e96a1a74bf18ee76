import Verif.Lemmas.Split
import Verif.Lemmas.Spec

/-! Values after `load`, exact arithmetic. -/

namespace Verif
open F64

namespace Split

/-- Index 0 of the vectors is never written. -/
def ZeroOK {α : Type} [F64 α] (s : Split α) : Prop :=
  s.cumDist 0 = lit 0 ∧ s.cumLoad 0 = lit 0 ∧ s.distNext 0 = lit 0

/-- The loaded data describe the tour `g`. -/
structure Loaded (ctx : Ctx ℚ) (g : List ℕ) (s : Split ℚ) : Prop where
  cap : s.cap = ctx.cap
  pen : s.pen = ctx.pen
  cumLoad : ∀ j, j < ctx.n → s.cumLoad j = Spec.routeLoad ctx.demand (g.take j)
  cumDist : ∀ j, 1 ≤ j → j < ctx.n → s.cumDist j = Spec.pathDist ctx.dist (g.take j)
  distDepot : ∀ j, 1 ≤ j → j < ctx.n → s.distDepot j = ctx.dist (g.getD (j - 1) 0) 0

theorem take_succ_getD (g : List ℕ) (i : ℕ) (h : i < g.length) :
    g.take (i + 1) = g.take i ++ [g.getD i 0] := by
  rw [List.take_succ_eq_append_getElem h]
  simp [List.getD, List.getElem?_eq_getElem h]

theorem load_rat (ctx : Ctx ℚ) (s : Split ℚ) (g : List ℕ) (hg : g.length = ctx.n - 1)
    (h0 : ZeroOK s) (hcap : s.cap = ctx.cap) :
    ∃ s', load ctx s g = some s' ∧ s'.preds = s.preds ∧ ZeroOK s' ∧ Loaded ctx g s' := by
  -- invariant after the positions `1 … i - 1`
  have key : ∀ (m i : ℕ) (s : Split ℚ), 1 ≤ i → i + m ≤ ctx.n ∨ m = 0 → i ≤ max ctx.n 1 →
      ZeroOK s →
      (∀ j, j < i → s.cumLoad j = Spec.routeLoad ctx.demand (g.take j)) →
      (∀ j, 1 ≤ j → j < i → s.cumDist j = Spec.pathDist ctx.dist (g.take j)) →
      (∀ j, 1 ≤ j → j < i → s.distDepot j = ctx.dist (g.getD (j - 1) 0) 0) →
      (∀ j, 1 ≤ j → j < i → j < ctx.n - 1 →
        s.distNext j = ctx.dist (g.getD (j - 1) 0) (g.getD j 0)) →
      ∃ s', loadLoop ctx g (List.range' i m) s = some s' ∧ s'.preds = s.preds ∧ ZeroOK s' ∧
        s'.cap = s.cap ∧ s'.pen = s.pen ∧
        (∀ j, j < i + m → s'.cumLoad j = Spec.routeLoad ctx.demand (g.take j)) ∧
        (∀ j, 1 ≤ j → j < i + m → s'.cumDist j = Spec.pathDist ctx.dist (g.take j)) ∧
        (∀ j, 1 ≤ j → j < i + m → s'.distDepot j = ctx.dist (g.getD (j - 1) 0) 0) := by
    intro m
    induction m with
    | zero =>
      intro i s _ _ _ hz h1 h2 h3 _
      exact ⟨s, rfl, rfl, hz, rfl, rfl, h1, h2, h3⟩
    | succ m ih =>
      intro i s hi him hin hz h1 h2 h3 h4
      have him' : i + (m + 1) ≤ ctx.n := by omega
      obtain ⟨s1, e1, e2, -, e3, e4, e5, e6, e7, e8, e9⟩ :=
        loadStep_some ctx g s i hi (by omega) hg
      rw [List.range'_succ]
      unfold loadLoop
      rw [e1]
      have hgi : g.take i = g.take (i - 1) ++ [g.getD (i - 1) 0] := by
        have := take_succ_getD g (i - 1) (by omega)
        rwa [Nat.sub_add_cancel hi] at this
      obtain ⟨s', f1, f2, f3, f4, f5, f6, f7, f8⟩ := ih (i + 1) s1 (by omega) (by omega) (by omega)
        (by
          refine ⟨?_, ?_, ?_⟩
          · rw [e8]; simp only [setAt]; rw [if_neg (by omega)]; exact hz.1
          · rw [e9]; simp only [setAt]; rw [if_neg (by omega)]; exact hz.2.1
          · rw [e7]; simp only [setAt]; rw [if_neg (by omega)]; exact hz.2.2)
        (by
          intro j hj
          rw [e9]; simp only [setAt]
          split
          · rename_i hji; subst hji
            rw [h1 (j - 1) (by omega), hgi]; simp
          · exact h1 j (by omega))
        (by
          intro j hj1 hj
          rw [e8]; simp only [setAt]
          split
          · rename_i hji; subst hji
            by_cases hone : j = 1
            · subst hone
              simp only [Nat.sub_self]
              rw [hz.1, hz.2.2]
              cases g with
              | nil => simp
              | cons a g => simp
            · rw [h2 (j - 1) (by omega) (by omega), h4 (j - 1) (by omega) (by omega) (by omega)]
              rw [hgi]
              have hgi2 : g.take (j - 1) = g.take (j - 1 - 1) ++ [g.getD (j - 1 - 1) 0] := by
                have := take_succ_getD g (j - 1 - 1) (by omega)
                rwa [show j - 1 - 1 + 1 = j - 1 by omega] at this
              rw [hgi2, List.append_assoc]
              simp only [List.cons_append, List.nil_append]
              rw [Spec.pathDist_concat_concat]
              rfl
          · exact h2 j hj1 (by omega))
        (by
          intro j hj1 hj
          rw [e6]; simp only [setAt]
          split
          · rename_i hji; subst hji; rfl
          · exact h3 j hj1 (by omega))
        (by
          intro j hj1 hj hjn
          rw [e7]; simp only [setAt]
          split
          · rename_i hji; subst hji; rw [if_pos hjn]
          · exact h4 j hj1 (by omega) hjn)
      refine ⟨s', f1, by rw [f2, e2], f3, by rw [f4, e3], by rw [f5, e4], ?_, ?_, ?_⟩
      · intro j hj; exact f6 j (by omega)
      · intro j h hj; exact f7 j h (by omega)
      · intro j h hj; exact f8 j h (by omega)
  obtain ⟨s', f1, f2, f3, f4, f5, f6, f7, f8⟩ := key (ctx.n - 1) 1 { s with pen := ctx.pen }
    (le_refl _) (by omega) (by omega) h0
    (by intro j hj; obtain rfl : j = 0 := by omega
        simpa using h0.2.1)
    (by intro j _ _; omega) (by intro j _ _; omega) (by intro j _ _; omega)
  refine ⟨s', f1, f2, f3, ⟨by rw [f4]; exact hcap, f5, ?_, ?_, ?_⟩⟩
  · intro j hj; exact f6 j (by omega)
  · intro j h hj; exact f7 j h (by omega)
  · intro j h hj; exact f8 j h (by omega)

theorem segment_split (g : List ℕ) (i j : ℕ) (hij : i < j) (hj : j ≤ g.length) :
    ∃ m, segment g i j = g.getD i 0 :: m ∧ g.take j = g.take i ++ g.getD i 0 :: m := by
  have h1 := segment_take g i j (by omega)
  have hlen := segment_length g i j hj
  cases hs : segment g i j with
  | nil => rw [hs] at hlen; simp at hlen; omega
  | cons a m =>
    rw [hs] at h1
    have ha : a = g.getD i 0 := by
      have h2 : (g.take j).getD i 0 = a := by
        rw [← h1]
        simp [List.getD, List.getElem?_append, Nat.min_eq_left (show i ≤ g.length by omega)]
      rw [← h2]
      simp [List.getD, List.getElem?_take, hij]
    subst ha
    exact ⟨m, rfl, h1.symm⟩

theorem segment_split_last (g : List ℕ) (i j : ℕ) (hij : i < j) (hj : j ≤ g.length) :
    ∃ m, segment g i j = m ++ [g.getD (j - 1) 0] := by
  have h1 := take_succ_getD g (j - 1) (by omega)
  rw [Nat.sub_add_cancel (by omega)] at h1
  refine ⟨(g.take (j - 1)).drop i, ?_⟩
  unfold segment
  rw [h1, List.drop_append_of_le_length (by simp; omega)]

/-- `propagate` adds the penalized cost of the route `g[i..j]`. -/
theorem propagate_eq (ctx : Ctx ℚ) (hsym : ∀ a b, ctx.dist a b = ctx.dist b a) (g : List ℕ)
    (hg : g.length = ctx.n - 1) (s : Split ℚ) (hs : Loaded ctx g s) (i j k : ℕ) (hij : i < j)
    (hj : j < ctx.n) :
    propagate s i j k = s.pathCost k i +
      Spec.routeCost ctx.dist ctx.demand ctx.cap ctx.pen (segment g i j) := by
  obtain ⟨m, hm1, hm2⟩ := segment_split g i j hij (by omega)
  obtain ⟨m', hm'⟩ := segment_split_last g i j hij (by omega)
  unfold propagate
  simp only [rat_add, rat_sub, rat_mul, rat_max, rat_lit]
  rw [hs.cumDist j (by omega) hj, hs.cumDist (i + 1) (by omega) (by omega),
    hs.distDepot (i + 1) (by omega) (by omega), hs.distDepot j (by omega) hj,
    hs.cumLoad j hj, hs.cumLoad i (by omega), hs.cap, hs.pen]
  have hload : Spec.routeLoad ctx.demand (g.take j) - Spec.routeLoad ctx.demand (g.take i)
      = Spec.routeLoad ctx.demand (segment g i j) := by
    rw [← segment_take g i j (by omega)]; simp
  rw [hload]
  unfold Spec.routeCost
  have hdist : Spec.routeDist ctx.dist (segment g i j)
      = Spec.pathDist ctx.dist (g.take j) - Spec.pathDist ctx.dist (g.take (i + 1))
        + ctx.dist (g.getD (i + 1 - 1) 0) 0 + ctx.dist (g.getD (j - 1) 0) 0 := by
    have e1 : g.take (i + 1) = g.take i ++ [g.getD i 0] := take_succ_getD g i (by omega)
    rw [e1, hm2, Spec.pathDist_append_cons]
    have e2 : Spec.routeDist ctx.dist (segment g i j)
        = ctx.dist 0 (g.getD i 0) + Spec.pathDist ctx.dist (segment g i j)
          + ctx.dist (g.getD (j - 1) 0) 0 := by
      unfold Spec.routeDist
      rw [hm1, List.cons_append, Spec.pathDist_cons_cons]
      have : g.getD i 0 :: (m ++ [0]) = m' ++ [g.getD (j - 1) 0, 0] := by
        rw [← List.cons_append, ← hm1, hm']; simp
      rw [this, Spec.pathDist_concat_concat, ← hm', hm1]; ring
    rw [e2, hm1, hsym 0]
    simp only [Nat.add_sub_cancel]
    ring
  rw [hdist]; ring

end Split
end Verif
