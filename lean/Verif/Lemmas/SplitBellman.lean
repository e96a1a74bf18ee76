import Verif.Lemmas.SplitDP

/-! The cells written by the Bellman split. -/

namespace Verif
open F64

/-- Route cost as the Bellman variant sees it: overload up to `1e-6` is free. -/
def Spec.tolCost (d : ℕ → ℕ → ℚ) (q : ℕ → ℚ) (cap pen : ℚ) (r : List ℕ) : ℚ :=
  Spec.routeDist d r +
    if 1 / 1000000 < Spec.routeLoad q r - cap then (Spec.routeLoad q r - cap) * pen else 0

namespace Spec

variable (d : ℕ → ℕ → ℚ) (q : ℕ → ℚ) (cap pen : ℚ)

theorem tolCost_nonneg (h : ∀ a b, 0 ≤ d a b) (hp : 0 ≤ pen) (r : List ℕ) :
    0 ≤ tolCost d q cap pen r := by
  unfold tolCost
  have := routeDist_nonneg d h r
  split
  · rename_i hlt
    have : 0 ≤ (routeLoad q r - cap) * pen := mul_nonneg (by linarith) hp
    linarith
  · linarith

theorem tolCost_le (hp : 0 ≤ pen) (r : List ℕ) : tolCost d q cap pen r ≤ routeCost d q cap pen r := by
  unfold tolCost routeCost
  split
  · rename_i hlt
    rw [max_eq_right (by linarith), mul_comm]
  · have : 0 ≤ pen * max 0 (routeLoad q r - cap) := mul_nonneg hp (le_max_left _ _)
    linarith

theorem routeCost_le_tol (hp : 0 ≤ pen) (r : List ℕ) :
    routeCost d q cap pen r ≤ tolCost d q cap pen r + pen * (1 / 1000000) := by
  unfold tolCost routeCost
  split
  · rename_i hlt
    rw [max_eq_right (by linarith), mul_comm]
    have : 0 ≤ pen * (1 / 1000000) := mul_nonneg hp (by norm_num)
    linarith
  · rename_i hlt
    have : max 0 (routeLoad q r - cap) ≤ 1 / 1000000 := max_le (by norm_num) (by linarith)
    have := mul_le_mul_of_nonneg_left this hp
    linarith

end Spec

namespace Split

variable (ctx : Ctx ℚ) (g : List ℕ) (fits : ℚ → Bool)

theorem segment_succ (i j : ℕ) (hij : i ≤ j) (hj : j < g.length) :
    segment g i (j + 1) = segment g i j ++ [g.getD j 0] := by
  unfold segment
  rw [take_succ_getD g j hj, List.drop_append_of_le_length (by simp; omega)]

theorem segment_self (i : ℕ) : segment g i i = [] := by
  unfold segment; simp

/-- The cost the inner loop computes is the tolerant cost of the route. -/
theorem bellmanCost_eq (s : Split ℚ) (hpen : s.pen = ctx.pen) (k src tgt : ℕ) (h1 : src < tgt)
    (h2 : tgt ≤ g.length) :
    bellmanCost ctx s k src (g.getD (tgt - 1) 0) (Spec.routeLoad ctx.demand (segment g src tgt))
      (Spec.pathDist ctx.dist (0 :: segment g src tgt))
      = s.pathCost k src + Spec.tolCost ctx.dist ctx.demand ctx.cap ctx.pen (segment g src tgt) := by
  unfold bellmanCost Spec.tolCost
  obtain ⟨m, hm⟩ := segment_split_last g src tgt h1 h2
  have hd : Spec.routeDist ctx.dist (segment g src tgt)
      = Spec.pathDist ctx.dist (0 :: segment g src tgt) + ctx.dist (g.getD (tgt - 1) 0) 0 := by
    unfold Spec.routeDist
    rw [hm]
    have : 0 :: (m ++ [g.getD (tgt - 1) 0] ++ [0]) = (0 :: m) ++ [g.getD (tgt - 1) 0, 0] := by simp
    rw [this, Spec.pathDist_concat_concat]; rfl
  rw [hd, hpen]
  simp only [rat_add, rat_sub, rat_mul, rat_lit, rat_approxGt, zero_add, decide_eq_true_eq]
  split <;> ring

theorem bellmanInner_opt (k w src : ℕ) (hg : g.length = ctx.n - 1)
    (hdem : ∀ a, 0 ≤ ctx.demand a) (hmono : ∀ x y, x ≤ y → fits y = true → fits x = true) :
    ∀ (fuel tgt : ℕ) (load cost : ℚ) (s s' : Split ℚ), src + 1 ≤ tgt → tgt + fuel = ctx.n →
      s.pen = ctx.pen →
      load = Spec.routeLoad ctx.demand (segment g src (tgt - 1)) →
      (tgt ≠ src + 1 → cost = Spec.pathDist ctx.dist (0 :: segment g src (tgt - 1))) →
      bellmanInner ctx g fits k w src fuel tgt load cost s = some s' →
      (∀ r c, (r ≠ w ∨ c < tgt ∨ ctx.n ≤ c) →
        s'.pathCost r c = s.pathCost r c ∧ s'.preds r c = s.preds r c) ∧
      ∀ c, tgt ≤ c → c < ctx.n →
        s'.pathCost w c ≤ s.pathCost w c ∧
        (fits (Spec.routeLoad ctx.demand (segment g src c)) = true → s'.pathCost w c ≤
          s.pathCost k src + Spec.tolCost ctx.dist ctx.demand ctx.cap ctx.pen (segment g src c)) ∧
        ((s'.pathCost w c = s.pathCost w c ∧ s'.preds w c = s.preds w c) ∨
          (fits (Spec.routeLoad ctx.demand (segment g src c)) = true ∧ s'.preds w c = src ∧
            s'.pathCost w c = s.pathCost k src +
              Spec.tolCost ctx.dist ctx.demand ctx.cap ctx.pen (segment g src c))) := by
  intro fuel
  induction fuel with
  | zero =>
    intro tgt load cost s s' _ h2 _ _ _ h
    simp only [bellmanInner, Option.some.injEq] at h
    subst h
    exact ⟨fun _ _ _ => ⟨rfl, rfl⟩, fun c h1 h2 => by omega⟩
  | succ fuel ih =>
    intro tgt load cost s s' h1 h2 hpen hload hcost h
    have hi : tgt - 1 < g.length := by omega
    have hgd : g[tgt - 1]? = some (g.getD (tgt - 1) 0) := by
      simp [List.getD, List.getElem?_eq_getElem hi]
    have hseg : segment g src tgt = segment g src (tgt - 1) ++ [g.getD (tgt - 1) 0] := by
      have := segment_succ g src (tgt - 1) (by omega) hi
      rwa [Nat.sub_add_cancel (by omega)] at this
    have hload' : load +. ctx.demand (g.getD (tgt - 1) 0)
        = Spec.routeLoad ctx.demand (segment g src tgt) := by
      rw [hload, hseg]; simp
    unfold bellmanInner at h
    rw [hgd] at h
    dsimp only at h
    rw [hload'] at h
    split at h
    · rename_i hfit
      have hc : (if tgt = src + 1 then some (ctx.dist 0 (g.getD (tgt - 1) 0))
            else (g[tgt - 2]?).map (fun p => cost +. ctx.dist p (g.getD (tgt - 1) 0)))
          = some (Spec.pathDist ctx.dist (0 :: segment g src tgt)) := by
        split
        · rename_i he
          subst he
          rw [hseg]
          simp [segment_self]
        · rename_i he
          have hi2 : tgt - 2 < g.length := by omega
          have hgd2 : g[tgt - 2]? = some (g.getD (tgt - 2) 0) := by
            simp [List.getD, List.getElem?_eq_getElem hi2]
          rw [hgd2]
          simp only [Option.map_some, rat_add, Option.some.injEq]
          rw [hcost he, hseg]
          obtain ⟨m, hm⟩ := segment_split_last g src (tgt - 1) (by omega) (by omega)
          have h22 : tgt - 1 - 1 = tgt - 2 := by omega
          rw [h22] at hm
          rw [hm]
          have : 0 :: (m ++ [g.getD (tgt - 2) 0] ++ [g.getD (tgt - 1) 0])
              = (0 :: m) ++ [g.getD (tgt - 2) 0, g.getD (tgt - 1) 0] := by simp
          rw [this, Spec.pathDist_concat_concat]; rfl
      rw [hc] at h
      dsimp only at h
      rw [bellmanCost_eq ctx g s hpen k src tgt (by omega) (by omega)] at h
      generalize hnew : s.pathCost k src +
        Spec.tolCost ctx.dist ctx.demand ctx.cap ctx.pen (segment g src tgt) = new at h
      -- the relaxed state
      have hr1 : ∀ r c, (r ≠ w ∨ c ≠ tgt) → (relax s w tgt src new).pathCost r c = s.pathCost r c ∧
          (relax s w tgt src new).preds r c = s.preds r c := by
        intro r c hrc
        unfold relax
        split
        · simp only [setCell]
          rw [if_neg (by tauto), if_neg (by tauto)]; exact ⟨rfl, rfl⟩
        · exact ⟨rfl, rfl⟩
      have hr2 : (relax s w tgt src new).pathCost w tgt ≤ s.pathCost w tgt ∧
          (relax s w tgt src new).pathCost w tgt ≤ new ∧
          (((relax s w tgt src new).pathCost w tgt = s.pathCost w tgt ∧
              (relax s w tgt src new).preds w tgt = s.preds w tgt) ∨
            ((relax s w tgt src new).pathCost w tgt = new ∧
              (relax s w tgt src new).preds w tgt = src)) := by
        unfold relax
        split
        · rename_i hlt
          simp only [rat_lt, decide_eq_true_eq] at hlt
          simp only [setCell, and_self, if_true]
          exact ⟨hlt.le, le_refl _, Or.inr trivial⟩
        · rename_i hlt
          simp only [rat_lt, decide_eq_true_eq, not_lt] at hlt
          exact ⟨le_refl _, hlt, Or.inl ⟨rfl, rfl⟩⟩
      have hsrc : (relax s w tgt src new).pathCost k src = s.pathCost k src :=
        (hr1 k src (Or.inr (by omega))).1
      obtain ⟨f1, f2⟩ := ih (tgt + 1) _ _ (relax s w tgt src new) s' (by omega) (by omega)
        (by rw [(relax_data s w tgt src new).2.2.2.2.2.2]; exact hpen)
        (by rw [Nat.add_sub_cancel]) (by intro _; rw [Nat.add_sub_cancel]) h
      constructor
      · intro r c hrc
        obtain ⟨a1, a2⟩ := f1 r c (by omega)
        rw [a1, a2]
        exact hr1 r c (by omega)
      · intro c hc1 hc2
        by_cases hct : c = tgt
        · subst hct
          obtain ⟨a1, a2⟩ := f1 w c (by omega)
          rw [a1, a2, hnew]
          obtain ⟨b1, b2, b3⟩ := hr2
          refine ⟨b1, fun _ => b2, ?_⟩
          rcases b3 with b3 | b3
          · exact Or.inl b3
          · exact Or.inr ⟨hfit, b3.2, b3.1⟩
        · have := f2 c (by omega) hc2
          rw [hsrc, (hr1 w c (Or.inr hct)).1, (hr1 w c (Or.inr hct)).2] at this
          exact this
    · rename_i hfit
      simp only [Option.some.injEq] at h
      subst h
      refine ⟨fun _ _ _ => ⟨rfl, rfl⟩, ?_⟩
      intro c hc1 hc2
      refine ⟨le_refl _, ?_, Or.inl ⟨rfl, rfl⟩⟩
      intro hf
      exfalso
      apply hfit
      apply hmono _ _ _ hf
      have hs : segment g src c = segment g src tgt ++ segment g tgt c := by
        unfold segment
        have : g.take c = g.take tgt ++ (g.take c).drop tgt := by
          have := List.take_append_drop tgt (g.take c)
          rw [List.take_take, Nat.min_eq_left hc1] at this
          exact this.symm
        conv_lhs => rw [this]
        rw [List.drop_append_of_le_length (by simp; omega)]
      rw [hs, Spec.routeLoad_append]
      have := Spec.routeLoad_nonneg ctx.demand hdem (segment g tgt c)
      linarith

/-- Route cost and fit as seen by the Bellman split. -/
abbrev tol (r : List ℕ) : ℚ := Spec.tolCost ctx.dist ctx.demand ctx.cap ctx.pen r
abbrev fitR (r : List ℕ) : Prop := fits (Spec.routeLoad ctx.demand r) = true

/-- State of row 0 before source `i` of the unlimited Bellman split. -/
structure BInv (s : Split ℚ) (i : ℕ) : Prop where
  pen : s.pen = ctx.pen
  zero : s.pathCost 0 0 = 0
  sound : ∀ j, 1 ≤ j → j < ctx.n → s.pathCost 0 j = 10 ^ 30 ∨
    (s.preds 0 j < j ∧ s.preds 0 j < i ∧ fitR ctx fits (segment g (s.preds 0 j) j) ∧
      s.pathCost 0 j = s.pathCost 0 (s.preds 0 j) + tol ctx (segment g (s.preds 0 j) j))
  complete : ∀ c j, c < i → c < j → j < ctx.n → fitR ctx fits (segment g c j) →
    s.pathCost 0 j ≤ s.pathCost 0 c + tol ctx (segment g c j)

theorem bellmanLoop_opt (hg : g.length = ctx.n - 1)
    (hdem : ∀ a, 0 ≤ ctx.demand a) (hmono : ∀ x y, x ≤ y → fits y = true → fits x = true) :
    ∀ (m i : ℕ) (s s' : Split ℚ), i + m = ctx.n - 1 → BInv ctx g fits s i →
      bellmanLoop ctx g fits (List.range' i m) s = some s' → BInv ctx g fits s' (i + m) := by
  intro m
  induction m with
  | zero =>
    intro i s s' _ hb h
    simp only [List.range'_zero, bellmanLoop, Option.some.injEq] at h
    subst h; exact hb
  | succ m ih =>
    intro i s s' hi hb h
    rw [List.range'_succ] at h
    unfold bellmanLoop at h
    split at h
    · simp at h
    · rename_i s1 h1
      have := ih (i + 1) s1 s' (by omega) ?_ h
      · rw [show i + (m + 1) = i + 1 + m by omega]; exact this
      · obtain ⟨f1, f2⟩ := bellmanInner_opt ctx g fits 0 0 i hg hdem hmono _ _ _ _ s s1 (by omega)
          (by omega) hb.pen (by simp [segment_self]) (fun h => absurd rfl h) h1
        have hd := (bellmanInner_data ctx g fits 0 0 i _ _ _ _ s s1 h1).1
        have hlow : ∀ c, c ≤ i → s1.pathCost 0 c = s.pathCost 0 c ∧ s1.preds 0 c = s.preds 0 c :=
          fun c hc => f1 0 c (by omega)
        refine ⟨by rw [hd.2.2.2.2.2.2]; exact hb.pen, by rw [(hlow 0 (by omega)).1]; exact hb.zero,
          ?_, ?_⟩
        · intro j hj1 hj2
          by_cases hji : j ≤ i
          · rw [(hlow j hji).1, (hlow j hji).2]
            rcases hb.sound j hj1 hj2 with h | h
            · exact Or.inl h
            · right
              rw [(hlow _ (by omega : s.preds 0 j ≤ i)).1]
              exact ⟨h.1, by omega, h.2.2⟩
          · obtain ⟨a1, a2, a3⟩ := f2 j (by omega) hj2
            rcases a3 with a3 | a3
            · rw [a3.1, a3.2]
              rcases hb.sound j hj1 hj2 with h | h
              · exact Or.inl h
              · right
                rw [(hlow _ (by omega : s.preds 0 j ≤ i)).1]
                exact ⟨h.1, by omega, h.2.2⟩
            · right
              rw [a3.2.1, (hlow i (le_refl _)).1]
              exact ⟨by omega, by omega, a3.1, a3.2.2⟩
        · intro c j hc hcj hjn hf
          by_cases hci : c = i
          · subst hci
            rw [(hlow c (le_refl _)).1]
            exact (f2 j (by omega) hjn).2.1 hf
          · rw [(hlow c (by omega)).1]
            have h0 := hb.complete c j (by omega) hcj hjn hf
            by_cases hji : j ≤ i
            · rw [(hlow j hji).1]; exact h0
            · exact le_trans (f2 j (by omega) hjn).1 h0

/-! ### limited fleet -/

/-- Row `k + 1` after sources `k … i - 1`. -/
structure BRow (s : Split ℚ) (k i : ℕ) : Prop where
  pen : s.pen = ctx.pen
  sound : ∀ j, 1 ≤ j → j < ctx.n → s.pathCost (k + 1) j = 10 ^ 30 ∨
    (s.preds (k + 1) j < j ∧ k ≤ s.preds (k + 1) j ∧
      fitR ctx fits (segment g (s.preds (k + 1) j) j) ∧
      s.pathCost (k + 1) j = s.pathCost k (s.preds (k + 1) j)
        + tol ctx (segment g (s.preds (k + 1) j) j))
  complete : ∀ c j, k ≤ c → c < i → c < j → j < ctx.n → fitR ctx fits (segment g c j) →
    s.pathCost (k + 1) j ≤ s.pathCost k c + tol ctx (segment g c j)

theorem bellmanLimLoop_opt (k : ℕ) (hg : g.length = ctx.n - 1)
    (hdem : ∀ a, 0 ≤ ctx.demand a) (hmono : ∀ x y, x ≤ y → fits y = true → fits x = true) :
    ∀ (m i : ℕ) (s s' : Split ℚ), k ≤ i → (i + m = ctx.n - 1 ∨ m = 0) → BRow ctx g fits s k i →
      bellmanLimLoop ctx g fits k (List.range' i m) s = some s' →
      (∀ r, r ≠ k + 1 → s'.pathCost r = s.pathCost r ∧ s'.preds r = s.preds r) ∧
      SameData s s' ∧
      ∃ b, i ≤ b ∧ b ≤ i + m ∧ BRow ctx g fits s' k b ∧ (b = i + m ∨ 10 ^ 29 < s'.pathCost k b) := by
  intro m
  induction m with
  | zero =>
    intro i s s' _ _ hb h
    simp only [List.range'_zero, bellmanLimLoop, Option.some.injEq] at h
    subst h
    exact ⟨fun _ _ => ⟨rfl, rfl⟩, .refl _, i, le_refl _, le_refl _, hb, Or.inl rfl⟩
  | succ m ih =>
    intro i s s' hki hi hb h
    rw [List.range'_succ] at h
    unfold bellmanLimLoop at h
    split at h
    · rename_i hbig
      simp only [Option.some.injEq] at h
      subst h
      simp only [rat_lit, rat_lt, decide_eq_true_eq] at hbig
      exact ⟨fun _ _ => ⟨rfl, rfl⟩, .refl _, i, le_refl _, by omega, hb, Or.inr hbig⟩
    · split at h
      · simp at h
      · rename_i s1 h1
        obtain ⟨f1, f2⟩ := bellmanInner_opt ctx g fits k (k + 1) i hg hdem hmono _ _ _ _ s s1
          (by omega) (by omega) hb.pen (by simp [segment_self]) (fun h => absurd rfl h) h1
        have hd := (bellmanInner_data ctx g fits k (k + 1) i _ _ _ _ s s1 h1).1
        have hk : ∀ c, s1.pathCost k c = s.pathCost k c := fun c => (f1 k c (by omega)).1
        have hlow : ∀ c, c ≤ i → s1.pathCost (k + 1) c = s.pathCost (k + 1) c ∧
            s1.preds (k + 1) c = s.preds (k + 1) c := fun c hc => f1 (k + 1) c (by omega)
        have hb1 : BRow ctx g fits s1 k (i + 1) := by
          refine ⟨by rw [hd.2.2.2.2.2.2]; exact hb.pen, ?_, ?_⟩
          · intro j hj1 hj2
            rw [hk]
            by_cases hji : j ≤ i
            · rw [(hlow j hji).1, (hlow j hji).2]
              exact hb.sound j hj1 hj2
            · obtain ⟨a1, a2, a3⟩ := f2 j (by omega) hj2
              rcases a3 with a3 | a3
              · rw [a3.1, a3.2]
                exact hb.sound j hj1 hj2
              · right
                rw [a3.2.1]
                exact ⟨by omega, by omega, a3.1, a3.2.2⟩
          · intro c j hkc hc hcj hjn hf
            rw [hk]
            by_cases hci : c = i
            · subst hci
              exact (f2 j (by omega) hjn).2.1 hf
            · have h0 := hb.complete c j hkc (by omega) hcj hjn hf
              by_cases hji : j ≤ i
              · rw [(hlow j hji).1]; exact h0
              · exact le_trans (f2 j (by omega) hjn).1 h0
        obtain ⟨g1, g2, b, g3, g4, g5, g6⟩ := ih (i + 1) s1 s' (by omega) (by omega) hb1 h
        refine ⟨?_, hd.trans g2, b, by omega, by omega, g5, ?_⟩
        · intro r hr
          rw [(g1 r hr).1, (g1 r hr).2]
          exact ⟨funext fun c => (f1 r c (by omega)).1, funext fun c => (f1 r c (by omega)).2⟩
        · rcases g6 with g6 | g6
          · left; omega
          · right; exact g6


theorem segment_sub (r : List ℕ) (hdem : ∀ a, 0 ≤ ctx.demand a) :
    ∀ x ∈ r, ctx.demand x ≤ Spec.routeLoad ctx.demand r := by
  intro x hx
  obtain ⟨l, m, rfl⟩ := List.append_of_mem hx
  simp only [Spec.routeLoad_append, Spec.routeLoad_cons]
  have := Spec.routeLoad_nonneg ctx.demand hdem l
  have := Spec.routeLoad_nonneg ctx.demand hdem m
  linarith

/-- Fewer customers can be covered by the same number of routes. -/
theorem reach_down (hdem : ∀ a, 0 ≤ ctx.demand a)
    (hmono : ∀ x y, x ≤ y → fits y = true → fits x = true) :
    ∀ (k c : ℕ), c + 1 ≤ g.length → k ≤ c → Reach g (fitR ctx fits) k (c + 1) →
      Reach g (fitR ctx fits) k c := by
  intro k
  induction k with
  | zero =>
    rintro c hc _ ⟨rs, h1, h2, -⟩
    rw [List.length_eq_zero_iff] at h1
    subst h1
    have := congrArg List.length h2
    simp at this
    omega
  | succ k ih =>
    rintro c hc hk ⟨rs, h1, h2, h3⟩
    have hne : rs ≠ [] := by rintro rfl; simp at h1
    obtain ⟨init, r, rfl⟩ : ∃ init r, rs = init ++ [r] :=
      ⟨rs.dropLast, rs.getLast hne, (List.dropLast_append_getLast hne).symm⟩
    have hlk : init.length = k := by simpa using h1
    obtain ⟨hr, hf⟩ := h3 r (by simp)
    obtain ⟨i, hi, e1, e2⟩ := last_route g init r (c + 1) hc hr h2
    have hinit : ∀ r ∈ init, r ≠ [] ∧ fitR ctx fits r := fun r hr => h3 r (by simp [hr])
    by_cases hic : i = c
    · subst hic
      have hk1 : 1 ≤ k := by
        by_contra hk0
        have : init = [] := by rw [← List.length_eq_zero_iff]; omega
        subst this
        have := congrArg List.length e1
        simp at this
        omega
      obtain ⟨c', rfl⟩ : ∃ c', i = c' + 1 := ⟨i - 1, by omega⟩
      obtain ⟨rs', r1, r2, r3⟩ := ih c' (by omega) (by omega) ⟨init, hlk, e1, hinit⟩
      have hmem : g.getD c' 0 ∈ init.flatten := by
        rw [e1, take_succ_getD g c' (by omega)]; simp
      obtain ⟨ri, hri, hx⟩ := List.mem_flatten.mp hmem
      refine ⟨rs' ++ [[g.getD c' 0]], by simp [r1], ?_, ?_⟩
      · rw [take_succ_getD g c' (by omega)]; simp [r2]
      · intro r' hr'
        rcases List.mem_append.mp hr' with h | h
        · exact r3 r' h
        · rw [List.mem_singleton] at h
          subst h
          refine ⟨by simp, ?_⟩
          have := (hinit ri hri).2
          refine hmono _ _ ?_ this
          simpa using segment_sub ctx ri hdem _ hx
    · refine ⟨init ++ [segment g i c], by simp [hlk], ?_, ?_⟩
      · simp only [List.flatten_append, List.flatten_cons, List.flatten_nil, List.append_nil]
        rw [e1, segment_take g i c (by omega)]
      · intro r' hr'
        rcases List.mem_append.mp hr' with h | h
        · exact hinit r' h
        · rw [List.mem_singleton] at h
          subst h
          constructor
          · intro hc'
            have := congrArg List.length hc'
            rw [segment_length g _ _ (by omega)] at this
            simp at this; omega
          · refine hmono _ _ ?_ hf
            rw [e2, segment_succ g i c (by omega) (by omega), Spec.routeLoad_append]
            have := hdem (g.getD c 0)
            simp
            try exact this

theorem reach_le (k : ℕ) (hdem : ∀ a, 0 ≤ ctx.demand a)
    (hmono : ∀ x y, x ≤ y → fits y = true → fits x = true) (c : ℕ) (hc : c ≤ g.length)
    (h : Reach g (fitR ctx fits) k c) : ∀ b, k ≤ b → b ≤ c → Reach g (fitR ctx fits) k b := by
  intro b hkb hbc
  induction c with
  | zero => obtain rfl : b = 0 := by omega
            exact h
  | succ c ih =>
    by_cases hb : b = c + 1
    · subst hb; exact h
    · exact ih (by omega) (reach_down ctx g fits hdem hmono k c hc (by omega) h) (by omega)

/-- All rows of the limited Bellman split. `B` bounds the cost of any segmentation. -/
theorem bellmanLimRows_opt (hg : g.length = ctx.n - 1)
    (hdem : ∀ a, 0 ≤ ctx.demand a) (hmono : ∀ x y, x ≤ y → fits y = true → fits x = true)
    (hB : ∀ (rs : List (List ℕ)) (t : ℕ), t ≤ g.length → rs.flatten = g.take t → (∀ r ∈ rs, r ≠ []) →
      (rs.map (tol ctx)).sum ≤ 10 ^ 29) :
    ∀ (m k : ℕ) (s s' : Split ℚ), s.pen = ctx.pen →
      (∀ r j, k < r → r ≤ k + m → 1 ≤ j → j < ctx.n → s.pathCost r j = 10 ^ 30) →
      (∀ c, k ≤ c → c ≤ g.length → ∀ rs : List (List ℕ), rs.length = k → rs.flatten = g.take c →
        (∀ r ∈ rs, r ≠ [] ∧ fitR ctx fits r) → s.pathCost k c ≤ (rs.map (tol ctx)).sum) →
      bellmanLimRows ctx g fits (List.range' k m) s = some s' →
      (∀ r, (r ≤ k ∨ k + m < r) → s'.pathCost r = s.pathCost r ∧ s'.preds r = s.preds r) ∧
      SameData s s' ∧
      ∀ r, k ≤ r → r < k + m →
        (∀ j, 1 ≤ j → j < ctx.n → s'.pathCost (r + 1) j = 10 ^ 30 ∨
          (s'.preds (r + 1) j < j ∧ r ≤ s'.preds (r + 1) j ∧
            fitR ctx fits (segment g (s'.preds (r + 1) j) j) ∧
            s'.pathCost (r + 1) j = s'.pathCost r (s'.preds (r + 1) j)
              + tol ctx (segment g (s'.preds (r + 1) j) j))) ∧
        (∀ c j, r ≤ c → c < j → j < ctx.n → Reach g (fitR ctx fits) r c →
          fitR ctx fits (segment g c j) →
          s'.pathCost (r + 1) j ≤ s'.pathCost r c + tol ctx (segment g c j)) := by
  intro m
  induction m with
  | zero =>
    intro k s s' _ _ _ h
    simp only [List.range'_zero, bellmanLimRows, Option.some.injEq] at h
    subst h
    exact ⟨fun _ _ => ⟨rfl, rfl⟩, .refl _, fun r h1 h2 => by omega⟩
  | succ m ih =>
    intro k s s' hpen hinit hrow h
    rw [List.range'_succ] at h
    unfold bellmanLimRows at h
    split at h
    · simp at h
    · rename_i s1 h1
      obtain ⟨f1, f2, b, f3, f4, f5, f6⟩ := bellmanLimLoop_opt ctx g fits k hg hdem hmono
        (ctx.n - 1 - k) k s s1 (le_refl _) (by omega) ⟨hpen,
          fun j hj1 hj2 => Or.inl (hinit (k + 1) j (by omega) (by omega) hj1 hj2),
          fun c j h1 h2 => by omega⟩ h1
      have hk := (f1 k (by omega))
      have hcomp : ∀ c j, k ≤ c → c < j → j < ctx.n → Reach g (fitR ctx fits) k c →
          fitR ctx fits (segment g c j) →
          s1.pathCost (k + 1) j ≤ s1.pathCost k c + tol ctx (segment g c j) := by
        intro c j hkc hcj hjn hreach hf
        by_cases hcb : c < b
        · exact f5.complete c j hkc hcb hcj hjn hf
        · exfalso
          rcases f6 with f6 | f6
          · omega
          · obtain ⟨rs, r1, r2, r3⟩ := reach_le ctx g fits k hdem hmono c (by omega) hreach b f3
              (by omega)
            have := hrow b f3 (by omega) rs r1 r2 r3
            have := hB rs b (by omega) r2 (fun r hr => (r3 r hr).1)
            rw [hk.1] at f6
            linarith
      obtain ⟨g1, g2, g3⟩ := ih (k + 1) s1 s'
        (by rw [f2.2.2.2.2.2.2]; exact hpen)
        (by intro r j h1 h2 h3 h4; rw [(f1 r (by omega)).1]
            exact hinit r j (by omega) (by omega) h3 h4)
        (by
          intro c hc1 hc2 rs r1 r2 r3
          have hne : rs ≠ [] := by rintro rfl; simp at r1
          obtain ⟨init, r, rfl⟩ : ∃ init r, rs = init ++ [r] :=
            ⟨rs.dropLast, rs.getLast hne, (List.dropLast_append_getLast hne).symm⟩
          have hlk : init.length = k := by simpa using r1
          obtain ⟨hr, hf⟩ := r3 r (by simp)
          obtain ⟨i, hi, e1, e2⟩ := last_route g init r c hc2 hr r2
          have hin : ∀ r ∈ init, r ≠ [] ∧ fitR ctx fits r := fun r hr => r3 r (by simp [hr])
          have hki : k ≤ i := by
            have := length_le_flatten init (fun r hr => (hin r hr).1)
            rw [e1] at this
            have h4 : (g.take i).length = i := by simp; omega
            omega
          have e3 := hrow i hki (by omega) init hlk e1 hin
          rw [e2] at hf
          have e4 := hcomp i c hki hi (by omega) ⟨init, hlk, e1, hin⟩ hf
          rw [hk.1] at e4
          simp only [List.map_append, List.map_cons, List.map_nil, List.sum_append, List.sum_cons,
            List.sum_nil, add_zero]
          rw [e2]
          linarith) h
      refine ⟨?_, f2.trans g2, ?_⟩
      · intro r hr
        rw [(g1 r (by omega)).1, (g1 r (by omega)).2]
        exact f1 r (by omega)
      · intro r hr1 hr2
        by_cases hrk : r = k
        · subst hrk
          have q1 := g1 r (by omega)
          have q2 := g1 (r + 1) (by omega)
          rw [q1.1, q2.1, q2.2]
          exact ⟨f5.sound, hcomp⟩
        · exact g3 r (by omega) (by omega)

end Split
end Verif
