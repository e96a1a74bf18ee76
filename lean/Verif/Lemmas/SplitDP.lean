import Verif.Lemmas.SplitQueue

/-! From the cells of the dynamic programs to segmentations of the tour. -/

namespace Verif
open F64

namespace Split

variable (g : List ℕ) (C : List ℕ → ℚ) (fit : List ℕ → Prop)

/-- Peel off the last route of a segmentation. -/
theorem last_route (rs : List (List ℕ)) (r : List ℕ) (t : ℕ) (ht : t ≤ g.length) (hr : r ≠ [])
    (h : (rs ++ [r]).flatten = g.take t) :
    ∃ i, i < t ∧ rs.flatten = g.take i ∧ r = segment g i t := by
  have h' : rs.flatten ++ r = g.take t := by simpa using h
  have hlen : rs.flatten.length + r.length = t := by
    have := congrArg List.length h'
    simpa [Nat.min_eq_left ht] using this
  have hr1 : 0 < r.length := List.length_pos_iff.mpr hr
  refine ⟨rs.flatten.length, by omega, ?_, ?_⟩
  · have := congrArg (List.take rs.flatten.length) h'
    rw [List.take_left, List.take_take, Nat.min_eq_left (by omega)] at this
    exact this
  · unfold segment
    rw [← h', List.drop_left]

theorem dp_lower (P : ℕ → ℚ) (e : ℚ) (h0 : P 0 ≤ 0)
    (hstep : ∀ i j, i < j → j ≤ g.length → fit (segment g i j) →
      P j ≤ P i + C (segment g i j) + ((j - 1 - i : ℕ) : ℚ) * e) (he : 0 ≤ e) :
    ∀ (rs : List (List ℕ)), (∀ r ∈ rs, r ≠ [] ∧ fit r) → ∀ t, t ≤ g.length →
      rs.flatten = g.take t → P t ≤ (rs.map C).sum + t * e := by
  intro rs
  induction rs using List.reverseRecOn with
  | nil =>
    intro _ t ht h
    have : t = 0 := by
      have := congrArg List.length h
      simpa [Nat.min_eq_left ht] using this.symm
    subst this; simpa using h0
  | append_singleton rs r ih =>
    intro hrs t ht h
    obtain ⟨hr, hf⟩ := hrs r (by simp)
    obtain ⟨i, hi, h1, h2⟩ := last_route g rs r t ht hr h
    have e1 := ih (fun r hr => hrs r (by simp [hr])) i (by omega) h1
    rw [h2] at hf
    have e2 := hstep i t hi ht hf
    simp only [List.map_append, List.map_cons, List.map_nil, List.sum_append, List.sum_cons,
      List.sum_nil, add_zero]
    rw [h2]
    have h3 : ((t - 1 - i : ℕ) : ℚ) + i ≤ t := by exact_mod_cast (by omega)
    have := mul_le_mul_of_nonneg_right h3 he
    linarith

/-- `k` non-empty routes that fit cover the first `t` customers. -/
def Reach (k t : ℕ) : Prop :=
  ∃ rs : List (List ℕ), rs.length = k ∧ rs.flatten = g.take t ∧ ∀ r ∈ rs, r ≠ [] ∧ fit r

theorem length_le_flatten (rs : List (List ℕ)) (h : ∀ r ∈ rs, r ≠ []) :
    rs.length ≤ rs.flatten.length := by
  induction rs with
  | nil => simp
  | cons r rs ih =>
    have h1 : 0 < r.length := List.length_pos_iff.mpr (h r (by simp))
    have h2 := ih (fun r hr => h r (by simp [hr]))
    simp; simp at h2; omega

theorem dp_lower_rows (P : ℕ → ℕ → ℚ) (e : ℚ) (V : ℕ) (h0 : P 0 0 ≤ 0)
    (hstep : ∀ k i j, k < V → k ≤ i → i < j → j ≤ g.length → Reach g fit k i →
      fit (segment g i j) →
      P (k + 1) j ≤ P k i + C (segment g i j) + ((j - 1 - i : ℕ) : ℚ) * e) (he : 0 ≤ e) :
    ∀ (rs : List (List ℕ)), (∀ r ∈ rs, r ≠ [] ∧ fit r) → rs.length ≤ V → ∀ t, t ≤ g.length →
      rs.flatten = g.take t → P rs.length t ≤ (rs.map C).sum + t * e := by
  intro rs
  induction rs using List.reverseRecOn with
  | nil =>
    intro _ _ t ht h
    have : t = 0 := by
      have := congrArg List.length h
      simpa [Nat.min_eq_left ht] using this.symm
    subst this; simpa using h0
  | append_singleton rs r ih =>
    intro hrs hV t ht h
    obtain ⟨hr, hf⟩ := hrs r (by simp)
    obtain ⟨i, hi, h1, h2⟩ := last_route g rs r t ht hr h
    have hlen : rs.length ≤ i := by
      have := length_le_flatten rs (fun r hr => (hrs r (by simp [hr])).1)
      rw [h1] at this
      simpa [Nat.min_eq_left (show i ≤ g.length by omega)] using this
    simp only [List.length_append, List.length_cons, List.length_nil] at hV
    have e1 := ih (fun r hr => hrs r (by simp [hr])) (by omega) i (by omega) h1
    rw [h2] at hf
    have e2 := hstep rs.length i t (by omega) hlen hi ht
      ⟨rs, rfl, h1, fun r hr => hrs r (by simp [hr])⟩ hf
    simp only [List.map_append, List.map_cons, List.map_nil, List.sum_append, List.sum_cons,
      List.sum_nil, add_zero, List.length_append, List.length_cons, List.length_nil, zero_add]
    rw [h2]
    have h3 : ((t - 1 - i : ℕ) : ℚ) + i ≤ t := by exact_mod_cast (by omega)
    have := mul_le_mul_of_nonneg_right h3 he
    linarith

/-- The routes read off the predecessors cost what the last cell says. -/
theorem extract_cost (preds : ℕ → ℕ) (P : ℕ → ℚ) (good : ℕ → Prop)
    (hgood : ∀ j, 1 ≤ j → j ≤ g.length → good j → preds j < j ∧ good (preds j) ∧
      fit (segment g (preds j) j) ∧ P j = P (preds j) + C (segment g (preds j) j)) :
    ∀ (fuel e : ℕ) (acc routes : List (List ℕ)), e ≤ g.length → good e →
      extract preds g fuel e acc = some routes →
      ∃ rs, routes = acc ++ rs ∧ (rs.map C).sum = P e - P 0 ∧ ∀ r ∈ rs, fit r := by
  intro fuel
  induction fuel with
  | zero =>
    intro e acc routes he hg h
    cases e with
    | zero =>
      simp only [extract, Option.some.injEq] at h
      exact ⟨[], by simp [h], by simp, by simp⟩
    | succ e => simp [extract] at h
  | succ fuel ih =>
    intro e acc routes he hg h
    cases e with
    | zero =>
      simp only [extract, Option.some.injEq] at h
      exact ⟨[], by simp [h], by simp, by simp⟩
    | succ e =>
      unfold extract at h
      obtain ⟨h1, h2, h3, h4⟩ := hgood (e + 1) (by omega) he hg
      obtain ⟨rs, r1, r2, r3⟩ := ih _ _ _ (by omega) h2 h
      refine ⟨segment g (preds (e + 1)) (e + 1) :: rs, by rw [r1]; simp, ?_, ?_⟩
      · simp only [List.map_cons, List.sum_cons]
        rw [r2, h4]; ring
      · intro r hr
        rcases List.mem_cons.mp hr with rfl | hr
        · exact h3
        · exact r3 r hr

theorem extractLim_cost (preds : ℕ → ℕ → ℕ) (P : ℕ → ℕ → ℚ) (good : ℕ → ℕ → Prop)
    (hgood : ∀ v j, j ≤ g.length → good (v + 1) j → preds (v + 1) j < j ∧ good v (preds (v + 1) j) ∧
      fit (segment g (preds (v + 1) j) j) ∧
      P (v + 1) j = P v (preds (v + 1) j) + C (segment g (preds (v + 1) j) j)) :
    ∀ (v e : ℕ) (acc : List (List ℕ)), e ≤ g.length → good v e →
      good 0 (extractLim preds g v e acc).1 ∧
      ∃ rs, (extractLim preds g v e acc).2 = rs ++ acc ∧
        (rs.map C).sum = P v e - P 0 (extractLim preds g v e acc).1 ∧ ∀ r ∈ rs, fit r ∧ r ≠ [] := by
  intro v
  induction v with
  | zero =>
    intro e acc he hg
    unfold extractLim
    exact ⟨hg, [], by simp, by simp, by simp⟩
  | succ v ih =>
    intro e acc he hg
    unfold extractLim
    obtain ⟨h1, h2, h3, h4⟩ := hgood v e he hg
    obtain ⟨k1, rs, r1, r2, r3⟩ := ih (preds (v + 1) e) (segment g (preds (v + 1) e) e :: acc)
      (by omega) h2
    refine ⟨k1, rs ++ [segment g (preds (v + 1) e) e], by rw [r1]; simp, ?_, ?_⟩
    · simp only [List.map_append, List.map_cons, List.map_nil, List.sum_append, List.sum_cons,
        List.sum_nil, add_zero]
      rw [r2, h4]; ring
    · intro r hr
      rcases List.mem_append.mp hr with hr | hr
      · exact r3 r hr
      · rw [List.mem_singleton] at hr
        subst hr
        refine ⟨h3, ?_⟩
        intro hc
        have := congrArg List.length hc
        rw [segment_length g _ _ he] at this
        simp at this; omega

/-- `bestCount` returns a minimal row. -/
theorem bestCount_min (s : Split ℚ) (last : ℕ) :
    ∀ (ks : List ℕ) (v : ℕ),
      let b := bestCount s last ks (s.pathCost v last) v
      s.pathCost b last ≤ s.pathCost v last ∧ ∀ k ∈ ks, s.pathCost b last ≤ s.pathCost k last := by
  intro ks
  induction ks with
  | nil => intro v; simp [bestCount]
  | cons k ks ih =>
    intro v
    dsimp only
    unfold bestCount
    split
    · rename_i hlt
      simp only [rat_lt, decide_eq_true_eq] at hlt
      obtain ⟨h1, h2⟩ := ih k
      refine ⟨by linarith, ?_⟩
      intro k' hk'
      rcases List.mem_cons.mp hk' with rfl | hk'
      · exact h1
      · exact h2 k' hk'
    · rename_i hlt
      simp only [rat_lt, decide_eq_true_eq, not_lt] at hlt
      obtain ⟨h1, h2⟩ := ih v
      refine ⟨h1, ?_⟩
      intro k' hk'
      rcases List.mem_cons.mp hk' with rfl | hk'
      · linarith
      · exact h2 k' hk'

theorem solCost_replicate (d : ℕ → ℕ → ℚ) (q : ℕ → ℚ) (cap pen : ℚ) (h0 : d 0 0 = 0) (hc : 0 ≤ cap)
    (k : ℕ) : Spec.solCost d q cap pen (List.replicate k []) = 0 := by
  induction k with
  | zero => rfl
  | succ k ih =>
    rw [List.replicate_succ, Spec.solCost_cons, ih]
    simp [Spec.routeCost, Spec.routeDist, h0, hc]

theorem solCost_pad (d : ℕ → ℕ → ℚ) (q : ℕ → ℚ) (cap pen : ℚ) (h0 : d 0 0 = 0) (hc : 0 ≤ cap)
    (nv : ℕ) (rs : List (List ℕ)) :
    Spec.solCost d q cap pen (pad nv rs) = Spec.solCost d q cap pen rs := by
  unfold pad
  rw [Spec.solCost_append, solCost_replicate d q cap pen h0 hc, add_zero]

theorem cumLoad_mono (ctx : Ctx ℚ) (g : List ℕ) (s : Split ℚ) (hl : Loaded ctx g s)
    (hq : ∀ a, 0 ≤ ctx.demand a) : ∀ a b, a ≤ b → b < ctx.n → s.cumLoad a ≤ s.cumLoad b := by
  intro a b hab hb
  rw [hl.cumLoad a (by omega), hl.cumLoad b hb]
  rw [← segment_take g a b hab, Spec.routeLoad_append]
  have := Spec.routeLoad_nonneg ctx.demand hq (segment g a b)
  linarith

end Split
end Verif
