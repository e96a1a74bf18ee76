import Verif.Model.Split
import Verif.Lemmas.Evaluate

namespace Verif
open F64

variable {α : Type} [F64 α]

namespace Split

/-- Row 0 of the predecessors points backwards. -/
def PredOK (s : Split α) : Prop := ∀ i, 0 < i → s.preds 0 i < i

/-! ### load -/

theorem loadStep_some (ctx : Ctx α) (g : List ℕ) (s : Split α) (i : ℕ) (h1 : 1 ≤ i)
    (h2 : i < ctx.n) (hg : g.length = ctx.n - 1) :
    ∃ s', loadStep ctx g s i = some s' ∧ s'.preds = s.preds ∧ s'.pathCost = s.pathCost ∧
      s'.cap = s.cap ∧ s'.pen = s.pen ∧
      s'.demand = setAt s.demand i (ctx.demand (g.getD (i - 1) 0)) ∧
      s'.distDepot = setAt s.distDepot i (ctx.dist (g.getD (i - 1) 0) 0) ∧
      s'.distNext = setAt s.distNext i (if i < ctx.n - 1 then
        ctx.dist (g.getD (i - 1) 0) (g.getD i 0) else lit (-10 ^ 30)) ∧
      s'.cumDist = setAt s.cumDist i (s.cumDist (i - 1) +. s.distNext (i - 1)) ∧
      s'.cumLoad = setAt s.cumLoad i (s.cumLoad (i - 1) +. ctx.demand (g.getD (i - 1) 0)) := by
  unfold loadStep
  have hi : i - 1 < g.length := by omega
  rw [List.getElem?_eq_getElem hi]
  dsimp only
  have hd : g.getD (i - 1) 0 = g[i - 1] := by simp [List.getD, List.getElem?_eq_getElem hi]
  rw [hd]
  have hne : i - 1 ≠ i := by omega
  by_cases hlt : i < ctx.n - 1
  · have hi2 : i < g.length := by omega
    have hd2 : g.getD i 0 = g[i] := by simp [List.getD, List.getElem?_eq_getElem hi2]
    rw [if_pos hlt, if_pos hlt, List.getElem?_eq_getElem hi2]
    rw [hd2]; simp [setAt, hne]
  · rw [if_neg hlt, if_neg hlt]
    simp [setAt, hne]

theorem loadLoop_some (ctx : Ctx α) (g : List ℕ) (hg : g.length = ctx.n - 1) :
    ∀ (is : List ℕ) (s : Split α), (∀ i ∈ is, 1 ≤ i ∧ i < ctx.n) →
      ∃ s', loadLoop ctx g is s = some s' ∧ s'.preds = s.preds ∧ s'.pathCost = s.pathCost ∧
        s'.cap = s.cap ∧ s'.pen = s.pen := by
  intro is
  induction is with
  | nil => intro s _; exact ⟨s, rfl, rfl, rfl, rfl, rfl⟩
  | cons i is ih =>
    intro s hi
    obtain ⟨s1, h1, h2, h3, h4, h5, -⟩ := loadStep_some ctx g s i (hi i (by simp)).1
      (hi i (by simp)).2 hg
    obtain ⟨s', h6, h7, h8, h9, h10⟩ := ih s1 (fun j hj => hi j (by simp [hj]))
    unfold loadLoop
    rw [h1]
    exact ⟨s', h6, by rw [h7, h2], by rw [h8, h3], by rw [h9, h4], by rw [h10, h5]⟩

theorem load_some (ctx : Ctx α) (s : Split α) (g : List ℕ) (hg : g.length = ctx.n - 1) :
    ∃ s', load ctx s g = some s' ∧ s'.preds = s.preds ∧ s'.pathCost = s.pathCost ∧
      s'.cap = s.cap ∧ s'.pen = ctx.pen := by
  obtain ⟨s', h⟩ := loadLoop_some ctx g hg (List.range' 1 (ctx.n - 1)) { s with pen := ctx.pen }
    (by intro i hi; rw [List.mem_range'_1] at hi; omega)
  exact ⟨s', h⟩

/-! ### queue -/

theorem popFront_suffix (s : Split α) (j k : ℕ) : ∀ q : List ℕ, popFront s j k q <:+ q := by
  intro q
  fun_induction popFront s j k q with
  | case1 a b q h ih => exact ih.trans (List.suffix_cons _ _)
  | case2 a b q h => exact List.suffix_refl _
  | case3 q h => exact List.suffix_refl _

theorem popFront_ne_nil (s : Split α) (j k : ℕ) : ∀ q : List ℕ, q ≠ [] → popFront s j k q ≠ [] := by
  intro q
  fun_induction popFront s j k q with
  | case1 a b q h ih => intro _; exact ih (by simp)
  | case2 a b q h => exact fun h => h
  | case3 q h => exact fun h => h

theorem updateQueue_some (s : Split α) (i k : ℕ) (q : List ℕ) (hq : q ≠ []) :
    ∃ q', updateQueue s i k q = some q' ∧ q' ≠ [] ∧ ∀ x ∈ q', x ∈ q ∨ x = i := by
  unfold updateQueue
  rw [List.getLast?_eq_some_getLast hq]
  dsimp only
  refine ⟨_, rfl, ?_, ?_⟩
  · apply popFront_ne_nil
    split
    · simp
    · exact hq
  · intro x hx
    have := (popFront_suffix s (i + 1) k _).subset hx
    split at this
    · rw [List.mem_append, List.mem_singleton] at this
      rcases this with h | h
      · exact Or.inl ((List.rdropWhile_prefix _ _).subset h)
      · exact Or.inr h
    · exact Or.inl this

/-- One step of the linear split: never panics, queue stays non-empty with elements in range. -/
theorem linearStep_some (n k w : ℕ) (s : Split α) (q : List ℕ) (i : ℕ) (lo : ℕ) (hq : q ≠ [])
    (hlo : ∀ x ∈ q, lo ≤ x ∧ x < i) (hi : lo ≤ i) :
    ∃ s' q' front, linearStep n k w s q i = some (s', q') ∧ q' ≠ [] ∧
      (∀ x ∈ q', lo ≤ x ∧ x < i + 1) ∧ lo ≤ front ∧ front < i ∧ q.head? = some front ∧
      s'.preds = setCell s.preds w i front ∧
      s'.pathCost = setCell s.pathCost w i (propagate s front i k) ∧
      s'.demand = s.demand ∧ s'.distDepot = s.distDepot ∧ s'.cumDist = s.cumDist ∧
      s'.cumLoad = s.cumLoad ∧ s'.cap = s.cap ∧ s'.pen = s.pen := by
  cases q with
  | nil => exact absurd rfl hq
  | cons front rest =>
    have hf := hlo front (by simp)
    unfold linearStep
    dsimp only
    split
    · obtain ⟨q', h1, h2, h3⟩ := updateQueue_some
        { s with
          pathCost := setCell s.pathCost w i (propagate s front i k)
          preds := setCell s.preds w i front } i k (front :: rest) (by simp)
      rw [h1]
      refine ⟨_, q', front, rfl, h2, ?_, hf.1, hf.2, rfl, rfl, rfl, rfl, rfl, rfl, rfl, rfl, rfl⟩
      intro x hx
      rcases h3 x hx with h | h
      · have := hlo x h; omega
      · omega
    · refine ⟨_, _, front, rfl, by simp, ?_, hf.1, hf.2, rfl, rfl, rfl, rfl, rfl, rfl, rfl, rfl, rfl⟩
      intro x hx
      have := hlo x hx; omega

theorem linearLoop_some (n : ℕ) :
    ∀ (m i : ℕ) (s : Split α) (q : List ℕ), q ≠ [] → (∀ x ∈ q, x < i) → 0 < i → PredOK s →
      ∃ s', linearLoop n (List.range' i m) s q = some s' ∧ PredOK s' := by
  intro m
  induction m with
  | zero => intro i s q _ _ _ hp; exact ⟨s, rfl, hp⟩
  | succ m ih =>
    intro i s q hq hlt h0 hp
    obtain ⟨s', q', front, h1, h2, h3, -, h4, -, h5, -⟩ := linearStep_some n 0 0 s q i 0 hq
      (fun x hx => ⟨by omega, hlt x hx⟩) (by omega)
    rw [List.range'_succ]
    unfold linearLoop
    rw [h1]
    apply ih (i + 1) s' q' h2 (fun x hx => (h3 x hx).2) (by omega)
    intro j hj
    rw [h5]
    unfold setCell
    split
    · omega
    · exact hp j hj

/-! ### Bellman -/

theorem bellmanInner_some (ctx : Ctx α) (g : List ℕ) (fits : α → Bool) (k w src : ℕ)
    (hg : g.length = ctx.n - 1) :
    ∀ (fuel tgt : ℕ) (load cost : α) (s : Split α), src + 1 ≤ tgt → tgt + fuel = ctx.n →
      ∃ s', bellmanInner ctx g fits k w src fuel tgt load cost s = some s' ∧
        (∀ r c, s'.preds r c = s.preds r c ∨
          (r = w ∧ tgt ≤ c ∧ s'.preds r c = src)) := by
  intro fuel
  induction fuel with
  | zero => intro tgt load cost s _ _; exact ⟨s, rfl, fun r c => Or.inl rfl⟩
  | succ fuel ih =>
    intro tgt load cost s h1 h2
    unfold bellmanInner
    have hi : tgt - 1 < g.length := by omega
    rw [List.getElem?_eq_getElem hi]
    dsimp only
    split
    · have : ∃ c, (if tgt = src + 1 then some (ctx.dist 0 g[tgt - 1])
            else (g[tgt - 2]?).map (fun p => cost +. ctx.dist p g[tgt - 1])) = some c := by
        split
        · exact ⟨_, rfl⟩
        · rw [List.getElem?_eq_getElem (show tgt - 2 < g.length by omega)]
          exact ⟨_, rfl⟩
      obtain ⟨c, hc⟩ := this
      rw [hc]
      dsimp only
      obtain ⟨s', h3, h4⟩ := ih (tgt + 1) (load +. ctx.demand g[tgt - 1]) c
        (relax s w tgt src (bellmanCost ctx s k src g[tgt - 1] (load +. ctx.demand g[tgt - 1]) c))
        (by omega) (by omega)
      refine ⟨s', h3, ?_⟩
      intro r col
      rcases h4 r col with h | h
      · rw [h]
        unfold relax
        split
        · simp only [setCell]
          split
          · rename_i hrc; right; exact ⟨hrc.1, by omega, rfl⟩
          · left; rfl
        · left; rfl
      · right; exact ⟨h.1, by omega, h.2.2⟩
    · exact ⟨s, rfl, fun r c => Or.inl rfl⟩

theorem bellmanLoop_some (ctx : Ctx α) (g : List ℕ) (fits : α → Bool) (hg : g.length = ctx.n - 1) :
    ∀ (is : List ℕ) (s : Split α), (∀ i ∈ is, i < ctx.n - 1) → PredOK s →
      ∃ s', bellmanLoop ctx g fits is s = some s' ∧ PredOK s' := by
  intro is
  induction is with
  | nil => intro s _ hp; exact ⟨s, rfl, hp⟩
  | cons i is ih =>
    intro s hi hp
    have hi0 := hi i (by simp)
    obtain ⟨s1, h1, h2⟩ := bellmanInner_some ctx g fits 0 0 i hg (ctx.n - (i + 1)) (i + 1)
      (lit 0) (lit 0) s (by omega) (by omega)
    unfold bellmanLoop
    rw [h1]
    apply ih s1 (fun j hj => hi j (by simp [hj]))
    intro j hj
    rcases h2 0 j with h | h
    · rw [h]; exact hp j hj
    · omega

/-! ### rows other than 0 -/

theorem bellmanLimLoop_some (ctx : Ctx α) (g : List ℕ) (fits : α → Bool) (k : ℕ)
    (hg : g.length = ctx.n - 1) :
    ∀ (is : List ℕ) (s : Split α), (∀ i ∈ is, i < ctx.n - 1) →
      ∃ s', bellmanLimLoop ctx g fits k is s = some s' ∧ s'.preds 0 = s.preds 0 := by
  intro is
  induction is with
  | nil => intro s _; exact ⟨s, rfl, rfl⟩
  | cons i is ih =>
    intro s hi
    have hi0 := hi i (by simp)
    obtain ⟨s1, h1, h2⟩ := bellmanInner_some ctx g fits k (k + 1) i hg (ctx.n - (i + 1)) (i + 1)
      (lit 0) (lit 0) s (by omega) (by omega)
    unfold bellmanLimLoop
    split
    · exact ⟨s, rfl, rfl⟩
    · rw [h1]
      obtain ⟨s', h3, h4⟩ := ih s1 (fun j hj => hi j (by simp [hj]))
      refine ⟨s', h3, ?_⟩
      rw [h4]
      funext c
      rcases h2 0 c with h | h
      · exact h
      · omega

theorem bellmanLimRows_some (ctx : Ctx α) (g : List ℕ) (fits : α → Bool)
    (hg : g.length = ctx.n - 1) :
    ∀ (ks : List ℕ) (s : Split α),
      ∃ s', bellmanLimRows ctx g fits ks s = some s' ∧ s'.preds 0 = s.preds 0 := by
  intro ks
  induction ks with
  | nil => intro s; exact ⟨s, rfl, rfl⟩
  | cons k ks ih =>
    intro s
    obtain ⟨s1, h1, h2⟩ := bellmanLimLoop_some ctx g fits k hg (List.range' k (ctx.n - 1 - k)) s
      (by intro i hi; rw [List.mem_range'_1] at hi; omega)
    unfold bellmanLimRows
    rw [h1]
    obtain ⟨s', h3, h4⟩ := ih s1
    exact ⟨s', h3, by rw [h4, h2]⟩

theorem linearLimLoop_some (n k : ℕ) :
    ∀ (m i : ℕ) (s : Split α) (q : List ℕ), q ≠ [] → (∀ x ∈ q, k ≤ x ∧ x < i) → k ≤ i →
      ∃ s', linearLimLoop n k (List.range' i m) s q = some s' ∧ s'.preds 0 = s.preds 0 := by
  intro m
  induction m with
  | zero => intro i s q _ _ _; exact ⟨s, rfl, rfl⟩
  | succ m ih =>
    intro i s q hq hlt h0
    obtain ⟨s1, q', front, h1, h2, h3, -, -, -, h5, -⟩ := linearStep_some n k (k + 1) s q i k hq hlt h0
    rw [List.range'_succ]
    unfold linearLimLoop
    rw [if_neg hq, h1]
    obtain ⟨s', h6, h7⟩ := ih (i + 1) s1 q' h2 h3 (by omega)
    refine ⟨s', h6, ?_⟩
    rw [h7, h5]
    funext c
    simp [setCell]

theorem linearLimRows_some (n : ℕ) :
    ∀ (ks : List ℕ) (s : Split α),
      ∃ s', linearLimRows n ks s = some s' ∧ s'.preds 0 = s.preds 0 := by
  intro ks
  induction ks with
  | nil => intro s; exact ⟨s, rfl, rfl⟩
  | cons k ks ih =>
    intro s
    obtain ⟨s1, h1, h2⟩ := linearLimLoop_some n k (n - (k + 1)) (k + 1) s [k] (by simp)
      (by intro x hx; simp at hx; omega) (by omega)
    unfold linearLimRows
    rw [h1]
    obtain ⟨s', h3, h4⟩ := ih s1
    exact ⟨s', h3, by rw [h4, h2]⟩

/-! ### reading the routes -/

theorem segment_take (g : List ℕ) (b e : ℕ) (hb : b ≤ e) :
    g.take b ++ segment g b e = g.take e := by
  unfold segment
  have := List.take_append_drop b (g.take e)
  rw [List.take_take, Nat.min_eq_left hb] at this
  exact this

theorem segment_length (g : List ℕ) (b e : ℕ) (he : e ≤ g.length) :
    (segment g b e).length = e - b := by
  simp [segment, Nat.min_eq_left he]

theorem extract_spec (preds : ℕ → ℕ) (hp : ∀ i, 0 < i → preds i < i) (g : List ℕ) :
    ∀ (fuel e : ℕ) (acc : List (List ℕ)), e ≤ fuel → e ≤ g.length →
      ∃ routes, extract preds g fuel e acc = some (acc ++ routes) ∧
        routes.reverse.flatten = g.take e ∧ (∀ r ∈ routes, r ≠ []) := by
  intro fuel
  induction fuel with
  | zero =>
    intro e acc he _
    obtain rfl : e = 0 := by omega
    exact ⟨[], by simp [extract], by simp, by simp⟩
  | succ fuel ih =>
    intro e acc he hg
    cases e with
    | zero => exact ⟨[], by simp [extract], by simp, by simp⟩
    | succ e =>
      have hlt := hp (e + 1) (by omega)
      unfold extract
      obtain ⟨routes, h1, h2, h3⟩ := ih (preds (e + 1))
        (acc ++ [segment g (preds (e + 1)) (e + 1)]) (by omega) (by omega)
      refine ⟨segment g (preds (e + 1)) (e + 1) :: routes, by rw [h1]; simp, ?_, ?_⟩
      · rw [List.reverse_cons, List.flatten_append, h2]
        simp only [List.flatten_cons, List.flatten_nil, List.append_nil]
        exact segment_take g _ _ (by omega)
      · intro r hr
        rcases List.mem_cons.mp hr with rfl | hr
        · intro hc
          have := congrArg List.length hc
          rw [segment_length g _ _ hg] at this
          simp at this; omega
        · exact h3 r hr

end Split
end Verif
