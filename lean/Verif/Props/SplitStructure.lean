import Verif.Lemmas.Split

/-! # C04: the unlimited split loses no customer, for any arithmetic and any history -/

namespace Verif
open F64 Split

variable {α : Type} [F64 α]

/-- Every state a `Split` object for instances of dimension `n` and capacity `cap` can reach: created by `new`, then any
sequence of `load`, `split` and `split_limited_fleet` calls, on any tours, with any penalty and any
fleet bound. -/
inductive SplitReachable (cfg : SplitCfg α) (n : ℕ) (cap : α) : Split α → Prop
  | new (ctx : Ctx α) (h : ctx.n = n) (hc : ctx.cap = cap) : SplitReachable cfg n cap (Split.new ctx)
  | load (ctx : Ctx α) (h : ctx.n = n) (s s' : Split α) (g : List ℕ) :
      SplitReachable cfg n cap s → load ctx s g = some s' → SplitReachable cfg n cap s'
  | split (ctx : Ctx α) (h : ctx.n = n) (s s' : Split α) (g : List ℕ) (mv : ℕ)
      (r : List (List ℕ) × Bool) :
      SplitReachable cfg n cap s → g.length = n - 1 → split cfg ctx s g mv = some (s', r) →
      SplitReachable cfg n cap s'
  | limited (ctx : Ctx α) (h : ctx.n = n) (s s' : Split α) (g : List ℕ) (mv : ℕ)
      (r : List (List ℕ) × Bool) :
      SplitReachable cfg n cap s → g.length = n - 1 → splitLimited cfg ctx s g mv = some (s', r) →
      SplitReachable cfg n cap s'

theorem split_core (cfg : SplitCfg α) (ctx : Ctx α) (s : Split α) (g : List ℕ) (mv : ℕ)
    (hg : g.length = ctx.n - 1) (hp : PredOK s) :
    ∃ s' routes, split cfg ctx s g mv
        = some (s', pad cfg.numVehicles routes, decide (routes.length ≤ mv)) ∧ PredOK s' ∧
      routes.reverse.flatten = g ∧ ∀ r ∈ routes, r ≠ [] := by
  have hp' : PredOK (resetRow0 ctx.n s) := hp
  have hrun : ∃ s', (if cfg.linear then linearLoop ctx.n (List.range' 1 (ctx.n - 1)) (resetRow0 ctx.n s) [0]
      else bellmanLoop ctx g (fun x => approxLte x (ctx.cap *. cfg.capacityFactor))
        (List.range (ctx.n - 1)) (resetRow0 ctx.n s)) = some s' ∧ PredOK s' := by
    split
    · exact linearLoop_some ctx.n (ctx.n - 1) 1 _ [0] (by simp) (by simp) (by omega) hp'
    · exact bellmanLoop_some ctx g _ hg _ _ (by simp) hp'
  obtain ⟨s', h1, h2⟩ := hrun
  obtain ⟨routes, h3, h4, h5⟩ := extract_spec (s'.preds 0) h2 g (ctx.n - 1) (ctx.n - 1) []
    (le_refl _) (by omega)
  refine ⟨s', routes, ?_, h2, ?_, h5⟩
  · unfold Split.split
    dsimp only
    rw [h1]
    dsimp only
    rw [h3]
    simp
  · rw [h4, ← hg, List.take_length]

theorem loadLoop_preds (ctx : Ctx α) (g : List ℕ) :
    ∀ (is : List ℕ) (s s' : Split α), loadLoop ctx g is s = some s' → s'.preds = s.preds := by
  intro is
  induction is with
  | nil => intro s s' h; simp [loadLoop] at h; rw [h]
  | cons i is ih =>
    intro s s' h
    unfold loadLoop at h
    split at h
    · simp at h
    · rename_i s1 h1
      rw [ih _ _ h]
      unfold loadStep at h1
      dsimp only at h1
      split at h1
      · simp at h1
      · split at h1
        · simp at h1
        · simp only [Option.some.injEq] at h1
          rw [← h1]

theorem splitReachable_predOK (cfg : SplitCfg α) (n : ℕ) (cap : α) (s : Split α) (h : SplitReachable cfg n cap s) :
    PredOK s := by
  induction h with
  | new ctx _ _ => intro i hi; exact hi
  | load ctx _ s s' g _ hl ih =>
    intro i hi
    rw [loadLoop_preds ctx g _ _ _ hl]
    exact ih i hi
  | split ctx hn s s' g mv r _ hg hs ih =>
    obtain ⟨s1, routes, h1, h2, -⟩ := split_core cfg ctx s g mv (by rw [hg, hn]) ih
    rw [h1] at hs
    simp only [Option.some.injEq, Prod.mk.injEq] at hs
    rw [← hs.1]; exact h2
  | limited ctx hn s s' g mv r _ hg hs ih =>
    have hrun : ∃ s1, (if cfg.linear then linearLimRows ctx.n (List.range mv)
          (resetAll (cfg.numVehicles + 1) ctx.n s)
        else bellmanLimRows ctx g (fun x => x ≤. ctx.cap *. cfg.capacityFactor)
          (List.range mv) (resetAll (cfg.numVehicles + 1) ctx.n s)) = some s1 ∧
        s1.preds 0 = s.preds 0 := by
      split
      · exact linearLimRows_some ctx.n _ _
      · exact bellmanLimRows_some ctx g _ (by rw [hg, hn]) _ _
    obtain ⟨s1, h1, h2⟩ := hrun
    unfold splitLimited at hs
    dsimp only at hs
    rw [h1] at hs
    simp only [Option.some.injEq, Prod.mk.injEq] at hs
    rw [← hs.1]
    intro i hi
    rw [h2]
    exact ih i hi

/-- **C04.** In any arithmetic, with the linear or the Bellman variant, from any state the split object
can be in: loading a giant tour of all `n - 1` customers and splitting it terminates without panic; the
non-empty routes, taken last to first, are consecutive segments whose concatenation is the giant tour;
the rest are empty routes filling up to the fleet size; the returned flag tells whether the number of
non-empty routes is within the allowed maximum. -/
theorem C04_split_keeps_tour (cfg : SplitCfg α) (ctx : Ctx α) (s : Split α)
    (hs : SplitReachable cfg ctx.n ctx.cap s) (g : List ℕ) (hg : g.length = ctx.n - 1) (maxVehicles : ℕ) :
    ∃ s₁ s₂ routes empties flag, load ctx s g = some s₁ ∧
      split cfg ctx s₁ g maxVehicles = some (s₂, routes ++ empties, flag) ∧
      routes.reverse.flatten = g ∧ (∀ r ∈ routes, r ≠ []) ∧ (∀ r ∈ empties, r = []) ∧
      (routes ++ empties).length = max routes.length cfg.numVehicles ∧
      (flag = true ↔ routes.length ≤ maxVehicles) := by
  obtain ⟨s1, h1, h2, -⟩ := load_some ctx s g hg
  have hp : PredOK s1 := by
    intro i hi; rw [h2]; exact splitReachable_predOK cfg ctx.n ctx.cap s hs i hi
  obtain ⟨s2, routes, h3, -, h4, h5⟩ := split_core cfg ctx s1 g maxVehicles hg hp
  refine ⟨s1, s2, routes, List.replicate (cfg.numVehicles - routes.length) [],
    decide (routes.length ≤ maxVehicles), h1, h3, h4, h5, ?_, ?_, by simp⟩
  · intro r hr; exact (List.mem_replicate.mp hr).2
  · simp; omega

/-- A fresh split object and a tour of three customers meet the hypotheses. -/
example : let ctx : Ctx ℚ := ⟨4, fun _ _ => 1, fun _ => 1, 2, 1, fun _ => 0, fun _ => 0⟩
    SplitReachable ⟨true, 1.5, 3⟩ ctx.n ctx.cap (Split.new ctx) ∧ [2, 3, 1].length = ctx.n - 1 :=
  ⟨.new _ rfl rfl, rfl⟩

end Verif
