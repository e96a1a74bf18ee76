import Verif.Lemmas.Evaluate

/-! # C01, C02: evaluation of a solution -/

namespace Verif
open F64

variable {α : Type} [F64 α]

/-- **C01.** Evaluating routes whose nodes are in range never panics, and reports the true distance,
overload and penalized cost of every route, the true total, and feasibility exactly when no route
exceeds the capacity by more than `1e-6` – whatever was in the evaluation object before. -/
theorem C01_evaluate_exact (ctx : Ctx ℚ) (e : SolEval ℚ) (sol : List (List ℕ)) (hn : 0 < ctx.n)
    (hr : ∀ r ∈ sol, ∀ x ∈ r, x < ctx.n) :
    ∃ e', evaluate ctx e sol = some e' ∧
      e'.cost = Spec.solCost ctx.dist ctx.demand ctx.cap ctx.pen sol ∧
      (e'.feasible = true ↔ Spec.CapFeasible ctx.demand ctx.cap (1 / 1000000) sol) ∧
      e'.routes.map (·.distance) = sol.map (Spec.routeDist ctx.dist) ∧
      e'.routes.map (·.overload) = sol.map (fun r => Spec.routeLoad ctx.demand r - ctx.cap) ∧
      e'.routes.map (·.cost) = sol.map (Spec.routeCost ctx.dist ctx.demand ctx.cap ctx.pen) := by
  obtain ⟨e', h, -, -, -⟩ := evalRoutes_some ctx ctx.n hn sol 0
    { e.reset sol.length ctx.n with cost := lit 0, feasible := true } hr
    (by simp [SolEval.reset, resize_length]) (by simp [SolEval.reset, resize_length])
    (by simp [SolEval.reset, resize_length])
  obtain ⟨h1, h2, h3⟩ := evalRoutes_rat ctx sol 0 _ _ h (by simp [SolEval.reset, resize_length])
  refine ⟨e', h, ?_, ?_, ?_, ?_, ?_⟩
  · simpa using h1
  · simpa using h2
  · rw [h3]; simp [Function.comp_def]
  · rw [h3]; simp [Function.comp_def]
  · rw [h3]; simp [Function.comp_def]

/-- Two customers, one route too many: the hypotheses of `C01_evaluate_exact` are met. -/
example : let ctx : Ctx ℚ := ⟨3, fun i j => if i = j then 0 else 5, fun _ => 7, 10, 2, fun _ => 0, fun _ => 0⟩
    0 < ctx.n ∧ ∀ r ∈ [[2, 1], []], ∀ x ∈ r, x < ctx.n := by decide

/-- **C02.** After evaluating a solution that visits every customer exactly once, the arrays have one
entry per node and the recorded predecessor / successor of each customer is the node just before /
after it on its route, the depot `0` standing at both ends. Holds for any arithmetic and any earlier
content of the object. -/
theorem C02_neighbours_exact (ctx : Ctx α) (e : SolEval α) (sol : List (List ℕ)) (hn : 0 < ctx.n)
    (hp : Spec.IsPartition ctx.n sol) :
    ∃ e', evaluate ctx e sol = some e' ∧ e'.preds.length = ctx.n ∧ e'.succs.length = ctx.n ∧
      ∀ r ∈ sol, ∀ before a b after, 0 :: (r ++ [0]) = before ++ a :: b :: after →
        (b ≠ 0 → e'.preds[b]? = some a) ∧ (a ≠ 0 → e'.succs[a]? = some b) := by
  have hmem : ∀ x, x ∈ sol.flatten → 1 ≤ x ∧ x < ctx.n := by
    intro x hx
    have := (hp.mem_iff).mp hx
    simp [Spec.customers, List.mem_range'_1] at this
    omega
  obtain ⟨e', h, h1, h2, -⟩ := evalRoutes_some ctx ctx.n hn sol 0
    { e.reset sol.length ctx.n with cost := lit 0, feasible := true }
    (fun r hr x hx => (hmem x (List.mem_flatten.mpr ⟨r, hr, hx⟩)).2)
    (by simp [SolEval.reset, resize_length]) (by simp [SolEval.reset, resize_length])
    (by simp [SolEval.reset, resize_length])
  refine ⟨e', h, h1, h2, ?_⟩
  have hnd : sol.flatten.Nodup := hp.nodup_iff.mpr (by
    unfold Spec.customers; exact List.nodup_range')
  exact (evalRoutes_nbrs ctx sol 0 _ _ h hnd
    (fun hc => absurd (hmem 0 hc).1 (by omega))).1

/-- Three customers on two routes form a partition. -/
example : Spec.IsPartition 4 [[3, 1], [], [2]] := by
  unfold Spec.IsPartition Spec.customers; decide

/-- Evaluation does not depend on what the evaluation object held before: cost, feasibility and the
per-route figures are the same for any earlier content (exact arithmetic). -/
theorem C01_evaluate_stale_independent (ctx : Ctx ℚ) (e₁ e₂ : SolEval ℚ) (sol : List (List ℕ))
    (r₁ r₂ : SolEval ℚ) (h₁ : evaluate ctx e₁ sol = some r₁) (h₂ : evaluate ctx e₂ sol = some r₂) :
    r₁.cost = r₂.cost ∧ r₁.feasible = r₂.feasible ∧ r₁.routes = r₂.routes := by
  obtain ⟨a1, a2, a3⟩ := evalRoutes_rat ctx sol 0 _ _ h₁ (by simp [SolEval.reset, resize_length])
  obtain ⟨b1, b2, b3⟩ := evalRoutes_rat ctx sol 0 _ _ h₂ (by simp [SolEval.reset, resize_length])
  refine ⟨by rw [a1, b1], ?_, by rw [a3, b3]; simp⟩
  have : (r₁.feasible = true ↔ r₂.feasible = true) := by rw [a2, b2]
  cases h : r₁.feasible <;> cases h' : r₂.feasible <;> simp_all

end Verif
