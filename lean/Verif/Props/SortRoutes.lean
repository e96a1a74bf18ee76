import Verif.Model.Individual
import Verif.Lemmas.Evaluate

/-! # C03: sorting the routes of an individual -/

namespace Verif
open F64 Individual

theorem writeGenotype_some :
    ∀ (xs : List ℕ) (i : ℕ) (g : List ℕ), i + xs.length ≤ g.length →
      writeGenotype xs i g = some (g.take i ++ xs ++ g.drop (i + xs.length)) := by
  intro xs
  induction xs with
  | nil => intro i g _; simp [writeGenotype]
  | cons x xs ih =>
    intro i g h
    simp only [List.length_cons] at h
    unfold writeGenotype
    rw [setIdx_of_lt _ (by omega)]
    simp only []
    rw [ih (i + 1) _ (by simp; omega)]
    congr 1
    rw [List.take_set, List.take_succ_eq_append_getElem (by omega),
      List.set_append_right _ _ (by simp)]
    rw [List.drop_set_of_lt (by omega)]
    simp [show min i g.length = i by omega, Nat.add_assoc, Nat.add_comm 1]

variable {α : Type} [F64 α]

theorem sortRoutes_perm_of_some (atan2 : α → α → α) (ctx : Ctx α) (x y : Individual α)
    (h : sortRoutes atan2 ctx x = some y) : y.phenotype.Perm x.phenotype := by
  unfold sortRoutes at h
  dsimp only at h
  split at h
  · simp at h
  · split at h
    · simp at h
    · simp only [Option.some.injEq] at h
      rw [← h]
      refine ((stableSort_perm _ _).map _).trans ?_
      simp [List.map_map, Function.comp_def]

/-- **C03** (structure, any arithmetic). If `sort_routes` does not meet a NaN angle, it only reorders
the routes and makes the giant tour the concatenation of the reordered routes. -/
theorem C03_sort_routes_perm (atan2 : α → α → α) (ctx : Ctx α) (x : Individual α)
    (hlen : x.genotype.length = x.phenotype.flatten.length)
    (hnan : ∀ r ∈ x.phenotype, (routeAngle atan2 ctx r ≤. routeAngle atan2 ctx r) = true) :
    ∃ y, sortRoutes atan2 ctx x = some y ∧ y.phenotype.Perm x.phenotype ∧
      y.genotype = y.phenotype.flatten ∧ y.number = x.number ∧ y.fitness = x.fitness ∧
      y.evaluation = x.evaluation := by
  have hperm : ((stableSort angleLe (x.phenotype.map fun r => (routeAngle atan2 ctx r, r))).map
      (·.2)).Perm x.phenotype := by
    refine ((stableSort_perm _ _).map _).trans ?_
    simp [Function.comp_def]
  unfold sortRoutes
  rw [if_neg]
  · simp only []
    rw [writeGenotype_some _ _ _ (by rw [hlen, ← hperm.flatten.length_eq]; simp)]
    refine ⟨_, rfl, hperm, ?_, rfl, rfl, rfl⟩
    have : x.genotype.length = ((stableSort angleLe (x.phenotype.map fun r =>
        (routeAngle atan2 ctx r, r))).map (·.2)).flatten.length := by
      rw [hlen, hperm.flatten.length_eq]
    simp [-List.length_flatten, this]
  · rintro ⟨_, h⟩
    simp only [List.any_map, List.any_eq_true, Function.comp, Bool.not_eq_true'] at h
    obtain ⟨r, hr, h⟩ := h
    rw [hnan r hr] at h
    simp at h

/-- **C03** (order, exact arithmetic). `sort_routes` never panics, reorders the routes by the angle of
their barycentre and puts the empty routes last; customers stay on their route in their order, the cost
is unchanged. `atan2` is any function with values below 10 (the true one is at most π). -/
theorem C03_sort_routes (atan2 : ℚ → ℚ → ℚ) (hatan : ∀ y x, atan2 y x < 10) (ctx : Ctx ℚ)
    (x : Individual ℚ) (hlen : x.genotype.length = x.phenotype.flatten.length) :
    ∃ y, sortRoutes atan2 ctx x = some y ∧ y.phenotype.Perm x.phenotype ∧
      y.genotype = y.phenotype.flatten ∧
      y.phenotype.Pairwise (fun r s => routeAngle atan2 ctx r ≤ routeAngle atan2 ctx s) ∧
      y.phenotype.Pairwise (fun r s => r = [] → s = []) ∧
      ∀ pen, Spec.solCost ctx.dist ctx.demand ctx.cap pen y.phenotype
        = Spec.solCost ctx.dist ctx.demand ctx.cap pen x.phenotype := by
  obtain ⟨y, hy, hperm, hg, -⟩ := C03_sort_routes_perm atan2 ctx x hlen (by simp)
  have hpw : y.phenotype.Pairwise
      (fun r s => routeAngle atan2 ctx r ≤ routeAngle atan2 ctx s) := by
    have hyp : y.phenotype = (stableSort angleLe (x.phenotype.map fun r =>
        (routeAngle atan2 ctx r, r))).map (·.2) := by
      unfold sortRoutes at hy
      dsimp only at hy
      split at hy
      · simp at hy
      · split at hy
        · simp at hy
        · simp only [Option.some.injEq] at hy
          rw [← hy]
    have hs := pairwise_stableSort (le := angleLe (α := ℚ))
      (fun a b c => by simp [angleLe]; exact fun h1 h2 => le_trans h1 h2)
      (fun a b => by simp [angleLe]; exact le_total _ _)
      (x.phenotype.map fun r => (routeAngle atan2 ctx r, r))
    rw [hyp, List.pairwise_map]
    refine List.Pairwise.imp_of_mem ?_ hs
    intro a b ha hb hab
    have ha' := (stableSort_perm _ _).mem_iff.mp ha
    have hb' := (stableSort_perm _ _).mem_iff.mp hb
    simp only [List.mem_map] at ha' hb'
    obtain ⟨r, _, rfl⟩ := ha'
    obtain ⟨s, _, rfl⟩ := hb'
    simpa [angleLe] using hab
  refine ⟨y, hy, hperm, hg, hpw, ?_, ?_⟩
  · refine hpw.imp ?_
    intro r s hrs hr
    by_contra hs
    have h1 : routeAngle atan2 ctx r = 10 := by simp [routeAngle, hr]
    have h2 : routeAngle atan2 ctx s < 10 := by
      unfold routeAngle
      rw [if_neg (by simpa using hs)]
      exact hatan _ _
    linarith
  · intro pen
    exact (hperm.map _).sum_eq

/-- A three-customer individual with an empty route in front meets the hypotheses. -/
example : (∀ y x : ℚ, (fun _ _ => 3 : ℚ → ℚ → ℚ) y x < 10) ∧
    (⟨0, [2, 1, 3], [[], [3, 1], [2]], 0, SolEval.new⟩ : Individual ℚ).genotype.length
      = ([[], [3, 1], [2]] : List (List ℕ)).flatten.length :=
  ⟨fun _ _ => by norm_num, by simp⟩

end Verif
