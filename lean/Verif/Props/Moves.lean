import Verif.Lemmas.MovePerform
import Verif.Lemmas.MoveCost
import Verif.Lemmas.Load

/-!
# C08, C09: the local-search moves
-/

namespace Verif
open F64 LS

section
variable {α : Type} [F64 α]

/-- **C08**. In any state that holds routes `R` (links, stored data and cache consistent), evaluating
any move on any pair the search may pass never fails, and unless it reports `0` performing the move
never fails and gives a consistent state that holds routes `R'`: the routes `R` changed exactly as the
move prescribes (`MoveEffect`), with the same customers and the same number of routes. -/
theorem C08_moves_keep_customers (ctx : Ctx α) (s : LS α) (R : List (List ℕ)) (h : Repr ctx s R)
    (u : ℕ) (v : Ref) (m : MoveKind) (hu : u ∈ R.flatten) (hv : Tried R u v m) :
    ∃ d, m.delta ctx s (.cust u) v = some d ∧ (d = lit 0 ∨ ∃ R' s',
      m.perform ctx { s with moveCount := s.moveCount + 1 } (.cust u) v = some s' ∧
      Repr ctx s' R' ∧ MoveEffect R u v m R' ∧ Spec.IsPartition ctx.n R' ∧ R'.length = R.length) := by
  obtain ⟨d, e, hd⟩ := delta_total h hu hv
  refine ⟨d, e, hd.imp id ?_⟩
  rintro ⟨R', hm⟩
  obtain ⟨s', es, hr, -⟩ := MoveEffect.perform h hm
  exact ⟨R', s', es, hr, hm, hr.part, hm.perm.2⟩

/-- The routes held by a state are unique, so "the routes `R'`" above are what `update_individual`
writes back. -/
theorem C08_routes_unique (ctx : Ctx α) (s : LS α) (R R' : List (List ℕ)) (h : Repr ctx s R)
    (h' : Repr ctx s R') : R = R' := by
  have e1 := writeRoutes_all h (p := R) h.len
  have e2 := writeRoutes_all h' (p := R) h.len
  rw [e1] at e2
  simp only [Option.some.injEq, Prod.mk.injEq] at e2
  exact e2.2

end

/-- **C09** (exact arithmetic). Whenever a move reports a non-zero delta, performing it changes the
total penalized cost of the routes by exactly that delta. -/
theorem C09_delta_exact (ctx : Ctx ℚ) (s : LS ℚ) (R : List (List ℕ)) (h : Repr ctx s R)
    (h0 : ctx.demand 0 = 0) (hsym : ∀ a b, ctx.dist a b = ctx.dist b a)
    (u : ℕ) (v : Ref) (m : MoveKind) (hu : u ∈ R.flatten) (hv : Tried R u v m) (d : ℚ)
    (hd : m.delta ctx s (.cust u) v = some d) (hne : d ≠ 0) :
    ∃ R' s', m.perform ctx { s with moveCount := s.moveCount + 1 } (.cust u) v = some s' ∧
      Repr ctx s' R' ∧
      Spec.solCost ctx.dist ctx.demand ctx.cap s.pen R' =
        Spec.solCost ctx.dist ctx.demand ctx.cap s.pen R + d := by
  obtain ⟨d', e, hc⟩ := delta_total h hu hv
  rw [hd] at e
  cases e
  rcases hc with rfl | ⟨R', hm⟩
  · exact absurd rfl hne
  · obtain ⟨s', es, hr, -⟩ := MoveEffect.perform h hm
    refine ⟨R', s', es, hr, ?_⟩
    have := hm.delta h h0 hsym
    rw [hd] at this
    cases this
    ring

/-- **C09** (exact arithmetic). Whenever a move applies to `u` and `v` with result `R'`, it reports
exactly the cost change to `R'`, also when that is zero. -/
theorem C09_delta_of_applicable (ctx : Ctx ℚ) (s : LS ℚ) (R R' : List (List ℕ)) (h : Repr ctx s R)
    (h0 : ctx.demand 0 = 0) (hsym : ∀ a b, ctx.dist a b = ctx.dist b a)
    (u : ℕ) (v : Ref) (m : MoveKind) (hm : MoveEffect R u v m R') :
    m.delta ctx s (.cust u) v = some (Spec.solCost ctx.dist ctx.demand ctx.cap s.pen R' -
      Spec.solCost ctx.dist ctx.demand ctx.cap s.pen R) := hm.delta h h0 hsym

/-! ### A concrete state -/

namespace MoveEx

/-- Five nodes on a line, the depot at 0; capacity 2, unit demands. -/
def ctx : Ctx ℚ where
  n := 5
  dist a b := |(a : ℚ) - b|
  demand a := if a = 0 then 0 else 1
  cap := 2
  pen := 10
  lng _ := 0
  lat _ := 0

/-- Two routes and an empty one. -/
def ind : Individual ℚ := ⟨0, [], [[1, 3], [2, 4], []], 0, SolEval.new⟩

/-- A new local search. -/
def ls : LS ℚ := LS.new ctx 3 2 (fun _ => 0) [1, 2, 2, 3, 1, 3, 2, 4, 3, 2] 2 1

theorem loaded : ∃ s, loadIndividual ctx ind ls = some s ∧ Repr ctx s [[1, 3], [2, 4], []] ∧
    s.pen = 10 := by
  obtain ⟨s, e, h, f, -⟩ := loadIndividual_repr (ctx := ctx) (s := ls) (x := ind)
    ⟨fun _ _ => rfl, fun _ _ => ⟨rfl, rfl⟩, by simp [ls, LS.new]⟩ rfl
    (by rw [Spec.IsPartition]; decide) rfl
  refine ⟨s, e, h, ?_⟩
  rw [f.pen]
  simp [ls, LS.new, ctx]

/-- The hypotheses of C08 and C09 are met by a state the code reaches, for two customers and for a
customer and the start depot of the empty route, and the reported deltas are not trivial. -/
example : ∃ s, Repr ctx s [[1, 3], [2, 4], []] ∧ ctx.demand 0 = 0 ∧
    (∀ a b, ctx.dist a b = ctx.dist b a) ∧ 3 ∈ ([[1, 3], [2, 4], []] : List (List ℕ)).flatten ∧
    Tried [[1, 3], [2, 4], []] 3 (.cust 2) .relocateSingle ∧
    Tried [[1, 3], [2, 4], []] 3 (.start 2) .twoOptInter ∧
    MoveKind.relocateSingle.delta ctx s (.cust 3) (.cust 2) = some 6 := by
  obtain ⟨s, e, h, hp⟩ := loaded
  refine ⟨s, h, rfl, fun a b => abs_sub_comm _ _, by simp, .inl ⟨2, rfl, by simp, by simp⟩,
    .inr ⟨⟨2, by simp, rfl⟩, by simp⟩, ?_⟩
  have hm : MoveEffect [[1, 3], [2, 4], []] 3 (.cust 2) .relocateSingle [[1], [2, 3, 4], []] :=
    .relocateSingle (Relocated.inter (S := [3]) (S' := [3]) 0 1 [1] [] [2] [4] (by simp) rfl rfl rfl)
  rw [hm.delta h rfl (fun a b => abs_sub_comm _ _), hp]
  congr 1
  simp [Spec.solCost, Spec.routeCost, Spec.routeDist, Spec.routeLoad, Spec.pathDist, ctx]
  norm_num

end MoveEx
end Verif
