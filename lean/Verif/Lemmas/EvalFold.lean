import Verif.Lemmas.Good

/-! # The values computed by an evaluation, in any arithmetic -/

namespace Verif
open F64

variable {α : Type} [F64 α]

/-- The length accumulated from `last` on through the listed stops and back to the depot. -/
def tripAlong (ctx : Ctx α) : ℕ → α → List ℕ → α
  | last, acc, [] => acc +. ctx.dist last 0
  | last, acc, c :: l => tripAlong ctx c (acc +. ctx.dist last c) l

/-- The accumulated load. -/
def loadAlong (ctx : Ctx α) (acc : α) (l : List ℕ) : α := l.foldl (fun s c => s +. ctx.demand c) acc

/-- What is computed for a route. -/
def routeVal (ctx : Ctx α) (l : List ℕ) : RouteEval α :=
  ⟨tripAlong ctx 0 (lit 0) l, loadAlong ctx (lit 0) l -. ctx.cap,
    routeCost (tripAlong ctx 0 (lit 0) l) (loadAlong ctx (lit 0) l -. ctx.cap) ctx.pen⟩

theorem evalNodes_vals (ctx : Ctx α) : ∀ (nodes : List ℕ) (a a' : EvalAcc α), evalNodes ctx nodes a = some a' →
    a'.load = loadAlong ctx a.load nodes ∧ a'.dist +. ctx.dist a'.last 0 = tripAlong ctx a.last a.dist nodes
  | [], a, a', h => by
    rw [evalNodes, Option.some.injEq] at h
    subst h
    exact ⟨rfl, rfl⟩
  | x :: xs, a, a', h => by
    unfold evalNodes at h
    split at h
    · exact evalNodes_vals ctx xs _ _ h
    · simp at h

theorem evalRoutes_vals (ctx : Ctx α) :
    ∀ (sol : List (List ℕ)) (idx : ℕ) (e e' : SolEval α),
      evalRoutes ctx sol idx e = some e' → e.routes.length = idx + sol.length →
      e'.cost = sol.foldl (fun c r => c +. (routeVal ctx r).cost) e.cost ∧
      (e'.feasible = true ↔ e.feasible = true ∧ ∀ r ∈ sol, approxGt (routeVal ctx r).overload (lit 0) = false) ∧
      e'.routes = e.routes.take idx ++ sol.map (routeVal ctx) := by
  intro sol
  induction sol with
  | nil =>
    intro idx e e' h hlen
    simp only [evalRoutes, Option.some.injEq] at h
    subst h
    simp only [List.length_nil, Nat.add_zero] at hlen
    simp [← hlen]
  | cons r rs ih =>
    intro idx e e' h hlen
    unfold evalRoutes at h
    split at h
    · simp at h
    · rename_i a ha
      obtain ⟨hload, hdist⟩ := evalNodes_vals ctx r _ _ ha
      split at h
      · simp at h
      · simp only [] at h
        split at h
        · simp at h
        · rename_i succs hs routes hroutes
          obtain ⟨hidx, rfl⟩ := setIdx_eq_some hroutes
          obtain ⟨h1, h2, h3⟩ := ih _ _ _ h (by simp [hlen]; omega)
          dsimp only at hload hdist h1 h2 h3
          have hv : (⟨a.dist +. ctx.dist a.last 0, a.load -. ctx.cap,
              routeCost (a.dist +. ctx.dist a.last 0) (a.load -. ctx.cap) ctx.pen⟩ : RouteEval α) =
              routeVal ctx r := by rw [hload, hdist]; rfl
          have hv2 : a.load -. ctx.cap = (routeVal ctx r).overload := by rw [← hv]
          have hv3 : routeCost (a.dist +. ctx.dist a.last 0) (a.load -. ctx.cap) ctx.pen =
              (routeVal ctx r).cost := by rw [← hv]
          refine ⟨?_, ?_, ?_⟩
          · rw [h1, hv3]; rfl
          · rw [h2, hv2]
            simp only [List.forall_mem_cons]
            cases approxGt (routeVal ctx r).overload (lit 0) <;> simp
          · rw [h3, hv, List.take_set, List.map_cons, List.take_succ_eq_append_getElem (by omega),
              List.set_append_right _ _ (by simp)]
            simp [Nat.min_eq_left (Nat.le_of_lt hidx)]

/-- The evaluation of a complete individual. -/
theorem Individual.Good.vals {ctx : Ctx α} {x : Individual α} (h : x.Good ctx) :
    x.cost = x.phenotype.foldl (fun c r => c +. (routeVal ctx r).cost) (lit 0) ∧
    (x.isFeasible = true ↔ ∀ r ∈ x.phenotype, approxGt (routeVal ctx r).overload (lit 0) = false) ∧
    x.evaluation.routes = x.phenotype.map (routeVal ctx) := by
  obtain ⟨e, he⟩ := h.eval
  obtain ⟨h1, h2, h3⟩ := evalRoutes_vals ctx _ 0 _ _ he (by simp [SolEval.reset, resize_length])
  exact ⟨h1, (by simpa using h2 : x.evaluation.feasible = true ↔ _), by simpa using h3⟩

/-- The stops of one route are fewer than the nodes. -/
theorem Individual.Good.short {ctx : Ctx α} {x : Individual α} (h : x.Good ctx) {l : List ℕ}
    (hl : l ∈ x.phenotype) : l.length ≤ ctx.n - 1 := by
  have h1 : l.length ≤ x.phenotype.flatten.length := (List.sublist_flatten_of_mem hl).length_le
  rw [h.part.length_eq] at h1
  simpa [Spec.customers] using h1

end Verif
