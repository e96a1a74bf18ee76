import Verif.Props.LocalSearch

/-!
# C14, C15: what the search loop leaves out
-/

namespace Verif
open F64 LS

section
variable {α : Type} [F64 α]

/-- When no move of a list is accepted, the state is unchanged and no delta is below `-1e-6`. -/
theorem tryMoves_false {ctx : Ctx α} {u v : Ref} : ∀ (ms : List MoveKind) {s s' : LS α},
    tryMoves ctx u v ms s = some (s', false) → s' = s ∧ ∀ m ∈ ms, ∃ d, m.delta ctx s u v = some d ∧
      approxLt d (lit 0) = false
  | [], s, s', h => by cases h; exact ⟨rfl, by simp⟩
  | m :: ms, s, s', h => by
    rw [tryMoves] at h
    obtain ⟨d, hd, h⟩ := Option.bind_eq_some_iff.mp h
    split at h
    · obtain ⟨_, -, h⟩ := Option.map_eq_some_iff.mp h
      simp at h
    · next hlt =>
      obtain ⟨h1, h2⟩ := tryMoves_false ms h
      refine ⟨h1, fun k hk => ?_⟩
      rcases List.mem_cons.mp hk with rfl | hk
      · exact ⟨d, hd, by simpa using hlt⟩
      · exact h2 k hk

theorem tryMoves_of_false {ctx : Ctx α} {u v : Ref} : ∀ (ms : List MoveKind) {s : LS α},
    (∀ m ∈ ms, ∃ d, m.delta ctx s u v = some d ∧ approxLt d (lit 0) = false) →
    tryMoves ctx u v ms s = some (s, false)
  | [], s, _ => rfl
  | m :: ms, s, h => by
    obtain ⟨d, hd, hlt⟩ := h m (by simp)
    rw [tryMoves, hd, Option.bind_some, if_neg (by simp [hlt])]
    exact tryMoves_of_false ms fun k hk => h k (by simp [hk])

theorem depot_subset (f : MoveFlags) : ∀ m ∈ f.depot, m ∈ f.neighbor := by
  intro m hm
  simp only [MoveFlags.depot, MoveFlags.neighbor, List.mem_append] at hm ⊢
  tauto

/-- **C14** (refuted, general form). The branch taken when `v` directly follows a depot has no effect,
in any state and for any pair: it evaluates the same moves once more for `u` and `v` themselves, not for
the depot before `v`, so whatever the pair step does the neighbour moves alone do. -/
theorem C14_depot_branch_inert_refuted (ctx : Ctx α) (f : MoveFlags) (u v : Ref) (s : LS α)
    (p : LS α × Bool) (h : tryPair ctx f u v s = some p) : tryMoves ctx u v f.neighbor s = some p := by
  rw [tryPair] at h
  obtain ⟨⟨s', b⟩, hq, h1⟩ := Option.bind_eq_some_iff.mp h
  clear h
  rw [hq]
  cases b with
  | true => exact h1
  | false =>
    obtain ⟨rfl, hd⟩ := tryMoves_false _ hq
    dsimp only at h1
    rw [if_neg (by simp)] at h1
    obtain ⟨vp, -, h2⟩ := Option.bind_eq_some_iff.mp h1
    split at h2
    · rw [tryMoves_of_false f.depot fun m hm => hd m (depot_subset f m hm)] at h2
      exact h2
    · exact h2

/-- **C15** (refuted, general form). With SWAP* disabled the loop counter never leaves 0. -/
theorem C15_counter_stuck_refuted (ctx : Ctx α) (f : MoveFlags) (hf : f.swapStar = false) (ω : Oracle)
    (lc : ℕ) (s : LS α) (p : LS α × Bool × ℕ) (h : pass ctx f ω lc s = some p) : p.2.2 = lc := by
  rw [pass] at h
  obtain ⟨q, -, h⟩ := Option.bind_eq_some_iff.mp h
  rw [hf, if_neg (by simp)] at h
  cases h; rfl

/-- The moves between two customers never open an empty route. -/
theorem MoveEffect.keeps_empty {R R' : List (List ℕ)} {u c : ℕ} {m : MoveKind}
    (h : MoveEffect R u (.cust c) m R') : ∀ r : ℕ, R[r]? = some [] → R'[r]? = some [] := by
  have two : ∀ {r1 r2 : ℕ} {a b a' b' : List ℕ}, R[r1]? = some a → R[r2]? = some b → a ≠ [] → b ≠ [] →
      ∀ r : ℕ, R[r]? = some [] → ((R.set r1 a').set r2 b')[r]? = some [] := by
    intro r1 r2 a b a' b' h1 h2 ha hb r hr
    have n1 : r1 ≠ r := by rintro rfl; rw [h1] at hr; cases hr; exact ha rfl
    have n2 : r2 ≠ r := by rintro rfl; rw [h2] at hr; cases hr; exact hb rfl
    rw [List.getElem?_set_ne n2, List.getElem?_set_ne n1]; exact hr
  have one : ∀ {r1 : ℕ} {a a' : List ℕ}, R[r1]? = some a → a ≠ [] →
      ∀ r : ℕ, R[r]? = some [] → (R.set r1 a')[r]? = some [] := by
    intro r1 a a' h1 ha r hr
    have n1 : r1 ≠ r := by rintro rfl; rw [h1] at hr; cases hr; exact ha rfl
    rw [List.getElem?_set_ne n1]; exact hr
  have last : ∀ {r : ℕ} {p : List ℕ}, Ref.cust c = lastRef r p → p ≠ [] := by
    rintro r p h rfl; cases h
  have reloc : ∀ {S S' : List ℕ}, S ≠ [] → Relocated R S S' (.cust c) R' →
      ∀ r : ℕ, R[r]? = some [] → R'[r]? = some [] := by
    intro S S' hS h
    cases h with
    | inter r1 r2 p q p2 q2 hne h1 h2 hv => exact two h1 h2 (by simp [hS]) (by simp [last hv])
    | after r p m q hm h1 hv => exact one h1 (by simp [hS])
    | before r p m q hm h1 hv => exact one h1 (by simp [hS])
  have swap : ∀ {S T : List ℕ}, S ≠ [] → T ≠ [] → Swapped R S T R' →
      ∀ r : ℕ, R[r]? = some [] → R'[r]? = some [] := by
    intro S T hS hT h
    cases h with
    | inter r1 r2 p q p2 q2 hne h1 h2 => exact two h1 h2 (by simp [hS]) (by simp [hT])
    | fwd r p m q hm h1 => exact one h1 (by simp [hS])
    | bwd r p m q hm h1 => exact one h1 (by simp [hS])
  cases h with
  | relocateSingle h => exact reloc (by simp) h
  | relocateDouble x h => exact reloc (by simp) h
  | relocateDoubleReverse x h => exact reloc (by simp) h
  | swapOneWithOne c _ h => exact swap (by simp) (by simp) h
  | swapTwoWithOne c x _ h => exact swap (by simp) (by simp) h
  | swapTwoWithTwo c x y _ h => exact swap (by simp) (by simp) h
  | twoOptIntraReverse c r p m q hv hm h1 => exact one h1 (by simp)
  | twoOptInterReverse c r1 r2 p q p2 q2 hv hne h1 h2 => exact two h1 h2 (by simp) (by simp)
  | twoOptInter r1 r2 p q p2 q2 hne h1 h2 hv => exact two h1 h2 (by simp) (by simp [last hv])

end

/-! ## Concrete runs -/

namespace GapEx

/-- Five nodes on a circle of length 40. -/
def loc : ℕ → ℚ
  | 1 => 5
  | 2 => 10
  | 3 => 20
  | 4 => 30
  | _ => 0

/-- Distances along the circle, unit demands, capacity 4. -/
def ctx : Ctx ℚ where
  n := 5
  dist a b := min |loc a - loc b| (40 - |loc a - loc b|)
  demand a := if a = 0 then 0 else 1
  cap := 4
  pen := 10
  lng _ := 0
  lat _ := 0

/-- All moves enabled, as by default. -/
def allOn : MoveFlags := ⟨true, true, true, true, true, true, true, true, true, true⟩

/-- A new local search with complete neighbour lists; customer 1's sector is disjoint from the others. -/
def ls : LS ℚ := LS.new ctx 2 3 (fun c => if c = 1 then 10000 else 20000)
  [1, 2, 3, 2, 3, 4, 1, 3, 4, 1, 2, 4, 1, 2, 3] 3 1

def ind : Individual ℚ := ⟨0, [], [[1], [2, 3, 4]], 0, SolEval.new⟩

/-- Load, search and read back the routes. -/
def routesAfter (ctx : Ctx ℚ) (f : MoveFlags) (ls : LS ℚ) (x : Individual ℚ) (fuel : ℕ) :
    Option (List (List ℕ)) :=
  (loadIndividual ctx x ((ls.reset).updatePenalty ctx 1)).bind fun s =>
  (search ctx f (fun _ => 0) fuel s).bind fun s =>
  (writeRoutes ctx s 0 s.numRoutes [] x.phenotype).map Prod.snd

/-- **C14** (refuted, witness). All moves enabled, complete neighbour lists, a feasible start: the search
ends at `[1], [2, 3, 4]` of cost 50 although customer 2 directly follows a depot and placing customer 1
directly after that depot gives `[], [1, 2, 3, 4]` of cost 40. -/
theorem C14_depot_moves_refuted :
    NbrOK ctx ls ∧ routesAfter ctx allOn ls ind 2 = some [[1], [2, 3, 4]] ∧
      Spec.solCost ctx.dist ctx.demand ctx.cap ctx.pen [[1], [2, 3, 4]] = 50 ∧
      Spec.solCost ctx.dist ctx.demand ctx.cap ctx.pen [[], [1, 2, 3, 4]] = 40 := by
  refine ⟨?_, by decide +kernel, by decide +kernel, by decide +kernel⟩
  constructor
  · decide
  · decide
  · decide
  · intro u i hu hun hi v hv
    have h1 : u < 5 := hun
    have h2 : i < 3 := hi
    interval_cases u <;> interval_cases i <;> simp [ls, LS.new] at hv <;> subst hv <;> decide
  · intro u hu
    simp [ls, LS.new, ctx] at hu ⊢
    omega

/-- Two customers in opposite directions, capacity 1. -/
def ctx2 : Ctx ℚ where
  n := 3
  dist a b := |(if a = 1 then 10 else if a = 2 then -10 else 0) -
    (if b = 1 then 10 else if b = 2 then -10 else 0)|
  demand a := if a = 0 then 0 else 1
  cap := 1
  pen := 10
  lng _ := 0
  lat _ := 0

def ls2 : LS ℚ := LS.new ctx2 2 1 (fun c => 10000 * c) [1, 2, 1] 1 1

def ind2 : Individual ℚ := ⟨0, [], [[1, 2], []], 0, SolEval.new⟩

/-- **C15** (refuted, witness). All moves enabled: the search ends after its first pass at the overloaded
route `[1, 2]` of cost 50 although route 1 is empty and moving customer 2 there gives a feasible solution
of cost 40. The loop ends when the first pass finds no improvement, before any empty route is tried. -/
theorem C15_empty_route_refuted :
    NbrOK ctx2 ls2 ∧ routesAfter ctx2 allOn ls2 ind2 2 = some [[1, 2], []] ∧
      Spec.solCost ctx2.dist ctx2.demand ctx2.cap ctx2.pen [[1, 2], []] = 50 ∧
      Spec.solCost ctx2.dist ctx2.demand ctx2.cap ctx2.pen [[1], [2]] = 40 := by
  refine ⟨?_, by decide +kernel, by decide +kernel, by decide +kernel⟩
  constructor
  · decide
  · decide
  · decide
  · intro u i hu hun hi v hv
    have h1 : u < 3 := hun
    have h2 : i < 1 := hi
    interval_cases u <;> interval_cases i <;> simp [ls2, LS.new] at hv <;> subst hv <;> decide
  · intro u hu
    simp [ls2, LS.new, ctx2] at hu ⊢
    omega

end GapEx
end Verif
