import Verif.Props.Allocation
import Verif.Props.ProgramExamples

/-!
# C95: cases
-/

namespace Verif
namespace AllocEx

/-- A depot and three customers. -/
def four : Parsed ℚ := (parseInstance ProgramEx.lib.num ProgramEx.text).get (by decide +kernel)

/-- A depot and one customer. -/
def two : Parsed ℚ := { four with nodes := four.nodes.take 2 }

/-- The settings of the example, with a limit for the distances that are stored. -/
def cfg (limit : ℕ) : Settings ℚ := { ProgramEx.cfg with precomputeLimit := limit }

/-- Stored distances, three customers: both matrices have cells, sixteen and eight. -/
example : ∃ m, Program.matrices ProgramEx.lib (cfg 1000) four = some m ∧ Spec.SizePositive m.1.storage ∧
    Spec.SizePositive m.2.storage ∧ m.1.storage.cells.length = 16 ∧ m.2.storage.cells.length = 8 := by
  refine ⟨(Program.matrices ProgramEx.lib (cfg 1000) four).get (by decide +kernel), (Option.some_get _).symm, ?_⟩
  have h := C95_allocations_partial ProgramEx.lib (cfg 1000) four _ _ (Option.some_get
    (show (Program.matrices ProgramEx.lib (cfg 1000) four).isSome = true by decide +kernel)).symm
  exact ⟨h.2.2.1 (.inr (by decide +kernel)), h.2.2.2 (by decide +kernel), by decide +kernel, by decide +kernel⟩

/-- Distances of three customers that are not stored. -/
def whole : DistMatrix ℚ := ((Program.matrices ProgramEx.lib (cfg 3) four).get (by decide +kernel)).1

/-- The subproblem with the customers 1 and 3. -/
def part : DistMatrix ℚ := (whole.fromMapping ProgramEx.lib.sqrt [0, 1, 3]).get (by decide +kernel)

example : whole.storage.cells = [] ∧ ∃ c, buildCorr ProgramEx.lib.sqrt ProgramEx.lib.corrSort part = some c ∧
    Spec.SizePositive part.storage ∧ Spec.SizePositive c.storage := by
  have e : (buildCorr ProgramEx.lib.sqrt ProgramEx.lib.corrSort part).isSome = true := by decide +kernel
  have h := C95_subproblem _ _ whole part _ [0, 1, 3] (by decide) (Option.some_get _).symm (Option.some_get e).symm
  exact ⟨by decide +kernel, _, (Option.some_get e).symm, h.2.2⟩

end AllocEx

/-- **C95 refuted**: three customers and a limit of three give a matrix of distances of size zero, one customer a matrix
of neighbours of size zero. -/
theorem C95_allocations_refuted :
    (∃ d c, Program.matrices ProgramEx.lib (AllocEx.cfg 3) AllocEx.four = some (d, c) ∧
      ¬ Spec.SizePositive d.storage) ∧
    (∃ d c, Program.matrices ProgramEx.lib (AllocEx.cfg 1000) AllocEx.two = some (d, c) ∧
      ¬ Spec.SizePositive c.storage) := by
  have e : (Program.matrices ProgramEx.lib (AllocEx.cfg 3) AllocEx.four).isSome = true := by decide +kernel
  have e' : (Program.matrices ProgramEx.lib (AllocEx.cfg 1000) AllocEx.two).isSome = true := by decide +kernel
  exact ⟨⟨_, _, (Option.some_get e).symm, C95_lazy _ _ _ _ _ (by decide +kernel) (by decide +kernel)
    (Option.some_get e).symm⟩, ⟨_, _, (Option.some_get e').symm, C95_one_customer _ _ _ _ _ (by decide +kernel)
    (Option.some_get e').symm⟩⟩

end Verif
