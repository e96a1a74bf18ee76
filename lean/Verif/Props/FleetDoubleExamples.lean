import Verif.Props.FleetDouble
import Verif.Props.PenaltyDoubleExamples

/-!
# C96: cases
-/

namespace Verif
open F64 Dbl

namespace DoubleEx

/-- The context of the instance with another capacity. -/
def capacity (cap : F) : Ctx F :=
  Program.context lib { inst with cap := cap } ((Program.matrices lib cfg inst).get (by decide +kernel)).1

/-- C96 applies: a load of 15 and capacity 4 need four vehicles, the fleet has seven. -/
example : Spec.UsableFleet 4 7 := by
  have := C96_usable_partial (capacity (fin 4)) (by decide +kernel)
  rwa [show vehicleLowerBound (capacity (fin 4)) = 4 by decide +kernel,
    show initialNumVehicles (capacity (fin 4)) = 7 by decide +kernel] at this

/-- A capacity that is not a number and a negative one give a fleet of two. -/
example : initialNumVehicles (capacity nan) = 2 ∧ initialNumVehicles (capacity (fin (-3))) = 2 := by decide +kernel

end DoubleEx

/-- **C96 refuted**: with capacity zero the fleet is the largest number of 64 bits. -/
theorem C96_fleet_refuted : ¬ ∀ ctx : Ctx DoubleEx.F,
    Spec.UsableFleet (vehicleLowerBound ctx) (initialNumVehicles ctx) := by
  intro h
  have h1 := (h (DoubleEx.capacity (fin 0))).2.2
  rw [C96_no_capacity (DoubleEx.capacity (fin 0)) 15 (by decide +kernel) (by norm_num) rfl] at h1
  norm_num at h1

end Verif
