import Verif.SpecMoves
import Verif.Spec

/-!
# Vocabulary for the search loop
-/

namespace Verif
open F64

variable {α : Type} [F64 α]

/-- The neighbour lists the local search reads: every granular slice of a customer's row lies inside the
row and holds other customers only; the customer list holds customers only. -/
structure NbrOK (ctx : Ctx α) (s : LS α) : Prop where
  gran : 0 < s.granularity
  cols : s.granularity ≤ s.corrCols
  len : s.corr.length = ctx.n * s.corrCols
  nbr : ∀ u i, 0 < u → u < ctx.n → i < s.granularity → ∀ v, s.corr[u * s.corrCols + i]? = some v →
    0 < v ∧ v < ctx.n ∧ v ≠ u
  cust : ∀ u ∈ s.customers, 0 < u ∧ u < ctx.n

/-- The other customers the local search considers for `u`: the first `granularity` entries of the row of
`u`. -/
def Spec.Neighbour (s : LS α) (u v : ℕ) : Prop :=
  ∃ i < s.granularity, s.corr[u * s.corrCols + i]? = some v

/-- None of the listed moves of customer `u` to node `v` lowers the penalized cost of the routes `R` by
more than `t`. -/
def Spec.NoGainBy (t : ℚ) (ctx : Ctx ℚ) (pen : ℚ) (R : List (List ℕ)) (ms : List MoveKind) (u : ℕ) (v : Ref) : Prop :=
  ∀ m ∈ ms, ∀ R', MoveEffect R u v m R' →
    Spec.solCost ctx.dist ctx.demand ctx.cap pen R ≤
      Spec.solCost ctx.dist ctx.demand ctx.cap pen R' + t

/-- None of the listed moves of customer `u` to node `v` lowers the penalized cost of the routes `R` by
more than `1e-6`. -/
def Spec.NoGain (ctx : Ctx ℚ) (pen : ℚ) (R : List (List ℕ)) (ms : List MoveKind) (u : ℕ) (v : Ref) : Prop :=
  ∀ m ∈ ms, ∀ R', MoveEffect R u v m R' →
    Spec.solCost ctx.dist ctx.demand ctx.cap pen R ≤
      Spec.solCost ctx.dist ctx.demand ctx.cap pen R' + 1 / 1000000

end Verif
