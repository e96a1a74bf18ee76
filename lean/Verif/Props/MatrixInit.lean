import Verif.Props.Matrix

/-!
# C21: a matrix built with an initial value
-/

namespace Verif
namespace RawMatrix

variable {β : Type}

/-- **C21**, `init`: the matrix of the requested size is built without leaving the allocation, and every cell of it
reads the initial value until it is written. -/
theorem C21_init (zero x : β) (rows cols : ℕ) :
    ∃ m, init zero x rows cols = some m ∧ m.rows = rows ∧ m.cols = cols ∧
      ∀ i < rows, ∀ j < cols, m.get i j = some x := by
  obtain ⟨m, e, h⟩ := fill_shows (new_shows zero rows cols) (f := fun _ _ => some x) (g := fun _ _ => x)
    fun _ _ _ _ => rfl
  exact ⟨m, e, h.rows_eq, h.cols_eq, fun i hi j hj => h.get hi hj⟩

/-- Six cells with the value 7, not the zero they were allocated with. -/
example : ((init 0 7 2 3).bind fun m => m.get 1 2) = some 7 := by
  obtain ⟨m, e, -, -, h⟩ := C21_init 0 7 2 3
  rw [e, Option.bind_some]
  exact h 1 (by norm_num) 2 (by norm_num)

end RawMatrix
end Verif
