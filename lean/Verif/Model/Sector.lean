import Mathlib.Data.Int.Notation

/-!
# Circle sectors (`models/circle_sector.rs`)
-/

namespace Verif

/-- `MAX_ANGLE`; models `/repo/src/models/circle_sector.rs:2`. -/
def maxAngle : ℤ := 65536

/-- `CircleSector`; models `/repo/src/models/circle_sector.rs:5-9` (`i32` overflow is left out: the
angles lie in `[0, 65536)`). -/
structure Sector where
  lo : ℤ
  hi : ℤ
  deriving DecidableEq

namespace Sector

/-- `new` / `reset`; models `/repo/src/models/circle_sector.rs:12-19`. -/
def new : Sector := ⟨0, 0⟩

/-- `from_angle`; models `/repo/src/models/circle_sector.rs:21-24`. -/
def fromAngle (a : ℤ) : Sector := ⟨a, a⟩

/-- `is_enclosed` (`rem_euclid` with a positive modulus is `%` on `ℤ`); models
`/repo/src/models/circle_sector.rs:42-44`. -/
def isEnclosed (s : Sector) (a : ℤ) : Bool :=
  (a - s.lo) % maxAngle ≤ (s.hi - s.lo) % maxAngle

/-- `extend`; models `/repo/src/models/circle_sector.rs:26-40`. -/
def extend (s : Sector) (a : ℤ) : Sector :=
  if s.lo = 0 ∧ s.hi = 0 then fromAngle a
  else if s.isEnclosed a then s
  else if (a - s.hi) % maxAngle ≤ (s.lo - a) % maxAngle then { s with hi := a }
  else { s with lo := a }

/-- `overlaps`; models `/repo/src/models/circle_sector.rs:46-51`. -/
def overlaps (s t : Sector) : Bool :=
  (t.lo - s.lo) % maxAngle ≤ (s.hi - s.lo) % maxAngle ||
    (s.lo - t.lo) % maxAngle ≤ (t.hi - t.lo) % maxAngle

end Sector
end Verif
