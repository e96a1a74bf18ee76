import Verif.Double
import Verif.Model.Program

/-!
# The duration of a time-based elite education

`Program.gaEnv` takes the product of time limit and fraction as the duration. The code sends it through
`std::time::Duration`, a whole number of nanoseconds, which panics on what it cannot hold.
-/

namespace Verif
open F64 Dbl

variable {ρ : Rounding}

/-- `Duration::from_secs_f64` as a number of nanoseconds; `none` is its panic (negative, not finite, or
2^64 seconds and more). Called at `/repo/src/solver/improvement/ruin_recreate/mod.rs:151`. The conversion to a whole
number of nanoseconds `r` is a parameter: the standard library truncated it in its older and rounds it in its newer
versions. -/
def Duration.fromSecs (r : ℚ → ℤ) : Dbl ρ → Option ℕ
  | .nan => none
  | .inf _ => none
  | .fin q => if q < 0 ∨ 2 ^ 64 ≤ q then none else some (r (q * 10 ^ 9)).toNat

/-- `Duration::as_secs_f64`: the seconds plus the nanoseconds beyond them divided by 10^9. Called at
`/repo/src/solver/improvement/ruin_recreate/schedule.rs:105`. -/
def Duration.asSecs (nanos : ℕ) : Dbl ρ :=
  lit (nanos / 10 ^ 9 : ℕ) +. lit (nanos % 10 ^ 9 : ℕ) /. lit (10 ^ 9)

/-- The duration that `setup_elite_education` hands to the schedule with these settings, `none` for a panic; models
`/repo/src/solver/improvement/ruin_recreate/mod.rs:149-152`. -/
def Program.eliteTime (r : ℚ → ℤ) (cfg : Settings (Dbl ρ)) : Option (Dbl ρ) :=
  (Duration.fromSecs r (lit cfg.timeLimit *. cfg.eliteFraction)).map Duration.asSecs

end Verif
