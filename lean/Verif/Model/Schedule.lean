import Verif.Rng

/-!
# Acceptance schedules of ruin-and-recreate

Models `/repo/src/solver/improvement/ruin_recreate/schedule.rs`. `exp` and `ln` are parameters.
-/

namespace Verif
open F64

variable {α : Type} [F64 α]

/-- `IterationSchedule` (`/repo/src/solver/improvement/ruin_recreate/schedule.rs:35-40`). -/
structure IterSchedule (α : Type) where
  temp : α
  startTemp : α
  total : ℕ
  iteration : ℕ

/-- `TimeSchedule` (`/repo/src/solver/improvement/ruin_recreate/schedule.rs:90-99`). `start` is a
reading of the clock in seconds. -/
structure TimeSchedule (α : Type) where
  start : α
  duration : α
  temp : α
  startTemp : α
  iterations : ℕ
  sinceUpdate : ℕ
  updateRate : ℕ
  completed : Bool

/-- `COOLING_FACTOR`; models `/repo/src/solver/improvement/ruin_recreate/schedule.rs:5`. -/
def coolingFactor : α := lit 2

/-- `MIN_VALUE`; models `/repo/src/solver/improvement/ruin_recreate/schedule.rs:8`. -/
def minValue : α := lit 0.1353352832366127

/-- `((t * -COOLING_FACTOR).exp() - t * MIN_VALUE) * start_temp`; models
`/repo/src/solver/improvement/ruin_recreate/schedule.rs:62,145`. -/
def tempAt (exp : α → α) (t startTemp : α) : α :=
  (exp (t *. F64.neg coolingFactor) -. t *. minValue) *. startTemp

/-- `TemperatureAcceptance::accept`; models
`/repo/src/solver/improvement/ruin_recreate/schedule.rs:26-28`. -/
def acceptAt (ln : α → α) (temp : α) (w : ℕ) (newCost oldCost : α) : Bool :=
  approxLt newCost (oldCost -. temp *. ln (lit (realDraw w)))

namespace IterSchedule

/-- `new`; models `/repo/src/solver/improvement/ruin_recreate/schedule.rs:43-50`. -/
def new (startTemp : α) (iterations : ℕ) : IterSchedule α := ⟨startTemp, startTemp, iterations, 0⟩

/-- `elapsed`; models `/repo/src/solver/improvement/ruin_recreate/schedule.rs:84-86`. -/
def elapsed (s : IterSchedule α) : α := lit s.iteration /. lit s.total

/-- `update`; models `/repo/src/solver/improvement/ruin_recreate/schedule.rs:59-63`. -/
def update (exp : α → α) (s : IterSchedule α) : IterSchedule α :=
  let s := { s with iteration := s.iteration + 1 }
  { s with temp := tempAt exp s.elapsed s.startTemp }

/-- `completed`; models `/repo/src/solver/improvement/ruin_recreate/schedule.rs:65-67`. -/
def completed (s : IterSchedule α) : Bool := decide (s.total ≤ s.iteration)

/-- `reset`; models `/repo/src/solver/improvement/ruin_recreate/schedule.rs:69-72`. -/
def reset (s : IterSchedule α) : IterSchedule α := { s with iteration := 0, temp := s.startTemp }

end IterSchedule

namespace TimeSchedule

/-- `new`; models `/repo/src/solver/improvement/ruin_recreate/schedule.rs:102-127`; `now` is the clock
reading. -/
def new (now startTemp duration : α) : TimeSchedule α :=
  ⟨now, duration, startTemp, startTemp, 0, 0, 100, false⟩

/-- `elapsed`; models `/repo/src/solver/improvement/ruin_recreate/schedule.rs:173-175`. -/
def elapsed (now : α) (s : TimeSchedule α) : α := (now -. s.start) /. s.duration

/-- `update`; models `/repo/src/solver/improvement/ruin_recreate/schedule.rs:140-151`. -/
def update (exp : α → α) (now : α) (s : TimeSchedule α) : TimeSchedule α :=
  let s := { s with sinceUpdate := s.sinceUpdate + 1, iterations := s.iterations + 1 }
  if s.sinceUpdate = s.updateRate then
    let t := s.elapsed now
    { s with
      temp := tempAt exp t s.startTemp
      sinceUpdate := 0
      completed := s.completed || (lit 1 ≤. t) }
  else s

/-- `reset`; models `/repo/src/solver/improvement/ruin_recreate/schedule.rs:157-161`. -/
def reset (now : α) (s : TimeSchedule α) : TimeSchedule α :=
  { s with start := now, iterations := 0, sinceUpdate := 0 }

end TimeSchedule

/-- `AcceptanceCriterion`; models `/repo/src/solver/improvement/ruin_recreate/schedule.rs:178-181`. -/
inductive Acceptance (α : Type) where
  | iteration (s : IterSchedule α)
  | time (s : TimeSchedule α)

namespace Acceptance

/-- `accept`; models `/repo/src/solver/improvement/ruin_recreate/schedule.rs:185-194`. -/
def accept (ln : α → α) (w : ℕ) (newCost oldCost : α) : Acceptance α → Bool
  | .iteration s => acceptAt ln s.temp w newCost oldCost
  | .time s => acceptAt ln s.temp w newCost oldCost

/-- `update`; models `/repo/src/solver/improvement/ruin_recreate/schedule.rs:196-201`. -/
def update (exp : α → α) (now : α) : Acceptance α → Acceptance α
  | .iteration s => .iteration (s.update exp)
  | .time s => .time (s.update exp now)

/-- `completed`; models `/repo/src/solver/improvement/ruin_recreate/schedule.rs:203-208`. -/
def completed : Acceptance α → Bool
  | .iteration s => s.completed
  | .time s => s.completed

/-- `reset`; models `/repo/src/solver/improvement/ruin_recreate/schedule.rs:210-215`. -/
def reset (now : α) : Acceptance α → Acceptance α
  | .iteration s => .iteration s.reset
  | .time s => .time (s.reset now)

end Acceptance
end Verif
