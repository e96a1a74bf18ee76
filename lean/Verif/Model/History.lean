import Verif.Model.Individual

/-!
# Search history

Models `/repo/src/solver/history.rs`. Time stamps, messages and log output are left out.
-/

namespace Verif
open F64

variable {α : Type} [F64 α]

/-- `HistoricSolution` (`/repo/src/solver/history.rs:11-26`). -/
structure HistEntry (α : Type) where
  routes : List (List ℕ)
  cost : α

/-- `SearchHistory` (`/repo/src/solver/history.rs:67-79`). `log` is a ghost field that is not in the
code: everything ever recorded, with its routes. It is only written, never read. -/
structure History (α : Type) where
  entries : List (HistEntry α)
  bestCost : α
  log : List (HistEntry α)

namespace History

/-- `SearchHistory::new`; models `/repo/src/solver/history.rs:82-90`. -/
def new : History α := ⟨[], inf, []⟩

/-- `remove_previous_data`; models `/repo/src/solver/history.rs:92-96`. -/
def removePreviousData (es : List (HistEntry α)) : List (HistEntry α) :=
  match es.getLast? with
  | none => es
  | some e => es.dropLast ++ [{ e with routes := [] }]

/-- `add`; models `/repo/src/solver/history.rs:98-123`. -/
def add (h : History α) (x : Individual α) : History α :=
  { entries := removePreviousData h.entries ++ [⟨x.phenotype, x.cost⟩]
    bestCost := x.cost
    log := h.log ++ [⟨x.phenotype, x.cost⟩] }

end History
end Verif
