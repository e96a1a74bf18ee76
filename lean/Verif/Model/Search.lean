import Verif.Model.SwapStar

/-!
# The search loop of the local search (`improvement/local_search.rs`)
-/

namespace Verif
open F64

variable {α : Type} [F64 α]

namespace LS

/-- A loop `for m in moves { if m.delta(u, v).approx_lt(0.0) { …perform…; break } }`; the flag says
whether a move was performed. Models `/repo/src/solver/improvement/local_search.rs:186-195`. -/
def tryMoves (ctx : Ctx α) (u v : Ref) : List MoveKind → LS α → Option (LS α × Bool)
  | [], s => some (s, false)
  | m :: ms, s =>
    (m.delta ctx s u v).bind fun d =>
      if approxLt d (lit 0) then
        (m.perform ctx { s with moveCount := s.moveCount + 1 } u v).map fun s => (s, true)
      else tryMoves ctx u v ms s

/-- The attempts for one pair `u`, `v`: neighbour moves, then depot moves if `v` directly follows a
depot. Models `/repo/src/solver/improvement/local_search.rs:185-211`. -/
def tryPair (ctx : Ctx α) (f : MoveFlags) (u v : Ref) (s : LS α) : Option (LS α × Bool) :=
  (tryMoves ctx u v f.neighbor s).bind fun p =>
    if p.2 then some p else
      (p.1.heap.pred v).bind fun vp =>
        if vp.isDepot then tryMoves ctx u v f.depot p.1 else some p

/-- The test whether a pair is examined; models
`/repo/src/solver/improvement/local_search.rs:182-184` (`route_u` always equals `(*u).route`). -/
def pairDue (s : LS α) (loopCount : ℕ) (lastTestU : ℤ) (ru rv : ℕ) : Bool :=
  loopCount = 0 || lastTestU < max (s.route ru).lastModified (s.route rv).lastModified

/-- `'v_loop`; models `/repo/src/solver/improvement/local_search.rs:177-213`. -/
def vLoop (ctx : Ctx α) (f : MoveFlags) (loopCount : ℕ) (u : ℕ) (lastTestU : ℤ) :
    List ℕ → LS α → Bool → Option (LS α × Bool)
  | [], s, imp => some (s, imp)
  | v :: vs, s, imp =>
    (s.rt (.cust u)).bind fun ru => (s.rt (.cust v)).bind fun rv =>
      if pairDue s loopCount lastTestU ru rv then
        (tryPair ctx f (.cust u) (.cust v) s).bind fun p =>
          vLoop ctx f loopCount u lastTestU vs p.1 (imp || p.2)
      else vLoop ctx f loopCount u lastTestU vs s imp

/-- `top_slice_mut(row, number)` (`none` = the slice is not inside the allocation, undefined
behaviour); models `/repo/src/models/matrix.rs:73-81,423-425`. -/
def topSlice (s : LS α) (row : ℕ) : Option (List ℕ) :=
  if row * s.corrCols + s.granularity ≤ s.corr.length then
    some ((s.corr.drop (row * s.corrCols)).take s.granularity)
  else none

/-- Writing a permuted slice back into the correlation storage. -/
def storeSlice (s : LS α) (row : ℕ) (l : List ℕ) : LS α :=
  { s with corr := s.corr.take (row * s.corrCols) ++ l ++
      s.corr.drop (row * s.corrCols + s.granularity) }

/-- Moves into an empty route; models `/repo/src/solver/improvement/local_search.rs:219-233`. The
first element of the hash set is an arbitrary element, chosen by the oracle word `w`. -/
def emptyStep (ctx : Ctx α) (f : MoveFlags) (loopCount : ℕ) (w : ℕ) (u : ℕ) (s : LS α) :
    Option (LS α × Bool) :=
  if 0 < loopCount ∧ s.empty ≠ [] then
    (s.empty[w % s.empty.length]?).bind fun r =>
      tryMoves ctx (.cust u) (.start r) f.emptyRoute s
  else some (s, false)

/-- Lines 160-167: fetch the neighbours of `u`, reshuffling them with probability `1/granularity`. -/
def neighbours (ω : Oracle) (u : ℕ) (s : LS α) : Option (LS α × List ℕ) :=
  (s.topSlice u).bind fun cor =>
  (rangeUsize (ω 0) 0 s.granularity).map fun k =>
    if k = 0 then (s.storeSlice u (shuffle (ω.sub 1) cor), shuffle (ω.sub 1) cor) else (s, cor)

/-- The body of the loop over customers; models
`/repo/src/solver/improvement/local_search.rs:158-234`. -/
def uStep (ctx : Ctx α) (f : MoveFlags) (loopCount : ℕ) (ω : Oracle) (u : ℕ) (s : LS α) :
    Option (LS α × Bool) :=
  (neighbours ω u s).bind fun sc =>
  (vLoop ctx f loopCount u (sc.1.lastTested u) sc.2
    { sc.1 with lastTested := Function.update sc.1.lastTested u sc.1.moveCount } false).bind fun p =>
  (emptyStep ctx f loopCount (ω 2) u p.1).map fun q => (q.1, p.2 || q.2)

/-- The loop over the customers; `i` numbers the rounds. -/
def uLoop (ctx : Ctx α) (f : MoveFlags) (loopCount : ℕ) (ω : Oracle) : ℕ → List ℕ → LS α → Bool →
    Option (LS α × Bool)
  | _, [], s, imp => some (s, imp)
  | i, u :: us, s, imp =>
    (uStep ctx f loopCount (ω.sub i) u s).bind fun p =>
      uLoop ctx f loopCount ω (i + 1) us p.1 (imp || p.2)

/-- The test whether SWAP* is tried; models
`/repo/src/solver/improvement/local_search.rs:244-254`. -/
def swapDue (s : LS α) (loopCount : ℕ) (lastTestedU : ℤ) (r1 r2 : ℕ) : Bool :=
  (s.route r1).num ≠ 0 && (s.route r2).num ≠ 0 && r1 < r2 &&
    (loopCount = 0 || lastTestedU < max (s.route r1).lastTestedSwapStar (s.route r2).lastTestedSwapStar)
    && (s.route r1).sector.overlaps (s.route r2).sector

/-- The inner loop over `r2`; models `/repo/src/solver/improvement/local_search.rs:242-260`. -/
def swapLoop2 (ctx : Ctx α) (loopCount : ℕ) (lastTestedU : ℤ) (r1 : ℕ) : List ℕ → LS α → Bool →
    Option (LS α × Bool)
  | [], s, imp => some (s, imp)
  | r2 :: rs, s, imp =>
    if swapDue s loopCount lastTestedU r1 r2 then
      (SwapStar.run ctx r1 r2 s).bind fun p => swapLoop2 ctx loopCount lastTestedU r1 rs p.1 (imp || p.2)
    else swapLoop2 ctx loopCount lastTestedU r1 rs s imp

/-- The outer loop over `r1`; models `/repo/src/solver/improvement/local_search.rs:238-261`. -/
def swapLoop1 (ctx : Ctx α) (loopCount : ℕ) : List ℕ → LS α → Bool → Option (LS α × Bool)
  | [], s, imp => some (s, imp)
  | r1 :: rs, s, imp =>
    (swapLoop2 ctx loopCount (s.route r1).lastTestedSwapStar r1
      (List.range' (r1 + 1) (s.numRoutes - (r1 + 1)))
      { s with
        route := Function.update s.route r1
          { s.route r1 with lastTestedSwapStar := s.moveCount } } imp).bind fun p =>
    swapLoop1 ctx loopCount rs p.1 p.2

/-- One round of `while improvement`: the customer loop and, if enabled, SWAP*. Returns the state,
whether something improved and the new loop count. Models
`/repo/src/solver/improvement/local_search.rs:154-263`. -/
def pass (ctx : Ctx α) (f : MoveFlags) (ω : Oracle) (loopCount : ℕ) (s : LS α) :
    Option (LS α × Bool × ℕ) :=
  (uLoop ctx f loopCount (ω.sub 0) 0 (shuffle (ω.sub 1) s.customers)
    { s with customers := shuffle (ω.sub 1) s.customers } false).bind fun p =>
  if f.swapStar then
    (swapLoop1 ctx loopCount (List.range p.1.numRoutes) p.1 p.2).map fun q =>
      (q.1, q.2, loopCount + 1)
  else some (p.1, p.2, loopCount)

/-- `while improvement { … }`; `i` numbers the rounds, `none` also when the fuel runs out. -/
def searchLoop (ctx : Ctx α) (f : MoveFlags) (ω : Oracle) : ℕ → ℕ → ℕ → LS α → Option (LS α)
  | 0, _, _, _ => none
  | fuel + 1, i, loopCount, s =>
    (pass ctx f (ω.sub i) loopCount s).bind fun p =>
      if p.2.1 then searchLoop ctx f ω fuel (i + 1) p.2.2 p.1 else some p.1

/-- `search`; models `/repo/src/solver/improvement/local_search.rs:149-265`. -/
def search (ctx : Ctx α) (f : MoveFlags) (ω : Oracle) (fuel : ℕ) (s : LS α) : Option (LS α) :=
  searchLoop ctx f ω fuel 0 0 s

/-- `LocalSearch::run`; models `/repo/src/solver/improvement/local_search.rs:138-147`. -/
def run (atan2 : α → α → α) (ctx : Ctx α) (f : MoveFlags) (ω : Oracle) (fuel : ℕ) (penMult : α)
    (s : LS α) (x : Individual α) : Option (LS α × Individual α) :=
  (loadIndividual ctx x ((s.reset).updatePenalty ctx penMult)).bind fun s =>
  (search ctx f ω fuel s).bind fun s =>
  (updateIndividual atan2 ctx s x).map fun x => (s, x)

end LS
end Verif
