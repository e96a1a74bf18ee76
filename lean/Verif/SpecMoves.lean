import Verif.Model.Moves

/-!
# What the local-search moves do to a list of routes

Relations between the routes before and after a move; nothing here refers to pointers except the name
`v` of the node after which customers are placed (a customer or the start depot of a route).
-/

namespace Verif

/-- The last node of the route part `start r, p`. -/
def lastRef (r : ℕ) (p : List ℕ) : Ref := (p.getLast?.map Ref.cust).getD (.start r)

/-- The first node of the route part `q, end r`. -/
def headRef (r : ℕ) (q : List ℕ) : Ref := (q.head?.map Ref.cust).getD (.fin r)

/-- The consecutive customers `S` are taken out and put back, in the order `S'`, right after node `v`. -/
inductive Relocated (R : List (List ℕ)) (S S' : List ℕ) (v : Ref) : List (List ℕ) → Prop
  | inter (r1 r2 : ℕ) (p q p2 q2 : List ℕ) : r1 ≠ r2 → R[r1]? = some (p ++ S ++ q) →
      R[r2]? = some (p2 ++ q2) → v = lastRef r2 p2 →
      Relocated R S S' v ((R.set r1 (p ++ q)).set r2 (p2 ++ S' ++ q2))
  | after (r : ℕ) (p m q : List ℕ) : m ≠ [] → R[r]? = some (p ++ S ++ m ++ q) → v = lastRef r m →
      Relocated R S S' v (R.set r (p ++ m ++ S' ++ q))
  | before (r : ℕ) (p m q : List ℕ) : m ≠ [] → R[r]? = some (p ++ m ++ S ++ q) → v = lastRef r p →
      Relocated R S S' v (R.set r (p ++ S' ++ m ++ q))

/-- The consecutive customers `S` and the consecutive customers `T` exchange places. -/
inductive Swapped (R : List (List ℕ)) (S T : List ℕ) : List (List ℕ) → Prop
  | inter (r1 r2 : ℕ) (p q p2 q2 : List ℕ) : r1 ≠ r2 → R[r1]? = some (p ++ S ++ q) →
      R[r2]? = some (p2 ++ T ++ q2) →
      Swapped R S T ((R.set r1 (p ++ T ++ q)).set r2 (p2 ++ S ++ q2))
  | fwd (r : ℕ) (p m q : List ℕ) : m ≠ [] → R[r]? = some (p ++ S ++ m ++ T ++ q) →
      Swapped R S T (R.set r (p ++ T ++ m ++ S ++ q))
  | bwd (r : ℕ) (p m q : List ℕ) : m ≠ [] → R[r]? = some (p ++ T ++ m ++ S ++ q) →
      Swapped R S T (R.set r (p ++ S ++ m ++ T ++ q))

/-- What each move does for the customer `u` and the node `v`. -/
inductive MoveEffect (R : List (List ℕ)) (u : ℕ) (v : Ref) : MoveKind → List (List ℕ) → Prop
  | relocateSingle {R'} : Relocated R [u] [u] v R' → MoveEffect R u v .relocateSingle R'
  | relocateDouble {R'} (x : ℕ) : Relocated R [u, x] [u, x] v R' → MoveEffect R u v .relocateDouble R'
  | relocateDoubleReverse {R'} (x : ℕ) : Relocated R [u, x] [x, u] v R' →
      MoveEffect R u v .relocateDoubleReverse R'
  | swapOneWithOne {R'} (c : ℕ) : v = .cust c → Swapped R [u] [c] R' →
      MoveEffect R u v .swapOneWithOne R'
  | swapTwoWithOne {R'} (c x : ℕ) : v = .cust c → Swapped R [u, x] [c] R' →
      MoveEffect R u v .swapTwoWithOne R'
  | swapTwoWithTwo {R'} (c x y : ℕ) : v = .cust c → Swapped R [u, x] [c, y] R' →
      MoveEffect R u v .swapTwoWithTwo R'
  | twoOptIntraReverse (c : ℕ) (r : ℕ) (p m q : List ℕ) : v = .cust c → m ≠ [] →
      R[r]? = some (p ++ [u] ++ (m ++ [c]) ++ q) →
      MoveEffect R u v .twoOptIntraReverse (R.set r (p ++ [u] ++ (m ++ [c]).reverse ++ q))
  | twoOptInterReverse (c : ℕ) (r1 r2 : ℕ) (p q p2 q2 : List ℕ) : v = .cust c → r1 ≠ r2 →
      R[r1]? = some (p ++ [u] ++ q) → R[r2]? = some (p2 ++ [c] ++ q2) →
      MoveEffect R u v .twoOptInterReverse
        ((R.set r1 (p ++ [u] ++ (p2 ++ [c]).reverse)).set r2 (q.reverse ++ q2))
  | twoOptInter (r1 r2 : ℕ) (p q p2 q2 : List ℕ) : r1 ≠ r2 →
      R[r1]? = some (p ++ [u] ++ q) → R[r2]? = some (p2 ++ q2) → v = lastRef r2 p2 →
      MoveEffect R u v .twoOptInter ((R.set r1 (p ++ [u] ++ q2)).set r2 (p2 ++ q))

/-- The setting that enables a move. -/
def Spec.enabled (f : MoveFlags) : MoveKind → Bool
  | .relocateSingle => f.relocateSingle
  | .relocateDouble => f.relocateDouble
  | .relocateDoubleReverse => f.relocateDoubleReverse
  | .swapOneWithOne => f.swapOneWithOne
  | .swapTwoWithOne => f.swapTwoWithOne
  | .swapTwoWithTwo => f.swapTwoWithTwo
  | .twoOptIntraReverse => f.twoOptIntraReverse
  | .twoOptInterReverse => f.twoOptInterReverse
  | .twoOptInter => f.twoOptInter

/-- What SWAP* does to the routes `r1`, `r2`: a customer of one moves to some place of the other, or
a customer `u` of `r1` and a customer `v` of `r2` are taken out and each put at some place of the
other's route. -/
inductive SwapStarEffect (R : List (List ℕ)) (r1 r2 : ℕ) : List (List ℕ) → Prop
  | relocU (u : ℕ) (p q A B : List ℕ) : R[r1]? = some (p ++ [u] ++ q) → R[r2]? = some (A ++ B) →
      SwapStarEffect R r1 r2 ((R.set r1 (p ++ q)).set r2 (A ++ [u] ++ B))
  | relocV (v : ℕ) (p q A B : List ℕ) : R[r2]? = some (p ++ [v] ++ q) → R[r1]? = some (A ++ B) →
      SwapStarEffect R r1 r2 ((R.set r2 (p ++ q)).set r1 (A ++ [v] ++ B))
  | both (u v : ℕ) (p1 q1 p2 q2 A B C D : List ℕ) : R[r1]? = some (p1 ++ [u] ++ q1) →
      R[r2]? = some (p2 ++ [v] ++ q2) → p2 ++ q2 = A ++ B → p1 ++ q1 = C ++ D →
      SwapStarEffect R r1 r2 ((R.set r1 (C ++ [v] ++ D)).set r2 (A ++ [u] ++ B))

end Verif
