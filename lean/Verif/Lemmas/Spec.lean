import Verif.Spec
import Mathlib.Tactic.Ring
import Mathlib.Tactic.Linarith
import Mathlib.Data.List.Nodup

namespace Verif.Spec

variable (d : ℕ → ℕ → ℚ) (q : ℕ → ℚ)

@[simp] theorem pathDist_nil : pathDist d [] = 0 := rfl
@[simp] theorem pathDist_single (a : ℕ) : pathDist d [a] = 0 := rfl
@[simp] theorem pathDist_cons_cons (a b : ℕ) (l : List ℕ) :
    pathDist d (a :: b :: l) = d a b + pathDist d (b :: l) := rfl

/-- Split a path at a node. -/
theorem pathDist_append_cons (l m : List ℕ) (a : ℕ) :
    pathDist d (l ++ a :: m) = pathDist d (l ++ [a]) + pathDist d (a :: m) := by
  induction l with
  | nil => simp
  | cons x l ih =>
    cases l with
    | nil => simp
    | cons y l =>
      simp only [List.cons_append, pathDist_cons_cons] at ih ⊢
      rw [ih]; ring

theorem pathDist_concat_concat (l : List ℕ) (a b : ℕ) :
    pathDist d (l ++ [a, b]) = pathDist d (l ++ [a]) + d a b := by
  rw [pathDist_append_cons]; simp

/-- Join two non-empty paths. -/
theorem pathDist_append_cons_cons (l m : List ℕ) (a b : ℕ) :
    pathDist d (l ++ a :: b :: m) = pathDist d (l ++ [a]) + d a b + pathDist d (b :: m) := by
  rw [pathDist_append_cons]; simp; ring

theorem pathDist_reverse (hsym : ∀ a b, d a b = d b a) (l : List ℕ) :
    pathDist d l.reverse = pathDist d l := by
  induction l with
  | nil => rfl
  | cons a l ih =>
    cases l with
    | nil => rfl
    | cons b l =>
      rw [List.reverse_cons, List.reverse_cons, List.append_assoc]
      simp only [List.cons_append, List.nil_append]
      rw [pathDist_concat_concat, pathDist_cons_cons, ← ih, List.reverse_cons, hsym]; ring

theorem pathDist_nonneg (h : ∀ a b, 0 ≤ d a b) (l : List ℕ) : 0 ≤ pathDist d l := by
  induction l with
  | nil => simp
  | cons a l ih =>
    cases l with
    | nil => simp
    | cons b l => simp only [pathDist_cons_cons]; have := h a b; linarith

@[simp] theorem routeLoad_nil : routeLoad q [] = 0 := rfl
@[simp] theorem routeLoad_cons (a : ℕ) (l : List ℕ) : routeLoad q (a :: l) = q a + routeLoad q l := by
  simp [routeLoad]
@[simp] theorem routeLoad_append (l m : List ℕ) :
    routeLoad q (l ++ m) = routeLoad q l + routeLoad q m := by simp [routeLoad]
@[simp] theorem routeLoad_reverse (l : List ℕ) : routeLoad q l.reverse = routeLoad q l := by
  simp [routeLoad, List.sum_reverse]

theorem routeLoad_nonneg (h : ∀ a, 0 ≤ q a) (l : List ℕ) : 0 ≤ routeLoad q l := by
  induction l with
  | nil => simp
  | cons a l ih => simp only [routeLoad_cons]; have := h a; linarith

theorem routeLoad_perm {l m : List ℕ} (h : l.Perm m) : routeLoad q l = routeLoad q m :=
  (h.map q).sum_eq

theorem routeDist_nonneg (h : ∀ a b, 0 ≤ d a b) (l : List ℕ) : 0 ≤ routeDist d l :=
  pathDist_nonneg d h _

theorem routeCost_nonneg (h : ∀ a b, 0 ≤ d a b) (cap : ℚ) {pen : ℚ} (hp : 0 ≤ pen) (l : List ℕ) :
    0 ≤ routeCost d q cap pen l := by
  unfold routeCost
  have := routeDist_nonneg d h l
  have : 0 ≤ pen * max 0 (routeLoad q l - cap) := mul_nonneg hp (le_max_left _ _)
  linarith

@[simp] theorem solCost_nil (cap pen : ℚ) : solCost d q cap pen [] = 0 := rfl
@[simp] theorem solCost_cons (cap pen : ℚ) (r : List ℕ) (rs : List (List ℕ)) :
    solCost d q cap pen (r :: rs) = routeCost d q cap pen r + solCost d q cap pen rs := by
  simp [solCost]
@[simp] theorem solCost_append (cap pen : ℚ) (rs ss : List (List ℕ)) :
    solCost d q cap pen (rs ++ ss) = solCost d q cap pen rs + solCost d q cap pen ss := by
  simp [solCost]

theorem solCost_perm (cap pen : ℚ) {rs ss : List (List ℕ)} (h : rs.Perm ss) :
    solCost d q cap pen rs = solCost d q cap pen ss := (h.map _).sum_eq

theorem solCost_nonneg (h : ∀ a b, 0 ≤ d a b) (cap : ℚ) {pen : ℚ} (hp : 0 ≤ pen)
    (rs : List (List ℕ)) : 0 ≤ solCost d q cap pen rs := by
  induction rs with
  | nil => simp
  | cons r rs ih =>
    rw [solCost_cons]; have := routeCost_nonneg d q h cap hp r; linarith

theorem isPartition_perm {n : ℕ} {rs ss : List (List ℕ)} (h : rs.Perm ss) :
    IsPartition n rs ↔ IsPartition n ss := by
  unfold IsPartition
  constructor
  · intro h'; exact (h.flatten.symm).trans h'
  · intro h'; exact (h.flatten).trans h'

theorem mem_customers {n x : ℕ} : x ∈ customers n ↔ 1 ≤ x ∧ x < n := by
  simp [customers, List.mem_range'_1]; omega

theorem nodup_customers (n : ℕ) : (customers n).Nodup := by
  unfold customers; exact List.nodup_range'

theorem length_customers (n : ℕ) : (customers n).length = n - 1 := by simp [customers]

theorem IsPartition.mem_iff {n : ℕ} {rs : List (List ℕ)} (h : IsPartition n rs) {x : ℕ} :
    x ∈ rs.flatten ↔ 1 ≤ x ∧ x < n := by
  rw [List.Perm.mem_iff h, mem_customers]

theorem IsPartition.nodup {n : ℕ} {rs : List (List ℕ)} (h : IsPartition n rs) : rs.flatten.Nodup :=
  h.nodup_iff.mpr (nodup_customers n)

theorem IsPartition.length {n : ℕ} {rs : List (List ℕ)} (h : IsPartition n rs) :
    rs.flatten.length = n - 1 := by rw [h.length_eq, length_customers]

theorem IsPartition.lt {n : ℕ} {rs : List (List ℕ)} (h : IsPartition n rs) :
    ∀ r ∈ rs, ∀ x ∈ r, x < n := fun _ hr _ hx => (h.mem_iff.mp (List.mem_flatten.mpr ⟨_, hr, hx⟩)).2

end Verif.Spec

namespace Verif.Spec

theorem pathDist_le (d : ℕ → ℕ → ℚ) (D : ℚ) (hD : 0 ≤ D) (h : ∀ a b, d a b ≤ D) (l : List ℕ) :
    pathDist d l ≤ (l.length - 1 : ℕ) * D := by
  induction l with
  | nil => simp
  | cons a l ih =>
    cases l with
    | nil => simp
    | cons b l =>
      simp only [pathDist_cons_cons]
      simp only [List.length_cons, Nat.add_sub_cancel] at ih ⊢
      push_cast at ih ⊢
      have := h a b
      linarith

theorem routeLoad_le (q : ℕ → ℚ) (Q : ℚ) (h : ∀ a, q a ≤ Q) (l : List ℕ) :
    routeLoad q l ≤ l.length * Q := by
  induction l with
  | nil => simp
  | cons a l ih =>
    simp only [routeLoad_cons, List.length_cons]
    push_cast
    have := h a
    linarith

end Verif.Spec
