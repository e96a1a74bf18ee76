import Verif.Model.Ruin
import Verif.Lemmas.Spec
import Verif.Lemmas.Evaluate
import Verif.Lemmas.MoveHeap

/-! # Lemmas on the route operations and on ruin -/

namespace Verif
open F64

/-! ### Inserting a stop into a route -/

/-- Extra length of inserting `c` between `a` and `b`. -/
def detour (d : ℕ → ℕ → ℚ) (a c b : ℕ) : ℚ := d a c + d c b - d a b

theorem pathDist_insert (d : ℕ → ℕ → ℚ) (c b : ℕ) : ∀ (p q : List ℕ) (a : ℕ),
    Spec.pathDist d (a :: (p ++ c :: (q ++ [b]))) =
      Spec.pathDist d (a :: (p ++ (q ++ [b]))) + detour d (p.getLastD a) c (q.headD b) := by
  intro p
  induction p with
  | nil =>
    intro q a
    cases q <;> simp [detour] <;> ring
  | cons x p ih =>
    intro q a
    have := ih q x
    simp only [List.cons_append, Spec.pathDist_cons_cons] at this ⊢
    rw [this]
    simp only [List.getLastD_cons]
    ring

theorem routeDist_detour (d : ℕ → ℕ → ℚ) (p q : List ℕ) (c : ℕ) :
    Spec.routeDist d (p ++ c :: q) =
      Spec.routeDist d (p ++ q) + detour d (p.getLastD 0) c (q.headD 0) := by
  have := pathDist_insert d c 0 p q 0
  simpa [Spec.routeDist] using this

theorem insertIdx_at (c : ℕ) (q : List ℕ) : ∀ p : List ℕ, (p ++ q).insertIdx p.length c = p ++ c :: q
  | [] => by simp
  | x :: p => by simp [insertIdx_at c q p]

variable {α : Type} [F64 α]

namespace RRoute

theorem prevNode_append (p q : List ℕ) (a b : α) :
    (⟨p ++ q, a, b⟩ : RRoute α).prevNode p.length = some (p.getLastD 0) := by
  unfold prevNode
  rcases List.eq_nil_or_concat p with rfl | ⟨p, x, rfl⟩
  · simp
  · simp

theorem next_append (p q : List ℕ) :
    (if p.length = (p ++ q).length then some 0 else (p ++ q)[p.length]?) = some (q.headD 0) := by
  cases q <;> simp

theorem deltaDistance_append (ctx : Ctx α) (p q : List ℕ) (a b : α) (c : ℕ) :
    (⟨p ++ q, a, b⟩ : RRoute α).deltaDistance ctx p.length c =
      some (F64.neg (ctx.dist (p.getLastD 0) (q.headD 0)) +. ctx.dist (p.getLastD 0) c +.
        ctx.dist c (q.headD 0)) := by
  unfold deltaDistance
  rw [prevNode_append]
  simp only [Option.bind_some, next_append, Option.map_some]

theorem add_append (ctx : Ctx α) (p q : List ℕ) (a b : α) (c : ℕ) :
    (⟨p ++ q, a, b⟩ : RRoute α).add ctx p.length c =
      some ⟨p ++ c :: q, a +. (F64.neg (ctx.dist (p.getLastD 0) (q.headD 0)) +.
        ctx.dist (p.getLastD 0) c +. ctx.dist c (q.headD 0)), b +. ctx.demand c⟩ := by
  unfold add
  rw [deltaDistance_append]
  simp [insertIdx_at]

theorem remove_append (ctx : Ctx α) (p q : List ℕ) (a b : α) (x : ℕ) :
    (⟨p ++ x :: q, a, b⟩ : RRoute α).remove ctx p.length =
      some (⟨p ++ q, a +. (F64.neg (ctx.dist (p.getLastD 0) x) -. ctx.dist x (q.headD 0) +.
        ctx.dist (p.getLastD 0) (q.headD 0)), b -. ctx.demand x⟩, x) := by
  unfold remove
  rw [prevNode_append]
  have h1 : (p ++ x :: q)[p.length]? = some x := by simp
  have h2 : (if p.length + 1 = (p ++ x :: q).length then some 0 else (p ++ x :: q)[p.length + 1]?)
      = some (q.headD 0) := by
    cases q <;> simp
  have h3 : (p ++ x :: q).eraseIdx p.length = p ++ q := by
    rw [List.eraseIdx_append_of_length_le (le_refl _)]; simp
  simp only [Option.bind_some, h1, h2, h3, Option.map_some]

/-- Distance and overload are the true ones. -/
def Exact (ctx : Ctx ℚ) (r : RRoute ℚ) : Prop :=
  r.distance = Spec.routeDist ctx.dist r.nodes ∧
    r.overload = Spec.routeLoad ctx.demand r.nodes - ctx.cap

end RRoute

theorem split_at {l : List ℕ} {i : ℕ} (h : i ≤ l.length) : ∃ p q, l = p ++ q ∧ p.length = i :=
  ⟨l.take i, l.drop i, (List.take_append_drop _ _).symm, by simpa using h⟩

theorem split_cons {l : List ℕ} {i : ℕ} (h : i < l.length) :
    ∃ p x q, l = p ++ x :: q ∧ p.length = i :=
  ⟨l.take i, l[i], l.drop (i + 1), by simp, by simpa using h.le⟩

namespace RRoute

/-- Removing at a valid position: what comes out. -/
theorem remove_total (ctx : Ctx α) (r : RRoute α) {i : ℕ} (hi : i < r.nodes.length) :
    ∃ p, r.remove ctx i = some p := by
  obtain ⟨l, a, b⟩ := r
  obtain ⟨p, x, q, rfl, rfl⟩ := split_cons (l := l) hi
  exact ⟨_, remove_append ctx p q a b x⟩

theorem remove_some {ctx : Ctx α} {r : RRoute α} {i : ℕ} {y : RRoute α × ℕ}
    (h : r.remove ctx i = some y) : ∃ p q, r.nodes = p ++ y.2 :: q ∧ p.length = i ∧
      y.1.nodes = p ++ q := by
  by_cases hi : i < r.nodes.length
  · obtain ⟨l, a, b⟩ := r
    obtain ⟨p, x, q, rfl, rfl⟩ := split_cons (l := l) hi
    rw [remove_append, Option.some.injEq] at h
    subst h
    exact ⟨p, q, rfl, rfl, rfl⟩
  · exfalso
    unfold remove at h
    simp only [Option.bind_eq_some_iff] at h
    obtain ⟨_, _, n, hn, _⟩ := h
    exact hi (List.getElem?_eq_some_iff.mp hn).1

theorem remove_exact {ctx : Ctx ℚ} {r : RRoute ℚ} {i : ℕ} {y : RRoute ℚ × ℕ}
    (h : r.remove ctx i = some y) (he : r.Exact ctx) : y.1.Exact ctx := by
  obtain ⟨p, q, h1, h2, h3⟩ := remove_some h
  obtain ⟨l, a, b⟩ := r
  obtain ⟨y, x⟩ := y
  dsimp only at h1
  subst h1 h2
  rw [remove_append, Option.some.injEq, Prod.mk.injEq] at h
  obtain ⟨h, -⟩ := h
  subst h
  obtain ⟨e1, e2⟩ := he
  constructor
  · simp only [rat_add, rat_sub, rat_neg] at e1 ⊢
    rw [e1, routeDist_detour]
    unfold detour
    ring
  · simp only [rat_sub] at e2 ⊢
    rw [e2]
    simp only [Spec.routeLoad_append, Spec.routeLoad_cons]
    ring

theorem delta_total (ctx : Ctx α) (r : RRoute α) {i : ℕ} (hi : i ≤ r.nodes.length) (c : ℕ) :
    ∃ d, r.deltaDistance ctx i c = some d := by
  obtain ⟨l, a, b⟩ := r
  obtain ⟨p, q, rfl, rfl⟩ := split_at (l := l) hi
  exact ⟨_, deltaDistance_append ctx p q a b c⟩

/-- The extra distance reported for a position is the true one. -/
theorem delta_exact {ctx : Ctx ℚ} {r : RRoute ℚ} {i c : ℕ} (hi : i ≤ r.nodes.length) :
    r.deltaDistance ctx i c = some (Spec.routeDist ctx.dist (r.nodes.insertIdx i c) -
      Spec.routeDist ctx.dist r.nodes) := by
  obtain ⟨l, a, b⟩ := r
  obtain ⟨p, q, rfl, rfl⟩ := split_at (l := l) hi
  rw [deltaDistance_append]
  dsimp only
  rw [insertIdx_at]
  simp only [routeDist_detour, detour, rat_add, rat_neg,
    Option.some.injEq]
  ring

theorem add_some {ctx : Ctx α} {r y : RRoute α} {i c : ℕ} (h : r.add ctx i c = some y) :
    ∃ p q, r.nodes = p ++ q ∧ p.length = i ∧ y.nodes = p ++ c :: q := by
  by_cases hi : i ≤ r.nodes.length
  · obtain ⟨l, a, b⟩ := r
    obtain ⟨p, q, rfl, rfl⟩ := split_at (l := l) hi
    rw [add_append, Option.some.injEq] at h
    subst h
    exact ⟨p, q, rfl, rfl, rfl⟩
  · exfalso
    unfold add deltaDistance at h
    rw [if_neg (by omega), List.getElem?_eq_none (by omega)] at h
    simp at h

theorem add_exact {ctx : Ctx ℚ} {r y : RRoute ℚ} {i c : ℕ} (h : r.add ctx i c = some y)
    (he : r.Exact ctx) : y.Exact ctx := by
  obtain ⟨p, q, h1, h2, h3⟩ := add_some h
  obtain ⟨l, a, b⟩ := r
  dsimp only at h1
  subst h1 h2
  rw [add_append, Option.some.injEq] at h
  subst h
  obtain ⟨e1, e2⟩ := he
  constructor
  · simp only [rat_add, rat_neg] at e1 ⊢
    rw [e1, routeDist_detour]
    unfold detour
    ring
  · simp only [rat_add] at e2 ⊢
    rw [e2]
    simp only [Spec.routeLoad_append, Spec.routeLoad_cons]
    ring

end RRoute

namespace RRSol

/-! ### Removing a list of positions -/

/-- The positions exist, one after the other. -/
def Fits : List ℕ → ℕ → Prop
  | [], _ => True
  | i :: is, len => i < len ∧ Fits is (len - 1)

theorem fits_replicate {start : ℕ} : ∀ {k len : ℕ}, start + k ≤ len → Fits (List.replicate k start) len
  | 0, _, _ => trivial
  | k + 1, len, h => ⟨by omega, fits_replicate (by omega)⟩

theorem fits_desc : ∀ {is : List ℕ} {len : ℕ}, is.Pairwise (· > ·) → (∀ i ∈ is, i < len) → Fits is len
  | [], _, _, _ => trivial
  | i :: is, len, hp, hl => by
    rw [List.pairwise_cons] at hp
    have := hl i (by simp)
    refine ⟨this, fits_desc hp.2 fun j hj => ?_⟩
    have := hp.1 j hj
    omega

theorem removeSeq_total (ctx : Ctx α) : ∀ (is : List ℕ) (r : RRoute α), Fits is r.nodes.length →
    ∃ p, removeSeq ctx is r = some p
  | [], r, _ => ⟨_, rfl⟩
  | i :: is, r, h => by
    obtain ⟨y, hy⟩ := r.remove_total ctx h.1
    obtain ⟨p, q, h1, -, h3⟩ := RRoute.remove_some hy
    obtain ⟨z, hz⟩ := removeSeq_total ctx is y.1 (by
      have := h.2
      rw [h1] at this
      rw [h3]
      simpa using this)
    unfold removeSeq
    rw [hy, Option.bind_some, hz]
    exact ⟨_, rfl⟩

theorem removeSeq_some {ctx : Ctx α} : ∀ {is : List ℕ} {r : RRoute α} {p : RRoute α × List ℕ},
    removeSeq ctx is r = some p → (p.1.nodes ++ p.2).Perm r.nodes ∧ p.1.nodes.Sublist r.nodes ∧
      p.2.length = is.length
  | [], r, p, h => by
    simp only [removeSeq, Option.some.injEq] at h
    subst h
    simp
  | i :: is, r, p, h => by
    unfold removeSeq at h
    simp only [Option.bind_eq_some_iff, Option.map_eq_some_iff] at h
    obtain ⟨y, hy, q, hq, rfl⟩ := h
    obtain ⟨h1, h2, h3⟩ := removeSeq_some hq
    obtain ⟨a, b, e1, -, e3⟩ := RRoute.remove_some hy
    refine ⟨?_, ?_, by simpa using h3⟩
    · dsimp only
      refine List.perm_middle.trans ?_
      rw [e1]
      refine (h1.cons _).trans ?_
      rw [e3]
      exact List.perm_middle.symm
    · refine h2.trans ?_
      rw [e3, e1]
      exact List.Sublist.append_left (List.sublist_cons_self _ _) _

theorem removeSeq_exact {ctx : Ctx ℚ} : ∀ {is : List ℕ} {r : RRoute ℚ} {p : RRoute ℚ × List ℕ},
    removeSeq ctx is r = some p → r.Exact ctx → p.1.Exact ctx
  | [], r, p, h, he => by
    simp only [removeSeq, Option.some.injEq] at h
    subst h
    exact he
  | i :: is, r, p, h, he => by
    unfold removeSeq at h
    simp only [Option.bind_eq_some_iff, Option.map_eq_some_iff] at h
    obtain ⟨y, hy, q, hq, rfl⟩ := h
    show q.1.Exact ctx
    exact removeSeq_exact hq (RRoute.remove_exact hy he)

theorem splitLen_bounds (ω : Oracle) : ∀ (k m : ℕ), m ≤ splitLen ω k m ∧ splitLen ω k m ≤ m + k
  | 0, m => ⟨le_refl _, le_refl _⟩
  | k + 1, m => by
    unfold splitLen
    split
    · have := splitLen_bounds ω k (m + 1)
      omega
    · omega

theorem startIndex_total {w len nodeIndex size : ℕ} :
    ∃ s, startIndex w len nodeIndex size = some s := by
  unfold startIndex
  dsimp only
  split
  · exact rangeUsize_isSome (by omega)
  · exact ⟨_, rfl⟩

theorem startIndex_some {w len nodeIndex size s : ℕ} (h1 : nodeIndex < len) (h2 : size ≤ len)
    (h3 : 1 ≤ size) (h : startIndex w len nodeIndex size = some s) :
    s + size ≤ len ∧ s ≤ nodeIndex ∧ nodeIndex < s + size := by
  unfold startIndex at h
  dsimp only at h
  split at h
  · have := rangeUsize_some h
    omega
  · simp only [Option.some.injEq] at h
    omega

theorem split_range {start lt m j : ℕ} (h1 : start ≤ j) (h2 : j < start + lt) :
    (List.range' start (lt + m)).filter (fun i => decide (j + m ≤ i ∨ i < j)) =
      List.range' start (j - start) ++ List.range' (j + m) (start + lt - j) := by
  have : List.range' start (lt + m) = List.range' start (j - start) ++
      (List.range' j m ++ List.range' (j + m) (start + lt - j)) := by
    have e : lt + m = (j - start) + (m + (start + lt - j)) := by omega
    have e2 : start + (j - start) = j := by omega
    rw [e, ← List.range'_append_1, ← List.range'_append_1, e2]
  rw [this, List.filter_append, List.filter_append]
  have a1 : (List.range' start (j - start)).filter (fun i => decide (j + m ≤ i ∨ i < j)) =
      List.range' start (j - start) := by
    rw [List.filter_eq_self]
    intro x hx
    rw [List.mem_range'_1] at hx
    simp; omega
  have a2 : (List.range' j m).filter (fun i => decide (j + m ≤ i ∨ i < j)) = [] := by
    rw [List.filter_eq_nil_iff]
    intro x hx
    rw [List.mem_range'_1] at hx
    simp; omega
  have a3 : (List.range' (j + m) (start + lt - j)).filter (fun i => decide (j + m ≤ i ∨ i < j)) =
      List.range' (j + m) (start + lt - j) := by
    rw [List.filter_eq_self]
    intro x hx
    rw [List.mem_range'_1] at hx
    simp; omega
  rw [a1, a2, a3, List.nil_append]

theorem ruinPositions_ok (ω : Oracle) {len nodeIndex lt : ℕ} (h1 : nodeIndex < len) (h2 : lt ≤ len)
    (h3 : 1 ≤ lt) : ∃ is, ruinPositions ω len nodeIndex lt = some is ∧ is.length = lt ∧
      Fits is len := by
  unfold ruinPositions
  rw [if_neg (by omega)]
  split
  · obtain ⟨s, hs⟩ := startIndex_total (w := ω 1) (len := len) (nodeIndex := nodeIndex) (size := lt)
    rw [hs]
    exact ⟨_, rfl, by simp, fits_replicate (startIndex_some h1 h2 h3 hs).1⟩
  · dsimp only
    generalize hm : (if 0 < len - lt then splitLen (ω.sub 0) (len - lt - 1) 1 else 0) = m
    have hml : lt + m ≤ len := by
      split at hm
      · have := splitLen_bounds (ω.sub 0) (len - lt - 1) 1
        omega
      · omega
    obtain ⟨s, hs⟩ := startIndex_total (w := ω 1) (len := len) (nodeIndex := nodeIndex) (size := lt + m)
    have hs' := startIndex_some h1 hml (by omega) hs
    obtain ⟨j, hj⟩ := rangeUsize_isSome (w := ω 2) (lo := s) (hi := s + lt) (by omega)
    have hj' := rangeUsize_some hj
    rw [hs]
    simp only [Option.bind_some, hj, Option.map_some]
    refine ⟨_, rfl, ?_, fits_desc ?_ ?_⟩
    · rw [List.filter_reverse, split_range hj'.1 hj'.2]
      simp
      omega
    · refine List.Pairwise.filter _ ?_
      rw [List.pairwise_reverse]
      exact List.pairwise_lt_range'
    · intro i hi
      simp only [List.mem_filter, List.mem_reverse, List.mem_range'_1] at hi
      omega

theorem ruinPositions_length {ω : Oracle} {len nodeIndex lt : ℕ} {is : List ℕ}
    (h : ruinPositions ω len nodeIndex lt = some is) : lt ≤ len ∧ is.length = lt := by
  unfold ruinPositions at h
  split at h
  · simp at h
  · refine ⟨by omega, ?_⟩
    split at h
    · simp only [Option.map_eq_some_iff] at h
      obtain ⟨s, -, rfl⟩ := h
      simp
    · simp only [Option.bind_eq_some_iff, Option.map_eq_some_iff] at h
      obtain ⟨s, -, j, hj, rfl⟩ := h
      have hj' := rangeUsize_some hj
      rw [List.filter_reverse, split_range hj'.1 hj'.2]
      simp
      omega

end RRSol
end Verif
