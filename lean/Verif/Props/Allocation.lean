import Verif.Props.MatrixInit
import Verif.Model.Program

/-!
# C95: the allocations of matrices

`Matrix::new` calls `alloc_zeroed` for `rows * cols` cells (`/repo/src/models/matrix.rs:25-35`) and `Drop` calls `dealloc`
for `rows * cols` cells (`/repo/src/models/matrix.rs:119-128`). The documentation of `std::alloc` asks for two things:
the size must not be zero, and `dealloc` must get the size that was allocated.
-/

namespace Verif
open F64

/-- `dealloc` gets the size that was allocated: the allocation has `rows * cols` cells still. -/
def Spec.FreedAsAllocated {β : Type} (m : RawMatrix β) : Prop := m.cells.length = m.rows * m.cols

/-- What `alloc_zeroed` asks for. -/
def Spec.SizePositive {β : Type} (m : RawMatrix β) : Prop := 0 < m.cells.length

namespace RawMatrix
variable {β : Type}

/-- Same size and same dimensions. -/
def SameSize (m m' : RawMatrix β) : Prop :=
  m'.rows = m.rows ∧ m'.cols = m.cols ∧ m'.cells.length = m.cells.length

theorem SameSize.refl (m : RawMatrix β) : SameSize m m := ⟨rfl, rfl, rfl⟩

theorem SameSize.trans {m m' m'' : RawMatrix β} (h : SameSize m m') (h' : SameSize m' m'') : SameSize m m'' :=
  ⟨h'.1.trans h.1, h'.2.1.trans h.2.1, h'.2.2.trans h.2.2⟩

theorem SameSize.freed {m m' : RawMatrix β} (h : SameSize m m') (hm : Spec.FreedAsAllocated m) :
    Spec.FreedAsAllocated m' := by
  unfold Spec.FreedAsAllocated at *
  rw [h.1, h.2.1, h.2.2, hm]

theorem new_freed (zero : β) (rows cols : ℕ) : Spec.FreedAsAllocated (new zero rows cols) := by
  simp [Spec.FreedAsAllocated, new]

theorem set_size {m m' : RawMatrix β} {i j : ℕ} {x : β} (h : m.set i j x = some m') : SameSize m m' := by
  unfold set at h
  split at h
  · rw [Option.some.injEq] at h
    subst h
    exact ⟨rfl, rfl, by simp⟩
  · cases h

theorem foldlM_size {γ : Type} {f : RawMatrix β → γ → Option (RawMatrix β)}
    (hf : ∀ m x m', f m x = some m' → SameSize m m') : ∀ (l : List γ) {m m' : RawMatrix β},
    l.foldlM f m = some m' → SameSize m m'
  | [], m, m', h => by
    rw [List.foldlM_nil, Option.pure_def, Option.some.injEq] at h
    exact h ▸ .refl _
  | x :: l, m, m', h => by
    rw [List.foldlM_cons] at h
    obtain ⟨m1, h1, h2⟩ := Option.bind_eq_some_iff.mp h
    exact (hf _ _ _ h1).trans (foldlM_size hf l h2)

theorem fill_size {m m' : RawMatrix β} {rows cols : ℕ} {f : ℕ → ℕ → Option β} (h : m.fill rows cols f = some m') :
    SameSize m m' :=
  foldlM_size (fun _ _ _ h => foldlM_size (fun _ _ _ h => by
    obtain ⟨x, -, h⟩ := Option.bind_eq_some_iff.mp h
    exact set_size h) _ h) _ h

/-- **C95**, the operations on one matrix: after any writes that stay inside, and for a matrix with an initial value, a
copy and a remapped matrix, `dealloc` gets the size that was allocated. -/
theorem C95_operations (zero : β) :
    (∀ rows cols (ws : List (ℕ × ℕ × β)) m,
      ws.foldlM (fun m w => m.set w.1 w.2.1 w.2.2) (new zero rows cols) = some m → Spec.FreedAsAllocated m) ∧
    (∀ x rows cols m, init zero x rows cols = some m → Spec.FreedAsAllocated m) ∧
    (∀ m m', clone zero m = some m' → Spec.FreedAsAllocated m') ∧
    (∀ m mapping m', fromMapping zero m mapping = some m' → Spec.FreedAsAllocated m') :=
  ⟨fun _ _ _ _ h => (foldlM_size (fun _ _ _ h => set_size h) _ h).freed (new_freed _ _ _),
    fun _ _ _ _ h => (fill_size h).freed (new_freed _ _ _), fun _ _ h => (fill_size h).freed (new_freed _ _ _),
    fun _ _ _ h => (fill_size h).freed (new_freed _ _ _)⟩

end RawMatrix

open RawMatrix

variable {α : Type} [F64 α]

theorem addDistance_alloc {rounded : Bool} : ∀ (E : List (ℕ × ℕ × α)) {st st' : RawMatrix α × Option α},
    E.foldlM (addDistance rounded) st = some st' → SameSize st.1 st'.1
  | [], st, st', h => by
    rw [List.foldlM_nil, Option.pure_def, Option.some.injEq] at h
    exact h ▸ .refl _
  | e :: E, st, st', h => by
    rw [List.foldlM_cons] at h
    obtain ⟨s1, h1, h2⟩ := Option.bind_eq_some_iff.mp h
    unfold addDistance at h1
    obtain ⟨m1, h3, h1⟩ := Option.bind_eq_some_iff.mp h1
    obtain ⟨m2, h4, rfl⟩ := Option.map_eq_some_iff.mp h1
    exact ((set_size h3).trans (set_size h4)).trans (addDistance_alloc E h2)

/-- The matrix of distances: `n * n` cells, none if the distances are computed when they are asked for. -/
theorem buildDist_alloc {sqrt : α → α} {locs : List (Coord α)} {precompute rounded : Bool}
    {input : Option (List (List α))} {d : DistMatrix α} (h : buildDist sqrt locs precompute rounded input = some d) :
    Spec.FreedAsAllocated d.storage ∧ d.locations = locs ∧
    d.storage.cells.length = if input.isSome ∨ precompute = true then locs.length * locs.length else 0 := by
  have key : ∀ (E : List (ℕ × ℕ × α)) (st : RawMatrix α × Option α),
      E.foldlM (addDistance rounded) (RawMatrix.new (lit 0) locs.length locs.length, none) = some st →
      Spec.FreedAsAllocated st.1 ∧ st.1.cells.length = locs.length * locs.length := by
    intro E st hs
    have := addDistance_alloc E hs
    exact ⟨this.freed (new_freed _ _ _), by rw [this.2.2]; simp [RawMatrix.new]⟩
  unfold buildDist at h
  cases input with
  | some input =>
    obtain ⟨st, hs, rfl⟩ := Option.map_eq_some_iff.mp h
    obtain ⟨a, b⟩ := key _ _ hs
    exact ⟨a, rfl, by simpa using b⟩
  | none =>
    simp only at h
    split at h
    · rename_i hp
      obtain ⟨st, hs, rfl⟩ := Option.map_eq_some_iff.mp h
      obtain ⟨a, b⟩ := key _ _ hs
      exact ⟨a, rfl, by simpa [hp] using b⟩
    · rename_i hp
      rw [Option.some.injEq] at h
      subst h
      exact ⟨new_freed _ _ _, rfl, by simp [RawMatrix.new, hp]⟩

/-- The matrix of neighbours: `n` rows of `min 200 (n - 2)` cells. -/
theorem buildCorr_alloc {sqrt : α → α} {sort : List (α × ℕ) → List (α × ℕ)} {d : DistMatrix α} {c : Correlation}
    (h : buildCorr sqrt sort d = some c) :
    Spec.FreedAsAllocated c.storage ∧
    c.storage.cells.length = d.locations.length * min 200 (d.locations.length - 2) := by
  unfold buildCorr at h
  split at h
  · cases h
  · obtain ⟨m, hm, rfl⟩ := Option.map_eq_some_iff.mp h
    have := foldlM_size (fun _ _ _ h => by
      obtain ⟨l, -, h⟩ := Option.bind_eq_some_iff.mp h
      exact foldlM_size (fun _ _ _ h => set_size h) _ h) _ hm
    exact ⟨this.freed (new_freed _ _ _), by rw [this.2.2]; simp [RawMatrix.new]⟩

theorem mapM_alloc {γ δ : Type} {f : γ → Option δ} : ∀ (l : List γ) (r : List δ), l.mapM f = some r →
    r.length = l.length
  | [], r, h => by
    rw [List.mapM_nil, Option.pure_def, Option.some.injEq] at h
    subst h
    rfl
  | x :: l, r, h => by
    rw [List.mapM_cons] at h
    obtain ⟨y, -, h⟩ := Option.bind_eq_some_iff.mp h
    obtain ⟨r', hr, h⟩ := Option.bind_eq_some_iff.mp h
    rw [Option.pure_def, Option.some.injEq] at h
    subst h
    simp [mapM_alloc l r' hr]

/-- The matrices of a subproblem. -/
theorem fromMapping_alloc {sqrt : α → α} {d d' : DistMatrix α} {mapping : List ℕ}
    (h : d.fromMapping sqrt mapping = some d') :
    Spec.FreedAsAllocated d'.storage ∧ d'.storage.cells.length = mapping.length * mapping.length ∧
      d'.locations.length = mapping.length := by
  unfold DistMatrix.fromMapping at h
  obtain ⟨locs, hl, h⟩ := Option.bind_eq_some_iff.mp h
  obtain ⟨st, hs, h⟩ := Option.bind_eq_some_iff.mp h
  have := fill_size hs
  have h2 : Spec.FreedAsAllocated st ∧ st.cells.length = mapping.length * mapping.length :=
    ⟨this.freed (new_freed _ _ _), by rw [this.2.2]; simp [RawMatrix.new]⟩
  have hlen : locs.length = mapping.length := by
    exact mapM_alloc _ _ hl
  split at h
  · obtain ⟨mx, -, rfl⟩ := Option.map_eq_some_iff.mp h
    exact ⟨h2.1, h2.2, hlen⟩
  · rw [Option.some.injEq] at h
    subst h
    exact ⟨h2.1, h2.2, hlen⟩

/-- **C95** for the program. The matrices of distances and neighbours are freed with the size they were allocated with.
Missing from the full statement (no allocation of size zero) are instances whose distances are not stored and those
with one customer: `C95_lazy`, `C95_one_customer`, with witnesses in `C95_allocations_refuted`. -/
theorem C95_allocations_partial (lib : Lib α) (cfg : Settings α) (p : Parsed α) (d : DistMatrix α) (c : Correlation)
    (h : Program.matrices lib cfg p = some (d, c)) :
    Spec.FreedAsAllocated d.storage ∧ Spec.FreedAsAllocated c.storage ∧
    (p.matrix.isSome ∨ p.nodes.length - 1 < cfg.precomputeLimit → Spec.SizePositive d.storage) ∧
    (3 ≤ p.nodes.length → Spec.SizePositive c.storage) := by
  unfold Program.matrices at h
  split at h
  · cases h
  · rename_i hn
    obtain ⟨d', h1, h⟩ := Option.bind_eq_some_iff.mp h
    obtain ⟨c', h2, h⟩ := Option.map_eq_some_iff.mp h
    simp only [Prod.mk.injEq] at h
    obtain ⟨rfl, rfl⟩ := h
    obtain ⟨a1, a2, a3⟩ := buildDist_alloc h1
    obtain ⟨b1, b2⟩ := buildCorr_alloc h2
    have hlen : (Program.locations p).length = p.nodes.length := by simp [Program.locations]
    rw [a2, hlen] at b2
    rw [hlen] at a3
    refine ⟨a1, b1, fun hp => ?_, fun h3 => ?_⟩
    · unfold Spec.SizePositive
      rw [a3, if_pos (by simpa using hp)]
      exact Nat.mul_pos (by omega) (by omega)
    · unfold Spec.SizePositive
      rw [b2]
      exact Nat.mul_pos (by omega) (by omega)

/-- **C95** for a subproblem of the decomposition with at least two customers: both matrices have cells and are freed as
allocated, also if the distances of the whole instance are not stored. -/
theorem C95_subproblem (sqrt : α → α) (sort : List (α × ℕ) → List (α × ℕ)) (d d' : DistMatrix α) (c : Correlation)
    (mapping : List ℕ) (hm : 3 ≤ mapping.length) (h : d.fromMapping sqrt mapping = some d')
    (h' : buildCorr sqrt sort d' = some c) :
    Spec.FreedAsAllocated d'.storage ∧ Spec.FreedAsAllocated c.storage ∧ Spec.SizePositive d'.storage ∧
      Spec.SizePositive c.storage := by
  obtain ⟨a1, a2, a3⟩ := fromMapping_alloc h
  obtain ⟨b1, b2⟩ := buildCorr_alloc h'
  refine ⟨a1, b1, ?_, ?_⟩
  · unfold Spec.SizePositive
    rw [a2]
    exact Nat.mul_pos (by omega) (by omega)
  · unfold Spec.SizePositive
    rw [b2, a3]
    exact Nat.mul_pos (by omega) (by omega)

/-- **C95** fails for every instance without an explicit matrix that has at least `precompute_limit` customers: the
program allocates a matrix of size zero, which is undefined behaviour. -/
theorem C95_lazy (lib : Lib α) (cfg : Settings α) (p : Parsed α) (d : DistMatrix α) (c : Correlation)
    (hm : p.matrix = none) (hl : cfg.precomputeLimit ≤ p.nodes.length - 1)
    (h : Program.matrices lib cfg p = some (d, c)) : ¬ Spec.SizePositive d.storage := by
  unfold Program.matrices at h
  split at h
  · cases h
  · obtain ⟨d', h1, h⟩ := Option.bind_eq_some_iff.mp h
    obtain ⟨c', h2, h⟩ := Option.map_eq_some_iff.mp h
    simp only [Prod.mk.injEq] at h
    obtain ⟨rfl, rfl⟩ := h
    have a3 := (buildDist_alloc h1).2.2
    rw [if_neg (by simp [hm]; omega)] at a3
    unfold Spec.SizePositive
    omega

/-- **C95** fails for every instance with one customer: no customer has a neighbour, and the matrix of neighbours has
no cells. -/
theorem C95_one_customer (lib : Lib α) (cfg : Settings α) (p : Parsed α) (d : DistMatrix α) (c : Correlation)
    (hn : p.nodes.length = 2) (h : Program.matrices lib cfg p = some (d, c)) : ¬ Spec.SizePositive c.storage := by
  unfold Program.matrices at h
  split at h
  · cases h
  · obtain ⟨d', h1, h⟩ := Option.bind_eq_some_iff.mp h
    obtain ⟨c', h2, h⟩ := Option.map_eq_some_iff.mp h
    simp only [Prod.mk.injEq] at h
    obtain ⟨rfl, rfl⟩ := h
    have b2 := (buildCorr_alloc h2).2
    rw [(buildDist_alloc h1).2.1, show (Program.locations p).length = p.nodes.length by simp [Program.locations], hn] at b2
    unfold Spec.SizePositive
    rw [b2]
    simp

end Verif
