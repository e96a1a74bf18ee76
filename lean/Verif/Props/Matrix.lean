import Verif.Lemmas.Matrix

/-!
# C18 – C21: the raw matrix and the distance matrix
-/

namespace Verif
open F64

/-! ## C21 -/

namespace RawMatrix
variable {β : Type}

/-- Specification: the value last written to cell `(r, c)`, `zero` if there is none. -/
def lastWritten (zero : β) (ws : List (ℕ × ℕ × β)) (r c : ℕ) : β :=
  ((ws.reverse.find? fun w => w.1 = r ∧ w.2.1 = c).map fun w => w.2.2).getD zero

theorem writes_shows {rows cols : ℕ} : ∀ (ws : List (ℕ × ℕ × β)) (m : RawMatrix β) (f : ℕ → ℕ → β),
    m.Shows rows cols f → (∀ w ∈ ws, w.1 < rows ∧ w.2.1 < cols) →
    ∃ m', ws.foldlM (fun m w => m.set w.1 w.2.1 w.2.2) m = some m' ∧ m'.Shows rows cols fun r c =>
      ((ws.reverse.find? fun w => w.1 = r ∧ w.2.1 = c).map fun w => w.2.2).getD (f r c)
  | [], m, f, h, _ => ⟨m, rfl, h.congr (by simp)⟩
  | w :: ws, m, f, h, hw => by
    obtain ⟨m1, e1, h1⟩ := h.set (hw w (by simp)).1 (hw w (by simp)).2 w.2.2
    obtain ⟨m2, e2, h2⟩ := writes_shows ws m1 _ h1 (fun v hv => hw v (by simp [hv]))
    refine ⟨m2, ?_, h2.congr ?_⟩
    · rw [List.foldlM_cons]; exact (congrArg (· >>= _) e1).trans e2
    · intro r c _ _
      rw [List.reverse_cons, List.find?_append]
      cases ws.reverse.find? (fun w => decide (w.1 = r ∧ w.2.1 = c)) with
      | some v => simp
      | none =>
        by_cases hrc : w.1 = r ∧ w.2.1 = c
        · obtain ⟨rfl, rfl⟩ := hrc; simp
        · have : ¬ (r = w.1 ∧ c = w.2.1) := fun h => hrc ⟨h.1.symm, h.2.symm⟩
          simp [hrc, this]

/-- **C21**. After any sequence of in-range writes to a new matrix, every in-range cell holds the value
last written to it (zero if none), every slice inside the matrix lists the consecutive cells in row
order, a clone has the same cells, and remapping copies the mapped cells. No raw access leaves the
allocation. -/
theorem C21_raw_matrix (zero : β) (rows cols : ℕ) (ws : List (ℕ × ℕ × β))
    (hw : ∀ w ∈ ws, w.1 < rows ∧ w.2.1 < cols) :
    ∃ m, ws.foldlM (fun m w => m.set w.1 w.2.1 w.2.2) (new zero rows cols) = some m ∧
      (∀ r c, r < rows → c < cols → m.get r c = some (lastWritten zero ws r c)) ∧
      (∀ r c k, r * cols + c + k ≤ rows * cols → ∃ l, m.slice r c k = some l ∧ l.length = k ∧
        ∀ i < k, l[i]? = some (lastWritten zero ws ((r * cols + c + i) / cols) ((r * cols + c + i) % cols))) ∧
      (∃ m', clone zero m = some m' ∧ m'.rows = rows ∧ m'.cols = cols ∧
        ∀ r c, r < rows → c < cols → m'.get r c = some (lastWritten zero ws r c)) ∧
      ∀ mapping : List ℕ, rows = cols → (∀ i ∈ mapping, i < rows) →
        ∃ m', fromMapping zero m mapping = some m' ∧ m'.rows = mapping.length ∧
          m'.cols = mapping.length ∧ ∀ i j a b, mapping[i]? = some a → mapping[j]? = some b →
            m'.get i j = some (lastWritten zero ws a b) := by
  obtain ⟨m, e, h⟩ := writes_shows ws _ _ (new_shows zero rows cols) hw
  change m.Shows rows cols (lastWritten zero ws) at h
  refine ⟨m, e, fun r c hr hc => h.get hr hc, ?_, ?_, ?_⟩
  · intro r c k hk
    refine ⟨_, h.slice hk, by simp, fun i hi => by simp [hi]⟩
  · obtain ⟨m', e', h'⟩ := fill_shows (new_shows zero rows cols) (f := fun i j => m.get i j)
      (g := lastWritten zero ws) (fun i hi j hj => h.get hi hj)
    refine ⟨m', ?_, h'.rows_eq, h'.cols_eq, fun r c hr hc => h'.get hr hc⟩
    rw [clone, h.rows_eq, h.cols_eq]; exact e'
  · intro mapping hsq hm
    subst hsq
    obtain ⟨m', e', h'⟩ := fill_shows (new_shows zero mapping.length mapping.length)
      (f := fun i j => (mapping[i]?).bind fun a => (mapping[j]?).bind fun b => m.get a b)
      (g := fun i j => lastWritten zero ws (mapping.getD i 0) (mapping.getD j 0)) (by
        intro i hi j hj
        have h1 : mapping[i]? = some mapping[i] := List.getElem?_eq_getElem hi
        have h2 : mapping[j]? = some mapping[j] := List.getElem?_eq_getElem hj
        simp only [h1, h2, Option.bind_some, List.getD_eq_getElem?_getD, Option.getD_some]
        exact h.get (hm _ (List.getElem_mem hi)) (hm _ (List.getElem_mem hj)))
    refine ⟨m', e', h'.rows_eq, h'.cols_eq, fun i j a b ha hb => ?_⟩
    have hi : i < mapping.length := (List.getElem?_eq_some_iff.mp ha).1
    have hj : j < mapping.length := (List.getElem?_eq_some_iff.mp hb).1
    rw [h'.get hi hj]
    simp [ha, hb]

/-- Overlapping writes to a 2 × 3 matrix, a slice across the row end. -/
example : ∀ w ∈ [(0, 1, 7), (1, 2, 4), (0, 1, 5)], w.1 < 2 ∧ (w : ℕ × ℕ × ℕ).2.1 < 3 := by decide
example : ([(0, 1, 7), (1, 2, 4), (0, 1, 5)].foldlM
    (fun (m : RawMatrix ℕ) w => m.set w.1 w.2.1 w.2.2) (new 0 2 3)).bind (fun m => m.slice 0 1 5) = some [5, 0, 0, 0, 4] := by decide

end RawMatrix

/-! ## Building the distance matrix -/

section
variable {α : Type} [F64 α]

/-- Entry `e` is about the pair `(i, j)` of nodes, in some order. -/
def EntryFor (e : ℕ × ℕ × α) (i j : ℕ) : Prop := (e.1 = i ∧ e.2.1 = j) ∨ (e.1 = j ∧ e.2.1 = i)

/-- How the maximum is updated. -/
def maxStep (rounded : Bool) (mx : Option α) (e : ℕ × ℕ × α) : Option α :=
  match mx with
  | some mx => if approxGt (roundIf rounded e.2.2) mx then some (roundIf rounded e.2.2) else some mx
  | none => some (roundIf rounded e.2.2)

/-- Storing a list of distances that never assigns two values to one pair of nodes. -/
theorem entries_shows {rounded : Bool} {n : ℕ} : ∀ (E : List (ℕ × ℕ × α)) (m : RawMatrix α)
    (mx : Option α) (f : ℕ → ℕ → α), m.Shows n n f → (∀ e ∈ E, e.1 < n ∧ e.2.1 < n) →
    ∃ m' g, E.foldlM (addDistance rounded) (m, mx) = some (m', E.foldl (maxStep rounded) mx) ∧
      m'.Shows n n g ∧
      ((∀ e ∈ E, ∀ e' ∈ E, EntryFor e e'.1 e'.2.1 → e.2.2 = e'.2.2) →
        ∀ e ∈ E, g e.1 e.2.1 = roundIf rounded e.2.2 ∧ g e.2.1 e.1 = roundIf rounded e.2.2) ∧
      ∀ i j, (∀ e ∈ E, ¬ EntryFor e i j) → g i j = f i j
  | [], m, mx, f, h, _ => ⟨m, f, rfl, h, by simp, by simp⟩
  | e :: E, m, mx, f, h, hE => by
    obtain ⟨h1, h2⟩ := hE e (by simp)
    obtain ⟨m1, e1, s1⟩ := h.set h1 h2 (roundIf rounded e.2.2)
    obtain ⟨m2, e2, s2⟩ := s1.set h2 h1 (roundIf rounded e.2.2)
    obtain ⟨m', g, e3, s3, hg, hf⟩ := entries_shows E m2 (maxStep rounded mx e) _ s2
      (fun e' he' => hE e' (by simp [he']))
    refine ⟨m', g, ?_, s3, ?_, ?_⟩
    · rw [List.foldlM_cons, List.foldl_cons, ← e3]
      show (addDistance rounded (m, mx) e).bind _ = _
      unfold addDistance
      dsimp only
      rw [e1, Option.bind_some, e2, Option.map_some, Option.bind_some]
      rfl
    · intro hcons e' he'
      have hcons' : ∀ a ∈ E, ∀ b ∈ E, EntryFor a b.1 b.2.1 → a.2.2 = b.2.2 :=
        fun a ha b hb => hcons a (by simp [ha]) b (by simp [hb])
      rcases List.mem_cons.mp he' with rfl | he'
      · by_cases hex : ∃ a ∈ E, EntryFor a e'.1 e'.2.1
        · obtain ⟨a, ha, hae⟩ := hex
          have hd := hcons a (by simp [ha]) e' (by simp) hae
          obtain ⟨g1, g2⟩ := hg hcons' a ha
          rw [hd] at g1 g2
          rcases hae with ⟨x1, x2⟩ | ⟨x1, x2⟩
          · rw [x1, x2] at g1 g2; exact ⟨g1, g2⟩
          · rw [x1, x2] at g1 g2; exact ⟨g2, g1⟩
        · have hno : ∀ a ∈ E, ¬ EntryFor a e'.1 e'.2.1 := fun a ha h => hex ⟨a, ha, h⟩
          have hno' : ∀ a ∈ E, ¬ EntryFor a e'.2.1 e'.1 := fun a ha h => hex ⟨a, ha, h.symm⟩
          rw [hf _ _ hno, hf _ _ hno']
          constructor
          · simp
          · simp
      · exact hg hcons' e' he'
    · intro i j hij
      rw [hf i j (fun a ha => hij a (by simp [ha]))]
      have := hij e (by simp)
      rw [EntryFor, not_or] at this
      rw [if_neg (fun h => this.2 ⟨h.2.symm, h.1.symm⟩), if_neg (fun h => this.1 ⟨h.1.symm, h.2.symm⟩)]

theorem mem_inputEntries {input : List (List α)} {a b : ℕ} {d : α} :
    (a, b, d) ∈ inputEntries input ↔ ∃ i row, a = i + 1 ∧ input[i]? = some row ∧ row[b]? = some d := by
  simp only [inputEntries, List.mem_flatMap, List.mem_map, Prod.exists, Prod.mk.injEq,
    List.mem_zipIdx_iff_getElem?]
  constructor
  · rintro ⟨row, i, h1, d', b', h2, rfl, rfl, rfl⟩
    exact ⟨i, row, rfl, h1, h2⟩
  · rintro ⟨i, row, rfl, h1, h2⟩
    exact ⟨row, i, h1, d, b, h2, rfl, rfl, rfl⟩

theorem mem_euclidEntries {sqrt : α → α} {locs : List (Coord α)} {a b : ℕ} {d : α} :
    (a, b, d) ∈ euclidEntries sqrt locs ↔
      ∃ p q, a < b ∧ locs[a]? = some p ∧ locs[b]? = some q ∧ d = euclid sqrt p q := by
  simp only [euclidEntries, List.mem_flatMap, List.mem_map, Prod.exists, Prod.mk.injEq,
    List.mem_zipIdx_iff_getElem?]
  have hdrop : ∀ (k b : ℕ) (q : Coord α), (q, b) ∈ locs.zipIdx.drop k ↔ k ≤ b ∧ locs[b]? = some q := by
    intro k b q
    rw [List.mem_iff_getElem?]
    simp only [List.getElem?_drop, List.getElem?_zipIdx, Option.map_eq_some_iff, Prod.mk.injEq]
    constructor
    · rintro ⟨i, q', h1, rfl, h2⟩
      refine ⟨by omega, ?_⟩
      rw [← h1]; congr 1; omega
    · rintro ⟨h1, h2⟩
      refine ⟨b - k, q, ?_, rfl, by omega⟩
      rw [← h2]; congr 1; omega
  constructor
  · rintro ⟨p, i, h1, q, j, h2, rfl, rfl, rfl⟩
    rw [hdrop] at h2
    exact ⟨p, q, by omega, h1, h2.2, rfl⟩
  · rintro ⟨p, q, h0, h1, h2, rfl⟩
    refine ⟨p, a, h1, q, b, ?_, rfl, rfl, rfl⟩
    rw [hdrop]; exact ⟨by omega, h2⟩

/-- **C19**. For an explicit lower-row matrix with rows of length `1, 2, …, n-1` the builder succeeds
(no write leaves the allocation) and the stored distance between nodes `i > j` is the `j`-th number of
the `(i-1)`-th row, rounded if rounding is on, in both directions; it is zero between a node and
itself. -/
theorem C19_explicit_lower_row (sqrt : α → α) (locs : List (Coord α)) (precompute rounded : Bool)
    (input : List (List α)) (hlen : input.length + 1 = locs.length)
    (hrow : ∀ (i : ℕ) (row : List α), input[i]? = some row → row.length = i + 1) :
    ∃ d, buildDist sqrt locs precompute rounded (some input) = some d ∧
      (∀ (i j : ℕ) (row : List α) (x : α), input[i]? = some row → row[j]? = some x →
        d.get sqrt (i + 1) j = some (if rounded then F64.round x else x) ∧
        d.get sqrt j (i + 1) = some (if rounded then F64.round x else x)) ∧
      ∀ i < locs.length, d.get sqrt i i = some (lit 0) := by
  have hjlt : ∀ (i j : ℕ) (row : List α) (x : α), input[i]? = some row → row[j]? = some x → j < i + 1 := by
    intro i j row x h1 h2
    have := (List.getElem?_eq_some_iff.mp h2).1
    rw [hrow i row h1] at this; exact this
  have hilt : ∀ (i : ℕ) (row : List α), input[i]? = some row → i + 1 < locs.length := by
    intro i row h1
    have := (List.getElem?_eq_some_iff.mp h1).1
    omega
  obtain ⟨m, g, e, hs, hg, hf⟩ := entries_shows (rounded := rounded) (inputEntries input)
    (RawMatrix.new (lit 0) locs.length locs.length) none _ (RawMatrix.new_shows _ _ _) (by
      rintro ⟨a, b, d⟩ he
      obtain ⟨i, row, rfl, h1, h2⟩ := mem_inputEntries.mp he
      have := hjlt i b row d h1 h2
      have := hilt i row h1
      dsimp only
      omega)
  have hcons : ∀ a ∈ inputEntries input, ∀ b ∈ inputEntries input, EntryFor a b.1 b.2.1 → a.2.2 = b.2.2 := by
    rintro ⟨a, b, d⟩ ha ⟨a', b', d'⟩ ha' h
    obtain ⟨i, row, rfl, h1, h2⟩ := mem_inputEntries.mp ha
    obtain ⟨i', row', rfl, h1', h2'⟩ := mem_inputEntries.mp ha'
    have j1 := hjlt _ _ _ _ h1 h2
    have j2 := hjlt _ _ _ _ h1' h2'
    rcases h with ⟨x1, x2⟩ | ⟨x1, x2⟩
    · dsimp only at x1 x2 ⊢
      have : i = i' := by omega
      subst this; subst x2
      rw [h1] at h1'; cases h1'
      rw [h2] at h2'; cases h2'
      rfl
    · dsimp only at x1 x2; omega
  refine ⟨_, by rw [buildDist, e]; rfl, ?_, ?_⟩
  · intro i j row x h1 h2
    have j1 := hjlt _ _ _ _ h1 h2
    have j2 := hilt _ _ h1
    obtain ⟨g1, g2⟩ := hg hcons (i + 1, j, x) (mem_inputEntries.mpr ⟨i, row, rfl, h1, h2⟩)
    dsimp only at g1 g2
    simp only [DistMatrix.get, if_true]
    rw [hs.get j2 (by omega), hs.get (by omega) j2, g1, g2]
    exact ⟨rfl, rfl⟩
  · intro i hi
    simp only [DistMatrix.get, if_true]
    rw [hs.get hi hi, hf i i]
    rintro ⟨a, b, d⟩ ha h
    obtain ⟨i', row, rfl, h1, h2⟩ := mem_inputEntries.mp ha
    have := hjlt _ _ _ _ h1 h2
    rcases h with ⟨x1, x2⟩ | ⟨x1, x2⟩ <;> dsimp only at x1 x2 <;> omega

/-- The laws of the arithmetic used by C18: a square does not depend on the sign of the difference, the
difference of a number with itself squares to zero, the sum of zeros and their root and rounding are zero.
They are asked of the numbers with `S` only, which the coordinates have to be; the finite doubles satisfy
them (`squareLaws_dbl`) as well as all exact numbers. -/
structure SquareLaws (sqrt : α → α) (S : α → Prop) : Prop where
  flip : ∀ a b : α, S a → S b → (a -. b) *. (a -. b) = (b -. a) *. (b -. a)
  self : ∀ a : α, S a → (a -. a) *. (a -. a) = lit 0
  zero : (lit 0 : α) +. lit 0 = lit 0
  root : sqrt (lit 0) = lit 0
  round : F64.round (lit 0 : α) = lit 0

/-- Both coordinates have `S`. -/
def Coord.Has (S : α → Prop) (p : Coord α) : Prop := S p.lng ∧ S p.lat

theorem euclid_comm {sqrt : α → α} {S : α → Prop} (L : SquareLaws sqrt S) {a b : Coord α} (ha : a.Has S)
    (hb : b.Has S) : euclid sqrt a b = euclid sqrt b a := by
  rw [euclid, euclid, L.flip b.lng _ hb.1 ha.1, L.flip b.lat _ hb.2 ha.2]

theorem euclid_self {sqrt : α → α} {S : α → Prop} (L : SquareLaws sqrt S) {a : Coord α} (ha : a.Has S) :
    euclid sqrt a a = lit 0 := by
  rw [euclid, L.self _ ha.1, L.self _ ha.2, L.zero, L.root]

/-- The precomputed Euclidean matrix. -/
theorem euclid_shows {sqrt : α → α} {S : α → Prop} (L : SquareLaws sqrt S) (locs : List (Coord α))
    (hS : ∀ p ∈ locs, p.Has S) (rounded : Bool) :
    ∃ d g, buildDist sqrt locs true rounded none = some d ∧ d.locations = locs ∧ d.precomputed = true ∧
      d.maxDistance = (euclidEntries sqrt locs).foldl (maxStep rounded) none ∧
      d.storage.Shows locs.length locs.length g ∧
      ∀ (i j : ℕ) (p q : Coord α), locs[i]? = some p → locs[j]? = some q →
        g i j = roundIf rounded (euclid sqrt p q) := by
  obtain ⟨m, g, e, hs, hg, hf⟩ := entries_shows (rounded := rounded) (euclidEntries sqrt locs)
    (RawMatrix.new (lit 0) locs.length locs.length) none _ (RawMatrix.new_shows _ _ _) (by
      rintro ⟨a, b, d⟩ he
      obtain ⟨p, q, h0, h1, h2, rfl⟩ := mem_euclidEntries.mp he
      exact ⟨(List.getElem?_eq_some_iff.mp h1).1, (List.getElem?_eq_some_iff.mp h2).1⟩)
  have hcons : ∀ a ∈ euclidEntries sqrt locs, ∀ b ∈ euclidEntries sqrt locs,
      EntryFor a b.1 b.2.1 → a.2.2 = b.2.2 := by
    rintro ⟨a, b, d⟩ ha ⟨a', b', d'⟩ ha' h
    obtain ⟨p, q, h0, h1, h2, rfl⟩ := mem_euclidEntries.mp ha
    obtain ⟨p', q', h0', h1', h2', rfl⟩ := mem_euclidEntries.mp ha'
    rcases h with ⟨x1, x2⟩ | ⟨x1, x2⟩
    · dsimp only at x1 x2 ⊢
      subst x1; subst x2
      rw [h1] at h1'; cases h1'
      rw [h2] at h2'; cases h2'
      rfl
    · dsimp only at x1 x2; omega
  refine ⟨⟨locs, m, true, rounded, _⟩, g, by rw [buildDist, if_pos rfl, e]; rfl, rfl, rfl, rfl, hs, ?_⟩
  intro i j p q hp hq
  rcases Nat.lt_trichotomy i j with h | h | h
  · exact (hg hcons (i, j, euclid sqrt p q) (mem_euclidEntries.mpr ⟨p, q, h, hp, hq, rfl⟩)).1
  · subst h
    rw [hp] at hq; cases hq
    rw [euclid_self L (hS _ (List.mem_of_getElem? hp)), hf i i]
    · cases rounded
      · rfl
      · exact L.round.symm
    · rintro ⟨a, b, d⟩ ha h
      obtain ⟨p, q, h0, -⟩ := mem_euclidEntries.mp ha
      rcases h with ⟨x1, x2⟩ | ⟨x1, x2⟩ <;> dsimp only at x1 x2 <;> omega
  · rw [euclid_comm L (hS _ (List.mem_of_getElem? hp)) (hS _ (List.mem_of_getElem? hq))]
    exact (hg hcons (j, i, euclid sqrt q p) (mem_euclidEntries.mpr ⟨q, p, h, hq, hp, rfl⟩)).2

theorem lazyVec_eq {sqrt : α → α} {d : DistMatrix α} {g : ℕ → ℕ → α} {n : ℕ}
    (hn : d.locations.length = n) (hg : ∀ i < n, ∀ j < n, d.get sqrt i j = some (g i j)) :
    ∀ (k r c : ℕ), c < n → r * n + c + k ≤ n * n → d.lazyVec sqrt r c k =
      some ((List.range k).map fun i => g ((r * n + c + i) / n) ((r * n + c + i) % n))
  | 0, r, c, hc, hk => rfl
  | k + 1, r, c, hc, hk => by
    have hr : r < n := by
      by_contra h
      have : n * n ≤ r * n := Nat.mul_le_mul_right _ (by omega)
      omega
    have hdiv : (r * n + c + 0) / n = r := by
      rw [Nat.add_zero, Nat.mul_comm, Nat.mul_add_div (by omega), Nat.div_eq_of_lt hc]; omega
    have hmod : (r * n + c + 0) % n = c := by
      rw [Nat.add_zero, Nat.mul_comm, Nat.mul_add_mod, Nat.mod_eq_of_lt hc]
    have htail : (if c < d.locations.length - 1 then d.lazyVec sqrt r (c + 1) k
        else d.lazyVec sqrt (r + 1) 0 k) = some ((List.range k).map fun i =>
          g ((r * n + c + (i + 1)) / n) ((r * n + c + (i + 1)) % n)) := by
      rw [hn]
      split
      · next h =>
        rw [lazyVec_eq hn hg k r (c + 1) (by omega) (by omega)]
        congr 1
        apply List.map_congr_left
        intro i _
        rw [show r * n + (c + 1) + i = r * n + c + (i + 1) by omega]
      · next h =>
        have hcn : c + 1 = n := by omega
        have e1 : (r + 1) * n = r * n + c + 1 := by rw [Nat.add_mul, Nat.one_mul]; omega
        rw [lazyVec_eq hn hg k (r + 1) 0 (by omega) (by omega)]
        congr 1
        apply List.map_congr_left
        intro i _
        rw [show (r + 1) * n + 0 + i = r * n + c + (i + 1) by omega]
    rw [DistMatrix.lazyVec, hg r hr c hc, Option.bind_some, htail, Option.map_some, List.range_succ_eq_map,
      List.map_cons, hdiv, hmod, List.map_map]
    rfl

/-- **C18**. For Euclidean instances the precomputed and the lazy distance matrix answer every in-range
query for a pair and for a consecutive range with the same values; the matrix is symmetric and zero on
the diagonal. For any arithmetic with the laws `SquareLaws` on the coordinates. -/
theorem C18_euclidean (sqrt : α → α) {S : α → Prop} (L : SquareLaws sqrt S) (locs : List (Coord α))
    (hS : ∀ p ∈ locs, p.Has S) (rounded : Bool) :
    ∃ pre lazy, buildDist sqrt locs true rounded none = some pre ∧
      buildDist sqrt locs false rounded none = some lazy ∧
      (∀ (i j : ℕ) (p q : Coord α), locs[i]? = some p → locs[j]? = some q → ∃ x,
        x = (if rounded then F64.round (euclid sqrt p q) else euclid sqrt p q) ∧
        pre.get sqrt i j = some x ∧ lazy.get sqrt i j = some x ∧
        pre.get sqrt j i = some x ∧ lazy.get sqrt j i = some x ∧ (i = j → x = lit 0)) ∧
      ∀ r c k, c < locs.length → r * locs.length + c + k ≤ locs.length * locs.length →
        ∃ l, pre.getVec sqrt r c k = some l ∧ lazy.getVec sqrt r c k = some l ∧ l.length = k ∧
          ∀ i < k, l[i]? = pre.get sqrt ((r * locs.length + c + i) / locs.length)
            ((r * locs.length + c + i) % locs.length) := by
  obtain ⟨pre, g, e, hl, hpre, -, hs, hg⟩ := euclid_shows L locs hS rounded
  have hget : ∀ i < locs.length, ∀ j < locs.length, pre.get sqrt i j = some (g i j) := by
    intro i hi j hj
    rw [DistMatrix.get, if_pos hpre, hs.get hi hj]
  have hlazy : ∀ i < locs.length, ∀ j < locs.length,
      DistMatrix.get sqrt ⟨locs, RawMatrix.new (lit 0) 0 0, false, rounded, none⟩ i j = some (g i j) := by
    intro i hi j hj
    have h1 : locs[i]? = some locs[i] := List.getElem?_eq_getElem hi
    have h2 : locs[j]? = some locs[j] := List.getElem?_eq_getElem hj
    rw [DistMatrix.get, if_neg (by simp)]
    simp only [h1, h2, Option.bind_some, Option.map_some]
    rw [hg i j _ _ h1 h2]
  refine ⟨pre, _, e, rfl, ?_, ?_⟩
  · intro i j p q hp hq
    have hi := (List.getElem?_eq_some_iff.mp hp).1
    have hj := (List.getElem?_eq_some_iff.mp hq).1
    have hx := hg i j p q hp hq
    have hx' := hg j i q p hq hp
    rw [euclid_comm L (hS _ (List.mem_of_getElem? hq)) (hS _ (List.mem_of_getElem? hp))] at hx'
    refine ⟨_, rfl, ?_, ?_, ?_, ?_, ?_⟩
    · rw [hget i hi j hj, hx]; rfl
    · rw [hlazy i hi j hj, hx]; rfl
    · rw [hget j hj i hi, hx']; rfl
    · rw [hlazy j hj i hi, hx']; rfl
    · rintro rfl
      rw [hp] at hq; cases hq
      rw [euclid_self L (hS _ (List.mem_of_getElem? hp)), L.round, ite_self]
  · intro r c k hc hk
    refine ⟨(List.range k).map fun i => g ((r * locs.length + c + i) / locs.length)
      ((r * locs.length + c + i) % locs.length), ?_, ?_, by simp, ?_⟩
    · rw [DistMatrix.getVec, if_pos hpre, hs.slice hk]
    · rw [DistMatrix.getVec, if_neg (by simp)]
      exact lazyVec_eq rfl hlazy k r c hc hk
    · intro i hi
      have hn : 0 < locs.length := by omega
      rw [hget _ (by rw [Nat.div_lt_iff_lt_mul hn]; omega) _ (Nat.mod_lt _ hn)]
      simp [hi]

end

/-- The laws hold in exact arithmetic for every root function with `sqrt 0 = 0`. -/
theorem squareLaws_rat (sqrt : ℚ → ℚ) (h : sqrt 0 = 0) : SquareLaws sqrt fun _ => True := by
  constructor <;> intros <;> simp [h]
  · ring
  · rw [ratRound, if_pos (le_refl _)]; norm_num

/-! ## C20 -/

theorem maxStep_fold {rounded : Bool} : ∀ (E : List (ℕ × ℕ × ℚ)) (mx : Option ℚ),
    (E ≠ [] ∨ mx ≠ none) → ∃ x, E.foldl (maxStep rounded) mx = some x ∧
      (mx = some x ∨ ∃ e ∈ E, roundIf rounded e.2.2 = x) ∧ (∀ y, mx = some y → y ≤ x) ∧
      ∀ e ∈ E, roundIf rounded e.2.2 ≤ x + 1 / 1000000
  | [], mx, h => by
    obtain ⟨x, rfl⟩ := Option.ne_none_iff_exists'.mp (h.resolve_left (by simp))
    exact ⟨x, rfl, .inl rfl, by simp, by simp⟩
  | e :: E, mx, _ => by
    obtain ⟨x0, hx0, h1, h2, h3⟩ : ∃ x0, maxStep rounded mx e = some x0 ∧
        (mx = some x0 ∨ roundIf rounded e.2.2 = x0) ∧ (∀ y, mx = some y → y ≤ x0) ∧
        roundIf rounded e.2.2 ≤ x0 + 1 / 1000000 := by
      cases mx with
      | none => exact ⟨_, rfl, .inr rfl, by simp, by linarith⟩
      | some y =>
        by_cases hgt : y + 1 / 1000000 < roundIf rounded e.2.2
        · refine ⟨roundIf rounded e.2.2, by simp only [maxStep, rat_approxGt]; rw [if_pos (by simpa using hgt)],
            .inr rfl, ?_, by linarith⟩
          rintro z hz
          cases hz; linarith
        · refine ⟨y, by simp only [maxStep, rat_approxGt]; rw [if_neg (by simpa using hgt)], .inl rfl, ?_, by linarith⟩
          rintro z hz
          cases hz; exact le_refl _
    obtain ⟨x, hx, i1, i2, i3⟩ := maxStep_fold E (maxStep rounded mx e) (.inr (by rw [hx0]; simp))
    have hle := i2 x0 hx0
    refine ⟨x, hx, ?_, fun y hy => le_trans (h2 y hy) hle, ?_⟩
    · rcases i1 with i1 | ⟨e', he', i1⟩
      · rw [hx0] at i1; cases i1
        rcases h1 with h1 | h1
        · exact .inl h1
        · exact .inr ⟨e, by simp, h1⟩
      · exact .inr ⟨e', by simp [he'], i1⟩
    · intro e' he'
      rcases List.mem_cons.mp he' with rfl | he'
      · linarith
      · exact i3 e' he'

/-- **C20** (Euclidean, exact arithmetic). With at least two nodes the maximum the precomputing builder
reports is the distance of some pair of different nodes, and no distance exceeds it by more than `1e-6`. -/
theorem C20_max_euclidean (sqrt : ℚ → ℚ) (h0 : sqrt 0 = 0) (locs : List (Coord ℚ)) (rounded : Bool)
    (hn : 2 ≤ locs.length) : ∃ d mx, buildDist sqrt locs true rounded none = some d ∧
      d.maxDistance = some mx ∧
      (∃ i j, i ≠ j ∧ i < locs.length ∧ j < locs.length ∧ d.get sqrt i j = some mx) ∧
      ∀ i j x, i ≠ j → i < locs.length → j < locs.length → d.get sqrt i j = some x →
        x ≤ mx + 1 / 1000000 := by
  have L := squareLaws_rat sqrt h0
  obtain ⟨d, g, e, hl, hpre, hmax, hs, hg⟩ := euclid_shows L locs (fun _ _ => ⟨trivial, trivial⟩) rounded
  have hlt : ∀ {i : ℕ} {p : Coord ℚ}, locs[i]? = some p → i < locs.length :=
    fun h => (List.getElem?_eq_some_iff.mp h).1
  have hne : euclidEntries sqrt locs ≠ [] := by
    have : (0, 1, euclid sqrt locs[0] locs[1]) ∈ euclidEntries sqrt locs :=
      mem_euclidEntries.mpr ⟨locs[0], locs[1], by omega, List.getElem?_eq_getElem _,
        List.getElem?_eq_getElem _, rfl⟩
    intro h; rw [h] at this; simp at this
  obtain ⟨mx, hmx, h1, -, h3⟩ := maxStep_fold (rounded := rounded) (euclidEntries sqrt locs) none (.inl hne)
  have hget : ∀ i < locs.length, ∀ j < locs.length, d.get sqrt i j = some (g i j) := by
    intro i hi j hj
    rw [DistMatrix.get, if_pos hpre, hs.get hi hj]
  refine ⟨d, mx, e, by rw [hmax, hmx], ?_, ?_⟩
  · rcases h1 with h1 | ⟨⟨a, b, x⟩, he, h1⟩
    · simp at h1
    · obtain ⟨p, q, hab, hp, hq, rfl⟩ := mem_euclidEntries.mp he
      refine ⟨a, b, by omega, hlt hp, hlt hq, ?_⟩
      rw [hget a (hlt hp) b (hlt hq), hg a b p q hp hq, ← h1]
  · intro i j x hij hi hj hx
    rw [hget i hi j hj] at hx
    cases hx
    have hp : locs[i]? = some locs[i] := List.getElem?_eq_getElem hi
    have hq : locs[j]? = some locs[j] := List.getElem?_eq_getElem hj
    rcases Nat.lt_or_gt_of_ne hij with h | h
    · rw [hg i j _ _ hp hq]
      exact h3 (i, j, euclid sqrt locs[i] locs[j]) (mem_euclidEntries.mpr ⟨_, _, h, hp, hq, rfl⟩)
    · rw [hg i j _ _ hp hq, euclid_comm L ⟨trivial, trivial⟩ ⟨trivial, trivial⟩]
      exact h3 (j, i, euclid sqrt locs[j] locs[i]) (mem_euclidEntries.mpr ⟨_, _, h, hq, hp, rfl⟩)

/-- **C20** (explicit matrix, exact arithmetic). The same for a lower-row matrix of at least two
nodes. -/
theorem C20_max_explicit (sqrt : ℚ → ℚ) (locs : List (Coord ℚ)) (precompute rounded : Bool)
    (input : List (List ℚ)) (hlen : input.length + 1 = locs.length) (hn : 2 ≤ locs.length)
    (hrow : ∀ (i : ℕ) (row : List ℚ), input[i]? = some row → row.length = i + 1) :
    ∃ d mx, buildDist sqrt locs precompute rounded (some input) = some d ∧ d.maxDistance = some mx ∧
      (∃ i j, i ≠ j ∧ i < locs.length ∧ j < locs.length ∧ d.get sqrt i j = some mx) ∧
      ∀ i j x, i ≠ j → i < locs.length → j < locs.length → d.get sqrt i j = some x →
        x ≤ mx + 1 / 1000000 := by
  obtain ⟨d, e, hd, -⟩ := C19_explicit_lower_row sqrt locs precompute rounded input hlen hrow
  have hmax : d.maxDistance = (inputEntries input).foldl (maxStep rounded) none := by
    rw [buildDist, Option.map_eq_some_iff] at e
    obtain ⟨st, e1, rfl⟩ := e
    obtain ⟨m, g, e2, -⟩ := entries_shows (rounded := rounded) (inputEntries input)
      (RawMatrix.new (lit 0) locs.length locs.length) none _ (RawMatrix.new_shows _ _ _) (by
        rintro ⟨a, b, x⟩ he
        obtain ⟨i, row, rfl, h1, h2⟩ := mem_inputEntries.mp he
        have h3 := (List.getElem?_eq_some_iff.mp h2).1
        have h4 := (List.getElem?_eq_some_iff.mp h1).1
        rw [hrow i row h1] at h3
        dsimp only
        omega)
    rw [e1] at e2
    cases e2; rfl
  have hcell : ∀ i j, j < i + 1 → i < input.length → ∃ row x, input[i]? = some row ∧ row[j]? = some x := by
    intro i j hj hi
    have h1 : input[i]? = some input[i] := List.getElem?_eq_getElem hi
    exact ⟨_, _, h1, List.getElem?_eq_getElem (by rw [hrow i _ h1]; exact hj)⟩
  have hne : inputEntries input ≠ [] := by
    obtain ⟨row, x, h1, h2⟩ := hcell 0 0 (by omega) (by omega)
    have : (0 + 1, 0, x) ∈ inputEntries input := mem_inputEntries.mpr ⟨0, row, rfl, h1, h2⟩
    intro h; rw [h] at this; simp at this
  obtain ⟨mx, hmx, h1, -, h3⟩ := maxStep_fold (rounded := rounded) (inputEntries input) none (.inl hne)
  refine ⟨d, mx, e, by rw [hmax, hmx], ?_, ?_⟩
  · rcases h1 with h1 | ⟨⟨a, b, x⟩, he, h1⟩
    · simp at h1
    · obtain ⟨i, row, rfl, hi, hb⟩ := mem_inputEntries.mp he
      have h5 := (List.getElem?_eq_some_iff.mp hb).1
      have h4 := (List.getElem?_eq_some_iff.mp hi).1
      rw [hrow i row hi] at h5
      refine ⟨i + 1, b, by omega, by omega, by omega, ?_⟩
      rw [(hd i b row x hi hb).1, ← h1]; rfl
  · intro i j x hij hi hj hx
    have key : ∀ i j, j < i + 1 → i < input.length → ∃ y, d.get sqrt (i + 1) j = some y ∧
        d.get sqrt j (i + 1) = some y ∧ y ≤ mx + 1 / 1000000 := by
      intro i j h1 h2
      obtain ⟨row, y, h4, h5⟩ := hcell i j h1 h2
      obtain ⟨g1, g2⟩ := hd i j row y h4 h5
      have h6 := h3 (i + 1, j, y) (mem_inputEntries.mpr ⟨i, row, rfl, h4, h5⟩)
      exact ⟨_, g1, g2, h6⟩
    rcases Nat.lt_or_gt_of_ne hij with h | h
    · obtain ⟨y, h1, h2, h3⟩ := key (j - 1) i (by omega) (by omega)
      rw [show j - 1 + 1 = j by omega, hx] at h2
      cases h2; exact h3
    · obtain ⟨y, h1, h2, h3⟩ := key (i - 1) j (by omega) (by omega)
      rw [show i - 1 + 1 = i by omega, hx] at h1
      cases h1; exact h3

/-- Three nodes with an explicit matrix. -/
example : ([[(3 : ℚ)], [4, 5]].length + 1 = 3) ∧
    (∀ (i : ℕ) (row : List ℚ), [[(3 : ℚ)], [4, 5]][i]? = some row → row.length = i + 1) := by
  refine ⟨rfl, fun i row h => ?_⟩
  match i with
  | 0 => cases h; rfl
  | 1 => cases h; rfl
  | n + 2 => simp at h

end Verif
