import Verif.Props.Matrix
import Verif.Props.LocalSearch
import Verif.Lemmas.Frame
import Mathlib.Data.List.Perm.Subperm

/-!
# C16, C17: the neighbour lists
-/

namespace Verif
open F64

section
variable {α : Type} [F64 α]

set_option linter.unusedSectionVars false

/-- Writing a row. -/
theorem writeRow_shows {rows cols i : ℕ} (hi : i < rows) {m : RawMatrix ℕ} {f : ℕ → ℕ → ℕ}
    (h : m.Shows rows cols f) (l : List ℕ) (hl : l.length = cols) :
    ∃ m', writeRow m i l = some m' ∧ m'.Shows rows cols fun r c => if r = i then l.getD c 0 else f r c := by
  suffices H : ∀ (k : ℕ) (l : List ℕ) (m : RawMatrix ℕ) (f : ℕ → ℕ → ℕ), m.Shows rows cols f →
      k + l.length ≤ cols → ∃ m', (l.zipIdx k).foldlM (fun m p => m.set i p.2 p.1) m = some m' ∧
        m'.Shows rows cols fun r c => if r = i ∧ k ≤ c ∧ c < k + l.length then l.getD (c - k) 0 else f r c by
    obtain ⟨m', e, h'⟩ := H 0 l m f h (by omega)
    refine ⟨m', e, h'.congr ?_⟩
    intro r c _ hc
    by_cases hr : r = i
    · simp [hr, hl, hc]
    · simp [hr]
  intro k l
  induction l generalizing k with
  | nil =>
    intro m f h hk
    refine ⟨m, rfl, h.congr fun r c _ _ => ?_⟩
    rw [if_neg (by simp)]
  | cons a l ih =>
    intro m f h hk
    simp only [List.length_cons] at hk
    obtain ⟨m1, e1, h1⟩ := h.set hi (c := k) (by omega) a
    obtain ⟨m2, e2, h2⟩ := ih (k + 1) m1 _ h1 (by omega)
    refine ⟨m2, ?_, h2.congr ?_⟩
    · rw [List.zipIdx_cons, List.foldlM_cons]; exact (congrArg (· >>= _) e1).trans e2
    · intro r c _ hc
      by_cases hr : r = i
      · subst hr
        rcases Nat.lt_trichotomy c k with hk | rfl | hk
        · rw [if_neg (by omega), if_neg (by omega), if_neg (by omega)]
        · rw [if_neg (by omega), if_pos ⟨rfl, rfl⟩, if_pos (by simp)]
          simp
        · by_cases hlen : c < k + 1 + l.length
          · rw [if_pos (by omega), if_pos (by simp; omega), show c - k = c - (k + 1) + 1 by omega]
            simp
          · rw [if_neg (by omega), if_neg (by omega), if_neg (by simp; omega)]
      · rw [if_neg (by simp [hr]), if_neg (by simp [hr]), if_neg (by simp [hr])]

/-- The rows the builder writes. -/
def corrRow (sort : List (α × ℕ) → List (α × ℕ)) (n i : ℕ) (l : List α) : List ℕ :=
  ((sort (corrCandidates l i)).take (min 200 (n - 2))).map Prod.snd

theorem corrRows_shows {sqrt : α → α} {sort : List (α × ℕ) → List (α × ℕ)} {d : DistMatrix α} {n : ℕ}
    (hn : d.locations.length = n) {D : ℕ → List α}
    (hD : ∀ i < n, d.getVec sqrt i 0 n = some (D i))
    (hlen : ∀ i < n, (corrRow sort n i (D i)).length = min 200 (n - 2)) :
    ∀ (k : ℕ), k ≤ n → ∃ m, (List.range k).foldlM (fun m i =>
        (d.getVec sqrt i 0 d.locations.length).bind fun l =>
          writeRow m i (((sort (corrCandidates l i)).take
            (min 200 (d.locations.length - 2))).map Prod.snd))
        (RawMatrix.new 0 n (min 200 (n - 2))) = some m ∧
      m.Shows n (min 200 (n - 2)) fun r c => if r < k then (corrRow sort n r (D r)).getD c 0 else 0 := by
  intro k
  induction k with
  | zero =>
    intro _
    exact ⟨_, rfl, (RawMatrix.new_shows 0 n _).congr (by simp)⟩
  | succ k ih =>
    intro hk
    obtain ⟨m, e, h⟩ := ih (by omega)
    obtain ⟨m', e', h'⟩ := writeRow_shows (i := k) (by omega) h (corrRow sort n k (D k)) (hlen k (by omega))
    refine ⟨m', ?_, h'.congr ?_⟩
    · rw [List.range_succ, List.foldlM_append, e]
      simp only [hn, Option.bind_eq_bind, Option.bind_some, List.foldlM_cons, List.foldlM_nil,
        hD k (by omega)]
      change (writeRow m k (corrRow sort n k (D k))).bind _ = _
      rw [e']; rfl
    · intro r c _ _
      by_cases hr : r = k
      · subst hr; simp
      · simp only [hr, if_false]
        by_cases hlt : r < k
        · rw [if_pos hlt, if_pos (by omega)]
        · rw [if_neg hlt, if_neg (by omega)]

theorem mem_candidates {l : List α} {i v : ℕ} {x : α} :
    (x, v) ∈ corrCandidates l i ↔ l[v]? = some x ∧ 0 < v ∧ v ≠ i := by
  simp [corrCandidates, List.mem_filter, List.mem_zipIdx_iff_getElem?]

theorem candidates_nodup (l : List α) (i : ℕ) : ((corrCandidates l i).map Prod.snd).Nodup := by
  have h1 : (l.zipIdx.map Prod.snd).Nodup := by
    rw [List.zipIdx_map_snd]; exact List.nodup_range'
  exact h1.sublist (List.Sublist.map _ List.filter_sublist)

theorem candidates_length (l : List α) (i : ℕ) : l.length - 2 ≤ (corrCandidates l i).length := by
  have hsub : (List.range l.length).filter (fun v => decide (0 < v ∧ v ≠ i)) =
      (corrCandidates l i).map Prod.snd := by
    have : List.range l.length = l.zipIdx.map Prod.snd := by
      rw [List.zipIdx_map_snd, List.range_eq_range']
    rw [this, List.filter_map]
    rfl
  have hlen : (corrCandidates l i).length = ((List.range l.length).filter
      (fun v => decide (0 < v ∧ v ≠ i))).length := by rw [hsub, List.length_map]
  have hsum := List.length_eq_length_filter_add (l := List.range l.length)
    (fun v => decide (0 < v ∧ v ≠ i))
  have hle : ((List.range l.length).filter (fun v => !decide (0 < v ∧ v ≠ i))).length ≤ 2 := by
    have hnd : ((List.range l.length).filter (fun v => !decide (0 < v ∧ v ≠ i))).Nodup :=
      List.nodup_range.filter _
    have hs : ((List.range l.length).filter (fun v => !decide (0 < v ∧ v ≠ i))) ⊆ [0, i] := by
      intro v hv
      simp only [List.mem_filter, Bool.not_eq_true', decide_eq_false_iff_not, not_and, not_not] at hv
      by_cases h0 : v = 0
      · simp [h0]
      · simp [hv.2 (by omega)]
    exact (List.subperm_of_subset hnd hs).length_le
  rw [List.length_range] at hsum
  omega

/-- **C17**. Whenever the distance rows can be read (as C18 and C19 show), the neighbour lists can be
built; the list of every node has `min(200, n-2)` entries, all of them different customers other than the
node, in non-decreasing distance, and every customer left out is at least as far away as every customer
kept. The sorting routine may be any that permutes its input into non-decreasing order. -/
theorem C17_nearest (sqrt : α → α) (sort : List (α × ℕ) → List (α × ℕ)) (d : DistMatrix α)
    (hn : 2 ≤ d.locations.length) (D : ℕ → List α)
    (hD : ∀ i < d.locations.length, d.getVec sqrt i 0 d.locations.length = some (D i) ∧
      (D i).length = d.locations.length)
    (hperm : ∀ L, (sort L).Perm L) (hsort : ∀ L, (sort L).Pairwise fun a b => (b.1 <. a.1) = false) :
    ∃ c, buildCorr sqrt sort d = some c ∧ c.storage.rows = d.locations.length ∧ c.width = c.storage.cols ∧
      c.storage.cells.length = c.storage.rows * c.storage.cols ∧
      ∀ i < d.locations.length, ∃ l, c.get i = some l ∧
        l.length = min 200 (d.locations.length - 2) ∧ l.Nodup ∧
        (∀ v ∈ l, 0 < v ∧ v < d.locations.length ∧ v ≠ i) ∧
        (l.Pairwise fun v w => ∀ x y, (D i)[v]? = some x → (D i)[w]? = some y → (y <. x) = false) ∧
        (∀ v ∈ l, ∀ w, w ∉ l → 0 < w → w < d.locations.length → w ≠ i → ∀ x y,
          (D i)[v]? = some x → (D i)[w]? = some y → (y <. x) = false) ∧
        ∀ k ≤ min 200 (d.locations.length - 2), c.topSlice i k = some (l.take k) := by
  obtain ⟨n, hN⟩ : ∃ n, d.locations.length = n := ⟨_, rfl⟩
  rw [hN] at hn hD ⊢
  have hlen : ∀ i < n, (corrRow sort n i (D i)).length = min 200 (n - 2) := by
    intro i hi
    have h1 := candidates_length (D i) i
    rw [(hD i hi).2] at h1
    rw [corrRow, List.length_map, List.length_take, (hperm _).length_eq]
    omega
  obtain ⟨m, e, h⟩ := corrRows_shows (sort := sort) hN (fun i hi => (hD i hi).1) hlen n (le_refl _)
  refine ⟨⟨m, min 200 (n - 2)⟩, ?_, h.rows_eq, h.cols_eq.symm, ?_, ?_⟩
  · rw [buildCorr, if_neg (by omega)]
    rw [← hN] at e ⊢
    rw [e]; rfl
  · show m.cells.length = m.rows * m.cols
    rw [h.rows_eq, h.cols_eq]; exact h.len
  · intro i hi
    have hslice : ∀ k ≤ min 200 (n - 2), m.slice i 0 k = some ((corrRow sort n i (D i)).take k) := by
      intro k hk
      have hb : i * min 200 (n - 2) + 0 + k ≤ n * min 200 (n - 2) := by
        calc i * min 200 (n - 2) + 0 + k ≤ i * min 200 (n - 2) + min 200 (n - 2) := by omega
          _ = (i + 1) * min 200 (n - 2) := by rw [Nat.add_mul, Nat.one_mul]
          _ ≤ _ := Nat.mul_le_mul_right _ hi
      rw [h.slice hb]
      congr 1
      apply List.ext_getElem?
      intro j
      by_cases hj : j < k
      · have hw : j < min 200 (n - 2) := by omega
        have h1 : (i * min 200 (n - 2) + 0 + j) / min 200 (n - 2) = i := by
          rw [Nat.add_zero, Nat.mul_comm, Nat.mul_add_div (by omega), Nat.div_eq_of_lt hw]; omega
        have h2 : (i * min 200 (n - 2) + 0 + j) % min 200 (n - 2) = j := by
          rw [Nat.add_zero, Nat.mul_comm, Nat.mul_add_mod, Nat.mod_eq_of_lt hw]
        rw [List.getElem?_map, List.getElem?_range hj, Option.map_some, h1, h2, if_pos hi,
          List.getElem?_take_of_lt hj, List.getD_eq_getElem?_getD,
          List.getElem?_eq_getElem (by rw [hlen i hi]; exact hw), Option.getD_some]
      · rw [List.getElem?_eq_none (by simpa using hj),
          List.getElem?_eq_none (by rw [List.length_take]; omega)]
    have hsnd := candidates_nodup (D i) i
    have hp := hperm (corrCandidates (D i) i)
    have hord := hsort (corrCandidates (D i) i)
    have hmem : ∀ p ∈ sort (corrCandidates (D i) i), (D i)[p.2]? = some p.1 ∧ 0 < p.2 ∧ p.2 ≠ i := by
      intro p hp'
      exact mem_candidates.mp (hp.mem_iff.mp hp')
    refine ⟨corrRow sort n i (D i), ?_, hlen i hi, ?_, ?_, ?_, ?_, hslice⟩
    · have := hslice _ (le_refl _)
      rw [List.take_of_length_le (by rw [hlen i hi])] at this
      exact this
    · have h1 : ((sort (corrCandidates (D i) i)).map Prod.snd).Nodup := (hp.map Prod.snd).nodup_iff.mpr hsnd
      exact h1.sublist (List.Sublist.map _ (List.take_sublist _ _))
    · intro v hv
      obtain ⟨p, hp1, rfl⟩ := List.mem_map.mp hv
      obtain ⟨h1, h2, h3⟩ := hmem p (List.mem_of_mem_take hp1)
      refine ⟨h2, ?_, h3⟩
      have := (List.getElem?_eq_some_iff.mp h1).1
      rw [(hD i hi).2] at this; exact this
    · rw [corrRow, List.pairwise_map]
      refine List.Pairwise.imp_of_mem ?_ (hord.sublist (List.take_sublist _ _))
      intro a b ha hb hab x y hx hy
      rw [(hmem a (List.mem_of_mem_take ha)).1] at hx
      rw [(hmem b (List.mem_of_mem_take hb)).1] at hy
      cases hx; cases hy; exact hab
    · intro v hv w hw hw0 hwn hwi x y hx hy
      obtain ⟨p, hp1, rfl⟩ := List.mem_map.mp hv
      have hwc : (y, w) ∈ sort (corrCandidates (D i) i) := hp.mem_iff.mpr (mem_candidates.mpr ⟨hy, hw0, hwi⟩)
      rw [← List.take_append_drop (min 200 (n - 2)) (sort (corrCandidates (D i) i))] at hwc hord
      have hwd : (y, w) ∈ (sort (corrCandidates (D i) i)).drop (min 200 (n - 2)) := by
        rcases List.mem_append.mp hwc with h1 | h1
        · exact absurd (List.mem_map.mpr ⟨_, h1, rfl⟩) hw
        · exact h1
      have := (List.pairwise_append.mp hord).2.2 p hp1 _ hwd
      rw [(hmem p (List.mem_of_mem_take hp1)).1] at hx
      cases hx; exact this

/-! ## C16 -/

/-- **C16** (partial). With a granularity between 1 and the width `min(200, n-2)` of the lists, the local
search started on the lists of `CorrelationMatrix::new` reads only entries of the examined customer's own
row, all of them other customers; this holds after any number of runs as C10 shows that `NbrOK` is kept.
What is missing: granularities outside that range, see `C16_small_instance_refuted` and
`C16_granularity_zero_refuted`. -/
theorem C16_in_bounds_partial (sqrt : α → α) (sort : List (α × ℕ) → List (α × ℕ)) (d : DistMatrix α)
    (ctx : Ctx α) (hctx : ctx.n = d.locations.length) (D : ℕ → List α)
    (hD : ∀ i < d.locations.length, d.getVec sqrt i 0 d.locations.length = some (D i) ∧
      (D i).length = d.locations.length)
    (hperm : ∀ L, (sort L).Perm L) (hsort : ∀ L, (sort L).Pairwise fun a b => (b.1 <. a.1) = false)
    (numVehicles granularity : ℕ) (angle : ℕ → ℤ) (penMult : α)
    (hg0 : 0 < granularity) (hg : granularity ≤ min 200 (d.locations.length - 2)) :
    ∃ c, buildCorr sqrt sort d = some c ∧
      NbrOK ctx (LS.new ctx numVehicles granularity angle c.storage.cells c.storage.cols penMult) := by
  obtain ⟨c, e, h1, h2, h3, h4⟩ := C17_nearest sqrt sort d (by omega) D hD hperm hsort
  have hcols : c.storage.cols = min 200 (d.locations.length - 2) := by
    rw [buildCorr, if_neg (by omega), Option.map_eq_some_iff] at e
    obtain ⟨m, -, rfl⟩ := e
    exact h2.symm
  refine ⟨c, e, ?_⟩
  constructor
  · exact hg0
  · simp only [LS.new]; rw [hcols]; exact hg
  · simp only [LS.new]; rw [h3, h1, hctx]
  · intro u i hu0 hun hi v hv
    simp only [LS.new] at hi hv
    obtain ⟨l, -, -, -, hl, -, -, hs⟩ := h4 u (by omega)
    have e1 := hs granularity hg
    rw [Correlation.topSlice, RawMatrix.slice] at e1
    split at e1
    · simp only [Option.some.injEq] at e1
      have : (l.take granularity)[i]? = some v := by
        rw [← e1, List.getElem?_take_of_lt hi, List.getElem?_drop, ← hv]
        congr 1
      have := hl v (List.mem_of_mem_take (List.mem_of_getElem? this))
      rw [hctx]; exact this
    · simp at e1
  · intro u hu
    simp [LS.new] at hu ⊢
    omega

/-- **C16** (refuted). On every instance with fewer than `granularity + 2` nodes — with the default
granularity 20 every instance with at most 21 nodes — each pass of the local search, whatever the random
choices and however it got there, reads (and shuffles) neighbour-list entries outside the allocation of
the correlation matrix. The last customer's row starts at cell `(n-1)·(n-2)` and only `n-2` cells
remain. -/
theorem C16_small_instance_refuted (sqrt : α → α) (sort : List (α × ℕ) → List (α × ℕ)) (d : DistMatrix α)
    (ctx : Ctx α) (hctx : ctx.n = d.locations.length) (D : ℕ → List α) (h2 : 2 ≤ d.locations.length)
    (hD : ∀ i < d.locations.length, d.getVec sqrt i 0 d.locations.length = some (D i) ∧
      (D i).length = d.locations.length)
    (hperm : ∀ L, (sort L).Perm L) (hsort : ∀ L, (sort L).Pairwise fun a b => (b.1 <. a.1) = false)
    (granularity : ℕ) (hg : d.locations.length < granularity + 2) :
    ∃ c, buildCorr sqrt sort d = some c ∧
      ∀ (s : LS α) (f : MoveFlags) (ω : Oracle) (loopCount : ℕ), s.granularity = granularity →
        s.corrCols = c.storage.cols → s.corr.length = c.storage.cells.length →
        s.customers.Perm (List.range' 1 (ctx.n - 1)) → LS.pass ctx f ω loopCount s = none := by
  obtain ⟨c, e, h1, hw, h3, h4⟩ := C17_nearest sqrt sort d h2 D hD hperm hsort
  have hcols : c.storage.cols = min 200 (d.locations.length - 2) := by
    rw [buildCorr, if_neg (by omega), Option.map_eq_some_iff] at e
    obtain ⟨m, -, rfl⟩ := e
    exact hw.symm
  refine ⟨c, e, fun s f ω lc hgr hc hl hcust => ?_⟩
  rw [LS.pass, LS.uLoop_none (w := ctx.n - 1), Option.bind_none]
  · rw [(shuffle_perm _ _).mem_iff, hcust.mem_iff, List.mem_range'_1]
    omega
  · show s.corr.length < (ctx.n - 1) * s.corrCols + s.granularity
    rw [hl, h3, h1, hc, hgr, hctx]
    obtain ⟨n, hn⟩ : ∃ n, d.locations.length = n + 1 := ⟨d.locations.length - 1, by omega⟩
    rw [hn] at hcols ⊢
    rw [Nat.add_mul, Nat.one_mul, Nat.add_sub_cancel]
    have : c.storage.cols < granularity := by rw [hcols]; omega
    omega

/-- **C16** (refuted). With granularity 0, which the configuration accepts, drawing from the empty range
panics at the first customer. -/
theorem C16_granularity_zero_refuted (ctx : Ctx α) (f : MoveFlags) (ω : Oracle) (loopCount : ℕ)
    (s : LS α) (hg : s.granularity = 0) (hc : s.customers ≠ []) : LS.pass ctx f ω loopCount s = none := by
  have hne : shuffle (ω.sub 1) s.customers ≠ [] := by
    intro h
    have := (shuffle_perm (ω.sub 1) s.customers).length_eq
    rw [h] at this
    exact hc (List.length_eq_zero_iff.mp this.symm)
  obtain ⟨u, us, hu⟩ := List.exists_cons_of_ne_nil hne
  rw [LS.pass, hu, LS.uLoop, LS.uStep, LS.neighbours, hg]
  have : rangeUsize (((ω.sub 0).sub 0) 0) 0 0 = none := by simp [rangeUsize]
  rw [this]
  cases LS.topSlice _ u <;> rfl

end

/-- Sorting by distance with `stableSort` meets the hypotheses. -/
def ratSort (L : List (ℚ × ℕ)) : List (ℚ × ℕ) := stableSort (fun a b => a.1 ≤ b.1) L

theorem ratSort_perm (L : List (ℚ × ℕ)) : (ratSort L).Perm L := stableSort_perm _ _

theorem ratSort_sorted (L : List (ℚ × ℕ)) : (ratSort L).Pairwise fun a b => (b.1 <. a.1) = false := by
  have := pairwise_stableSort (le := fun a b : ℚ × ℕ => decide (a.1 ≤ b.1))
    (by intro a b c h1 h2; simp at *; linarith) (by intro a b; simp; exact le_total _ _) L
  exact this.imp fun h => by simpa using h

/-- The rows of a precomputed or lazy Euclidean matrix can be read. -/
theorem euclid_rows {α : Type} [F64 α] (sqrt : α → α) {S : α → Prop} (L : SquareLaws sqrt S) (locs : List (Coord α))
    (hS : ∀ p ∈ locs, p.Has S) (precompute rounded : Bool) :
    ∃ (d : DistMatrix α) (D : ℕ → List α), buildDist sqrt locs precompute rounded none = some d ∧
      d.locations = locs ∧ ∀ i < locs.length, d.getVec sqrt i 0 locs.length = some (D i) ∧
      (D i).length = locs.length ∧ ∀ j < locs.length, (D i)[j]? = d.get sqrt i j := by
  obtain ⟨pre, lazy, e1, e2, hget, hvec⟩ := C18_euclidean sqrt L locs hS rounded
  have hrows : ∀ i < locs.length, ∃ l, pre.getVec sqrt i 0 locs.length = some l ∧
      lazy.getVec sqrt i 0 locs.length = some l ∧ l.length = locs.length ∧
      ∀ j < locs.length, l[j]? = pre.get sqrt i j ∧ l[j]? = lazy.get sqrt i j := by
    intro i hi
    obtain ⟨l, h1, h2, h3, h4⟩ := hvec i 0 locs.length (by omega) (by
      calc i * locs.length + 0 + locs.length = (i + 1) * locs.length := by rw [Nat.add_mul]; omega
        _ ≤ _ := Nat.mul_le_mul_right _ hi)
    refine ⟨l, h1, h2, h3, fun j hj => ?_⟩
    have := h4 j hj
    have e1 : (i * locs.length + 0 + j) / locs.length = i := by
      rw [Nat.add_zero, Nat.mul_comm, Nat.mul_add_div (by omega), Nat.div_eq_of_lt hj]; omega
    have e2 : (i * locs.length + 0 + j) % locs.length = j := by
      rw [Nat.add_zero, Nat.mul_comm, Nat.mul_add_mod, Nat.mod_eq_of_lt hj]
    rw [e1, e2] at this
    refine ⟨this, ?_⟩
    obtain ⟨x, -, g1, g2, -⟩ := hget i j _ _ (List.getElem?_eq_getElem hi) (List.getElem?_eq_getElem hj)
    rw [this, g1, g2]
  choose! D hD1 hD2 hD3 hD4 using hrows
  have hpl : pre.locations = locs := by
    obtain ⟨d, g, e, hl, -⟩ := euclid_shows L locs hS rounded
    rw [e1] at e; cases e; exact hl
  have hll : lazy.locations = locs := by
    rw [buildDist] at e2; simp at e2; rw [← e2]
  cases precompute with
  | true => exact ⟨pre, D, e1, hpl, fun i hi => ⟨hD1 i hi, hD3 i hi, fun j hj => (hD4 i hi j hj).1⟩⟩
  | false => exact ⟨lazy, D, e2, hll, fun i hi => ⟨hD2 i hi, hD3 i hi, fun j hj => (hD4 i hi j hj).2⟩⟩

/-- **C17** end to end for Euclidean instances with a precomputed or lazy distance matrix. -/
theorem C17_euclidean (sqrt : ℚ → ℚ) (h0 : sqrt 0 = 0) (locs : List (Coord ℚ)) (precompute rounded : Bool)
    (hn : 2 ≤ locs.length) (sort : List (ℚ × ℕ) → List (ℚ × ℕ)) (hperm : ∀ L, (sort L).Perm L)
    (hsort : ∀ L, (sort L).Pairwise fun a b => a.1 ≤ b.1) :
    ∃ d c, buildDist sqrt locs precompute rounded none = some d ∧ buildCorr sqrt sort d = some c ∧
      ∀ i < locs.length, ∃ l, c.get i = some l ∧ l.length = min 200 (locs.length - 2) ∧ l.Nodup ∧
        (∀ v ∈ l, 0 < v ∧ v < locs.length ∧ v ≠ i) ∧
        (l.Pairwise fun v w => ∀ x y, d.get sqrt i v = some x → d.get sqrt i w = some y → x ≤ y) ∧
        (∀ v ∈ l, ∀ w, w ∉ l → 0 < w → w < locs.length → w ≠ i → ∀ x y,
          d.get sqrt i v = some x → d.get sqrt i w = some y → x ≤ y) := by
  obtain ⟨d, D, ed, hl, hD⟩ := euclid_rows sqrt (squareLaws_rat sqrt h0) locs (fun _ _ => ⟨trivial, trivial⟩) precompute rounded
  obtain ⟨c, ec, -, -, -, h⟩ := C17_nearest sqrt sort d (by rw [hl]; exact hn) D
    (fun i hi => by rw [hl] at hi ⊢; exact ⟨(hD i hi).1, (hD i hi).2.1⟩) hperm
    (fun L => (hsort L).imp fun h => by simpa using h)
  rw [hl] at h
  refine ⟨d, c, ed, ec, fun i hi => ?_⟩
  obtain ⟨l, a1, a2, a3, a4, a5, a6, -⟩ := h i hi
  have hg := (hD i hi).2.2
  refine ⟨l, a1, a2, a3, a4, ?_, ?_⟩
  · refine List.Pairwise.imp_of_mem ?_ a5
    intro v w hv hw hvw x y hx hy
    rw [← hg v (a4 v hv).2.1] at hx
    rw [← hg w (a4 w hw).2.1] at hy
    simpa using hvw x y hx hy
  · intro v hv w hw hw0 hwn hwi x y hx hy
    rw [← hg v (a4 v hv).2.1] at hx
    rw [← hg w hwn] at hy
    simpa using a6 v hv w hw hw0 hwn hwi x y hx hy

/-- Four points with `stableSort`. -/
example := C17_euclidean (fun x => x) rfl [⟨0, 0⟩, ⟨3, 4⟩, ⟨1, 1⟩, ⟨2, 0⟩] true false (by decide) ratSort
  ratSort_perm (fun L => (ratSort_sorted L).imp fun h => by simpa using h)

/-- Four nodes and the default granularity 20: a new local search on the lists the code builds reads out of
bounds in its first pass. -/
example (ctx : Ctx ℚ) (hctx : ctx.n = 4) (f : MoveFlags) (ω : Oracle) : ∃ d c,
    buildDist (fun x => x) [⟨0, 0⟩, ⟨3, 4⟩, ⟨1, 1⟩, ⟨2, 0⟩] true false none = some d ∧
    buildCorr (fun x => x) ratSort d = some c ∧
    LS.pass ctx f ω 0 (LS.new ctx 3 20 (fun _ => 0) c.storage.cells c.storage.cols 1) = none := by
  obtain ⟨d, D, ed, hl, hD⟩ := euclid_rows (fun x : ℚ => x) (squareLaws_rat _ rfl)
    [⟨0, 0⟩, ⟨3, 4⟩, ⟨1, 1⟩, ⟨2, 0⟩] (fun _ _ => ⟨trivial, trivial⟩) true false
  have h4 : d.locations.length = 4 := by rw [hl]; rfl
  obtain ⟨c, ec, h⟩ := C16_small_instance_refuted (fun x => x) ratSort d ctx (by rw [h4]; exact hctx) D
    (by rw [h4]; decide) (fun i hi => by rw [hl] at hi ⊢; exact ⟨(hD i hi).1, (hD i hi).2.1⟩) ratSort_perm
    ratSort_sorted 20 (by rw [h4]; decide)
  exact ⟨d, c, ed, ec, h _ f ω 0 rfl rfl rfl (List.Perm.refl _)⟩

end Verif
