import Verif.Lemmas.DecompRun
import Verif.Props.Context
import Verif.Props.DecompExamples

/-! # C46: what else the matrix of a subproblem carries -/

namespace Verif
open F64

theorem RawMatrix.getMax_spec {m : RawMatrix ℚ} {n : ℕ} {f : ℕ → ℕ → ℚ} (h : m.Shows n n f) (hn : 0 < n) :
    ∃ mx, m.getMax = some mx ∧ (∀ a < n, ∀ b < n, f a b ≤ mx) ∧ ∃ a < n, ∃ b < n, f a b = mx := by
  have hpos2 : 0 < n * n := Nat.mul_pos hn hn
  have hs := h.slice (r := 0) (c := 0) (k := n * n) (by omega)
  have hmem : ∀ v : ℚ, (v ∈ (List.range (n * n)).map fun i => f ((0 * n + 0 + i) / n) ((0 * n + 0 + i) % n)) ↔
      ∃ a < n, ∃ b < n, f a b = v := by
    intro v
    simp only [List.mem_map, List.mem_range, Nat.zero_mul, Nat.zero_add]
    constructor
    · rintro ⟨i, hi, rfl⟩
      exact ⟨i / n, (Nat.div_lt_iff_lt_mul hn).mpr hi, i % n, Nat.mod_lt _ hn, rfl⟩
    · rintro ⟨a, ha, b, hb, rfl⟩
      refine ⟨a * n + b, RawMatrix.idx_lt ha hb, ?_⟩
      rw [Nat.mul_comm a n, Nat.mul_add_div hn, Nat.div_eq_of_lt hb, Nat.mul_add_mod, Nat.mod_eq_of_lt hb,
        Nat.add_zero]
  unfold RawMatrix.getMax
  rw [h.rows_eq, h.cols_eq, hs, Option.bind_some]
  generalize ((List.range (n * n)).map fun i => f ((0 * n + 0 + i) / n) ((0 * n + 0 + i) % n)) = l at hmem
  cases l with
  | nil => exact absurd ((hmem (f 0 0)).mpr ⟨0, hn, 0, hn, rfl⟩) (by simp)
  | cons x l =>
    obtain ⟨h1, h2, h3⟩ := foldMax l x
    refine ⟨_, rfl, fun a ha b hb => ?_, ?_⟩
    · rcases List.mem_cons.mp ((hmem (f a b)).mpr ⟨a, ha, b, hb, rfl⟩) with h | h
      · rw [h]; exact h1
      · exact h2 _ h
    · refine (hmem _).mp ?_
      rcases h3 with h3 | h3
      · rw [h3]; simp
      · exact List.mem_cons_of_mem _ h3

/-- **C46**, the rest of the matrix of a subproblem: its nodes lie where the chosen nodes lie, its entries are
stored and rounded like those of the whole, and the largest distance it states is the largest distance of
the subproblem; without a stored matrix of the whole it states none. -/
theorem C46_sub_matrix_rest (sqrt : ℚ → ℚ) (d : DistMatrix ℚ) (ctx : Ctx ℚ) (h : d.Holds sqrt ctx)
    (mapping : List ℕ) (hm : ∀ c ∈ mapping, c < ctx.n) (hne : mapping ≠ []) :
    ∃ d', d.fromMapping sqrt mapping = some d' ∧ d'.precomputed = true ∧ d'.rounded = d.rounded ∧
      d'.locations.map some = mapping.map (d.locations[·]?) ∧
      (d.precomputed = false → d'.maxDistance = none) ∧
      (d.precomputed = true → ∃ mx, d'.maxDistance = some mx ∧
        (∀ a ∈ mapping, ∀ b ∈ mapping, ctx.dist a b ≤ mx) ∧ ∃ a ∈ mapping, ∃ b ∈ mapping, ctx.dist a b = mx) := by
  obtain ⟨m', e', h'⟩ := RawMatrix.fill_shows
    (RawMatrix.new_shows (lit 0 : ℚ) mapping.length mapping.length)
    (f := fun i j => (mapping[i]?).bind fun a => (mapping[j]?).bind fun b => d.get sqrt a b)
    (g := (subCtx ctx mapping).dist) (by
      intro i hi j hj
      have h1 : mapping[i]? = some mapping[i] := List.getElem?_eq_getElem hi
      have h2 : mapping[j]? = some mapping[j] := List.getElem?_eq_getElem hj
      simp only [h1, h2, Option.bind_some, subCtx, List.getD_eq_getElem?_getD, Option.getD_some]
      exact h.get _ (hm _ (List.getElem_mem hi)) _ (hm _ (List.getElem_mem hj)))
  have hlocs : ∀ l : List ℕ, (∀ c ∈ l, c < ctx.n) →
      ∃ ls, (l.mapM fun i => d.locations[i]?) = some ls ∧ ls.map some = l.map (d.locations[·]?) := by
    intro l
    induction l with
    | nil => intro _; exact ⟨[], rfl, rfl⟩
    | cons a l ih =>
      intro hl
      obtain ⟨ls, e, hlen⟩ := ih fun c hc => hl c (by simp [hc])
      have ha : a < d.locations.length := by rw [h.len]; exact hl a (by simp)
      refine ⟨d.locations[a] :: ls, ?_, by rw [List.map_cons, List.map_cons, hlen, List.getElem?_eq_getElem ha]⟩
      rw [List.mapM_cons, e]
      simp [ha]
  obtain ⟨ls, els, hls⟩ := hlocs mapping hm
  obtain ⟨mx, hmx, b1, a, ha, b, hb, b2⟩ := RawMatrix.getMax_spec h' (List.length_pos_iff.mpr hne)
  have hdist : ∀ i j (hi : i < mapping.length) (hj : j < mapping.length),
      (subCtx ctx mapping).dist i j = ctx.dist mapping[i] mapping[j] := by
    intro i j hi hj
    simp only [subCtx, List.getD_eq_getElem?_getD, List.getElem?_eq_getElem hi, List.getElem?_eq_getElem hj,
      Option.getD_some]
  cases hp : d.precomputed with
  | false =>
    refine ⟨⟨ls, m', true, d.rounded, none⟩, ?_, rfl, rfl, hls, fun _ => rfl, fun e => by simp at e⟩
    unfold DistMatrix.fromMapping
    rw [els, Option.bind_some, e', Option.bind_some, if_neg (by simp [hp])]
  | true =>
    refine ⟨⟨ls, m', true, d.rounded, some mx⟩, ?_, rfl, rfl, hls, fun e => by simp at e,
      fun _ => ⟨mx, rfl, fun u hu v hv => ?_, mapping[a], List.getElem_mem ha, mapping[b], List.getElem_mem hb, ?_⟩⟩
    · unfold DistMatrix.fromMapping
      rw [els, Option.bind_some, e', Option.bind_some, if_pos hp, hmx]
      rfl
    · obtain ⟨i, hi, rfl⟩ := List.mem_iff_getElem.mp hu
      obtain ⟨j, hj, rfl⟩ := List.mem_iff_getElem.mp hv
      rw [← hdist i j hi hj]
      exact b1 i hi j hj
    · rw [← hdist a b ha hb]
      exact b2

/-- Both theorems about the matrix apply to the table of `DecompEx` and the nodes 0, 1 and 2. -/
example : ∃ d' mx, DecompEx.matrix.fromMapping id [0, 1, 2] = some d' ∧ d'.maxDistance = some mx ∧
    d'.Holds id (subCtx GeneticEx.ctx [0, 1, 2]) ∧ (10 : ℚ) ≤ mx := by
  obtain ⟨d1, e1, h1, -⟩ := C46_sub_matrix id DecompEx.matrix GeneticEx.ctx DecompEx.valid.matrix [0, 1, 2]
    (by decide) (by simp)
  obtain ⟨d2, e2, -, -, -, -, h2⟩ := C46_sub_matrix_rest id DecompEx.matrix GeneticEx.ctx DecompEx.valid.matrix
    [0, 1, 2] (by decide) (by simp)
  rw [e1, Option.some.injEq] at e2
  subst e2
  obtain ⟨mx, h3, h4, -⟩ := h2 rfl
  exact ⟨d1, mx, e1, h3, h1, h4 0 (by simp) 1 (by simp)⟩

end Verif
