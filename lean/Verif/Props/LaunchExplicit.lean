import Verif.Props.LaunchExamples

/-!
# C85: the end of the run for instances with an explicit matrix, in double precision
-/

namespace Verif
open F64 Spec

section double
open Dbl Program
variable {ρ : Rounding} {lib : Lib (Dbl ρ)} {cl : CommandLine}
  {nodes : List (ℚ × ℚ × ℚ)} {cap : ℚ} {rows : List (List ℚ)} {text : List Char} {raw : List (List Char)}
  {lines pre : List (List (List Char))} {blocks : List Block} {ω : Oracle} {chs : List (GAChoice (Dbl ρ))}

/-- **C85** (partial), the end of the run, in double precision, for an explicit lower-row matrix: with the configuration
as shipped, 22 to 3000 nodes, entries from 0 to `M` and a clock that passes the time limit, the program ends and leaves
a solution file; unless it is empty it holds a feasible solution with its exact cost.

What is missing: as for `C85_ends_double_partial`. -/
theorem C85_ends_explicit_partial (ht : TextOf text raw)
    (hl : List.Forall₂ LaidOut raw lines) (hf : BlockFile lines pre blocks)
    (hd : Describes (fun w x => lib.num w = some x) (fun w n => parseUsize w = some n) blocks (fin cap)
      (dblNodes ρ nodes))
    (he : ExplicitRows (fun w x => lib.num w = some x) blocks (dblRows ρ rows)) (hlen : rows.length + 1 = nodes.length)
    (hrow : ∀ (i : ℕ) (row : List ℚ), rows[i]? = some row → row.length = i + 1) {M : ℕ}
    (hnn : ∀ row ∈ rows, ∀ x ∈ row, 0 ≤ x ∧ x ≤ M) (hM43 : M ≤ 2 ^ 43)
    (hM : 4 * (nodes.length * M) ≤ 2 ^ 53)
    (hr : DblStart lib chs []) (htot : DblTotal lib) (hload : DblLoads nodes cap)
    (hco : DblCoords nodes) (hn22 : 22 ≤ nodes.length) (hn : nodes.length ≤ 3000)
    (hi : ∀ w, cl.i = some w → (parseUsize w.toList).isSome)
    {limit : ℕ} (hlim : parseUsize (cl.t.getD "10").toList = some limit)
    (hfair : ∀ ch ∈ chs, GA.Fair nodes.length ch) (hclock : ∃ ch ∈ chs, limit ≤ ch.elapsed) :
    ∃ cfg, configure shippedYml cl = some cfg ∧ (CirclePossible lib cfg nodes cap (some (dblRows ρ rows)) ∨
      ∃ file N, (∀ f, N ≤ f → launch lib shippedYml cl text ω (chs.map fun ch => { ch with fuel := f }) [] =
          some (some file)) ∧ (file = [] ∨ ExactFile nodes cap (lowerRowDist true rows) file)) := by
  obtain ⟨cfg, hcfg⟩ := (C86_starts (α := Dbl ρ) (yml := shippedYml) (cl := cl) shipped_nodup).mpr
    ⟨shipped_typed, hi, fun w hw => by
      rw [hw, Option.getD_some] at hlim
      rw [hlim]; rfl⟩
  refine ⟨cfg, hcfg, ?_⟩
  have ha := C86_settings shipped_nodup hcfg
  obtain ⟨s1, s2⟩ := asked_sizes ha (shipped_suits hn22)
  have htime : cfg.timeLimit = limit := by
    have := ha.time
    rw [hlim] at this
    exact (Option.some.inj this).symm
  have hdist : DblDist nodes.length (lowerRowDist cfg.rounded rows) := fun a h1 b h2 => by
    obtain ⟨x, y⟩ := (nearExplicit_data (lib := lib) (cfg := cfg) (cap := cap) hlen hrow hnn).1 a h1 b h2
    exact ⟨x, y.trans (by exact_mod_cast hM43)⟩
  rcases C78_ends_explicit (ω := ω) (cfg := cfg) ht hl hf hd he hlen hrow (fun row h1 x h2 => (hnn row h1 x h2).1)
    ⟨hr.lib, htot, ⟨s1, s2⟩, shipped_ends_dbl ha hn (by omega), hload, hco,
      fun ch h => ⟨hr.choices ch h, hfair ch h⟩, by rw [htime]; exact hclock⟩ hdist with ⟨-, h⟩ | ⟨out, N, h1, h2⟩
  · exact .inl h
  · refine .inr ?_
    obtain ⟨file, rfl⟩ := Option.isSome_iff_exists.mp (h1.mpr ha.path)
    have h3 : ∀ f, N ≤ f → launch lib shippedYml cl text ω (chs.map fun ch => { ch with fuel := f }) [] =
        some (some file) := fun f hfu => by
      unfold launch
      rw [hcfg, Option.bind_some]
      exact h2 f hfu
    refine ⟨file, N, h3, ?_⟩
    have h5 := h3 N (le_refl N)
    have hch : ∀ ch ∈ chs.map (fun ch => { ch with fuel := N }), GA.ChOK ch := by
      intro ch hch
      obtain ⟨c, hc, rfl⟩ := List.mem_map.mp hch
      exact hr.choices c hc
    generalize chs.map (fun ch => { ch with fuel := N }) = chs' at h5 hch
    obtain ⟨file', e, h4⟩ := C85_explicit_partial (M := (M : ℤ)) ht hl hf hd he hlen hrow
      (fun row h1 x h2 => by exact_mod_cast hnn row h1 x h2) (by exact_mod_cast hM43)
      (by exact_mod_cast hM)
      ⟨hr.fleet, hr.lib, hch, hr.dchoices⟩ hload shipped_nodup (shipped_suits hn22) h5
    rw [Option.some.injEq] at e
    subst e
    exact h4

end double

namespace LaunchEx
open DoubleEx Dbl

/-! ## The instance with 22 nodes on a line, with a matrix -/

namespace Table

/-- The blocks of the instance file. -/
def blocks : List Block :=
  [⟨"DIMENSION".toList, ["22".toList], []⟩, ⟨"EDGE_WEIGHT_TYPE".toList, ["EXPLICIT".toList], []⟩,
    ⟨"EDGE_WEIGHT_FORMAT".toList, ["LOWER_ROW".toList], []⟩, ⟨"CAPACITY".toList, ["5".toList], []⟩,
    ⟨"EDGE_WEIGHT_SECTION".toList, [],
      (List.range 21).map fun i => (List.range (i + 1)).map fun j => Line.word (i + 1 - j)⟩,
    ⟨"NODE_COORD_SECTION".toList, [], (List.range 22).map fun i => [Line.word (i + 1), Line.word i, Line.word 0]⟩,
    ⟨"DEMAND_SECTION".toList, [], (List.range 22).map fun i => [Line.word (i + 1), Line.word (Line.load i)]⟩]

/-- The lines of the instance file. -/
def raw : List (List Char) :=
  ["DIMENSION : 22".toList, "EDGE_WEIGHT_TYPE : EXPLICIT".toList, "EDGE_WEIGHT_FORMAT : LOWER_ROW".toList,
    "CAPACITY : 5".toList, "EDGE_WEIGHT_SECTION".toList] ++
  (List.range 21).map (fun i => ((List.range (i + 1)).map fun j => Line.word (i + 1 - j) ++ [' ']).flatten) ++
  ["NODE_COORD_SECTION".toList] ++
  (List.range 22).map (fun i => Line.word (i + 1) ++ [' '] ++ Line.word i ++ [' '] ++ Line.word 0) ++
  ["DEMAND_SECTION".toList] ++
  (List.range 22).map (fun i => Line.word (i + 1) ++ [' '] ++ Line.word (Line.load i))

/-- The matrix. -/
def rows : List (List ℚ) := (List.range 21).map fun i => (List.range (i + 1)).map fun j => ((i + 1 - j : ℕ) : ℚ)

theorem blockFile : BlockFile (raw.map lineWords) [] blocks := by
  refine ⟨by decide +kernel, by simp, ?_, by decide⟩
  have : ∀ b ∈ blocks, ∀ line ∈ b.body, line.head?.all (fun w => decide (w ∉ reservedKeys)) = true := by decide +kernel
  intro b hb line hl w hw
  have h := this b hb line hl
  rw [hw] at h
  simpa using h

theorem word : ∀ i < 22, DoubleEx.lib.num (Line.word i) = some (fin (i : ℚ)) := by decide +kernel

theorem row {i : ℕ} {r : List ℚ} (h : rows[i]? = some r) :
    i < 21 ∧ r = (List.range (i + 1)).map fun j => ((i + 1 - j : ℕ) : ℚ) := by
  have hi : i < 21 := by
    obtain ⟨h1, -⟩ := List.getElem?_eq_some_iff.mp h
    simpa [rows] using h1
  refine ⟨hi, ?_⟩
  simp only [rows, List.getElem?_map, List.getElem?_range hi, Option.map_some, Option.some.injEq] at h
  exact h.symm

theorem describes : Describes (fun w x => DoubleEx.lib.num w = some x) (fun w n => parseUsize w = some n) blocks
    (fin 5) (Program.dblNodes nearestEven Line.nodes) := by
  refine ⟨⟨blocks[0], by simp [blocks], by decide, "22".toList, by decide, by decide +kernel⟩,
    ⟨blocks[3], by simp [blocks], by decide, "5".toList, by decide, by decide +kernel⟩,
    ⟨blocks[5], by simp [blocks], by decide, fun i p hp => ?_⟩,
    ⟨blocks[6], by simp [blocks], by decide, fun i p hp => ?_⟩⟩
  · rw [Program.dblNodes, List.getElem?_map] at hp
    obtain ⟨q, hq, rfl⟩ := Option.map_eq_some_iff.mp hp
    obtain ⟨hi, rfl⟩ := Line.node hq
    refine ⟨[Line.word (i + 1), Line.word i, Line.word 0], Line.word i, Line.word 0, ?_, rfl, rfl, word i hi, ?_⟩
    · show ((List.range 22).map fun i => [Line.word (i + 1), Line.word i, Line.word 0])[i]? = _
      rw [List.getElem?_map, List.getElem?_range hi]; rfl
    · have := word 0 (by norm_num)
      simpa using this
  · rw [Program.dblNodes, List.getElem?_map] at hp
    obtain ⟨q, hq, rfl⟩ := Option.map_eq_some_iff.mp hp
    obtain ⟨hi, rfl⟩ := Line.node hq
    refine ⟨[Line.word (i + 1), Line.word (Line.load i)], Line.word (Line.load i), ?_, rfl,
      word (Line.load i) (by unfold Line.load; split <;> norm_num)⟩
    show ((List.range 22).map fun i => [Line.word (i + 1), Line.word (Line.load i)])[i]? = _
    rw [List.getElem?_map, List.getElem?_range hi]; rfl

theorem explicit : ExplicitRows (fun w x => DoubleEx.lib.num w = some x) blocks (Program.dblRows nearestEven rows) := by
  refine ⟨⟨blocks[1], by simp [blocks], by decide, by decide⟩, ⟨blocks[2], by simp [blocks], by decide, by decide⟩,
    blocks[4], by simp [blocks], by decide, ?_⟩
  intro i r h
  rw [Program.dblRows, List.getElem?_map] at h
  obtain ⟨q, hq, rfl⟩ := Option.map_eq_some_iff.mp h
  obtain ⟨hi, rfl⟩ := row hq
  refine ⟨(List.range (i + 1)).map fun j => Line.word (i + 1 - j), ?_, ?_⟩
  · show ((List.range 21).map fun i => (List.range (i + 1)).map fun j => Line.word (i + 1 - j))[i]? = _
    rw [List.getElem?_map, List.getElem?_range hi]; rfl
  · rw [List.map_map, List.forall₂_map_left_iff, List.forall₂_map_right_iff, List.forall₂_same]
    exact fun j _ => word (i + 1 - j) (by omega)

/-- C85 applies in double precision with an explicit matrix. -/
example (ω : Oracle) : ∃ cfg, Program.configure (shippedYml : Mapping (Yaml F)) ⟨"table.vrp", none, none, some "100", none⟩ = some cfg ∧
    (Program.CirclePossible DoubleEx.lib cfg Line.nodes 5 (some (Program.dblRows nearestEven rows)) ∨
      ∃ file N, (∀ f, N ≤ f → Program.launch DoubleEx.lib shippedYml ⟨"table.vrp", none, none, some "100", none⟩
        ((raw.map fun l => l ++ ['\n']).flatten) ω (timed.map fun ch => { ch with fuel := f }) [] =
          some (some file)) ∧ (file = [] ∨ ExactFile Line.nodes 5 (lowerRowDist true rows) file)) := by
  have key : ∀ ch ∈ timed, GA.ChOK ch ∧ GA.Fair Line.nodes.length ch := by
    intro ch hch
    simp only [timed, List.mem_cons, List.not_mem_nil, or_false] at hch
    have key : ∀ e, GA.ChOK (DoubleEx.draw e) ∧ GA.Fair Line.nodes.length (DoubleEx.draw e) := fun e =>
      ⟨fun _ _ _ l => List.Perm.refl l, 1, by decide, show (Nat.pair 2 1) % 21 ≠ (Nat.pair 2 0) % 21 by decide +kernel⟩
    rcases hch with rfl | rfl | rfl | rfl <;> exact key _
  exact C85_ends_explicit_partial (limit := 100) (M := 21) (textOf_lf raw (by decide +kernel)) (forall₂_lineWords _)
    blockFile describes explicit rfl (fun i r h => by obtain ⟨-, rfl⟩ := row h; simp)
    (fun r hr x hx => by
      obtain ⟨i, hi⟩ := List.getElem?_of_mem hr
      obtain ⟨hi, rfl⟩ := row hi
      obtain ⟨j, -, rfl⟩ := List.mem_map.mp hx
      exact ⟨Nat.cast_nonneg _, by exact_mod_cast (by omega : i + 1 - j ≤ 21)⟩) (by norm_num) (by decide)
    ⟨nearestEven_fleet, DoubleEx.lib_ok, fun ch h => (key ch h).1, by simp⟩ total Line.loadsDbl
    (fun p hp => by
      obtain ⟨i, hi⟩ := List.getElem?_of_mem hp
      obtain ⟨h22, rfl⟩ := Line.node hi
      have h900 : (22 : ℚ) ≤ 2 ^ 900 := (by norm_num : (22 : ℚ) ≤ 2 ^ 5).trans (pow_le_pow_right₀ (by norm_num) (by norm_num))
      have hiq : (i : ℚ) ≤ 22 := by exact_mod_cast h22.le
      refine ⟨?_, ?_⟩
      · show |(i : ℚ)| ≤ _
        rw [abs_of_nonneg (Nat.cast_nonneg _)]
        exact hiq.trans h900
      · show |(0 : ℚ)| ≤ _
        rw [abs_zero]
        positivity)
    (by decide) (by decide) (fun w hw => by cases hw) (by decide) (fun ch h => (key ch h).2)
    ⟨DoubleEx.draw 100, by simp [timed], le_refl _⟩

end Table
end LaunchEx
end Verif
