import Verif.Props.ProgramDoubleExamples

/-!
# Runs on an explicit matrix

Kernel-evaluated runs of the whole program on the text of an instance with a lower-row matrix, in exact
arithmetic (C62) and in double precision (C72).
-/

namespace Verif
open F64 Spec Dbl

namespace ExplicitEx

/-- The lines of the instance file. -/
def raw : List (List Char) :=
  ["DIMENSION : 4".toList, "EDGE_WEIGHT_TYPE : EXPLICIT".toList, "EDGE_WEIGHT_FORMAT : LOWER_ROW".toList,
    "CAPACITY : 10".toList, "EDGE_WEIGHT_SECTION".toList, "3".toList, "4 6".toList, "2 8 9".toList,
    "NODE_COORD_SECTION".toList, "1 0 0".toList, "2 3 0".toList, "3 3 4".toList, "4 0 4".toList,
    "DEMAND_SECTION".toList, "1 0".toList, "2 4".toList, "3 5".toList, "4 6".toList, "EOF".toList]
/-- The instance file. -/
def text : List Char := (raw.map (fun l => l ++ ['\n'])).flatten
/-- The blocks of the instance file. -/
def blocks : List Block :=
  [⟨"DIMENSION".toList, ["4".toList], []⟩, ⟨"EDGE_WEIGHT_TYPE".toList, ["EXPLICIT".toList], []⟩,
    ⟨"EDGE_WEIGHT_FORMAT".toList, ["LOWER_ROW".toList], []⟩, ⟨"CAPACITY".toList, ["10".toList], []⟩,
    ⟨"EDGE_WEIGHT_SECTION".toList, [],
      [["3".toList], ["4".toList, "6".toList], ["2".toList, "8".toList, "9".toList]]⟩,
    ⟨"NODE_COORD_SECTION".toList, [],
      [["1".toList, "0".toList, "0".toList], ["2".toList, "3".toList, "0".toList],
        ["3".toList, "3".toList, "4".toList], ["4".toList, "0".toList, "4".toList]]⟩,
    ⟨"DEMAND_SECTION".toList, [], [["1".toList, "0".toList], ["2".toList, "4".toList],
      ["3".toList, "5".toList], ["4".toList, "6".toList]]⟩,
    ⟨"EOF".toList, [], []⟩]
/-- The matrix. -/
def rows : List (List ℚ) := [[3], [4, 6], [2, 8, 9]]

/-- The solution file. -/
def file : List Char := "Route #1: 1 2\nRoute #2: 3\nCost 17\n".toList

/-- The program in exact arithmetic, run on the text of the instance. -/
theorem run : Program.main ProgramEx.lib ProgramEx.cfg text (fun _ => 0) ProgramEx.chs [] = some (some file) := by
  decide +kernel

/-- The program in double precision. -/
theorem runDbl : Program.main DoubleEx.lib DoubleEx.cfg text (fun _ => 0) DoubleEx.chs [] = some (some file) := by
  decide +kernel

/-- The lines form the blocks. -/
theorem blockFile : BlockFile (raw.map lineWords) [] blocks := by
  refine ⟨by decide, by decide, ?_, by decide⟩
  intro b hb line hl w hw
  simp only [blocks, List.mem_cons, List.not_mem_nil, or_false] at hb
  rcases hb with rfl | rfl | rfl | rfl | rfl | rfl | rfl | rfl <;>
    simp only [List.mem_cons, List.not_mem_nil, or_false] at hl
  · rcases hl with rfl | rfl | rfl <;> (cases hw; decide)
  · rcases hl with rfl | rfl | rfl | rfl <;> (cases hw; decide)
  · rcases hl with rfl | rfl | rfl | rfl <;> (cases hw; decide)

theorem describes : Describes (fun w x => ProgramEx.lib.num w = some x) (fun w n => parseUsize w = some n) blocks 10
    ProgramEx.nodes := by
  refine ⟨?_, ?_, ?_, ?_⟩
  · exact ⟨blocks[0], by simp [blocks], by decide, "4".toList, by decide, by decide⟩
  · exact ⟨blocks[3], by simp [blocks], by decide, "10".toList, by decide, by decide +kernel⟩
  · refine ⟨blocks[5], by simp [blocks], by decide, ?_⟩
    intro i p hp
    match i, hp with
    | 0, hp => cases hp; exact ⟨_, _, _, rfl, rfl, rfl, by decide +kernel, by decide +kernel⟩
    | 1, hp => cases hp; exact ⟨_, _, _, rfl, rfl, rfl, by decide +kernel, by decide +kernel⟩
    | 2, hp => cases hp; exact ⟨_, _, _, rfl, rfl, rfl, by decide +kernel, by decide +kernel⟩
    | 3, hp => cases hp; exact ⟨_, _, _, rfl, rfl, rfl, by decide +kernel, by decide +kernel⟩
    | i + 4, hp => simp [ProgramEx.nodes, Program.dblNodes] at hp
  · refine ⟨blocks[6], by simp [blocks], by decide, ?_⟩
    intro i p hp
    match i, hp with
    | 0, hp => cases hp; exact ⟨_, _, rfl, rfl, by decide +kernel⟩
    | 1, hp => cases hp; exact ⟨_, _, rfl, rfl, by decide +kernel⟩
    | 2, hp => cases hp; exact ⟨_, _, rfl, rfl, by decide +kernel⟩
    | 3, hp => cases hp; exact ⟨_, _, rfl, rfl, by decide +kernel⟩
    | i + 4, hp => simp [ProgramEx.nodes, Program.dblNodes] at hp

theorem describesDbl : Describes (fun w x => DoubleEx.lib.num w = some x) (fun w n => parseUsize w = some n) blocks
    (fin 10) (Program.dblNodes nearestEven ProgramEx.nodes) := by
  refine ⟨?_, ?_, ?_, ?_⟩
  · exact ⟨blocks[0], by simp [blocks], by decide, "4".toList, by decide, by decide⟩
  · exact ⟨blocks[3], by simp [blocks], by decide, "10".toList, by decide, by decide +kernel⟩
  · refine ⟨blocks[5], by simp [blocks], by decide, ?_⟩
    intro i p hp
    match i, hp with
    | 0, hp => cases hp; exact ⟨_, _, _, rfl, rfl, rfl, by decide +kernel, by decide +kernel⟩
    | 1, hp => cases hp; exact ⟨_, _, _, rfl, rfl, rfl, by decide +kernel, by decide +kernel⟩
    | 2, hp => cases hp; exact ⟨_, _, _, rfl, rfl, rfl, by decide +kernel, by decide +kernel⟩
    | 3, hp => cases hp; exact ⟨_, _, _, rfl, rfl, rfl, by decide +kernel, by decide +kernel⟩
    | i + 4, hp => simp [ProgramEx.nodes, Program.dblNodes] at hp
  · refine ⟨blocks[6], by simp [blocks], by decide, ?_⟩
    intro i p hp
    match i, hp with
    | 0, hp => cases hp; exact ⟨_, _, rfl, rfl, by decide +kernel⟩
    | 1, hp => cases hp; exact ⟨_, _, rfl, rfl, by decide +kernel⟩
    | 2, hp => cases hp; exact ⟨_, _, rfl, rfl, by decide +kernel⟩
    | 3, hp => cases hp; exact ⟨_, _, rfl, rfl, by decide +kernel⟩
    | i + 4, hp => simp [ProgramEx.nodes, Program.dblNodes] at hp

theorem explicit : ExplicitRows (fun w x => ProgramEx.lib.num w = some x) blocks rows := by
  refine ⟨⟨blocks[1], by simp [blocks], by decide, by decide⟩, ⟨blocks[2], by simp [blocks], by decide, by decide⟩,
    blocks[4], by simp [blocks], by decide, ?_⟩
  intro i row h
  match i, h with
  | 0, h => cases h; exact ⟨_, rfl, .cons (by decide +kernel) .nil⟩
  | 1, h => cases h; exact ⟨_, rfl, .cons (by decide +kernel) (.cons (by decide +kernel) .nil)⟩
  | 2, h =>
    cases h
    exact ⟨_, rfl, .cons (by decide +kernel) (.cons (by decide +kernel) (.cons (by decide +kernel) .nil))⟩
  | i + 3, h => simp [rows, Program.dblRows] at h

theorem explicitDbl : ExplicitRows (fun w x => DoubleEx.lib.num w = some x) blocks (Program.dblRows nearestEven rows) := by
  refine ⟨⟨blocks[1], by simp [blocks], by decide, by decide⟩, ⟨blocks[2], by simp [blocks], by decide, by decide⟩,
    blocks[4], by simp [blocks], by decide, ?_⟩
  intro i row h
  match i, h with
  | 0, h => cases h; exact ⟨_, rfl, .cons (by decide +kernel) .nil⟩
  | 1, h => cases h; exact ⟨_, rfl, .cons (by decide +kernel) (.cons (by decide +kernel) .nil)⟩
  | 2, h =>
    cases h
    exact ⟨_, rfl, .cons (by decide +kernel) (.cons (by decide +kernel) (.cons (by decide +kernel) .nil))⟩
  | i + 3, h => simp [rows, Program.dblRows] at h

theorem triangular : ∀ (i : ℕ) (row : List ℚ), rows[i]? = some row → row.length = i + 1 := by
  intro i row h
  match i, h with
  | 0, h => cases h; rfl
  | 1, h => cases h; rfl
  | 2, h => cases h; rfl
  | i + 3, h => simp [rows] at h

theorem entries : ∀ row ∈ rows, ∀ x ∈ row, 0 ≤ x ∧ x ≤ 9 ∧ ∃ k : ℤ, x = k := by
  intro row hr x hx
  simp only [rows, List.mem_cons, List.not_mem_nil, or_false] at hr
  rcases hr with rfl | rfl | rfl <;> simp only [List.mem_cons, List.not_mem_nil, or_false] at hx
  · subst hx; exact ⟨by norm_num, by norm_num, 3, by norm_num⟩
  · rcases hx with rfl | rfl
    · exact ⟨by norm_num, by norm_num, 4, by norm_num⟩
    · exact ⟨by norm_num, by norm_num, 6, by norm_num⟩
  · rcases hx with rfl | rfl | rfl
    · exact ⟨by norm_num, by norm_num, 2, by norm_num⟩
    · exact ⟨by norm_num, by norm_num, 8, by norm_num⟩
    · exact ⟨by norm_num, by norm_num, 9, by norm_num⟩

theorem data_ok : Program.DataOK ProgramEx.nodes 10 (lowerRowDist ProgramEx.cfg.rounded rows) where
  cap := by norm_num
  bound := by
    refine ⟨9, 6, ?_, ?_, by norm_num [ProgramEx.nodes]⟩
    · have : ∀ a < 4, ∀ b < 4, 0 ≤ lowerRowDist ProgramEx.cfg.rounded rows a b ∧
          lowerRowDist ProgramEx.cfg.rounded rows a b ≤ 9 := by decide +kernel
      exact this
    · intro p hp
      simp only [ProgramEx.nodes, List.mem_cons, List.not_mem_nil, or_false] at hp
      rcases hp with rfl | rfl | rfl | rfl <;> norm_num

theorem loads_ok : Program.DblLoads ProgramEx.nodes 10 where
  count := by norm_num [ProgramEx.nodes]
  whole := by
    refine ⟨10, 6, by norm_num, by norm_num, ?_, by norm_num [ProgramEx.nodes]⟩
    intro p hp
    simp only [ProgramEx.nodes, List.mem_cons, List.not_mem_nil, or_false] at hp
    rcases hp with rfl | rfl | rfl | rfl
    · exact ⟨0, by norm_num⟩
    · exact ⟨4, by norm_num⟩
    · exact ⟨5, by norm_num⟩
    · exact ⟨6, by norm_num⟩

/-- C62 applies: two routes, within the capacity, of length 17. -/
example : CorrectFile ProgramEx.nodes 10 (lowerRowDist ProgramEx.cfg.rounded rows) (1 / 1000000) file :=
  (C62_file_explicit (lib := ProgramEx.lib) (cfg := ProgramEx.cfg) (textOf_lf raw (by decide)) (forall₂_lineWords _)
    blockFile describes explicit rfl triangular (fun row hr x hx => (entries row hr x hx).1)
    ProgramEx.run_ok data_ok run (by decide)).1

/-- C72 applies. -/
example : ExactFile ProgramEx.nodes 10 (lowerRowDist DoubleEx.cfg.rounded rows) file :=
  C72_exact_explicit (lib := DoubleEx.lib) (cfg := DoubleEx.cfg) (M := 9) (textOf_lf raw (by decide))
    (forall₂_lineWords _) blockFile describesDbl explicitDbl rfl triangular
    (fun row hr x hx => ⟨(entries row hr x hx).1, (entries row hr x hx).2.1, .inl rfl⟩) (by norm_num)
    (by norm_num [ProgramEx.nodes]) DoubleEx.run_ok loads_ok runDbl (by decide)

/-- C72 with an error bound applies. -/
example : NearFile ProgramEx.nodes 10 (lowerRowDist DoubleEx.cfg.rounded rows) (3 * 4 * (2 ^ 8 / 2 ^ 53)) file :=
  C72_near_explicit (lib := DoubleEx.lib) (cfg := DoubleEx.cfg) (M := 9) (m := 8) (textOf_lf raw (by decide))
    (forall₂_lineWords _) blockFile describesDbl explicitDbl rfl triangular
    (fun row hr x hx => ⟨(entries row hr x hx).1, by exact_mod_cast (entries row hr x hx).2.1⟩) (by norm_num)
    (by decide) (by norm_num) (by decide) DoubleEx.run_ok loads_ok runDbl (by decide)

end ExplicitEx
end Verif
