import Verif.Props.Program
import Verif.Props.GeneticExamples

/-!
# A run of the whole program

A concrete run from the instance text to the solution text, evaluated by the kernel, that meets all
hypotheses of C62.
-/

namespace Verif
open F64 Spec

namespace ProgramEx

/-- The lines of the instance file. -/
def raw : List (List Char) :=
  ["DIMENSION : 4".toList, "EDGE_WEIGHT_TYPE : EUC_2D".toList, "CAPACITY : 20".toList,
    "NODE_COORD_SECTION".toList, "1 0 0".toList, "2 3 0".toList, "3 3 4".toList, "4 0 4".toList,
    "DEMAND_SECTION".toList, "1 0".toList, "2 4".toList, "3 5".toList, "4 6".toList, "EOF".toList]
/-- The instance file. -/
def text : List Char := (raw.map (fun l => l ++ ['\n'])).flatten
/-- Library routines; the root is right for the distances that occur. -/
def lib : Lib ℚ where
  num w := (readNat w).map fun n => (n : ℚ)
  sqrt x := if x = 9 then 3 else if x = 16 then 4 else if x = 25 then 5 else 0
  atan2 _ _ := 0
  exp _ := 1
  ln _ := -1
  angle _ _ := 0
  bs := bsearchNew
  sort := some
  corrSort l := l.insertionSort fun a b => a.1 ≤ b.1
/-- Local search and ruin and recreate for every individual, rounded distances computed in advance. -/
def cfg : Settings ℚ where
  hasPath := true
  timeLimit := 100
  maxIterations := none
  maxStagnation := 3
  logInterval := 1
  precomputeLimit := 1000
  rounded := true
  decomposeLimit := 100
  decomposedSize := 50
  pop := ⟨2, 2, 1, 1, 2⟩
  initialIndividuals := 2
  target := 1 / 4
  repairProbability := 1 / 2
  splitFactor := 1.5
  linearSplit := true
  granularity := 2
  lsEnabled := true
  moves := ⟨true, true, true, true, true, true, true, true, true, true⟩
  penaltyInterval := 1
  incMultiplier := 1.2
  decMultiplier := 0.85
  cavg := 10
  lmax := 10
  rrMutation := true
  rrProbability := 1
  rrGamma := 1 / 3
  rrStartTemp := 1
  eliteEducation := false
  eliteLimit := 1000
  eliteGamma := 1
  eliteTemp := 1
  eliteTimeBased := false
  eliteFraction := 1
/-- The blocks of the instance file. -/
def blocks : List Block :=
  [⟨"DIMENSION".toList, ["4".toList], []⟩, ⟨"EDGE_WEIGHT_TYPE".toList, ["EUC_2D".toList], []⟩,
    ⟨"CAPACITY".toList, ["20".toList], []⟩,
    ⟨"NODE_COORD_SECTION".toList, [],
      [["1".toList, "0".toList, "0".toList], ["2".toList, "3".toList, "0".toList],
        ["3".toList, "3".toList, "4".toList], ["4".toList, "0".toList, "4".toList]]⟩,
    ⟨"DEMAND_SECTION".toList, [], [["1".toList, "0".toList], ["2".toList, "4".toList],
      ["3".toList, "5".toList], ["4".toList, "6".toList]]⟩,
    ⟨"EOF".toList, [], []⟩]

/-- The nodes. -/
def nodes : List (ℚ × ℚ × ℚ) := [(0, 0, 0), (3, 0, 4), (3, 4, 5), (0, 4, 6)]

/-- Two individuals are made, one cycle is done, then the time is up. -/
def chs : List (GAChoice ℚ) :=
  [GeneticEx.choice 0 0, GeneticEx.choice 0 0, GeneticEx.choice 0 0, GeneticEx.choice 0 0,
    GeneticEx.choice 5 7, { GeneticEx.choice 0 0 with elapsed := 100 }]

/-- The solution file. -/
def file : List Char := "Route #1: 1 2 3\nCost 14\n".toList

/-- The program, run on the text of the instance. -/
theorem run : Program.main lib cfg text (fun _ => 0) chs [] = some (some file) := by decide +kernel

theorem lib_ok : Program.LibOK lib where
  bs := bsearchNew_ok
  sort := fun l l' h => by
    simp only [lib, Option.some.injEq] at h
    exact h ▸ List.Perm.refl _
  perm := fun L => List.perm_insertionSort _ _
  sorted := fun L => List.pairwise_insertionSort (fun a b : ℚ × ℕ => a.1 ≤ b.1) L
  root := by decide +kernel
  nonneg := fun x _ => by
    simp only [lib]
    split
    · norm_num
    · split
      · norm_num
      · split <;> norm_num

theorem run_ok : Program.RunOK lib cfg nodes.length chs [] where
  lib := lib_ok
  settings := ⟨by decide, by norm_num [cfg], fun h => absurd h (by decide)⟩
  choices := fun ch hch => by
    simp only [chs, List.mem_cons, List.not_mem_nil, or_false] at hch
    rcases hch with rfl | rfl | rfl | rfl | rfl | rfl <;> exact fun _ _ _ l => List.Perm.refl l
  dchoices := fun ch hch => by simp at hch

theorem data_ok : Program.DataOK nodes 20 (planeDist lib.sqrt cfg.rounded nodes) where
  cap := by norm_num
  bound := by
    refine ⟨5, 6, ?_, ?_, by norm_num [nodes]⟩
    · have : ∀ a < 4, ∀ b < 4, 0 ≤ planeDist lib.sqrt cfg.rounded nodes a b ∧
          planeDist lib.sqrt cfg.rounded nodes a b ≤ 5 := by decide +kernel
      exact this
    · intro p hp
      simp only [nodes, List.mem_cons, List.not_mem_nil, or_false] at hp
      rcases hp with rfl | rfl | rfl | rfl <;> norm_num

/-- The lines form the blocks. -/
theorem blockFile : BlockFile (raw.map lineWords) [] blocks := by
  refine ⟨by decide, by decide, ?_, by decide⟩
  intro b hb line hl w hw
  simp only [blocks, List.mem_cons, List.not_mem_nil, or_false] at hb
  rcases hb with rfl | rfl | rfl | rfl | rfl | rfl <;> simp only [List.not_mem_nil] at hl
  all_goals
    simp only [List.mem_cons, List.not_mem_nil, or_false] at hl
    rcases hl with rfl | rfl | rfl | rfl <;> (cases hw; decide)

/-- The blocks describe the nodes. -/
theorem describes : Describes (fun w x => lib.num w = some x) (fun w n => parseUsize w = some n) blocks 20
    nodes := by
  refine ⟨?_, ?_, ?_, ?_⟩
  · exact ⟨blocks[0], by simp [blocks], by decide, "4".toList, by decide, by decide⟩
  · exact ⟨blocks[2], by simp [blocks], by decide, "20".toList, by decide, by decide +kernel⟩
  · refine ⟨blocks[3], by simp [blocks], by decide, ?_⟩
    intro i p hp
    match i, hp with
    | 0, hp => cases hp; exact ⟨_, _, _, rfl, rfl, rfl, by decide +kernel, by decide +kernel⟩
    | 1, hp => cases hp; exact ⟨_, _, _, rfl, rfl, rfl, by decide +kernel, by decide +kernel⟩
    | 2, hp => cases hp; exact ⟨_, _, _, rfl, rfl, rfl, by decide +kernel, by decide +kernel⟩
    | 3, hp => cases hp; exact ⟨_, _, _, rfl, rfl, rfl, by decide +kernel, by decide +kernel⟩
    | i + 4, hp => simp [nodes] at hp
  · refine ⟨blocks[4], by simp [blocks], by decide, ?_⟩
    intro i p hp
    match i, hp with
    | 0, hp => cases hp; exact ⟨_, _, rfl, rfl, by decide +kernel⟩
    | 1, hp => cases hp; exact ⟨_, _, rfl, rfl, by decide +kernel⟩
    | 2, hp => cases hp; exact ⟨_, _, rfl, rfl, by decide +kernel⟩
    | 3, hp => cases hp; exact ⟨_, _, rfl, rfl, by decide +kernel⟩
    | i + 4, hp => simp [nodes] at hp

theorem euclidean : Euclidean blocks := ⟨blocks[1], by simp [blocks], by decide, by decide⟩

/-- C62 applies to this run: the routes are complete, within the capacity, and of length 14. -/
example : CorrectFile nodes 20 (planeDist lib.sqrt cfg.rounded nodes) 0 file := by
  refine (C62_file_plane (lib := lib) (cfg := cfg) (blocks := blocks) (pre := [])
    (textOf_lf raw (by decide)) (forall₂_lineWords _) blockFile describes euclidean
    run_ok data_ok run (by decide)).2 ?_ ⟨20, by norm_num⟩
  intro p hp
  simp only [nodes, List.mem_cons, List.not_mem_nil, or_false] at hp
  rcases hp with rfl | rfl | rfl | rfl
  · exact ⟨0, by norm_num⟩
  · exact ⟨4, by norm_num⟩
  · exact ⟨5, by norm_num⟩
  · exact ⟨6, by norm_num⟩

end ProgramEx
end Verif
