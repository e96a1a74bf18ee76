import Verif.Props.ProgramDouble
import Verif.Props.ProgramExamples

/-!
# A run of the whole program in double precision

The run of `ProgramExamples` with the arithmetic of the machine: round to nearest, ties to even. It meets all
hypotheses of C70 and C71.
-/

namespace Verif
open F64 Spec Dbl

namespace DoubleEx

/-- The numbers of the machine. -/
abbrev F := Dbl nearestEven

/-- The root, with three values known in advance. -/
def root (x : F) : F :=
  if x = fin 9 then fin 3 else if x = fin 16 then fin 4 else if x = fin 25 then fin 5
  else if x = fin 0 then fin 0 else someSqrt nearestEven x

/-- The order of the numbers, NaN last. -/
def before (a b : F) : Bool := decide (b = nan) || (a ≤. b)

/-- Library routines. -/
def lib : Lib F where
  num w := (readNat w).map fun n => fin (n : ℚ)
  sqrt := root
  atan2 _ _ := fin 0
  exp _ := fin 1
  ln _ := fin (-1)
  angle _ _ := 0
  bs := bsearchNew
  sort := some
  corrSort l := l.insertionSort fun a b => before a.1 b.1 = true

/-- The settings of `ProgramExamples`. -/
def cfg : Settings F where
  hasPath := true
  timeLimit := 100
  maxIterations := none
  maxStagnation := 3
  logInterval := 1
  precomputeLimit := 1000
  rounded := true
  decomposeLimit := 100
  decomposedSize := 50
  pop := ⟨2, 2, 1, 1, 2⟩
  initialIndividuals := 2
  target := lit (1 / 4)
  repairProbability := lit (1 / 2)
  splitFactor := lit 1.5
  linearSplit := true
  granularity := 2
  lsEnabled := true
  moves := ⟨true, true, true, true, true, true, true, true, true, true⟩
  penaltyInterval := 1
  incMultiplier := lit 1.2
  decMultiplier := lit 0.85
  cavg := 10
  lmax := 10
  rrMutation := true
  rrProbability := lit 1
  rrGamma := lit (1 / 3)
  rrStartTemp := lit 1
  eliteEducation := false
  eliteLimit := 1000
  eliteGamma := lit 1
  eliteTemp := lit 1
  eliteTimeBased := false
  eliteFraction := lit 1

/-- The draws. -/
def choice (a b : ℕ) : GAChoice F where
  ω := fun i => a / 2 ^ (i % 10)
  rr := fun _ _ => ⟨fun i => b / 2 ^ (i % 10), fun _ l => l, lit 0⟩
  clock := fun _ => lit 0
  elapsed := 0
  fuel := 5

/-- Two individuals are made, one cycle is done, then the time is up. -/
def chs : List (GAChoice F) :=
  [choice 0 0, choice 0 0, choice 0 0, choice 0 0, choice 5 7, { choice 0 0 with elapsed := 100 }]

/-- The program, run on the text of the instance. -/
theorem run : Program.main lib cfg ProgramEx.text (fun _ => 0) chs [] = some (some ProgramEx.file) := by
  decide +kernel

theorem root_ok : SqrtOK root := by
  have exact : ∀ v : ℚ, 0 ≤ v → ∀ k m : ℤ, 0 ≤ k → k ≤ 2 ^ 53 → -1074 ≤ m →
      ((k * 2 ^ m : ℚ) ^ 2 ≤ v ^ 2 → k * 2 ^ m ≤ v) ∧ (v ^ 2 ≤ (k * 2 ^ m : ℚ) ^ 2 → v ≤ k * 2 ^ m) := by
    intro v hv k m hk _ _
    have : (0 : ℚ) ≤ k * 2 ^ m := mul_nonneg (by exact_mod_cast hk) (by positivity)
    exact ⟨fun h => le_of_sq_le_sq h hv, fun h => le_of_sq_le_sq h this⟩
  intro s hs
  unfold root
  simp only [Dbl.fin.injEq]
  split
  · rename_i h; exact ⟨3, rfl, by rw [h]; convert exact 3 (by norm_num) using 7 <;> norm_num⟩
  · split
    · rename_i h; exact ⟨4, rfl, by rw [h]; convert exact 4 (by norm_num) using 7 <;> norm_num⟩
    · split
      · rename_i h; exact ⟨5, rfl, by rw [h]; convert exact 5 (by norm_num) using 7 <;> norm_num⟩
      · split
        · rename_i h; exact ⟨0, rfl, by rw [h]; convert exact 0 (by norm_num) using 7 <;> norm_num⟩
        · exact someSqrt_ok nearestEven s hs

theorem before_total (a b : F) : before a b = true ∨ before b a = true := by
  unfold before
  cases a with
  | nan => simp
  | inf s => cases b with
    | nan => simp
    | inf t => cases s <;> cases t <;> decide
    | fin y => cases s <;> simp [F64.le, Dbl.le]
  | fin x => cases b with
    | nan => simp
    | inf t => cases t <;> simp [F64.le, Dbl.le]
    | fin y => simp [F64.le, Dbl.le, le_total]

theorem before_trans {a b c : F} (h1 : before a b = true) (h2 : before b c = true) : before a c = true := by
  unfold before at *
  rcases a with _ | s | x <;> rcases b with _ | t | y <;> rcases c with _ | r | z <;>
    simp [F64.le, Dbl.le] at * <;>
    first
    | exact le_trans h1 h2
    | (try cases s) <;> (try cases t) <;> (try cases r) <;> simp_all

theorem before_lt {a b : F} (h : before a b = true) : (b <. a) = false := by
  unfold before at h
  rcases a with _ | s | x <;> rcases b with _ | t | y <;> simp [F64.le, F64.lt, Dbl.le, Dbl.lt] at * <;>
    first
    | exact h
    | (try cases s) <;> (try cases t) <;> simp_all

theorem lib_ok : Program.DblLib lib where
  bs := bsearchNew_ok
  sort := fun l l' h => by
    simp only [lib, Option.some.injEq] at h
    exact h ▸ List.Perm.refl _
  perm := fun L => List.perm_insertionSort _ _
  sorted := fun L => by
    have : Std.Total fun a b : F × ℕ => before a.1 b.1 = true := ⟨fun a b => before_total a.1 b.1⟩
    have : IsTrans (F × ℕ) fun a b => before a.1 b.1 = true := ⟨fun _ _ _ => before_trans⟩
    exact (List.pairwise_insertionSort (fun a b : F × ℕ => before a.1 b.1 = true) L).imp before_lt

theorem run_ok : Program.DblRun lib cfg ProgramEx.nodes.length chs [] where
  fleet := nearestEven_fleet
  lib := lib_ok
  settings := ⟨by decide, fun h => absurd h (by decide)⟩
  choices := fun ch hch => by
    simp only [chs, List.mem_cons, List.not_mem_nil, or_false] at hch
    rcases hch with rfl | rfl | rfl | rfl | rfl | rfl <;> exact fun _ _ _ l => List.Perm.refl l
  dchoices := fun ch hch => by simp at hch

theorem loads_ok : Program.DblLoads ProgramEx.nodes 20 where
  count := by norm_num [ProgramEx.nodes]
  whole := by
    refine ⟨20, 6, by norm_num, by norm_num, ?_, by norm_num [ProgramEx.nodes]⟩
    intro p hp
    simp only [ProgramEx.nodes, List.mem_cons, List.not_mem_nil, or_false] at hp
    rcases hp with rfl | rfl | rfl | rfl
    · exact ⟨0, by norm_num⟩
    · exact ⟨4, by norm_num⟩
    · exact ⟨5, by norm_num⟩
    · exact ⟨6, by norm_num⟩

theorem coords_ok : Program.WholeCoords ProgramEx.nodes := by
  intro p hp
  simp only [ProgramEx.nodes, List.mem_cons, List.not_mem_nil, or_false] at hp
  rcases hp with rfl | rfl | rfl | rfl
  · exact ⟨0, 0, by norm_num⟩
  · exact ⟨3, 0, by norm_num⟩
  · exact ⟨3, 4, by norm_num⟩
  · exact ⟨0, 4, by norm_num⟩

/-- The blocks describe the nodes. -/
theorem describes : Describes (fun w x => lib.num w = some x) (fun w n => parseUsize w = some n) ProgramEx.blocks
    (fin 20) (Program.dblNodes nearestEven ProgramEx.nodes) := by
  refine ⟨?_, ?_, ?_, ?_⟩
  · exact ⟨ProgramEx.blocks[0], by simp [ProgramEx.blocks], by decide, "4".toList, by decide, by decide⟩
  · exact ⟨ProgramEx.blocks[2], by simp [ProgramEx.blocks], by decide, "20".toList, by decide, by decide +kernel⟩
  · refine ⟨ProgramEx.blocks[3], by simp [ProgramEx.blocks], by decide, ?_⟩
    intro i p hp
    match i, hp with
    | 0, hp => cases hp; exact ⟨_, _, _, rfl, rfl, rfl, by decide +kernel, by decide +kernel⟩
    | 1, hp => cases hp; exact ⟨_, _, _, rfl, rfl, rfl, by decide +kernel, by decide +kernel⟩
    | 2, hp => cases hp; exact ⟨_, _, _, rfl, rfl, rfl, by decide +kernel, by decide +kernel⟩
    | 3, hp => cases hp; exact ⟨_, _, _, rfl, rfl, rfl, by decide +kernel, by decide +kernel⟩
    | i + 4, hp => simp [ProgramEx.nodes, Program.dblNodes] at hp
  · refine ⟨ProgramEx.blocks[4], by simp [ProgramEx.blocks], by decide, ?_⟩
    intro i p hp
    match i, hp with
    | 0, hp => cases hp; exact ⟨_, _, rfl, rfl, by decide +kernel⟩
    | 1, hp => cases hp; exact ⟨_, _, rfl, rfl, by decide +kernel⟩
    | 2, hp => cases hp; exact ⟨_, _, rfl, rfl, by decide +kernel⟩
    | 3, hp => cases hp; exact ⟨_, _, rfl, rfl, by decide +kernel⟩
    | i + 4, hp => simp [ProgramEx.nodes, Program.dblNodes] at hp

/-- C71 applies to this run. -/
example : ExactFile ProgramEx.nodes 20 (nearestDist ProgramEx.nodes) ProgramEx.file :=
  C71_exact_plane (lib := lib) (cfg := cfg) root_ok (textOf_lf ProgramEx.raw (by decide)) (forall₂_lineWords _)
    ProgramEx.blockFile describes ProgramEx.euclidean run_ok loads_ok rfl coords_ok (by decide) run (by decide)

/-- C70 applies to this run: coordinates up to 4, the stated cost is off by less than a millionth. -/
example : NearFile ProgramEx.nodes 20 (Program.planeNum lib.sqrt cfg.rounded ProgramEx.nodes)
    (3 * 4 * (2 ^ 8 / 2 ^ 53)) ProgramEx.file :=
  C70_file_plane (lib := lib) (cfg := cfg) (k := 2) (m := 8) root_ok (textOf_lf ProgramEx.raw (by decide))
    (forall₂_lineWords _) ProgramEx.blockFile describes ProgramEx.euclidean run_ok loads_ok (by norm_num)
    (fun p hp => by
      simp only [ProgramEx.nodes, List.mem_cons, List.not_mem_nil, or_false] at hp
      rcases hp with rfl | rfl | rfl | rfl <;> norm_num) (by decide) (by norm_num) (by decide) run (by decide)

/-- The same without rounding of distances. -/
theorem runReal : Program.main lib { cfg with rounded := false } ProgramEx.text (fun _ => 0) chs [] =
    some (some ProgramEx.file) := by
  decide +kernel

/-- C70 with real distances applies. -/
example : RealFile ProgramEx.nodes 20 (3 * 4 * (2 ^ 28 / 2 ^ 53) + 2 * 4 * (1 / 2 ^ 29)) ProgramEx.file :=
  C70_file_real (lib := lib) (cfg := { cfg with rounded := false }) (m := 28) root_ok
    (textOf_lf ProgramEx.raw (by decide)) (forall₂_lineWords _) ProgramEx.blockFile describes ProgramEx.euclidean
    { run_ok with settings := ⟨by decide, fun h => absurd h (by decide)⟩ } loads_ok rfl coords_ok (by decide)
    (by norm_num) (by decide) runReal (by decide)

end DoubleEx
end Verif
