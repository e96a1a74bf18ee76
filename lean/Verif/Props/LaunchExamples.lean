import Verif.Props.Launch
import Verif.Props.DimacsDoubleExamples
import Verif.Props.DblEndsExamples

/-!
# Starting the program: concrete cases for C85 and C86
-/

namespace Verif
open F64 Spec Dbl

namespace LaunchEx
open DoubleEx

/-- A configuration file with a key that is not known and a whole number for a real setting. -/
def yml : Mapping (Yaml F) :=
  [("local_search_granularity", .int 2), ("initial_individuals", .int 2), ("ls_enabled", .bool false),
   ("rr_mutation", .bool false), ("time_limit", .int 600), ("round_distances", .bool false),
   ("rr_start_temp", .int 10), ("ruin_alpha", .real (lit 0.01))]

/-- `hybridcvrp tiny.vrp -i 7 -t 100 -r false`. -/
def cl : CommandLine := ⟨"tiny.vrp", none, some "7", some "100", some "false"⟩

theorem nodup : (yml.map Prod.fst).Nodup := by decide

/-- The program starts. -/
theorem starts : ∃ cfg, Program.configure yml cl = some cfg := by
  refine (C86_starts nodup).mpr ⟨fun k hk v hv => ?_, ?_, ?_⟩
  · have key : ∀ p ∈ yml, p.1 ∉ configKeys ∨ (convertField p.1 p.2).isSome = true := by decide
    exact (key _ (valueOf_mem hv)).resolve_left fun h => h hk
  · intro w hw; cases hw; decide
  · intro w hw; cases hw; decide

/-- C86: seven iterations without improvement, 100 seconds, rounding on; the rest from the file and the defaults. -/
example : ∃ cfg, Program.configure yml cl = some cfg ∧ cfg.maxStagnation = 7 ∧ cfg.timeLimit = 100 ∧
    cfg.rounded = true ∧ cfg.granularity = 2 ∧ cfg.rrStartTemp = lit 10 ∧ cfg.decMultiplier = lit 0.85 ∧
    cfg.lsEnabled = false ∧ cfg.linearSplit = true := by
  obtain ⟨cfg, h⟩ := starts
  have ha := C86_settings nodup h
  have hs : some cfg.maxStagnation = some 7 := (show parseUsize "7".toList = some cfg.maxStagnation from
    ha.stagnation).symm.trans (by decide)
  have ht : some cfg.timeLimit = some 100 := ha.time.symm.trans (by decide)
  have hr := ha.reals ("rr_start_temp", Settings.rrStartTemp) (by simp [realSettings])
  refine ⟨cfg, h, Option.some.inj hs, Option.some.inj ht, ha.rounding,
    asked_nat ha (key := "local_search_granularity") (f := Settings.granularity) (by simp [natSettings]) rfl, ?_,
    asked_real ha (key := "penalty_dec_multiplier") (f := Settings.decMultiplier) (by simp [realSettings]) rfl,
    asked_flag ha (key := "ls_enabled") (f := Settings.lsEnabled) (by simp [flagSettings]) rfl,
    asked_flag ha (key := "linear_split") (f := Settings.linearSplit) (by simp [flagSettings]) rfl⟩
  rcases hr with hr | ⟨z, hz, e⟩
  · cases hr
  · have : asked yml "rr_start_temp" = some (.int 10) := rfl
    rw [this] at hz
    cases hz
    exact e

/-- The program, started with these options. -/
theorem run : Program.launch lib yml cl ProgramEx.text DimacsDoubleEx.draws
    (DimacsDoubleEx.chs ++ DimacsDoubleEx.more) [] = some (some "Route #1: 3 2 1\nCost 14\n".toList) := by
  decide +kernel

theorem start_ok : DblStart lib (DimacsDoubleEx.chs ++ DimacsDoubleEx.more) [] :=
  ⟨nearestEven_fleet, lib_ok, DimacsDoubleEx.run_ok.choices, DimacsDoubleEx.run_ok.dchoices⟩

theorem suits : Suits yml ProgramEx.nodes.length :=
  ⟨2, 3000, 200, rfl, rfl, rfl, by decide, by decide, fun h => absurd h (by decide)⟩

/-- C85 applies to this run. -/
example : ExactFile ProgramEx.nodes 20 (nearestDist ProgramEx.nodes) "Route #1: 3 2 1\nCost 14\n".toList := by
  obtain ⟨file, e, h⟩ := C85_plane_partial root_ok
    (textOf_lf ProgramEx.raw (by decide)) (forall₂_lineWords _) ProgramEx.blockFile describes ProgramEx.euclidean
    start_ok loads_ok coords_ok (by decide) nodup suits run
  cases e
  exact h.resolve_left (by decide)

/-- C85 for the instance with an explicit matrix. -/
theorem run_rows : (Program.launch lib yml cl ExplicitEx.text DimacsDoubleEx.draws
    (DimacsDoubleEx.chs ++ DimacsDoubleEx.more) []) =
    some (some "Route #1: 2 1\nRoute #2: 3\nCost 17\n".toList) := by
  decide +kernel

example : ExactFile ProgramEx.nodes 10 (lowerRowDist true ExplicitEx.rows)
    "Route #1: 2 1\nRoute #2: 3\nCost 17\n".toList := by
  obtain ⟨file, e, h⟩ := C85_explicit_partial (M := 9) (textOf_lf ExplicitEx.raw (by decide)) (forall₂_lineWords _)
    ExplicitEx.blockFile ExplicitEx.describesDbl ExplicitEx.explicitDbl rfl ExplicitEx.triangular
    (fun row hr x hx => ⟨(ExplicitEx.entries row hr x hx).1, (ExplicitEx.entries row hr x hx).2.1⟩) (by norm_num)
    (by decide) start_ok ExplicitEx.loads_ok nodup suits run_rows
  cases e
  exact h.resolve_left (by decide)

/-- With the configuration as shipped the program stops with the first individual of a small instance, and leaves an
empty file when the time is up before. -/
example : Program.launch lib shippedYml ⟨"tiny.vrp", none, none, none, none⟩ ProgramEx.text (fun _ => 0)
      [choice 0 0, choice 0 0] [] = none ∧
    Program.launch lib shippedYml ⟨"tiny.vrp", none, none, none, none⟩ ProgramEx.text (fun _ => 0)
      [choice 0 0, { choice 0 0 with elapsed := 10 }] [] = some (some []) := by
  constructor <;> decide +kernel

/-! ## An instance with 22 nodes on a line -/

namespace Line

/-- The digits of a number below 100. -/
def word (i : ℕ) : List Char := if i < 10 then [Char.ofNat (48 + i)] else [Char.ofNat (48 + i / 10), Char.ofNat (48 + i % 10)]

/-- The demand of node `i`. -/
def load (i : ℕ) : ℕ := if i = 0 then 0 else 1

/-- The blocks of the instance file. -/
def blocks : List Block :=
  [⟨"DIMENSION".toList, ["22".toList], []⟩, ⟨"EDGE_WEIGHT_TYPE".toList, ["EUC_2D".toList], []⟩,
    ⟨"CAPACITY".toList, ["5".toList], []⟩,
    ⟨"NODE_COORD_SECTION".toList, [], (List.range 22).map fun i => [word (i + 1), word i, word 0]⟩,
    ⟨"DEMAND_SECTION".toList, [], (List.range 22).map fun i => [word (i + 1), word (load i)]⟩]

/-- The lines of the instance file. -/
def raw : List (List Char) :=
  ["DIMENSION : 22".toList, "EDGE_WEIGHT_TYPE : EUC_2D".toList, "CAPACITY : 5".toList, "NODE_COORD_SECTION".toList] ++
  (List.range 22).map (fun i => word (i + 1) ++ [' '] ++ word i ++ [' '] ++ word 0) ++ ["DEMAND_SECTION".toList] ++
  (List.range 22).map (fun i => word (i + 1) ++ [' '] ++ word (load i))

/-- The nodes. -/
def nodes : List (ℚ × ℚ × ℚ) := (List.range 22).map fun i : ℕ => ((i : ℚ), 0, (load i : ℚ))

/-- Library routines; the root is right for squares. -/
def lib : Lib ℚ := { ProgramEx.lib with sqrt := fun x => (Nat.sqrt ⌊x⌋.toNat : ℚ) }

theorem lib_ok : Program.LibOK lib :=
  { ProgramEx.lib_ok with
    root := by decide +kernel
    nonneg := fun x _ => by simp only [lib]; positivity }

theorem blockFile : BlockFile (raw.map lineWords) [] blocks := by
  refine ⟨by decide +kernel, by simp, ?_, by decide⟩
  have : ∀ b ∈ blocks, ∀ line ∈ b.body, line.head?.all (fun w => decide (w ∉ reservedKeys)) = true := by decide +kernel
  intro b hb line hl w hw
  have h := this b hb line hl
  rw [hw] at h
  simpa using h

theorem node {i : ℕ} {p : ℚ × ℚ × ℚ} (h : nodes[i]? = some p) : i < 22 ∧ p = ((i : ℚ), 0, (load i : ℚ)) := by
  have hi : i < 22 := by
    obtain ⟨h1, -⟩ := List.getElem?_eq_some_iff.mp h
    simpa [nodes] using h1
  refine ⟨hi, ?_⟩
  simp only [nodes, List.getElem?_map, List.getElem?_range hi, Option.map_some, Option.some.injEq] at h
  exact h.symm

theorem describes : Describes (fun w x => lib.num w = some x) (fun w n => parseUsize w = some n) blocks 5 nodes := by
  have hw : ∀ i < 22, lib.num (word i) = some (i : ℚ) := by decide +kernel
  refine ⟨⟨blocks[0], by simp [blocks], by decide, "22".toList, by decide, by decide⟩,
    ⟨blocks[2], by simp [blocks], by decide, "5".toList, by decide, by decide +kernel⟩,
    ⟨blocks[3], by simp [blocks], by decide, fun i p hp => ?_⟩,
    ⟨blocks[4], by simp [blocks], by decide, fun i p hp => ?_⟩⟩
  · obtain ⟨hi, rfl⟩ := node hp
    refine ⟨[word (i + 1), word i, word 0], word i, word 0, ?_, rfl, rfl, hw i hi, ?_⟩
    · show ((List.range 22).map fun i => [word (i + 1), word i, word 0])[i]? = _
      rw [List.getElem?_map, List.getElem?_range hi]; rfl
    · have := hw 0 (by norm_num)
      simpa using this
  · obtain ⟨hi, rfl⟩ := node hp
    refine ⟨[word (i + 1), word (load i)], word (load i), ?_, rfl, hw (load i) (by unfold load; split <;> norm_num)⟩
    show ((List.range 22).map fun i => [word (i + 1), word (load i)])[i]? = _
    rw [List.getElem?_map, List.getElem?_range hi]; rfl

theorem data_ok : Program.DataOK nodes 5 (planeDist lib.sqrt true nodes) where
  cap := by norm_num
  bound := by
    refine ⟨21, 1, ?_, ?_, by norm_num [nodes]⟩
    · have : ∀ a < 22, ∀ b < 22, 0 ≤ planeDist lib.sqrt true nodes a b ∧
          planeDist lib.sqrt true nodes a b ≤ 21 := by decide +kernel
      exact this
    · have : ∀ p ∈ nodes, 0 ≤ p.2.2 ∧ p.2.2 ≤ 1 := by decide +kernel
      exact this

/-- Draws that are not all the same. -/
def draw (e : ℕ) : GAChoice ℚ := { GeneticEx.choice 5 7 with ω := fun i => i, elapsed := e }

/-- C85 applies: started with the shipped configuration and `-t 3` the program ends and leaves a solution file. -/
example (ω : Oracle) : ∃ file N, (∀ f, N ≤ f → Program.launch lib shippedYml ⟨"line.vrp", none, none, some "3", none⟩
      ((raw.map fun l => l ++ ['\n']).flatten) ω ([draw 0, draw 1, draw 2, draw 3].map fun ch => { ch with fuel := f }) [] =
        some (some file)) ∧
      (file = [] ∨ CorrectFile nodes 5 (planeDist lib.sqrt true nodes) (1 / 1000000) file) := by
  refine C85_ends_partial (limit := 3) (textOf_lf raw (by decide +kernel)) (forall₂_lineWords _) blockFile describes
    ⟨blocks[1], by simp [blocks], by decide, by decide⟩ lib_ok (fun l => ⟨l, rfl⟩) data_ok (by decide +kernel)
    (by decide) (by decide) (fun w hw => by cases hw) (by decide) (fun ch hch => ?_)
    ⟨draw 3, by simp, le_refl _⟩
  simp only [List.mem_cons, List.not_mem_nil, or_false] at hch
  have key : ∀ e, GA.ChOK (draw e) ∧ GA.Fair nodes.length (draw e) := fun e =>
    ⟨fun _ _ _ l => List.Perm.refl l, 1, by decide, show (Nat.pair 2 1) % 21 ≠ (Nat.pair 2 0) % 21 by decide +kernel⟩
  rcases hch with rfl | rfl | rfl | rfl <;> exact key _

/-! The same instance in double precision. -/

theorem describesDbl : Describes (fun w x => DoubleEx.lib.num w = some x) (fun w n => parseUsize w = some n) blocks
    (fin 5) (Program.dblNodes nearestEven nodes) := by
  have hw : ∀ i < 22, DoubleEx.lib.num (word i) = some (fin (i : ℚ)) := by decide +kernel
  refine ⟨⟨blocks[0], by simp [blocks], by decide, "22".toList, by decide, by decide +kernel⟩,
    ⟨blocks[2], by simp [blocks], by decide, "5".toList, by decide, by decide +kernel⟩,
    ⟨blocks[3], by simp [blocks], by decide, fun i p hp => ?_⟩,
    ⟨blocks[4], by simp [blocks], by decide, fun i p hp => ?_⟩⟩
  · rw [Program.dblNodes, List.getElem?_map] at hp
    obtain ⟨q, hq, rfl⟩ := Option.map_eq_some_iff.mp hp
    obtain ⟨hi, rfl⟩ := node hq
    refine ⟨[word (i + 1), word i, word 0], word i, word 0, ?_, rfl, rfl, hw i hi, ?_⟩
    · show ((List.range 22).map fun i => [word (i + 1), word i, word 0])[i]? = _
      rw [List.getElem?_map, List.getElem?_range hi]; rfl
    · have := hw 0 (by norm_num)
      simpa using this
  · rw [Program.dblNodes, List.getElem?_map] at hp
    obtain ⟨q, hq, rfl⟩ := Option.map_eq_some_iff.mp hp
    obtain ⟨hi, rfl⟩ := node hq
    refine ⟨[word (i + 1), word (load i)], word (load i), ?_, rfl, hw (load i) (by unfold load; split <;> norm_num)⟩
    show ((List.range 22).map fun i => [word (i + 1), word (load i)])[i]? = _
    rw [List.getElem?_map, List.getElem?_range hi]; rfl

theorem loadsDbl : Program.DblLoads nodes 5 where
  count := by decide
  whole := by
    refine ⟨5, 1, by norm_num, by norm_num, fun p hp => ?_, by decide⟩
    obtain ⟨i, hi⟩ := List.getElem?_of_mem hp
    obtain ⟨-, rfl⟩ := node hi
    refine ⟨load i, by simp, by omega, ?_⟩
    unfold load
    split <;> norm_num

theorem coordsDbl : Program.WholeCoords nodes := fun p hp => by
  obtain ⟨i, hi⟩ := List.getElem?_of_mem hp
  obtain ⟨hi, rfl⟩ := node hi
  refine ⟨i, 0, by simp, by simp, ?_, by norm_num⟩
  rw [abs_of_nonneg (by omega)]
  omega

/-- C85 applies in double precision. -/
example (ω : Oracle) : ∃ cfg, Program.configure (shippedYml : Mapping (Yaml F)) ⟨"line.vrp", none, none, some "100", none⟩ = some cfg ∧
    (Program.CirclePossible DoubleEx.lib cfg nodes 5 none ∨
      ∃ file N, (∀ f, N ≤ f → Program.launch DoubleEx.lib shippedYml ⟨"line.vrp", none, none, some "100", none⟩
        ((raw.map fun l => l ++ ['\n']).flatten) ω (timed.map fun ch => { ch with fuel := f }) [] =
          some (some file)) ∧ (file = [] ∨ ExactFile nodes 5 (nearestDist nodes) file)) := by
  have key : ∀ ch ∈ timed, GA.ChOK ch ∧ GA.Fair nodes.length ch := by
    intro ch hch
    simp only [timed, List.mem_cons, List.not_mem_nil, or_false] at hch
    have key : ∀ e, GA.ChOK (DoubleEx.draw e) ∧ GA.Fair nodes.length (DoubleEx.draw e) := fun e =>
      ⟨fun _ _ _ l => List.Perm.refl l, 1, by decide, show (Nat.pair 2 1) % 21 ≠ (Nat.pair 2 0) % 21 by decide +kernel⟩
    rcases hch with rfl | rfl | rfl | rfl <;> exact key _
  exact C85_ends_double_partial (limit := 100) root_ok (textOf_lf raw (by decide +kernel)) (forall₂_lineWords _) blockFile
    describesDbl ⟨blocks[1], by simp [blocks], by decide, by decide⟩
    ⟨nearestEven_fleet, DoubleEx.lib_ok, fun ch h => (key ch h).1, by simp⟩ total loadsDbl coordsDbl
    (by decide) (by decide) (fun w hw => by cases hw) (by decide) (fun ch h => (key ch h).2)
    ⟨DoubleEx.draw 100, by simp [timed], le_refl _⟩

end Line
end LaunchEx
end Verif
