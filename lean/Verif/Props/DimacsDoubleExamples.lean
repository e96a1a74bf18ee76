import Verif.Props.DimacsDouble
import Verif.Props.ExplicitExamples

/-!
# Printed solutions in double precision

Kernel-evaluated runs that meet the hypotheses of C84: the runs of `DimacsEx` with the arithmetic of the machine.
-/

namespace Verif
open F64 Spec Dbl

namespace DimacsDoubleEx
open DoubleEx

/-- No local search, no ruin and recreate: more than one solution is recorded. -/
def cfg : Settings F := { DoubleEx.cfg with lsEnabled := false, rrMutation := false }

/-- The choices of call `i`. -/
def ch (i : ℕ) : GAChoice F := { choice (5 + i) (3 * i) with ω := fun j => (i * 7 + j) * 5 }

/-- The first two calls. -/
def chs : List (GAChoice F) := [ch 0, ch 1]

/-- The next three calls; then the time is up. -/
def more : List (GAChoice F) := [ch 2, ch 3, ch 4, { ch 5 with elapsed := 100 }]

/-- The draws before the first call. -/
def draws : Oracle := fun i => i * 5

/-- What is printed. -/
def printed : List (List Char) := ["Route #1: 2 3 1\nCost 16\n".toList, "Route #1: 3 2 1\nCost 14\n".toList]

/-- What is printed for the explicit matrix. -/
def printedRows : List (List Char) :=
  ["Route #1: 1\nRoute #2: 3\nRoute #3: 2\nCost 18\n".toList, "Route #1: 2 1\nRoute #2: 3\nCost 17\n".toList]

/-- After two calls. -/
theorem out_two : Program.output lib cfg ProgramEx.text draws chs [] = some (printed.take 1) := by decide +kernel

/-- At the end. -/
theorem out_all : Program.output lib cfg ProgramEx.text draws (chs ++ more) [] = some printed := by decide +kernel

/-- The solution file. -/
theorem run : Program.main lib cfg ProgramEx.text draws (chs ++ more) [] =
    some (some "Route #1: 3 2 1\nCost 14\n".toList) := by
  decide +kernel

/-- The explicit matrix. -/
theorem out_rows : Program.output lib cfg ExplicitEx.text draws (chs ++ more) [] = some printedRows := by
  decide +kernel

theorem run_ok : Program.DblRun lib cfg ProgramEx.nodes.length (chs ++ more) [] where
  fleet := nearestEven_fleet
  lib := lib_ok
  settings := ⟨by decide, fun h => absurd h (by decide)⟩
  choices := fun ch hch => by
    simp only [chs, more, List.mem_cons, List.not_mem_nil, or_false, List.cons_append, List.nil_append] at hch
    rcases hch with rfl | rfl | rfl | rfl | rfl | rfl <;> exact fun _ _ _ l => List.Perm.refl l
  dchoices := fun ch hch => by simp at hch

theorem run_two : Program.DblRun lib cfg ProgramEx.nodes.length chs [] :=
  { run_ok with choices := fun ch hch => run_ok.choices ch (List.mem_append_left _ hch) }

/-- C84 applies to this run, after the second call and at the end. -/
example : (ExactStream ProgramEx.nodes 20 (nearestDist ProgramEx.nodes) (printed.take 1) ∧
      printed.take 1 <+: printed) ∧
    ExactStream ProgramEx.nodes 20 (nearestDist ProgramEx.nodes) printed ∧
      "Route #1: 3 2 1\nCost 14\n".toList = printed.getLast?.getD [] := by
  have h1 := C84_printed_plane (lib := lib) (cfg := cfg) (chs' := more) (dchs' := []) root_ok
    (textOf_lf ProgramEx.raw (by decide)) (forall₂_lineWords _) ProgramEx.blockFile describes ProgramEx.euclidean
    run_two loads_ok rfl coords_ok (by decide) out_two
  have h2 := C84_printed_plane (lib := lib) (cfg := cfg) (chs' := []) (dchs' := []) root_ok
    (textOf_lf ProgramEx.raw (by decide)) (forall₂_lineWords _) ProgramEx.blockFile describes ProgramEx.euclidean
    run_ok loads_ok rfl coords_ok (by decide) out_all
  exact ⟨⟨h1.1, h1.2.2 printed out_all⟩, h2.1, h2.2.1 _ run⟩

/-- C84 for the explicit matrix. -/
example : ExactStream ProgramEx.nodes 10 (lowerRowDist cfg.rounded ExplicitEx.rows) printedRows :=
  (C84_printed_explicit (lib := lib) (cfg := cfg) (M := 9) (chs' := []) (dchs' := [])
    (textOf_lf ExplicitEx.raw (by decide)) (forall₂_lineWords _) ExplicitEx.blockFile ExplicitEx.describesDbl
    ExplicitEx.explicitDbl rfl ExplicitEx.triangular
    (fun row hr x hx => ⟨(ExplicitEx.entries row hr x hx).1, (ExplicitEx.entries row hr x hx).2.1, .inl rfl⟩)
    (by norm_num) (by norm_num [ProgramEx.nodes]) run_ok ExplicitEx.loads_ok out_rows).1

/-- C84 with an error bound, in the plane. -/
example : ∀ t ∈ printed, NearFile ProgramEx.nodes 20 (Program.planeNum lib.sqrt cfg.rounded ProgramEx.nodes)
    (3 * 4 * (2 ^ 8 / 2 ^ 53)) t :=
  (C84_near_plane (lib := lib) (cfg := cfg) (k := 2) (m := 8) (chs' := []) (dchs' := []) root_ok
    (textOf_lf ProgramEx.raw (by decide)) (forall₂_lineWords _) ProgramEx.blockFile describes ProgramEx.euclidean
    run_ok loads_ok (by norm_num)
    (fun p hp => by
      simp only [ProgramEx.nodes, List.mem_cons, List.not_mem_nil, or_false] at hp
      rcases hp with rfl | rfl | rfl | rfl <;> norm_num) (by decide) (by norm_num) (by decide) out_all).1

/-- C84 with an error bound, for the explicit matrix. -/
example : ∀ t ∈ printedRows, NearFile ProgramEx.nodes 10 (lowerRowDist cfg.rounded ExplicitEx.rows)
    (3 * 4 * (2 ^ 8 / 2 ^ 53)) t :=
  (C84_near_explicit (lib := lib) (cfg := cfg) (M := 9) (m := 8) (chs' := []) (dchs' := [])
    (textOf_lf ExplicitEx.raw (by decide)) (forall₂_lineWords _) ExplicitEx.blockFile ExplicitEx.describesDbl
    ExplicitEx.explicitDbl rfl ExplicitEx.triangular
    (fun row hr x hx => ⟨(ExplicitEx.entries row hr x hx).1, by exact_mod_cast (ExplicitEx.entries row hr x hx).2.1⟩)
    (by norm_num) (by decide) (by norm_num) (by decide) run_ok ExplicitEx.loads_ok out_rows).1

end DimacsDoubleEx
end Verif
