import Verif.Props.DecompExamples
import Verif.Props.EliteTime
import Verif.Props.ExplicitExamples
import Verif.Props.ProgramEnds

/-!
# Further concrete cases

Cases that meet the hypotheses of theorems whose own files give none: `C47_load_iff_partial`, `C47_no_best`,
`C60_rounds`, `C66_ends_explicit`, `C82_when`, `C82_end`.
-/

namespace Verif
open F64 Spec

namespace MoreCases

/-! ### C47 -/

/-- `C47_load_iff_partial` applies to two vehicles with one customer each and a new search object: a solution of
the subproblem can be loaded exactly if it uses as many vehicles as the part that was split off. -/
example (order : List ℕ → List ℕ) (h : ∀ l, (order l).Perm l) (now : ℚ) :
    ∃ sub mapping rest chosen, Decomp.new (fun _ _ => 0) DecompEx.ctx DecompEx.nbrs 2 1 order DecompEx.x =
        some (sub, mapping, rest) ∧ (rest.phenotype ++ chosen).Perm [[1], [2]] ∧
      ∀ y : Individual ℚ, Spec.IsPartition mapping.length y.phenotype →
        ∃ z, Decomp.finish (fun _ _ => 0) DecompEx.ctx mapping y rest = some z ∧
          ((RR.load DecompEx.ctx now z (RR.new DecompEx.ctx 2 1 1 10 (History.new))).isSome = true ↔
            (y.phenotype.filter fun r => decide (r ≠ [])).length = chosen.length) := by
  obtain ⟨sub, mapping, rest, chosen, e, c1, -, c3⟩ :=
    C47_load_iff_partial (fun _ _ => 0) DecompEx.ctx DecompEx.nbrs 2 2 1 order DecompEx.x (by decide)
      DecompEx.x_good rfl h DecompEx.nbrs_ok (RR.new DecompEx.ctx 2 1 1 10 History.new)
      (RR.new_idle _ _ _ _ _ _) now
  exact ⟨sub, mapping, rest, chosen, e, c1, c3⟩

/-- One vehicle for two customers of demand 1 and capacity 1. -/
def tight : Ctx ℚ := { DecompEx.ctx with cap := 1 }

/-- An overloaded solution: both customers on the route of the one vehicle. -/
def heavy : Individual ℚ :=
  ⟨0, [1, 2], [[1, 2]], 0, (evaluate tight SolEval.new [[1, 2]]).get (by decide +kernel)⟩

/-- `C47_no_best` applies to the overloaded solution of this instance: a sub-run that is out of time at once
panics. -/
example (ω : Oracle) (ch : GAChoice ℚ) (h : 100 ≤ ch.elapsed) :
    Decomp.run GeneticEx.env tight ω [ch] heavy = none :=
  C47_no_best _ _ _ _ _ _ (by decide +kernel) h

/-! ### C60 -/

/-- Draws that remove customers. -/
def bigChoice (k : ℕ) : GAChoice ℚ :=
  { GeneticEx.choice 0 0 with
    fuel := 10
    rr := fun _ j => ⟨fun m => (m * 31 + j * 17 + k * 3) % 1009 * 2 ^ 43 + m, fun _ l => l, 0⟩ }

/-- Customers 1 and 3 on one route, 2 on the other: length 45. -/
def poor : Individual ℚ :=
  (({ Individual.newRandom GeneticEx.ctx 2 (fun _ => 0) 0 with
      phenotype := [[1, 3], [2]], genotype := [1, 3, 2] } : Individual ℚ).evaluate GeneticEx.ctx).get
    (by decide +kernel)

/-- The state in which the loop starts, with rounds of three searches. -/
def start : GA ℚ :=
  { GA.new DecompEx.env.ga GeneticEx.ctx (fun _ => 0) with
    child := poor
    rr := (RR.load GeneticEx.ctx 0 poor
      { (GA.new DecompEx.env.ga GeneticEx.ctx fun _ => 0).rr with
        acceptance := .iteration (IterSchedule.new (lit 10) 3) }).get (by decide +kernel) }

/-- The first round improves the solution to 22, the second one does not. -/
theorem polished : (DGA.polish DecompEx.env GeneticEx.ctx bigChoice 10 0 start).map (·.rr.bestCost) = some 22 ∧
    DGA.polish DecompEx.env GeneticEx.ctx bigChoice 1 0 start = none := by
  constructor
  · decide +kernel
  · have : (DGA.polish DecompEx.env GeneticEx.ctx bigChoice 1 0 start).isNone = true := by decide +kernel
    exact Option.isNone_iff_eq_none.mp this

/-- `C60_rounds` applies: from 45 to 22. -/
example : ∃ (c : ℕ → ℚ) (m : ℕ), m < 10 ∧ c 0 = 45 ∧ c (m + 1) = 22 ∧
    (∀ i < m, c (i + 1) ≤ c i - 1 / 1000000) ∧ c m - 1 / 1000000 < c (m + 1) := by
  obtain ⟨g', h, e⟩ := Option.map_eq_some_iff.mp polished.1
  have := C60_rounds _ _ _ _ _ _ _ h
  rwa [e, show start.rr.bestCost = 45 by decide +kernel] at this

/-! ### C66 -/

/-- `C66_ends_explicit` applies to the instance with a lower-row matrix, with five iterations and 54 calls. -/
example (ω : Oracle) : ∃ out N, (out.isSome = true ↔ ProgramEx.cfgMax.hasPath = true) ∧
    (∀ f, N ≤ f → Program.main ProgramEx.lib ProgramEx.cfgMax ExplicitEx.text ω
      ((List.replicate 54 (GeneticEx.choice 5 7)).map fun ch => { ch with fuel := f }) [] = some out) ∧
    ∀ file, out = some file → file ≠ [] →
      CorrectFile ProgramEx.nodes 10 (lowerRowDist ProgramEx.cfgMax.rounded ExplicitEx.rows) (1 / 1000000) file := by
  have hrep : ∀ ch ∈ List.replicate 54 (GeneticEx.choice 5 7), ch = GeneticEx.choice 5 7 :=
    fun ch hch => List.eq_of_mem_replicate hch
  refine C66_ends_explicit (textOf_lf ExplicitEx.raw (by decide)) (forall₂_lineWords _) ExplicitEx.blockFile
    ExplicitEx.describes ExplicitEx.explicit rfl ExplicitEx.triangular
    (fun row hr x hx => (ExplicitEx.entries row hr x hx).1)
    ⟨ProgramEx.lib_ok, ⟨by decide, by norm_num [ProgramEx.cfgMax, ProgramEx.cfg], fun h => absurd h (by decide)⟩,
      fun ch hch => ?_, by simp⟩
    ExplicitEx.data_ok (fun l => ⟨l, rfl⟩) ProgramEx.ends_ok rfl (fun ch hch => ?_) (Or.inl ⟨5, rfl, ?_⟩)
  · rw [hrep ch hch]; exact GeneticEx.choice_ok 5 7
  · rw [hrep ch hch]; exact ProgressEx.fair
  · have : Program.eliteRounds ProgramEx.cfgMax ProgramEx.nodes.length = 3 := by decide +kernel
    rw [this]
    decide

/-! ### C82 -/

/-- `C82_when` applies: elite education is asked for, and three customers are more than the limit of two. -/
example : ∃ g1, GA.iterate (EliteTimeEx.env false) EliteTimeEx.ctx (EliteTimeEx.ch 0)
      (GA.new (EliteTimeEx.env false) EliteTimeEx.ctx fun _ => 0) = some g1 ∧
    ((EliteTimeEx.env false).eliteEducation = true ∧ (EliteTimeEx.env false).eliteLimit < EliteTimeEx.ctx.n - 1) := by
  obtain ⟨g1, h1, h2⟩ := EliteTimeEx.enters false
  exact ⟨g1, h1, (C82_when _ _ _ _ g1 rfl h1 (by rw [h2]; decide)).1.mp h2⟩

/-- Without elite education the first call goes on to the initial individuals. -/
example : (GA.iterate { EliteTimeEx.env false with eliteEducation := false } EliteTimeEx.ctx (EliteTimeEx.ch 0)
    (GA.new { EliteTimeEx.env false with eliteEducation := false } EliteTimeEx.ctx fun _ => 0)).map (·.state) =
    some .init := by decide +kernel

/-- `C82_end` applies: the third call of the run ends elite education and sets the penalty to its first value. -/
example : ∃ g, GA.steps (EliteTimeEx.env false) EliteTimeEx.ctx [EliteTimeEx.ch 0, EliteTimeEx.ch 0, EliteTimeEx.ch 0]
      (GA.new (EliteTimeEx.env false) EliteTimeEx.ctx fun _ => 0) = some g ∧
    g.rr.pen = (EliteTimeEx.env false).initialPen := by
  have h2 : (GA.steps (EliteTimeEx.env false) EliteTimeEx.ctx [EliteTimeEx.ch 0, EliteTimeEx.ch 0]
      (GA.new (EliteTimeEx.env false) EliteTimeEx.ctx fun _ => 0)).map (·.state) = some .elite := by decide +kernel
  obtain ⟨g2, e2, s2⟩ := Option.map_eq_some_iff.mp h2
  have h3 : ((GA.steps (EliteTimeEx.env false) EliteTimeEx.ctx [EliteTimeEx.ch 0, EliteTimeEx.ch 0]
      (GA.new (EliteTimeEx.env false) EliteTimeEx.ctx fun _ => 0)).bind
        (GA.iterate (EliteTimeEx.env false) EliteTimeEx.ctx (EliteTimeEx.ch 0))).map (·.state) = some .init := by
    decide +kernel
  rw [e2, Option.bind_some] at h3
  obtain ⟨g3, e3, s3⟩ := Option.map_eq_some_iff.mp h3
  refine ⟨g3, ?_, (C82_end _ _ _ g2 g3 s2 e3 s3).1⟩
  rw [show [EliteTimeEx.ch 0, EliteTimeEx.ch 0, EliteTimeEx.ch 0] =
      [EliteTimeEx.ch 0, EliteTimeEx.ch 0] ++ [EliteTimeEx.ch 0] from rfl, GA.steps_append, e2, Option.bind_some]
  simp only [GA.steps, s2, e3, Option.bind_some]
  simp

end MoreCases
end Verif
