import Verif.Props.DblEnds
import Verif.Props.ExplicitExamples

/-!
# C78 on the instances of `ProgramDoubleExamples` and `ExplicitExamples`
-/

namespace Verif
open F64 Spec Dbl

namespace DoubleEx

/-- Draws that are not all the same. -/
def draw (e : ℕ) : GAChoice F :=
  { choice 5 7 with ω := fun i => i, elapsed := e }

/-- Three calls within the time, one beyond. -/
def timed : List (GAChoice F) := [draw 0, draw 0, draw 0, draw 100]

theorem draw_ok (e : ℕ) : GA.ChOK (draw e) ∧ GA.Fair ProgramEx.nodes.length (draw e) :=
  ⟨fun _ _ _ l => List.Perm.refl l, 1, by decide,
    show (Nat.pair 2 1) % 3 ≠ (Nat.pair 2 0) % 3 by decide +kernel⟩

theorem total : Program.DblTotal lib where
  atan2 _ _ := show ((fin 0 : F) ≤. fin 0) = true by decide
  sort l _ := ⟨l, rfl⟩

/-- Elite education of 6 rounds, without the local search. -/
def eliteCfg : Settings F := { cfg with lsEnabled := false, eliteEducation := true, eliteLimit := 2, eliteGamma := lit 2 }

theorem elite_ok : Program.EliteOK eliteCfg 4 :=
  ⟨rfl, lit_factor (by norm_num) (by norm_num), lit_factor (by norm_num) (by norm_num), by decide +kernel⟩

theorem ending (c : Settings F) (h : c = cfg ∨ c = { cfg with lsEnabled := false } ∨ c = eliteCfg) (cap : ℚ)
    (hl : Program.DblLoads ProgramEx.nodes cap) :
    Program.DblEnding lib c ProgramEx.nodes cap timed where
  library := lib_ok
  total := total
  settings := by rcases h with rfl | rfl | rfl <;> exact ⟨by decide, fun h => absurd h (by decide)⟩
  ends := by
    rcases h with rfl | rfl | rfl
    · exact ⟨by decide, by decide, by decide, by decide, by decide, .inl rfl⟩
    · exact ⟨by decide, by decide, by decide, by decide, by decide, .inl rfl⟩
    · exact ⟨by decide, by decide, by decide, by decide, by decide, .inr (.inr elite_ok)⟩
  loads := hl
  coords := by
    intro p hp
    have h0 : (4 : ℚ) ≤ 2 ^ 900 := (show (4 : ℚ) ≤ 2 ^ 2 by norm_num).trans (pow_le_pow_right₀ (by norm_num) (by norm_num))
    generalize (2 : ℚ) ^ 900 = B at *
    simp only [ProgramEx.nodes, List.mem_cons, List.not_mem_nil, or_false] at hp
    rcases hp with rfl | rfl | rfl | rfl <;>
      constructor <;> norm_num <;> linarith
  choices := by
    intro ch hch
    simp only [timed, List.mem_cons, List.not_mem_nil, or_false] at hch
    rcases hch with rfl | rfl | rfl | rfl <;> exact draw_ok _
  clock := by
    refine ⟨draw 100, by simp [timed], ?_⟩
    rcases h with rfl | rfl | rfl <;> decide

/-- C78 applies: with these settings the program returns, or moves go round in a circle. -/
example (ω : Oracle) : (cfg.lsEnabled = true ∧ Program.CirclePossible lib cfg ProgramEx.nodes 20 none) ∨
    ∃ out N, (out.isSome = true ↔ cfg.hasPath = true) ∧ ∀ f, N ≤ f →
      Program.main lib cfg ProgramEx.text ω (timed.map fun ch => { ch with fuel := f }) [] = some out :=
  C78_ends_plane root_ok (textOf_lf ProgramEx.raw (by decide)) (forall₂_lineWords _) ProgramEx.blockFile describes
    ProgramEx.euclidean (ending cfg (.inl rfl) 20 loads_ok) (fun p hp => by
      simp only [ProgramEx.nodes, List.mem_cons, List.not_mem_nil, or_false] at hp
      rcases hp with rfl | rfl | rfl | rfl <;> norm_num)

/-- Without the local search it returns, whatever is drawn at the start. -/
example (ω : Oracle) : ∃ out N, out.isSome = true ∧ ∀ f, N ≤ f →
    Program.main lib { cfg with lsEnabled := false } ProgramEx.text ω (timed.map fun ch => { ch with fuel := f }) [] =
      some out := by
  rcases C78_ends_plane (ω := ω) root_ok (textOf_lf ProgramEx.raw (by decide)) (forall₂_lineWords _)
    ProgramEx.blockFile describes ProgramEx.euclidean (ending { cfg with lsEnabled := false } (.inr (.inl rfl)) 20 loads_ok)
    (fun p hp => by
      simp only [ProgramEx.nodes, List.mem_cons, List.not_mem_nil, or_false] at hp
      rcases hp with rfl | rfl | rfl | rfl <;> norm_num) with ⟨h, -⟩ | ⟨out, N, h1, h2⟩
  · exact absurd h (by decide)
  · exact ⟨out, N, h1.mpr rfl, h2⟩

/-- With elite education. -/
example (ω : Oracle) : ∃ out N, out.isSome = true ∧ ∀ f, N ≤ f →
    Program.main lib eliteCfg ProgramEx.text ω (timed.map fun ch => { ch with fuel := f }) [] = some out := by
  rcases C78_ends_plane (ω := ω) root_ok (textOf_lf ProgramEx.raw (by decide)) (forall₂_lineWords _)
    ProgramEx.blockFile describes ProgramEx.euclidean (ending eliteCfg (.inr (.inr rfl)) 20 loads_ok)
    (fun p hp => by
      simp only [ProgramEx.nodes, List.mem_cons, List.not_mem_nil, or_false] at hp
      rcases hp with rfl | rfl | rfl | rfl <;> norm_num) with ⟨h, -⟩ | ⟨out, N, h1, h2⟩
  · exact absurd h (by decide)
  · exact ⟨out, N, h1.mpr rfl, h2⟩

/-- The same as a computation: the child is educated, ruined and recreated six times, and added to the population. -/
example : (Program.main lib eliteCfg ProgramEx.text (fun _ => 0)
    (timed.map fun ch => { ch with fuel := 8 }) []).isSome = true := by
  decide +kernel

/-- C78 applies to the instance with an explicit matrix. -/
example (ω : Oracle) : ∃ out N, out.isSome = true ∧ ∀ f, N ≤ f →
    Program.main lib { cfg with lsEnabled := false } ExplicitEx.text ω (timed.map fun ch => { ch with fuel := f }) [] =
      some out := by
  rcases C78_ends_explicit (ω := ω) (lib := lib) (textOf_lf ExplicitEx.raw (by decide)) (forall₂_lineWords _)
    ExplicitEx.blockFile ExplicitEx.describesDbl ExplicitEx.explicitDbl rfl ExplicitEx.triangular
    (fun row hr x hx => (ExplicitEx.entries row hr x hx).1)
    (ending { cfg with lsEnabled := false } (.inr (.inl rfl)) 10 ExplicitEx.loads_ok) (by
      have : ∀ a < 4, ∀ b < 4, 0 ≤ lowerRowDist { cfg with lsEnabled := false }.rounded ExplicitEx.rows a b ∧
          lowerRowDist { cfg with lsEnabled := false }.rounded ExplicitEx.rows a b ≤ 9 := by decide +kernel
      intro a ha b hb
      exact ⟨(this a ha b hb).1, (this a ha b hb).2.trans (by norm_num)⟩) with ⟨h, -⟩ | ⟨out, N, h1, h2⟩
  · exact absurd h (by decide)
  · exact ⟨out, N, h1.mpr rfl, h2⟩

/-- The same as a computation: four calls are made and the best solution is written. -/
example : (Program.main lib { cfg with lsEnabled := false } ProgramEx.text (fun _ => 0)
    (timed.map fun ch => { ch with fuel := 5 }) []).isSome = true := by
  decide +kernel

end DoubleEx
end Verif
