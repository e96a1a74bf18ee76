import Verif.Props.ProgramExamples

/-!
# C52 for the whole program

What besides the seed decides the solution file. The iteration order of the hash set `ruined_routes` and
the clock reach a run only through ruin and recreate: a run without it is a function of the draws and of
the call at which the time is up. A run with it is not.
-/

namespace Verif
open F64 Spec

/-- Two calls of `iterate` that a seeded run cannot tell apart: the same draws, and the time is up in both
or in neither. The hash order and the clock readings of ruin and recreate are free. -/
structure SameDraws {α : Type} (limit : ℕ) (c c' : GAChoice α) : Prop where
  draws : c.ω = c'.ω
  fuel : c.fuel = c'.fuel
  time : limit ≤ c.elapsed ↔ limit ≤ c'.elapsed

namespace GA
variable {α : Type} [F64 α] {env : GAEnv α} {ctx : Ctx α}

theorem mutate_off (hm : env.rrMutation = false) (ch : GAChoice α) (w : ℕ) (g : GA α) :
    mutate env ctx ch w g = some g := by
  unfold mutate
  rw [hm]
  rfl

theorem educate_same (hm : env.rrMutation = false) {c c' : GAChoice α} (hf : c.fuel = c'.fuel) (ω : Oracle)
    (g : GA α) : educate env ctx c ω g = educate env ctx c' ω g := by
  unfold educate
  simp only [mutate_off hm, hf]

theorem iterate_same (hm : env.rrMutation = false)
    (he : env.eliteEducation = false ∨ ctx.n - 1 ≤ env.eliteLimit) {c c' : GAChoice α}
    (h : SameDraws env.timeLimit c c') {g : GA α} (hg : g.state ≠ .elite) :
    iterate env ctx c g = iterate env ctx c' g := by
  have ht : terminateNow env.timeLimit env.maxIterations c.elapsed g.ctxIteration =
      terminateNow env.timeLimit env.maxIterations c'.elapsed g.ctxIteration := by
    unfold terminateNow
    have := h.time
    by_cases hc : env.timeLimit ≤ c.elapsed
    · have := this.mp hc
      simp [hc, this]
    · have : ¬ env.timeLimit ≤ c'.elapsed := fun hh => hc (this.mpr hh)
      simp [hc, this]
  have hn : (env.eliteEducation && decide (env.eliteLimit < ctx.n - 1)) = false := by
    rcases he with he | he
    · rw [he]
      rfl
    · simp [Nat.not_lt.mpr he]
  unfold iterate
  rw [ht]
  split
  · rfl
  · cases hs : g.state with
    | created =>
      simp only [stepCreated, hn]
      rfl
    | elite => exact absurd hs hg
    | init => simp only [stepInit, createInitial, h.draws, educate_same hm h.fuel]
    | cycle => simp only [stepCycle, breed, h.draws, h.fuel, educate_same hm h.fuel]
    | terminated => rfl

theorem iterate_not_elite (he : env.eliteEducation = false ∨ ctx.n - 1 ≤ env.eliteLimit) {c : GAChoice α}
    {g g' : GA α} (hg : g.state ≠ .elite) (h : iterate env ctx c g = some g') : g'.state ≠ .elite := by
  have hn : (env.eliteEducation && decide (env.eliteLimit < ctx.n - 1)) = false := by
    rcases he with he | he
    · rw [he]
      rfl
    · simp [Nat.not_lt.mpr he]
  unfold iterate at h
  split at h
  · rw [Option.some.injEq] at h
    subst h
    simp
  · cases hs : g.state with
    | created =>
      simp only [hs, stepCreated, hn, Bool.false_eq_true, if_false, Option.some.injEq] at h
      subst h
      simp
    | elite => exact absurd hs hg
    | init =>
      simp only [hs] at h
      unfold stepInit at h
      split at h
      · obtain ⟨⟨x, g1⟩, h1, h⟩ := Option.bind_eq_some_iff.mp h
        obtain ⟨g2, h2, rfl⟩ := Option.map_eq_some_iff.mp h
        show g2.state ≠ .elite
        rw [(addToPop_frame h2).state, (createInitial_frame h1).state]
        exact hg
      · rw [Option.some.injEq] at h
        subst h
        simp
    | cycle =>
      simp only [hs] at h
      unfold stepCycle at h
      obtain ⟨g1, h1, h⟩ := Option.bind_eq_some_iff.mp h
      obtain ⟨g2, h2, h⟩ := Option.bind_eq_some_iff.mp h
      obtain ⟨g3, g4, -, -, w, -, rfl⟩ := finishCycle_some h
      have e : g4.state ≠ .elite := by
        rw [w.state, (addToPop_frame h2).state, (breed_frame h1).state]
        exact hg
      split
      · simp [reset]
      · exact e
    | terminated =>
      simp only [hs, Option.some.injEq] at h
      subst h
      exact hg

theorem steps_same (hm : env.rrMutation = false)
    (he : env.eliteEducation = false ∨ ctx.n - 1 ≤ env.eliteLimit) {cs cs' : List (GAChoice α)}
    (h : List.Forall₂ (SameDraws env.timeLimit) cs cs') :
    ∀ {g : GA α}, g.state ≠ .elite → steps env ctx cs g = steps env ctx cs' g := by
  induction h with
  | nil => exact fun _ => rfl
  | cons h1 _ ih =>
    intro g hg
    unfold steps
    split
    · rfl
    · rw [iterate_same hm he h1 hg]
      cases hi : iterate env ctx _ g with
      | none => rfl
      | some g' => exact ih (iterate_not_elite he hg hi)

end GA

namespace Program
variable {α : Type} [F64 α]

/-- **C52** (the part that holds, for the whole program and every number type). Without ruin and recreate
(no such mutation, no elite education, no decomposition for this instance), the solution file is a function
of the instance text, the settings, the draws, and the call at which the time limit is found exceeded: the
iteration order of every hash set and every other reading of the clock are without effect.
Missing: runs with ruin and recreate. There the claim is false, see `C52_program_refuted`. -/
theorem C52_without_ruin_partial (lib : Lib α) (cfg : Settings α) (text : List Char) (ω : Oracle)
    (chs chs' : List (GAChoice α)) (dchs dchs' : List (DGAChoice α)) (hm : cfg.rrMutation = false)
    (hsize : ∀ p, parseInstance lib.num text = some p → p.nodes.length - 1 < cfg.decomposeLimit ∧
      (cfg.eliteEducation = false ∨ p.nodes.length - 1 ≤ cfg.eliteLimit))
    (hch : List.Forall₂ (SameDraws cfg.timeLimit) chs chs') :
    main lib cfg text ω chs dchs = main lib cfg text ω chs' dchs' := by
  unfold main
  cases hp : parseInstance lib.num text with
  | none => rfl
  | some p =>
    obtain ⟨h1, h2⟩ := hsize p hp
    rw [Option.bind_some, Option.bind_some]
    cases hd : matrices lib cfg p with
    | none => rfl
    | some m =>
      rw [Option.bind_some, Option.bind_some]
      have hn : ¬ cfg.decomposeLimit ≤ (context lib p m.1).n - 1 := Nat.not_le.mpr h1
      unfold solve
      rw [if_neg hn, if_neg hn, GA.steps_same (env := gaEnv lib cfg (context lib p m.1) m.1 m.2)
        (ctx := context lib p m.1) (g := GA.new (gaEnv lib cfg (context lib p m.1) m.1 m.2)
          (context lib p m.1) ω) hm h2 hch (by simp [GA.new])]

end Program

/-! ### A run with ruin and recreate -/

namespace OrderEx

/-- The lines of the instance file. -/
def raw : List (List Char) :=
  ["DIMENSION : 5".toList, "EDGE_WEIGHT_TYPE : EXPLICIT".toList, "EDGE_WEIGHT_FORMAT : LOWER_ROW".toList,
    "CAPACITY : 3".toList, "EDGE_WEIGHT_SECTION".toList, "3".toList, "1 1".toList, "3 4 9".toList,
    "1 2 7 5".toList, "NODE_COORD_SECTION".toList, "1 0 0".toList, "2 3 0".toList, "3 3 4".toList,
    "4 0 4".toList, "5 1 1".toList, "DEMAND_SECTION".toList, "1 0".toList, "2 1".toList, "3 1".toList,
    "4 1".toList, "5 2".toList, "EOF".toList]
/-- The instance file. -/
def text : List Char := (raw.map (fun l => l ++ ['\n'])).flatten
/-- One individual, ruin and recreate with four rounds, no local search. -/
def cfg : Settings ℚ := { ProgramEx.cfg with lsEnabled := false, initialIndividuals := 1, rrGamma := 1 }
/-- Draws that differ from each other. -/
def draws (s i : ℕ) : ℕ := (s * 7919 + i * 104729 + 12345) * 2654435761 / 65536 % 1000003 * 4503599627
/-- The choices of one call; `order` is the iteration order of the hash set. -/
def choice (order : List ℕ → List ℕ) : GAChoice ℚ where
  ω := draws 9
  rr := fun a b => ⟨fun i => draws (17 * a + 31 * b + 10) i, fun _ => order, 0⟩
  clock := fun _ => 0
  elapsed := 0
  fuel := 50
/-- One individual is made, then the time is up. -/
def chs (order : List ℕ → List ℕ) : List (GAChoice ℚ) :=
  [choice order, choice order, choice order, { choice order with elapsed := 100 }]

theorem run_id : Program.main ProgramEx.lib cfg text (fun _ => 0) (chs id) [] =
    some (some "Route #1: 4\nRoute #2: 3 1 2\nCost 11\n".toList) := by decide +kernel

theorem run_reverse : Program.main ProgramEx.lib cfg text (fun _ => 0) (chs List.reverse) [] =
    some (some "Route #1: 4\nRoute #2: 3\nRoute #3: 1 2\nCost 13\n".toList) := by decide +kernel

/-- **C52** is false of the whole program: with one instance file, one configuration, one stream of draws
and one clock, two iteration orders of the hash set `ruined_routes` give solution files of different
cost. The set is made with `RandomState::new()`
(`/repo/src/solver/improvement/ruin_recreate/mod.rs:43`), whose keys are drawn per process and not from
the seed. -/
theorem C52_program_refuted : ∃ (text : List Char) (cfg : Settings ℚ) (ω : Oracle)
    (chs : (List ℕ → List ℕ) → List (GAChoice ℚ)),
    (∀ o o', List.Forall₂ (fun c c' => c.ω = c'.ω ∧ c.clock = c'.clock ∧ c.elapsed = c'.elapsed ∧
      c.fuel = c'.fuel ∧ ∀ i k, (c.rr i k).ω = (c'.rr i k).ω ∧ (c.rr i k).now = (c'.rr i k).now)
      (chs o) (chs o')) ∧
    ∃ o o' : List ℕ → List ℕ, (∀ l, (o l).Perm l) ∧ (∀ l, (o' l).Perm l) ∧
      Program.main ProgramEx.lib cfg text ω (chs o) [] =
        some (some "Route #1: 4\nRoute #2: 3 1 2\nCost 11\n".toList) ∧
      Program.main ProgramEx.lib cfg text ω (chs o') [] =
        some (some "Route #1: 4\nRoute #2: 3\nRoute #3: 1 2\nCost 13\n".toList) :=
  ⟨text, cfg, fun _ => 0, chs, fun o o' => by simp [chs, choice],
    id, List.reverse, fun l => List.Perm.refl l, fun l => List.reverse_perm l, run_id, run_reverse⟩

/-- Without ruin and recreate the same run does not depend on the order; a solution is found. -/
example (o : List ℕ → List ℕ) : Program.main ProgramEx.lib { cfg with rrMutation := false } text (fun _ => 0)
    (chs o) [] = some (some "Route #1: 4 1\nRoute #2: 3\nRoute #3: 2\nCost 14\n".toList) := by
  have h : Program.main ProgramEx.lib { cfg with rrMutation := false } text (fun _ => 0) (chs id) [] =
      some (some "Route #1: 4 1\nRoute #2: 3\nRoute #3: 2\nCost 14\n".toList) := by decide +kernel
  rw [← h]
  refine Program.C52_without_ruin_partial _ _ _ _ _ _ _ _ rfl (fun p hp => ?_) (.cons ⟨rfl, rfl, Iff.rfl⟩
    (.cons ⟨rfl, rfl, Iff.rfl⟩ (.cons ⟨rfl, rfl, Iff.rfl⟩ (.cons ⟨rfl, rfl, Iff.rfl⟩ .nil))))
  have h : (parseInstance ProgramEx.lib.num text).map (·.nodes.length) = some 5 := by decide +kernel
  rw [hp, Option.map_some, Option.some.injEq] at h
  rw [h]
  exact ⟨by decide, .inl rfl⟩

end OrderEx
end Verif
