import Verif.Lemmas.GeneticEnds
import Verif.Props.GeneticExamples

/-!
# C63, C64: the genetic algorithm does not panic, and it ends

Exact arithmetic. `GA.Valid` and `GA.Robust` collect what is asked of instance and configuration. Loops
without a bound in the code take fuel in the model, so that `none` is a panic or missing fuel. The
statements say that there is an amount of fuel from which on the result is always the same and not `none`:
no loop runs forever and nothing panics.
-/

namespace Verif
open F64 RRSol

namespace GA

variable {env : GAEnv ℚ} {ctx : Ctx ℚ} {hi : ℚ}

theorem Reach.extra (hv : Valid env ctx) (hr : Robust env ctx 10000000) {g : GA ℚ}
    (h : Reach env ctx ChOK g) : Extra env ctx 10000000 g := by
  induction h with
  | new ω => exact new_extra ω
  | step r hok h ih => exact iterate_extra hv hr hok (r.inv hv).1 ih h

/-- The choice with another amount of fuel. -/
def refuel (f : ℕ) (ch : GAChoice ℚ) : GAChoice ℚ := { ch with fuel := f }

/-- The calls between two cycles of crossover, at most. -/
def perCycle (env : GAEnv ℚ) : ℕ := env.eliteIterations + env.initialIndividuals + 4

/-- The calls until the next cycle of crossover, at most. -/
def phase (env : GAEnv ℚ) (g : GA ℚ) : ℕ :=
  match g.state with
  | .created => perCycle env
  | .elite => env.initialIndividuals + 3 + (match g.rr.acceptance with
    | .iteration s => s.total - s.iteration
    | .time _ => 0)
  | .init => env.initialIndividuals - g.numInitialized + 2
  | .cycle => 1
  | .terminated => 0

theorem phase_pos {g : GA ℚ} (h : g.state ≠ .terminated) : 1 ≤ phase env g := by
  unfold phase perCycle
  split
  · omega
  · omega
  · omega
  · omega
  · rename_i e
    exact absurd e h

theorem iterate_phase (hv : ValidUpTo env ctx hi) (hr : Robust env ctx hi) {ch : GAChoice ℚ} (hch : ChOK ch)
    {m : ℕ} (hm : env.maxIterations = some m) {g g' : GA ℚ} (hg : Inv env ctx hi g)
    (hx : Extra env ctx hi g) (hn : g.state ≠ .terminated) (h : iterate env ctx ch g = some g') :
    g'.state = .terminated ∨ (m - g'.ctxIteration) * perCycle env + phase env g' <
      (m - g.ctxIteration) * perCycle env + phase env g := by
  have hx' := iterate_extra hv hr hch hg hx h
  by_cases hc : g.state = .cycle
  · unfold iterate at h
    split at h
    · rw [Option.some.injEq] at h
      subst h
      exact Or.inl rfl
    · rename_i ht
      right
      rw [hc] at h
      obtain ⟨h1, h2, -⟩ := stepCycle_counts hc h
      have hlt : g.ctxIteration < m := by
        by_contra hge
        apply ht
        unfold terminateNow
        rw [hm, Bool.or_eq_true]
        right
        show decide _ = true
        rw [decide_eq_true_eq]
        omega
      have e : m - g.ctxIteration = (m - g'.ctxIteration) + 1 := by omega
      have p1 : phase env g = 1 := by unfold phase; rw [hc]
      have p2 : phase env g' ≤ perCycle env := by
        unfold phase
        rcases h2 with h2 | h2 <;> rw [h2]
        · show 1 ≤ perCycle env
          unfold perCycle
          omega
      rw [e, p1, Nat.add_mul]
      omega
  · have hci := step_counts hc h
    unfold iterate at h
    split at h
    · rw [Option.some.injEq] at h
      subst h
      exact Or.inl rfl
    · right
      rw [hci]
      apply Nat.add_lt_add_left
      split at h
      · rename_i hs
        have p1 : phase env g = perCycle env := by unfold phase; rw [hs]
        rw [p1]
        unfold stepCreated at h
        split at h
        · obtain ⟨g1, h1, h⟩ := Option.bind_eq_some_iff.mp h
          obtain ⟨g2, h2, h⟩ := Option.bind_eq_some_iff.mp h
          obtain ⟨r, h3, rfl⟩ := Option.map_eq_some_iff.mp h
          have fs : g2.state = .elite := (educate_frame h2).state.trans (runSplit_frame h1).state
          obtain ⟨-, s, q, e1, e2, -⟩ := hx'.elite fs
          have e1 : r.acceptance = .iteration s := e1
          unfold phase perCycle
          dsimp only
          rw [fs, e1]
          dsimp only
          omega
        · rw [Option.some.injEq] at h
          subst h
          show env.initialIndividuals - g.numInitialized + 2 < perCycle env
          unfold perCycle
          omega
      · rename_i hs
        have h0 := hx.start (Or.inr hs)
        obtain ⟨-, s, q, e1, e2, -⟩ := hx.elite hs
        have p1 : phase env g = env.initialIndividuals + 3 + (s.total - s.iteration) := by
          unfold phase
          rw [hs, e1]
        rw [p1]
        unfold stepElite at h
        split at h
        · obtain ⟨x, h1, h⟩ := Option.bind_eq_some_iff.mp h
          obtain ⟨g2, h2, h⟩ := Option.bind_eq_some_iff.mp h
          obtain ⟨-, rfl⟩ := log_some h
          have fr := (updateBest_frame { g with state := .init, child := x }).trans (addToPop_frame h2)
          have fs : g2.state = .init := fr.state
          unfold phase
          dsimp only
          rw [fs]
          dsimp only
          omega
        · rename_i hcomp
          obtain ⟨r, h1, rfl⟩ := Option.map_eq_some_iff.mp h
          obtain ⟨s', a1, a2, a3⟩ := RR.search_acceptance e1 h1
          have hlt : s.iteration < s.total := by
            rw [e1] at hcomp
            have hcomp : ¬ decide (s.total ≤ s.iteration) = true := hcomp
            rw [decide_eq_true_eq] at hcomp
            omega
          unfold phase
          dsimp only
          rw [hs, a1]
          dsimp only
          omega
      · rename_i hs
        have p1 : phase env g = env.initialIndividuals - g.numInitialized + 2 := by unfold phase; rw [hs]
        rw [p1]
        unfold stepInit at h
        split at h
        · rename_i hlt
          obtain ⟨⟨x, g1⟩, h1, h⟩ := Option.bind_eq_some_iff.mp h
          obtain ⟨g2, h2, rfl⟩ := Option.map_eq_some_iff.mp h
          have fr := (createInitial_frame h1).trans (addToPop_frame h2)
          have fs : g2.state = .init := fr.state.trans hs
          have fn : g2.numInitialized = g.numInitialized := fr.numInitialized
          unfold phase
          dsimp only
          rw [fs, fn]
          dsimp only
          omega
        · rw [Option.some.injEq] at h
          subst h
          show 1 < _
          omega
      · rename_i hs
        exact absurd hs hc
      · rename_i hs
        exact absurd hs hn

theorem steps_end (hv : ValidUpTo env ctx hi) (hr : Robust env ctx hi) : ∀ (chs : List (GAChoice ℚ)) {g : GA ℚ},
    (∀ ch ∈ chs, ChOK ch ∧ Fair ctx.n ch) → Inv env ctx hi g → Extra env ctx hi g →
    ∃ g', EndsIn (fun f => steps env ctx (chs.map (refuel f)) g) g' ∧ Inv env ctx hi g' ∧
      (∀ m, env.maxIterations = some m →
        (m - g.ctxIteration) * perCycle env + phase env g ≤ chs.length → g'.state = .terminated) ∧
      ((∃ ch ∈ chs, env.timeLimit ≤ ch.elapsed) → g'.state = .terminated)
  | [], g, _, hg, _ => by
    refine ⟨g, .const rfl, hg, fun m _ hl => ?_, fun ⟨ch, hch, _⟩ => by simp at hch⟩
    by_contra hne
    have := phase_pos (env := env) hne
    simp only [List.length_nil] at hl
    omega
  | ch :: chs, g, hok, hg, hx => by
    by_cases ht : g.state = .terminated
    · refine ⟨g, ⟨0, fun f _ => ?_⟩, hg, fun _ _ _ => ht, fun _ => ht⟩
      dsimp only
      rw [List.map_cons, steps, if_pos ht]
    · obtain ⟨h1, h2⟩ := hok ch (by simp)
      obtain ⟨g1, e1⟩ := iterate_ends hv hr h1 h2 hg hx
      obtain ⟨f, hf⟩ := e1.some_of
      have i1 := (iterate_inv hv (ch := refuel f ch) h1 hg hf).1
      have x1 := iterate_extra hv hr (ch := refuel f ch) h1 hg hx hf
      obtain ⟨g', e2, i2, a1, a2⟩ := steps_end hv hr chs (fun c hc => hok c (by simp [hc])) i1 x1
      have stay : g1.state = .terminated → g'.state = .terminated := by
        intro h
        obtain ⟨N, e2⟩ := e2
        have := e2 N (le_refl _)
        dsimp only at this
        cases hc : chs.map (refuel N) with
        | nil =>
          rw [hc] at this
          simp only [steps, Option.some.injEq] at this
          exact this ▸ h
        | cons c cs =>
          rw [hc] at this
          unfold steps at this
          rw [if_pos h, Option.some.injEq] at this
          exact this ▸ h
      refine ⟨g', ?_, i2, fun m hm hl => ?_, fun ⟨c, hc, hcl⟩ => ?_⟩
      · have : (fun f => steps env ctx ((ch :: chs).map (refuel f)) g) = fun f =>
            (iterate env ctx (refuel f ch) g).bind (steps env ctx (chs.map (refuel f))) := by
          funext f
          rw [List.map_cons, steps, if_neg ht]
        rw [this]
        exact EndsIn.bind e1 e2
      · rcases iterate_phase hv hr (ch := refuel f ch) h1 hm hg hx ht hf with h | h
        · exact stay h
        · rw [List.length_cons] at hl
          exact a1 m hm (by omega)
      · rcases List.mem_cons.mp hc with rfl | hc
        · apply stay
          unfold iterate at hf
          rw [if_pos (by unfold terminateNow; rw [Bool.or_eq_true]; left; exact decide_eq_true hcl),
            Option.some.injEq] at hf
          rw [← hf]
        · exact a2 ⟨c, hc, hcl⟩

end GA

/-- **C63.** In every state of every run the next `iterate` call returns, whatever is drawn, in whatever
order hash sets are iterated and whatever the clock shows. The only demand on the draws (`GA.Fair`) is that
the second end of the crossover zone is not the first one forever. Missing: settings and instances outside
`GA.Robust`, some of which make the program panic, see `ProgressEx.C63_no_initial_refuted` and
`EliteEx.C63_elite_call_refuted`. -/
theorem C63_call_returns_partial (env : GAEnv ℚ) (ctx : Ctx ℚ) (hv : GA.Valid env ctx)
    (hr : GA.Robust env ctx 10000000) (g : GA ℚ) (h : GA.Reach env ctx GA.ChOK g) (ch : GAChoice ℚ)
    (hch : GA.ChOK ch) (hf : GA.Fair ctx.n ch) :
    ∃ g' N, ∀ f, N ≤ f → GA.iterate env ctx { ch with fuel := f } g = some g' := by
  obtain ⟨g', N, e⟩ := GA.iterate_ends hv hr hch hf (h.inv hv).1 (h.extra hv hr)
  exact ⟨g', N, e⟩

/-- **C64**, iteration limit. With `max_iterations = m` the run is over after at most
`(m + 1) * (elite_iterations + initial_individuals + 4)` calls of `iterate`, none of which panics. -/
theorem C64_iteration_limit (env : GAEnv ℚ) (ctx : Ctx ℚ) (hv : GA.Valid env ctx)
    (hr : GA.Robust env ctx 10000000) (m : ℕ) (hm : env.maxIterations = some m) (ω : Oracle)
    (chs : List (GAChoice ℚ)) (hok : ∀ ch ∈ chs, GA.ChOK ch ∧ GA.Fair ctx.n ch)
    (hl : (m + 1) * (env.eliteIterations + env.initialIndividuals + 4) ≤ chs.length) :
    ∃ g N, g.state = .terminated ∧ ∀ f, N ≤ f →
      GA.steps env ctx (chs.map fun ch => { ch with fuel := f }) (GA.new env ctx ω) = some g := by
  obtain ⟨g, ⟨N, e⟩, -, h1, -⟩ := GA.steps_end hv hr chs hok (GA.new_inv hv ω) (GA.new_extra ω)
  refine ⟨g, N, h1 m hm ?_, e⟩
  show (m - 0) * GA.perCycle env + GA.perCycle env ≤ _
  rw [Nat.sub_zero, ← Nat.succ_mul]
  exact hl

/-- **C64**, time limit. When the clock shows the time limit at the start of a call, the run is over with
that call, and no call before it panics. -/
theorem C64_time_limit (env : GAEnv ℚ) (ctx : Ctx ℚ) (hv : GA.Valid env ctx)
    (hr : GA.Robust env ctx 10000000) (ω : Oracle) (chs : List (GAChoice ℚ)) (last : GAChoice ℚ)
    (hok : ∀ ch ∈ chs ++ [last], GA.ChOK ch ∧ GA.Fair ctx.n ch) (hl : env.timeLimit ≤ last.elapsed) :
    ∃ g N, g.state = .terminated ∧ ∀ f, N ≤ f →
      GA.steps env ctx ((chs ++ [last]).map fun ch => { ch with fuel := f }) (GA.new env ctx ω) = some g := by
  obtain ⟨g, ⟨N, e⟩, -, -, h2⟩ := GA.steps_end hv hr (chs ++ [last]) hok (GA.new_inv hv ω) (GA.new_extra ω)
  exact ⟨g, N, h2 ⟨last, by simp, hl⟩, e⟩

namespace ProgressEx
open GeneticEx

theorem small_pow {x : ℚ} (h : x ≤ 2 ^ 60) : x ≤ 2 ^ 1000 :=
  h.trans (pow_le_pow_right₀ (by norm_num) (by norm_num))

theorem tame {p : ℚ} (h0 : 0 ≤ p) (h1 : p ≤ 2 ^ 50) : Tame (RR.ctxAt ctx p) where
  dist a b := by
    simp only [RR.ctxAt, ctx]
    split
    · exact ⟨le_refl _, small_pow (by norm_num)⟩
    · split
      · exact ⟨by norm_num, small_pow (by norm_num)⟩
      · split
        · exact ⟨by norm_num, small_pow (by norm_num)⟩
        · exact ⟨by norm_num, small_pow (by norm_num)⟩
  demand c := by
    simp only [RR.ctxAt, ctx]
    split <;> norm_num
  cap := by norm_num [RR.ctxAt, ctx]
  pen := h0
  bound := by
    refine small_pow ?_
    have : Spec.routeLoad ctx.demand (Spec.customers 4) = 3 := by decide +kernel
    show Spec.routeLoad ctx.demand (Spec.customers 4) * p ≤ _
    rw [this]
    norm_num at h1 ⊢
    linarith

theorem sym (a b : ℕ) : ctx.dist a b = ctx.dist b a := by
  simp only [ctx]
  by_cases h : a = b
  · rw [if_pos h, if_pos h.symm]
  · rw [if_neg h, if_neg (Ne.symm h)]
    simp only [or_comm]

/-- The hypotheses are met. -/
theorem robust : GA.Robust env ctx 10000000 where
  n := by decide
  sym := sym
  depot := rfl
  tame := tame (by norm_num) (by norm_num)
  nbrs := by
    intro c h1 h2
    refine ⟨_, rfl, fun v hv => ?_⟩
    have := List.mem_of_mem_erase hv
    simp at this
    show 1 ≤ v ∧ v < 4
    omega
  sort l := ⟨l, rfl⟩
  closest := by decide
  minSize := by decide
  tournament := by decide
  initial := by decide
  elite h := by simp [env] at h

/-- The fourth draw of the crossover zone differs from the first. -/
theorem fair : GA.Fair ctx.n (choice 5 7) := ⟨3, by decide, by decide +kernel⟩

/-- C64 speaks about this instance, with five iterations: 42 calls are enough. -/
example : ∃ g N, g.state = .terminated ∧ ∀ f, N ≤ f →
    GA.steps env ctx ((List.replicate 42 (choice 5 7)).map fun ch => { ch with fuel := f })
      (GA.new env ctx fun _ => 0) = some g :=
  C64_iteration_limit env ctx valid robust 5 rfl _ _
    (fun ch hch => by rw [List.eq_of_mem_replicate hch]; exact ⟨choice_ok 5 7, fair⟩) (by decide)

/-- The same settings without initial individuals. -/
def bare : GAEnv ℚ := { env with initialIndividuals := 0 }

/-- **C63** fails without initial individuals (`initial_individuals = 0` is accepted): the first
crossover draws its parents from an empty population, which panics, whatever is drawn. -/
theorem C63_no_initial_refuted : GA.Valid bare ctx ∧ ∃ g, GA.Reach bare ctx GA.ChOK g ∧
    ∀ ch, ch.elapsed < bare.timeLimit → GA.iterate bare ctx ch g = none := by
  refine ⟨⟨valid.n, valid.dist, valid.fleet, valid.bound, valid.vehicles, valid.bs, valid.sort, valid.pen,
    valid.mult, valid.lim, valid.mag, valid.nbr⟩, { GA.new bare ctx (fun _ => 0) with state := .cycle }, ?_, ?_⟩
  · refine .step (ch := choice 0 0) (.step (ch := choice 0 0) (.new fun _ => 0) (choice_ok 0 0)
      (g' := { GA.new bare ctx (fun _ => 0) with state := .init }) rfl) (choice_ok 0 0) rfl
  · intro ch hch
    have ht : ¬ terminateNow bare.timeLimit bare.maxIterations ch.elapsed 0 = true := by
      unfold terminateNow
      rw [Bool.or_eq_true, decide_eq_true_eq]
      rintro (h | h)
      · omega
      · simp [bare, env] at h
    exact if_neg ht

end ProgressEx
end Verif
