import Verif.Props.ElitePenalty
import Verif.Props.Dimacs
import Verif.Props.ProgramExamples

/-! # C82: how long elite education lasts -/

namespace Verif
open F64

/-! ### Schedules under a search -/

namespace RR

section
variable {α : Type} [F64 α] {env : RREnv α} {ctx : Ctx α}

/-- A search makes 1000 rounds, or fewer if the schedule is over before. -/
theorem searchLoop_rounds {ch : ℕ → RRChoice α} : ∀ (k : ℕ) {st st' : RR α} {s : IterSchedule α},
    st.acceptance = .iteration s → s.iteration < s.total → searchLoop env ctx ch k st = some st' →
    ∃ s', st'.acceptance = .iteration s' ∧ s'.total = s.total ∧ s'.iteration = min s.total (s.iteration + k)
  | 0, st, st', s, hs, hlt, h => by
    simp only [searchLoop, Option.some.injEq] at h
    subst h
    exact ⟨s, hs, rfl, by omega⟩
  | k + 1, st, st', s, hs, hlt, h => by
    unfold searchLoop at h
    obtain ⟨st1, h1, h⟩ := Option.bind_eq_some_iff.mp h
    have e1 := round_acceptance h1
    have e0 : (if k = 0 then penaltyUpdate env ctx st else st).acceptance = st.acceptance := by
      split
      · exact penaltyUpdate_acceptance st
      · rfl
    rw [e0, hs] at e1
    have e1 : st1.acceptance = .iteration (s.update env.exp) := e1
    have i1 : (s.update env.exp).iteration = s.iteration + 1 := rfl
    have t1 : (s.update env.exp).total = s.total := rfl
    split at h
    · rename_i hc
      rw [Option.some.injEq] at h
      subst h
      rw [e1] at hc
      have hc : decide ((s.update env.exp).total ≤ (s.update env.exp).iteration) = true := hc
      rw [decide_eq_true_eq, i1, t1] at hc
      exact ⟨_, e1, t1, by rw [i1]; omega⟩
    · rename_i hc
      rw [e1] at hc
      have hc : ¬ decide ((s.update env.exp).total ≤ (s.update env.exp).iteration) = true := hc
      rw [decide_eq_true_eq, i1, t1] at hc
      obtain ⟨s', a1, a2, a3⟩ := searchLoop_rounds k e1 (by omega) h
      exact ⟨s', a1, a2.trans t1, by rw [a3, t1, i1]; omega⟩

end

/-- A time schedule that began at `t0` and lasts `D`. -/
structure Timed (t0 D : ℚ) (s : TimeSchedule ℚ) : Prop where
  start : s.start = t0
  duration : s.duration = D
  rate : s.updateRate = 100
  since : s.sinceUpdate < 100

variable {env : RREnv ℚ} {ctx : Ctx ℚ} {t0 D : ℚ}

theorem Timed.update {s : TimeSchedule ℚ} (h : Timed t0 D s) (exp : ℚ → ℚ) (now : ℚ) :
    Timed t0 D (s.update exp now) ∧
      ((s.update exp now).completed = true ↔
        s.completed = true ∨ s.sinceUpdate = 99 ∧ 1 ≤ (now - t0) / D) ∧
      ((s.update exp now).sinceUpdate = if s.sinceUpdate = 99 then 0 else s.sinceUpdate + 1) := by
  obtain ⟨h1, h2, h3, h4⟩ := h
  unfold TimeSchedule.update
  dsimp only
  rw [h3]
  by_cases hc : s.sinceUpdate + 1 = 100
  · rw [if_pos hc]
    have h99 : s.sinceUpdate = 99 := by omega
    refine ⟨⟨h1, h2, rfl, by norm_num⟩, ?_, by rw [if_pos h99]⟩
    simp [TimeSchedule.elapsed, h1, h2, h99]
  · rw [if_neg hc]
    have h99 : s.sinceUpdate ≠ 99 := by omega
    exact ⟨⟨h1, h2, rfl, by show s.sinceUpdate + 1 < 100; omega⟩, by simp [h99], by rw [if_neg h99]⟩

theorem searchLoop_timed {ch : ℕ → RRChoice ℚ} : ∀ (k : ℕ) {st st' : RR ℚ} {s : TimeSchedule ℚ},
    st.acceptance = .time s → Timed t0 D s → searchLoop env ctx ch k st = some st' →
    ∃ s', st'.acceptance = .time s' ∧ Timed t0 D s' ∧
      (0 < D → s.completed = false → (∀ i, (ch i).now < t0 + D) → s'.completed = false) ∧
      (0 < D → 100 - s.sinceUpdate ≤ k → (∀ i, t0 + D ≤ (ch i).now) → s'.completed = true)
  | 0, st, st', s, hs, hT, h => by
    simp only [searchLoop, Option.some.injEq] at h
    subst h
    have := hT.since
    exact ⟨s, hs, hT, fun _ h _ => h, fun _ h _ => by omega⟩
  | k + 1, st, st', s, hs, hT, h => by
    unfold searchLoop at h
    obtain ⟨st1, h1, h⟩ := Option.bind_eq_some_iff.mp h
    have e1 := round_acceptance h1
    have e0 : (if k = 0 then penaltyUpdate env ctx st else st).acceptance = st.acceptance := by
      split
      · exact penaltyUpdate_acceptance st
      · rfl
    rw [e0, hs] at e1
    have e1 : st1.acceptance = .time (s.update env.exp (ch k).now) := e1
    obtain ⟨T1, c1, u1⟩ := hT.update env.exp (ch k).now
    have before : 0 < D → s.completed = false → (∀ i, (ch i).now < t0 + D) →
        (s.update env.exp (ch k).now).completed = false := by
      intro hD hc hb
      rw [Bool.eq_false_iff]
      intro hn
      rcases c1.mp hn with hn | ⟨-, hn⟩
      · rw [hc] at hn; simp at hn
      · rw [le_div_iff₀ hD] at hn
        linarith [hb k]
    split at h
    · rename_i hc
      rw [Option.some.injEq] at h
      subst h
      rw [e1] at hc
      exact ⟨_, e1, T1, before, fun _ _ _ => hc⟩
    · rename_i hc
      rw [e1] at hc
      have hc : ¬ (s.update env.exp (ch k).now).completed = true := hc
      obtain ⟨s', a1, a2, a3, a4⟩ := searchLoop_timed k e1 T1 h
      refine ⟨s', a1, a2, fun hD h0 hb => a3 hD (before hD h0 hb) hb, fun hD hk ha => a4 hD ?_ ha⟩
      rw [u1]
      by_cases h99 : s.sinceUpdate = 99
      · exfalso
        refine hc (c1.mpr (Or.inr ⟨h99, ?_⟩))
        rw [le_div_iff₀ hD]
        linarith [ha k]
      · rw [if_neg h99]
        have := hT.since
        omega

end RR

/-! ### The phase -/

namespace GA

section
variable {α : Type} [F64 α] {env : GAEnv α} {ctx : Ctx α}

theorem steps_terminated (chs : List (GAChoice α)) {g : GA α} (h : g.state = .terminated) :
    steps env ctx chs g = some g := by
  cases chs with
  | nil => rfl
  | cons ch chs =>
    unfold steps
    rw [if_pos h]

/-- One call during elite education. -/
theorem iterate_elite {ch : GAChoice α} {g g' : GA α} (hs : g.state = .elite) (h : iterate env ctx ch g = some g') :
    g'.state = .terminated ∨
    (g.rr.acceptance.completed = true ∧ g'.state = .init ∧ g'.rr.pen = env.initialPen ∧
      g'.pop.history = g.pop.history) ∨
    (g.rr.acceptance.completed = false ∧ g'.state = .elite ∧ RR.search env.rr ctx (ch.rr 0) g.rr = some g'.rr) := by
  unfold iterate at h
  split at h
  · rw [Option.some.injEq] at h
    subst h
    exact Or.inl rfl
  · rw [hs] at h
    dsimp only at h
    unfold stepElite at h
    split at h
    · rename_i hc
      obtain ⟨x, -, h⟩ := Option.bind_eq_some_iff.mp h
      obtain ⟨g1, h1, h⟩ := Option.bind_eq_some_iff.mp h
      unfold log at h
      split at h
      · obtain ⟨_, -, h⟩ := Option.bind_eq_some_iff.mp h
        obtain ⟨_, -, rfl⟩ := Option.map_eq_some_iff.mp h
        have hu : (updateBest { g with state := .init, child := x }).state = .init ∧
            (updateBest { g with state := .init, child := x }).pop = g.pop := by
          unfold updateBest
          dsimp only
          split
          · split <;> exact ⟨rfl, rfl⟩
          · exact ⟨rfl, rfl⟩
        unfold addToPop at h1
        obtain ⟨p, hp, rfl⟩ := Option.map_eq_some_iff.mp h1
        refine Or.inr (Or.inl ⟨hc, hu.1, rfl, ?_⟩)
        rw [hu.2] at hp
        show p.history = _
        unfold Population.add at hp
        dsimp only at hp
        split at hp <;> obtain ⟨_, -, rfl⟩ := Option.map_eq_some_iff.mp hp <;> rfl
      · simp at h
    · rename_i hc
      obtain ⟨r, h1, rfl⟩ := Option.map_eq_some_iff.mp h
      exact Or.inr (Or.inr ⟨by simpa using hc, hs, h1⟩)

/-- The call that enters elite education. -/
theorem iterate_created {ch : GAChoice α} {g g' : GA α} (hs : g.state = .created)
    (h : iterate env ctx ch g = some g') (hn : g'.state ≠ .terminated) :
    (g'.state = .elite ∧ env.eliteEducation = true ∧ env.eliteLimit < ctx.n - 1 ∧
      g'.rr.acceptance = (if env.eliteTimeBased then
        .time ⟨ch.clock 2, env.eliteDuration, env.eliteTemp, env.eliteTemp, 0, 0, 100, false⟩
        else .iteration ⟨env.eliteTemp, env.eliteTemp, env.eliteIterations, 0⟩)) ∨
    (g'.state = .init ∧ ¬ (env.eliteEducation = true ∧ env.eliteLimit < ctx.n - 1)) := by
  unfold iterate at h
  split at h
  · rw [Option.some.injEq] at h
    subst h
    exact absurd rfl hn
  · rw [hs] at h
    dsimp only at h
    unfold stepCreated at h
    split at h
    · rename_i hc
      obtain ⟨g1, h1, h⟩ := Option.bind_eq_some_iff.mp h
      obtain ⟨g2, h2, h⟩ := Option.bind_eq_some_iff.mp h
      obtain ⟨r, h3, rfl⟩ := Option.map_eq_some_iff.mp h
      rw [Bool.and_eq_true, decide_eq_true_eq] at hc
      refine Or.inl ⟨?_, hc.1, hc.2, ?_⟩
      · show g2.state = .elite
        rw [(educate_frame h2).1]
        unfold runSplit at h1
        obtain ⟨p, -, rfl⟩ := Option.map_eq_some_iff.mp h1
        rfl
      · show r.acceptance = _
        rw [RR.load_acceptance h3]
        unfold setupElite
        dsimp only
        split <;> rfl
    · rename_i hc
      rw [Option.some.injEq] at h
      subst h
      rw [Bool.and_eq_true, decide_eq_true_eq] at hc
      exact Or.inr ⟨rfl, hc⟩

/-- Elite education with `N` rounds after `j` calls. -/
theorem steps_counted {N : ℕ} : ∀ (chs : List (GAChoice α)) (j : ℕ) {g g' : GA α} {s : IterSchedule α},
    g.state = .elite → g.rr.acceptance = .iteration s → s.total = N → s.iteration = min N (1000 * j) →
    steps env ctx chs g = some g' → g'.state ≠ .terminated →
      (1000 * (j + chs.length) < N + 1000 → g'.state = .elite) ∧
      (N + 1000 ≤ 1000 * (j + chs.length) → 1000 * (j + chs.length) < N + 2000 → chs ≠ [] → g'.state = .init)
  | [], j, g, g', s, hs, ha, ht, hi, h, hn => by
    simp only [steps, Option.some.injEq] at h
    subst h
    exact ⟨fun _ => hs, fun _ _ h => absurd rfl h⟩
  | ch :: chs, j, g, g', s, hs, ha, ht, hi, h, hn => by
    unfold steps at h
    rw [if_neg (by rw [hs]; decide)] at h
    obtain ⟨g1, h1, h⟩ := Option.bind_eq_some_iff.mp h
    have hcomp : g.rr.acceptance.completed = decide (N ≤ min N (1000 * j)) := by
      rw [ha, ← hi]
      show decide (s.total ≤ s.iteration) = _
      rw [ht]
    rcases iterate_elite hs h1 with e | ⟨e1, e2, -⟩ | ⟨e1, e2, e3⟩
    · rw [steps_terminated chs e, Option.some.injEq] at h
      subst h
      exact absurd e hn
    · rw [hcomp, decide_eq_true_eq] at e1
      have hNj : N ≤ 1000 * j := by omega
      refine ⟨fun hl => ?_, fun hl hl' _ => ?_⟩
      · simp only [List.length_cons] at hl
        omega
      · simp only [List.length_cons] at hl hl'
        have : chs = [] := by
          rw [← List.length_eq_zero_iff]
          omega
        subst this
        simp only [steps, Option.some.injEq] at h
        subst h
        exact e2
    · rw [hcomp, decide_eq_false_iff_not] at e1
      have hNj : 1000 * j < N := by omega
      obtain ⟨s', a1, a2, a3⟩ := RR.searchLoop_rounds 1000 ha (by omega) e3
      obtain ⟨b1, b2⟩ := steps_counted chs (j + 1) (s := s') e2 a1 (a2.trans ht) (by rw [a3, ht, hi]; omega) h hn
      simp only [List.length_cons]
      refine ⟨fun hl => b1 (by omega), fun hl hl' _ => b2 (by omega) (by omega) ?_⟩
      rintro rfl
      simp only [List.length_nil] at hl
      omega

end

variable {env : GAEnv ℚ} {ctx : Ctx ℚ} {t0 D : ℚ}

/-- Elite education with a time schedule while the clock is before its end. -/
theorem steps_before (hD : 0 < D) : ∀ (chs : List (GAChoice ℚ)) {g g' : GA ℚ} {s : TimeSchedule ℚ},
    g.state = .elite → g.rr.acceptance = .time s → RR.Timed t0 D s → s.completed = false →
    (∀ ch ∈ chs, ∀ i, (ch.rr 0 i).now < t0 + D) → steps env ctx chs g = some g' → g'.state ≠ .terminated →
    g'.state = .elite
  | [], g, g', s, hs, ha, hT, hc, hb, h, hn => by
    simp only [steps, Option.some.injEq] at h
    exact h ▸ hs
  | ch :: chs, g, g', s, hs, ha, hT, hc, hb, h, hn => by
    unfold steps at h
    rw [if_neg (by rw [hs]; decide)] at h
    obtain ⟨g1, h1, h⟩ := Option.bind_eq_some_iff.mp h
    rcases iterate_elite hs h1 with e | ⟨e1, -⟩ | ⟨-, e2, e3⟩
    · rw [steps_terminated chs e, Option.some.injEq] at h
      subst h
      exact absurd e hn
    · rw [ha] at e1
      have e1 : s.completed = true := e1
      rw [hc] at e1
      simp at e1
    · obtain ⟨s', a1, a2, a3, -⟩ := RR.searchLoop_timed 1000 ha hT e3
      exact steps_before hD chs e2 a1 a2 (a3 hD hc fun i => hb ch (by simp) i) (fun c hc' => hb c (by simp [hc'])) h hn

/-- Elite education with a time schedule ends at the call after one that lies past its end. -/
theorem steps_after (hD : 0 < D) {c1 c2 : GAChoice ℚ} (hc1 : ∀ i, t0 + D ≤ (c1.rr 0 i).now) :
    ∀ (chs : List (GAChoice ℚ)) {g g' : GA ℚ} {s : TimeSchedule ℚ}, g.state = .elite →
      g.rr.acceptance = .time s → RR.Timed t0 D s → steps env ctx (chs ++ [c1, c2]) g = some g' →
      ∃ pre g'', pre <+: chs ++ [c1, c2] ∧ steps env ctx pre g = some g'' ∧
        (g''.state = .init ∨ g''.state = .terminated)
  | [], g, g', s, hs, ha, hT, h => by
    rw [List.nil_append] at h ⊢
    unfold steps at h
    rw [if_neg (by rw [hs]; decide)] at h
    obtain ⟨g1, h1, h⟩ := Option.bind_eq_some_iff.mp h
    have one : steps env ctx [c1] g = some g1 := by
      unfold steps
      rw [if_neg (by rw [hs]; decide), h1]
      rfl
    rcases iterate_elite hs h1 with e | ⟨-, e, -⟩ | ⟨-, e2, e3⟩
    · exact ⟨[c1], g1, ⟨[c2], rfl⟩, one, Or.inr e⟩
    · exact ⟨[c1], g1, ⟨[c2], rfl⟩, one, Or.inl e⟩
    · obtain ⟨s', a1, a2, -, a4⟩ := RR.searchLoop_timed 1000 ha hT e3
      have hcomp := a4 hD (by omega) hc1
      unfold steps at h
      rw [if_neg (by rw [e2]; decide)] at h
      obtain ⟨g2, h2, h⟩ := Option.bind_eq_some_iff.mp h
      have two : steps env ctx [c1, c2] g = some g2 := by
        unfold steps
        rw [if_neg (by rw [hs]; decide), h1, Option.bind_some]
        unfold steps
        rw [if_neg (by rw [e2]; decide), h2]
        rfl
      refine ⟨[c1, c2], g2, List.prefix_refl _, two, ?_⟩
      rcases iterate_elite e2 h2 with e | ⟨-, e, -⟩ | ⟨e, -⟩
      · exact Or.inr e
      · exact Or.inl e
      · rw [a1] at e
        have e : s'.completed = false := e
        rw [hcomp] at e
        simp at e
  | ch :: chs, g, g', s, hs, ha, hT, h => by
    rw [List.cons_append] at h ⊢
    unfold steps at h
    rw [if_neg (by rw [hs]; decide)] at h
    obtain ⟨g1, h1, h⟩ := Option.bind_eq_some_iff.mp h
    have one : ∀ pre g'', steps env ctx pre g1 = some g'' → steps env ctx (ch :: pre) g = some g'' := by
      intro pre g'' hp
      unfold steps
      rw [if_neg (by rw [hs]; decide), h1, Option.bind_some, hp]
    rcases iterate_elite hs h1 with e | ⟨-, e, -⟩ | ⟨-, e2, e3⟩
    · exact ⟨[ch], g1, ⟨_, rfl⟩, one [] g1 rfl, Or.inr e⟩
    · exact ⟨[ch], g1, ⟨_, rfl⟩, one [] g1 rfl, Or.inl e⟩
    · obtain ⟨s', a1, a2, -⟩ := RR.searchLoop_timed 1000 ha hT e3
      obtain ⟨pre, g'', p1, p2, p3⟩ := steps_after hD hc1 chs e2 a1 a2 h
      obtain ⟨suf, p1⟩ := p1
      exact ⟨ch :: pre, g'', ⟨suf, by rw [List.cons_append, p1]⟩, one _ _ p2, p3⟩

end GA

/-! ### The claims, for the settings of the program -/

/-- **C82**, when. The call in the state `Created` (the first one and the first after each restart) enters elite
education exactly when it is switched on and there are more customers than the limit. -/
theorem C82_when {α : Type} [F64 α] (env : GAEnv α) (ctx : Ctx α) (ch : GAChoice α) (g g' : GA α)
    (hs : g.state = .created) (h : GA.iterate env ctx ch g = some g') (hn : g'.state ≠ .terminated) :
    (g'.state = .elite ↔ env.eliteEducation = true ∧ env.eliteLimit < ctx.n - 1) ∧
    (g'.state ≠ .elite → g'.state = .init) := by
  rcases GA.iterate_created hs h hn with ⟨a, b, c, -⟩ | ⟨a, b⟩
  · exact ⟨⟨fun _ => ⟨b, c⟩, fun _ => a⟩, fun h => absurd a h⟩
  · exact ⟨⟨fun h => by rw [a] at h; simp at h, fun h => absurd h b⟩, fun _ => a⟩

/-- **C82**, rounds. Counted in rounds, elite education makes `round(gamma · customers)` rounds of ruin and
recreate, at most 1000 per call: it lasts for exactly as many calls as are needed for them, and the call after
these goes on to the initial individuals. Exact arithmetic for the number of rounds. -/
theorem C82_rounds (lib : Lib ℚ) (cfg : Settings ℚ) (ctx : Ctx ℚ) (d : DistMatrix ℚ) (c : Correlation)
    (hg : 0 ≤ cfg.eliteGamma) (hb : cfg.eliteTimeBased = false) (ch : GAChoice ℚ) (g0 g1 g : GA ℚ)
    (hs : g0.state = .created) (h : GA.iterate (Program.gaEnv lib cfg ctx d c) ctx ch g0 = some g1)
    (he : g1.state = .elite) (chs : List (GAChoice ℚ))
    (hrun : GA.steps (Program.gaEnv lib cfg ctx d c) ctx chs g1 = some g) (hn : g.state ≠ .terminated) :
    ∃ N : ℕ, |cfg.eliteGamma * (ctx.n - 1 : ℕ) - N| ≤ 1 / 2 ∧
      (1000 * chs.length < N + 1000 → g.state = .elite) ∧
      (N + 1000 ≤ 1000 * chs.length → 1000 * chs.length < N + 2000 → g.state = .init) := by
  rcases GA.iterate_created hs h (by rw [he]; decide) with ⟨-, -, -, a⟩ | ⟨a, -⟩
  · rw [if_neg (by rw [show (Program.gaEnv lib cfg ctx d c).eliteTimeBased = cfg.eliteTimeBased from rfl, hb]; decide)] at a
    refine ⟨(Program.gaEnv lib cfg ctx d c).eliteIterations, ?_, ?_⟩
    · show |_ - ((toNat (F64.round (cfg.eliteGamma *. lit (ctx.n - 1 : ℕ))) : ℕ) : ℚ)| ≤ 1 / 2
      have h0 : 0 ≤ cfg.eliteGamma * (ctx.n - 1 : ℕ) := mul_nonneg hg (Nat.cast_nonneg _)
      simp only [rat_toNat, rat_mul, rat_lit, rat_round, ratRound, if_pos h0, Int.floor_intCast]
      have f0 : 0 ≤ ⌊cfg.eliteGamma * ((ctx.n - 1 : ℕ) : ℚ) + 1 / 2⌋ := Int.floor_nonneg.mpr (by linarith)
      have f1 := Int.floor_le (cfg.eliteGamma * ((ctx.n - 1 : ℕ) : ℚ) + 1 / 2)
      have f2 := Int.lt_floor_add_one (cfg.eliteGamma * ((ctx.n - 1 : ℕ) : ℚ) + 1 / 2)
      have f3 : (((⌊cfg.eliteGamma * ((ctx.n - 1 : ℕ) : ℚ) + 1 / 2⌋).toNat : ℕ) : ℚ) =
          ((⌊cfg.eliteGamma * ((ctx.n - 1 : ℕ) : ℚ) + 1 / 2⌋ : ℤ) : ℚ) := by
        exact_mod_cast congrArg (Int.cast (R := ℚ)) (Int.toNat_of_nonneg f0)
      rw [f3, abs_le]
      constructor <;> linarith
    · obtain ⟨b1, b2⟩ := GA.steps_counted chs 0 he a rfl (by simp) hrun hn
      rw [Nat.zero_add] at b1 b2
      refine ⟨b1, fun x y => b2 x y ?_⟩
      rintro rfl
      simp only [List.length_nil] at x
      omega
  · rw [he] at a
    simp at a

/-- **C82**, time. Counted by the clock, elite education lasts `time limit · fraction` seconds from its start: as
long as the clock is read before that it goes on, and it is over (or the run is) at the latest with the call after
the first call that lies wholly behind that. -/
theorem C82_time (lib : Lib ℚ) (cfg : Settings ℚ) (ctx : Ctx ℚ) (d : DistMatrix ℚ) (c : Correlation)
    (hD : 0 < cfg.timeLimit * cfg.eliteFraction) (hb : cfg.eliteTimeBased = true) (ch : GAChoice ℚ) (g0 g1 : GA ℚ)
    (hs : g0.state = .created) (h : GA.iterate (Program.gaEnv lib cfg ctx d c) ctx ch g0 = some g1)
    (he : g1.state = .elite) :
    (∀ (chs : List (GAChoice ℚ)) (g : GA ℚ),
      (∀ c ∈ chs, ∀ i, (c.rr 0 i).now < ch.clock 2 + cfg.timeLimit * cfg.eliteFraction) →
      GA.steps (Program.gaEnv lib cfg ctx d c) ctx chs g1 = some g → g.state ≠ .terminated → g.state = .elite) ∧
    (∀ (chs : List (GAChoice ℚ)) (c1 c2 : GAChoice ℚ) (g : GA ℚ),
      (∀ i, ch.clock 2 + cfg.timeLimit * cfg.eliteFraction ≤ (c1.rr 0 i).now) →
      GA.steps (Program.gaEnv lib cfg ctx d c) ctx (chs ++ [c1, c2]) g1 = some g →
      ∃ pre g', pre <+: chs ++ [c1, c2] ∧ GA.steps (Program.gaEnv lib cfg ctx d c) ctx pre g1 = some g' ∧
        (g'.state = .init ∨ g'.state = .terminated)) := by
  rcases GA.iterate_created hs h (by rw [he]; decide) with ⟨-, -, -, a⟩ | ⟨a, -⟩
  · rw [if_pos (by rw [show (Program.gaEnv lib cfg ctx d c).eliteTimeBased = cfg.eliteTimeBased from rfl, hb])] at a
    have hT : RR.Timed (ch.clock 2) (cfg.timeLimit * cfg.eliteFraction)
        (⟨ch.clock 2, (Program.gaEnv lib cfg ctx d c).eliteDuration, (Program.gaEnv lib cfg ctx d c).eliteTemp,
          (Program.gaEnv lib cfg ctx d c).eliteTemp, 0, 0, 100, false⟩ : TimeSchedule ℚ) := by
      refine ⟨rfl, ?_, rfl, by norm_num⟩
      show lit (cfg.timeLimit : ℚ) *. cfg.eliteFraction = _
      rw [rat_mul, rat_lit]
    exact ⟨fun chs g hlt hrun hn => GA.steps_before hD chs he a hT rfl hlt hrun hn,
      fun chs c1 c2 g hle hrun => GA.steps_after hD hle chs he a hT hrun⟩
  · rw [he] at a
    simp at a

/-- **C82**, end. The call that ends elite education sets the penalty back to the one at start-up, and the
individual it adds leaves the record of outcomes as it is. -/
theorem C82_end {α : Type} [F64 α] (env : GAEnv α) (ctx : Ctx α) (ch : GAChoice α) (g g' : GA α)
    (hs : g.state = .elite) (h : GA.iterate env ctx ch g = some g') (hi : g'.state = .init) :
    g'.rr.pen = env.initialPen ∧ g'.pop.history = g.pop.history := by
  rcases GA.iterate_elite hs h with e | ⟨-, -, e⟩ | ⟨-, e, -⟩
  · rw [hi] at e; simp at e
  · exact e
  · rw [hi] at e; simp at e

/-! ### Cases -/

namespace EliteTimeEx

/-- Elite education for the three customers of the instance of `ProgramEx`: three rounds, or 5 seconds. -/
def cfg (timed : Bool) : Settings ℚ :=
  { ProgramEx.cfg with
    eliteEducation := true
    eliteLimit := 2
    eliteGamma := 1
    eliteTimeBased := timed
    timeLimit := 10
    eliteFraction := 1 / 2
    eliteTemp := 1 }

/-- The instance. -/
def problem : Parsed ℚ := (parseInstance ProgramEx.lib.num ProgramEx.text).get (by decide +kernel)

/-- Distances and neighbour lists. -/
def built : DistMatrix ℚ × Correlation :=
  (Program.matrices ProgramEx.lib (cfg true) problem).get (by decide +kernel)

def ctx : Ctx ℚ := Program.context ProgramEx.lib problem built.1
def env (timed : Bool) : GAEnv ℚ := Program.gaEnv ProgramEx.lib (cfg timed) ctx built.1 built.2

/-- The clock shows `t` in all rounds of the call. -/
def ch (t : ℚ) : GAChoice ℚ :=
  { GeneticEx.choice 0 0 with rr := fun _ _ => { (GeneticEx.choice 0 0).rr 0 0 with now := t } }

/-- The state after some calls. -/
def after (timed : Bool) (chs : List (GAChoice ℚ)) : Option GAState :=
  (GA.steps (env timed) ctx chs (GA.new (env timed) ctx fun _ => 0)).map (·.state)

theorem enters (timed : Bool) :
    ∃ g1, GA.iterate (env timed) ctx (ch 0) (GA.new (env timed) ctx fun _ => 0) = some g1 ∧ g1.state = .elite := by
  have h : ∀ b, (GA.iterate (env b) ctx (ch 0) (GA.new (env b) ctx fun _ => 0)).map (·.state) = some .elite := by
    decide +kernel
  exact Option.map_eq_some_iff.mp (h timed)

/-- Counted in rounds: the three rounds are made in one call, and the next one ends elite education. -/
example : after false [ch 0] = some .elite ∧ after false [ch 0, ch 0] = some .elite ∧
    after false [ch 0, ch 0, ch 0] = some .init := by decide +kernel

/-- By the clock: at 5 seconds it is over, before it goes on. -/
example : after true [ch 0, ch 5] = some .elite ∧ after true [ch 0, ch 5, ch 5] = some .init := by decide +kernel

/-- The theorems apply to these runs. -/
example : ∃ g1, GA.iterate (env false) ctx (ch 0) (GA.new (env false) ctx fun _ => 0) = some g1 ∧
    ∀ chs g, GA.steps (env false) ctx chs g1 = some g → g.state ≠ .terminated → ∃ N : ℕ, |(3 : ℚ) - N| ≤ 1 / 2 ∧
      (1000 * chs.length < N + 1000 → g.state = .elite) ∧
      (N + 1000 ≤ 1000 * chs.length → 1000 * chs.length < N + 2000 → g.state = .init) := by
  obtain ⟨g1, h1, h2⟩ := enters false
  refine ⟨g1, h1, fun chs g hr hn => ?_⟩
  have := C82_rounds ProgramEx.lib (cfg false) ctx built.1 built.2 (by decide +kernel) rfl (ch 0) _ g1 g rfl h1 h2 chs
    hr hn
  rwa [show (cfg false).eliteGamma * ((ctx.n - 1 : ℕ) : ℚ) = 3 by decide +kernel] at this

example : ∃ g1, GA.iterate (env true) ctx (ch 0) (GA.new (env true) ctx fun _ => 0) = some g1 ∧
    ∀ chs g, (∀ c ∈ chs, ∀ i, (c.rr 0 i).now < 5) → GA.steps (env true) ctx chs g1 = some g →
      g.state ≠ .terminated → g.state = .elite := by
  obtain ⟨g1, h1, h2⟩ := enters true
  refine ⟨g1, h1, fun chs g hb hr hn => ?_⟩
  refine (C82_time ProgramEx.lib (cfg true) ctx built.1 built.2 (by decide +kernel) rfl (ch 0) _ g1 rfl h1 h2).1 chs g
    (fun c hc i => ?_) hr hn
  rw [show (ch 0).clock 2 + ((cfg true).timeLimit : ℚ) * (cfg true).eliteFraction = 5 by decide +kernel]
  exact hb c hc i

end EliteTimeEx

end Verif
