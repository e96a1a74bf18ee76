import Verif.Props.LogLineExamples
import Verif.Props.EliteTime

/-!
# C91: when a line is logged
-/

namespace Verif
open F64

/-- Is a log line due in crossover iteration `i`? `k` is the interval, `s` the iteration of the latest restart, if any.
Without elite education as for the penalty: every `k` iterations from iteration 0 on or from the restart on, and in the
first iteration after a restart. With elite education the line at its end takes the place of the first of these. -/
def Spec.LogDue (k : ℕ) (elite : Bool) (s : Option ℕ) (i : ℕ) : Prop :=
  if elite then s.getD 0 < i ∧ k ∣ i - s.getD 0
  else s = none ∧ k ∣ i ∨ ∃ r, s = some r ∧ (i = r + 1 ∨ k ∣ i - r)

/-- Is there elite education? -/
def Spec.hasElite {α : Type} (env : GAEnv α) (ctx : Ctx α) : Bool :=
  env.eliteEducation && decide (env.eliteLimit < ctx.n - 1)

variable {α : Type} [F64 α] {env : GAEnv α} {ctx : Ctx α} {ok : GAChoice α → Prop}

namespace GA

/-- What the end of a cycle does to the log counter. -/
theorem finishCycle_log {g g' : GA α} (h : finishCycle env ctx g = some g') (hs : g.state = .cycle) :
    g'.iterations = g.iterations + 1 ∧ ((g'.state = .created ∧ g'.nextLog = g.iterations) ∨
      (g'.state = .cycle ∧ g'.nextLog =
        if g.nextLog ≤ g.iterations then g.nextLog + env.logInterval else g.nextLog)) := by
  unfold finishCycle at h
  obtain ⟨g1, h1, h⟩ := Option.bind_eq_some_iff.mp h
  obtain ⟨g2, h2, h⟩ := Option.bind_eq_some_iff.mp h
  split at h
  · rw [Option.some.injEq] at h
    have w1 : g1.iterations = g.iterations ∧ g1.state = g.state ∧ g1.nextLog = g.nextLog := by
      split at h1
      · unfold updatePenalty at h1
        obtain ⟨p, hp, rfl⟩ := Option.map_eq_some_iff.mp h1
        exact ⟨rfl, rfl, rfl⟩
      · rw [Option.some.injEq] at h1
        subst h1
        exact ⟨rfl, rfl, rfl⟩
    have w2 : g2.iterations = g1.iterations ∧ g2.state = g1.state ∧ g2.nextLog =
        if g1.nextLog ≤ g1.iterations then g1.nextLog + env.logInterval else g1.nextLog := by
      split at h2
      · rename_i hc
        obtain ⟨-, rfl⟩ := log_some h2
        exact ⟨rfl, rfl, by rw [if_pos hc]⟩
      · rename_i hc
        rw [Option.some.injEq] at h2
        subst h2
        exact ⟨rfl, rfl, by rw [if_neg hc]⟩
    rw [w1.1, w1.2.1, w1.2.2] at w2
    rw [← h]
    dsimp only
    split
    · exact ⟨by show g2.iterations + 1 = _; rw [w2.1], Or.inl ⟨rfl, w2.1⟩⟩
    · exact ⟨by show g2.iterations + 1 = _; rw [w2.1], Or.inr ⟨w2.2.1.trans hs, w2.2.2⟩⟩
  · simp at h

/-- What a call of `iterate` that does not end the run does to the log counter. -/
theorem iterate_counts {ch : GAChoice α} {g g' : GA α} (h : iterate env ctx ch g = some g')
    (ht : terminateNow env.timeLimit env.maxIterations ch.elapsed g.ctxIteration = false)
    (hn : g.state ≠ .terminated) :
    (g.state = .created ∧ g'.state = (if Spec.hasElite env ctx then .elite else .init) ∧
      g'.iterations = g.iterations ∧ g'.nextLog = g.nextLog ∨
    g.state = .elite ∧ g'.iterations = g.iterations ∧
      (g.rr.acceptance.completed = false ∧ g'.state = .elite ∧ g'.nextLog = g.nextLog ∨
       g.rr.acceptance.completed = true ∧ g'.state = .init ∧ g'.nextLog = g.nextLog + env.logInterval) ∨
    g.state = .init ∧ (g'.state = .init ∨ g'.state = .cycle) ∧ g'.iterations = g.iterations ∧ g'.nextLog = g.nextLog ∨
    g.state = .cycle ∧ g'.iterations = g.iterations + 1 ∧ ((g'.state = .created ∧ g'.nextLog = g.iterations) ∨
      (g'.state = .cycle ∧ g'.nextLog =
        if g.nextLog ≤ g.iterations then g.nextLog + env.logInterval else g.nextLog))) := by
  unfold iterate at h
  rw [ht] at h
  simp only [Bool.false_eq_true, if_false] at h
  · split at h
    · rename_i hs
      left
      refine ⟨hs, ?_⟩
      unfold stepCreated at h
      unfold Spec.hasElite
      split at h
      · rename_i hc
        obtain ⟨g1, h1, h⟩ := Option.bind_eq_some_iff.mp h
        obtain ⟨g2, h2, h⟩ := Option.bind_eq_some_iff.mp h
        obtain ⟨r, -, rfl⟩ := Option.map_eq_some_iff.mp h
        have f := (runSplit_frame h1).trans (educate_frame h2)
        exact ⟨by rw [if_pos hc]; exact f.state, f.iterations, f.nextLog⟩
      · rename_i hc
        rw [Option.some.injEq] at h
        subst h
        exact ⟨by rw [if_neg hc], rfl, rfl⟩
    · rename_i hs
      right; left
      unfold stepElite at h
      split at h
      · rename_i hc
        obtain ⟨x, -, h⟩ := Option.bind_eq_some_iff.mp h
        obtain ⟨g2, h2, h⟩ := Option.bind_eq_some_iff.mp h
        obtain ⟨-, rfl⟩ := log_some h
        have f := (updateBest_frame { g with state := .init, child := x }).trans (addToPop_frame h2)
        exact ⟨hs, f.iterations, Or.inr ⟨hc, f.state, congrArg (· + env.logInterval) f.nextLog⟩⟩
      · rename_i hc
        obtain ⟨r, -, rfl⟩ := Option.map_eq_some_iff.mp h
        exact ⟨hs, rfl, Or.inl ⟨by simpa using hc, hs, rfl⟩⟩
    · rename_i hs
      right; right; left
      unfold stepInit at h
      split at h
      · obtain ⟨⟨x, g1⟩, h1, h⟩ := Option.bind_eq_some_iff.mp h
        obtain ⟨g2, h2, rfl⟩ := Option.map_eq_some_iff.mp h
        have f := (createInitial_frame h1).trans (addToPop_frame h2)
        exact ⟨hs, Or.inl (f.state.trans hs), f.iterations, f.nextLog⟩
      · rw [Option.some.injEq] at h
        subst h
        exact ⟨hs, Or.inr rfl, rfl, rfl⟩
    · rename_i hs
      right; right; right
      unfold stepCycle at h
      obtain ⟨g1, h1, h⟩ := Option.bind_eq_some_iff.mp h
      obtain ⟨g2, h2, h⟩ := Option.bind_eq_some_iff.mp h
      have f := (breed_frame h1).trans (addToPop_frame h2)
      have k := finishCycle_log h (f.state.trans hs)
      rw [f.iterations, f.nextLog] at k
      exact ⟨hs, k⟩
    · rename_i hs
      exact absurd hs hn

theorem iterate_times {ch : GAChoice α} {g g' : GA α} (h : iterate env ctx ch g = some g')
    (hn : g'.state ≠ .terminated) :
    terminateNow env.timeLimit env.maxIterations ch.elapsed g.ctxIteration = false ∧
    (g.state = .created ∧ g'.state = (if Spec.hasElite env ctx then .elite else .init) ∧
      g'.iterations = g.iterations ∧ g'.nextLog = g.nextLog ∨
    g.state = .elite ∧ g'.iterations = g.iterations ∧
      (g.rr.acceptance.completed = false ∧ g'.state = .elite ∧ g'.nextLog = g.nextLog ∨
       g.rr.acceptance.completed = true ∧ g'.state = .init ∧ g'.nextLog = g.nextLog + env.logInterval) ∨
    g.state = .init ∧ (g'.state = .init ∨ g'.state = .cycle) ∧ g'.iterations = g.iterations ∧ g'.nextLog = g.nextLog ∨
    g.state = .cycle ∧ g'.iterations = g.iterations + 1 ∧ ((g'.state = .created ∧ g'.nextLog = g.iterations) ∨
      (g'.state = .cycle ∧ g'.nextLog =
        if g.nextLog ≤ g.iterations then g.nextLog + env.logInterval else g.nextLog))) := by
  cases ht : terminateNow env.timeLimit env.maxIterations ch.elapsed g.ctxIteration with
  | true =>
    unfold iterate at h
    rw [ht, if_pos rfl, Option.some.injEq] at h
    subst h
    exact absurd rfl hn
  | false =>
    refine ⟨rfl, iterate_counts h ht fun hs => hn ?_⟩
    unfold iterate at h
    rw [ht, hs] at h
    simp only [Bool.false_eq_true, if_false, Option.some.injEq] at h
    rw [← h, hs]

/-- Where `next_log_interval` stands with elite education; `b` is the iteration of the latest restart or 0. -/
def EliteTimes (k b : ℕ) (s : Option ℕ) (st : GAState) (i next : ℕ) : Prop :=
  if st = .created ∨ st = .elite then next = b ∧ i = s.elim 0 (· + 1)
  else b < next ∧ k ∣ next - b ∧ b ≤ i ∧ i ≤ next ∧ next - b < max (i - b) 1 + k

/-- Where `next_log_interval` stands. -/
def LogTimes (k : ℕ) (e : Bool) (s : Option ℕ) (st : GAState) (i next : ℕ) : Prop :=
  if e then EliteTimes k (s.getD 0) s st i next else st ≠ .elite ∧ OnTime k s i next

theorem Run.logTimes (hk : 1 ≤ env.logInterval) {s : Option ℕ} {g : GA α} (h : Run env ctx ok s g)
    (hn : g.state ≠ .terminated) :
    LogTimes env.logInterval (Spec.hasElite env ctx) s g.state g.iterations g.nextLog := by
  induction h with
  | new ω =>
    unfold LogTimes
    split
    · exact ⟨rfl, rfl⟩
    · exact ⟨by simp [GA.new], dvd_zero _, le_refl _, by show 0 < 0 + _; omega⟩
  | @restart s g g' ch r hok h h1 h2 ih =>
    obtain ⟨-, k⟩ := iterate_times h hn
    rw [h1, h2] at k
    simp only [reduceCtorEq, false_and, true_and, false_or, or_false, and_false] at k
    rw [h2, k.1, k.2]
    unfold LogTimes
    split
    · exact ⟨rfl, rfl⟩
    · exact ⟨by simp, by omega, le_refl _, by simp, Or.inl ⟨rfl, rfl⟩⟩
  | @step s g g' ch r hok h h1 ih =>
    have hg : g.state ≠ .terminated := by
      intro e
      obtain ⟨-, k⟩ := iterate_times h hn
      rw [e] at k
      simp at k
    have ih := ih hg
    obtain ⟨-, k⟩ := iterate_times h hn
    unfold LogTimes at ih ⊢
    cases he : Spec.hasElite env ctx with
    | false =>
      rw [he] at ih k
      simp only [Bool.false_eq_true, if_false] at ih k ⊢
      obtain ⟨ne, ih⟩ := ih
      rcases k with ⟨-, k1, k2, k3⟩ | ⟨k1, -⟩ | ⟨-, k1, k2, k3⟩ | ⟨k1, k2, ⟨k3, -⟩ | ⟨k3, k4⟩⟩
      · rw [k1, k2, k3]
        exact ⟨by simp, ih⟩
      · exact absurd k1 ne
      · rw [k2, k3]
        exact ⟨by rcases k1 with k1 | k1 <;> rw [k1] <;> simp, ih⟩
      · exact absurd ⟨k1, k3⟩ h1
      · rw [k2, k3, k4]
        exact ⟨by simp, ih.next hk⟩
    | true =>
      rw [he] at ih k
      simp only [if_true] at ih k ⊢
      have hb : s.elim 0 (· + 1) ≤ s.getD 0 + 1 ∧ s.getD 0 ≤ s.elim 0 (· + 1) := by cases s <;> simp
      generalize s.getD 0 = b at ih hb ⊢
      unfold EliteTimes at ih ⊢
      rcases k with ⟨k0, k1, k2, k3⟩ | ⟨k0, k2, ⟨-, k3, k4⟩ | ⟨-, k3, k4⟩⟩ | ⟨k0, k1, k2, k3⟩ | ⟨k1, k2, ⟨k3, -⟩ | ⟨k3, k4⟩⟩
      · rw [k0] at ih
        rw [k1, k2, k3]
        simpa using ih
      · rw [k0] at ih
        rw [k2, k3, k4]
        simpa using ih
      · rw [k0] at ih
        rw [k2, k3, k4]
        simp only [reduceCtorEq, or_true, if_true, or_self, if_false] at ih ⊢
        obtain ⟨e1, e2⟩ := ih
        rw [e1]
        rw [← e2] at hb
        have : max (g.iterations - b) 1 = 1 := by
          rw [max_def]; split <;> omega
        rw [this]
        refine ⟨by omega, by simp, by omega, by omega, by omega⟩
      · rw [k0] at ih
        rw [k2, k3]
        simp only [reduceCtorEq, or_self, if_false] at ih
        rcases k1 with k1 | k1 <;> rw [k1] <;> simpa using ih
      · exact absurd ⟨k1, k3⟩ h1
      · rw [k1] at ih
        rw [k2, k3, k4]
        simp only [reduceCtorEq, or_self, if_false] at ih ⊢
        obtain ⟨e1, e2, e3, e4, e5⟩ := ih
        have m1 : max (g.iterations + 1 - b) 1 = g.iterations - b + 1 := by
          rw [max_def]; split <;> omega
        have m2 : max (g.iterations - b) 1 ≤ g.iterations - b + 1 := by
          rw [max_def]; split <;> omega
        rw [m1]
        split
        · refine ⟨by omega, ?_, by omega, by omega, by omega⟩
          rw [Nat.sub_add_comm e1.le]
          exact Nat.dvd_add_self_right.mpr e2
        · exact ⟨e1, e2, by omega, by omega, by omega⟩

/-- In the cycle: the counter is reached exactly when a line is due. -/
theorem LogTimes.due {k : ℕ} (hk : 1 ≤ k) {e : Bool} {s : Option ℕ} {i next : ℕ}
    (h : LogTimes k e s .cycle i next) : next ≤ i ↔ Spec.LogDue k e s i := by
  unfold LogTimes at h
  unfold Spec.LogDue
  cases e with
  | false =>
    simp only [Bool.false_eq_true, if_false] at h ⊢
    rw [h.2.due hk]
    cases s <;> simp [Spec.PenaltyDue]
  | true =>
    simp only [if_true] at h ⊢
    generalize s.getD 0 = b at h ⊢
    unfold EliteTimes at h
    simp only [reduceCtorEq, or_self, if_false] at h
    obtain ⟨e1, e2, e3, e4, e5⟩ := h
    constructor
    · intro h
      have : next = i := by omega
      exact ⟨by omega, this ▸ e2⟩
    · rintro ⟨h1, h2⟩
      by_contra hc
      have := Nat.le_of_dvd (by omega) ((Nat.dvd_sub e2 h2) : k ∣ next - b - (i - b))
      rw [max_def] at e5
      split at e5 <;> omega

/-- Which iteration a line names. -/
theorem logLine_iteration {g : GA α} {l : LogLine α} (h : logLine env ctx g = some l) :
    l.iterations = g.iterations := by
  unfold logLine at h
  split at h
  · obtain ⟨df, -, h⟩ := Option.bind_eq_some_iff.mp h
    obtain ⟨di, -, rfl⟩ := Option.map_eq_some_iff.mp h
    rfl
  · simp at h

/-- When a call logs a line, and which iteration the line names. -/
theorem stepLog_when {ch : GAChoice α} {g : GA α} {line : Option (LogLine α)}
    (h : stepLog env ctx ch g = some line)
    (hn : terminateNow env.timeLimit env.maxIterations ch.elapsed g.ctxIteration = false) :
    (line.isSome ↔ g.state = .cycle ∧ g.nextLog ≤ g.iterations ∨
      g.state = .elite ∧ g.rr.acceptance.completed = true) ∧
    ∀ l, line = some l → l.iterations = g.iterations := by
  unfold stepLog at h
  rw [hn] at h
  simp only [Bool.false_eq_true, if_false] at h
  split at h
  · rename_i hs
    rw [hs]
    unfold eliteLog at h
    split at h
    · rename_i hc
      obtain ⟨x, -, h⟩ := Option.bind_eq_some_iff.mp h
      obtain ⟨g2, h2, h⟩ := Option.bind_eq_some_iff.mp h
      obtain ⟨l, h3, rfl⟩ := Option.map_eq_some_iff.mp h
      have f := (updateBest_frame { g with state := .init, child := x }).trans (addToPop_frame h2)
      have e := logLine_iteration h3
      refine ⟨by simp [hc], fun l' hl => ?_⟩
      simp only [Option.some.injEq] at hl
      subst hl
      exact e.trans f.iterations
    · rename_i hc
      rw [Option.some.injEq] at h
      subst h
      simp [hc]
  · rename_i hs
    rw [hs]
    unfold cycleLog at h
    obtain ⟨g1, h1, h⟩ := Option.bind_eq_some_iff.mp h
    obtain ⟨g2, h2, h⟩ := Option.bind_eq_some_iff.mp h
    obtain ⟨g3, h3, h⟩ := Option.bind_eq_some_iff.mp h
    have f := (breed_frame h1).trans (addToPop_frame h2)
    have w : g3.iterations = g2.iterations ∧ g3.nextLog = g2.nextLog := by
      split at h3
      · unfold updatePenalty at h3
        obtain ⟨p, hp, rfl⟩ := Option.map_eq_some_iff.mp h3
        exact ⟨rfl, rfl⟩
      · rw [Option.some.injEq] at h3
        subst h3
        exact ⟨rfl, rfl⟩
    rw [f.iterations, f.nextLog] at w
    dsimp only at w
    rw [w.1, w.2] at h
    split at h
    · rename_i hc
      obtain ⟨l, h3, rfl⟩ := Option.map_eq_some_iff.mp h
      refine ⟨by simp [hc], fun l' hl => ?_⟩
      simp only [Option.some.injEq] at hl
      subst hl
      exact (logLine_iteration h3).trans w.1
    · rename_i hc
      rw [Option.some.injEq] at h
      subst h
      simp [hc]
  · rename_i h1 h2
    rw [Option.some.injEq] at h
    subst h
    exact ⟨by simp [show ¬ g.state = .elite from h1, show ¬ g.state = .cycle from h2], by simp⟩

end GA

/-- **C91.** With an interval of at least one, a call of `iterate` that does not end the run logs a line exactly if it
is a crossover iteration that `Spec.LogDue` names or the last call of elite education; the line names the current
iteration, and elite education takes place in iteration 0 or in the one after a restart. In any arithmetic. -/
theorem C91_log_times {α : Type} [F64 α] (env : GAEnv α) (ctx : Ctx α) (ok : GAChoice α → Prop)
    (hk : 1 ≤ env.logInterval) (s : Option ℕ) (g g' : GA α) (h : GA.Run env ctx ok s g) (ch : GAChoice α)
    (hi : GA.iterate env ctx ch g = some g') (hn : g'.state ≠ .terminated) (line : Option (LogLine α))
    (hl : GA.stepLog env ctx ch g = some line) :
    (line.isSome ↔ g.state = .cycle ∧ Spec.LogDue env.logInterval (Spec.hasElite env ctx) s g.iterations ∨
      g.state = .elite ∧ g'.state = .init) ∧
    (∀ l, line = some l → l.iterations = g.iterations) ∧
    (g.state = .elite → Spec.hasElite env ctx = true ∧ g.iterations = s.elim 0 (· + 1)) := by
  obtain ⟨ht, k⟩ := GA.iterate_times hi hn
  obtain ⟨w1, w2⟩ := GA.stepLog_when hl ht
  have hg : g.state ≠ .terminated := by
    intro e
    rw [e] at k
    simp at k
  have hT := h.logTimes hk hg
  refine ⟨?_, w2, ?_⟩
  · rw [w1]
    refine or_congr (and_congr_right fun hc => ?_) (and_congr_right fun he => ?_)
    · rw [hc] at hT
      exact hT.due hk
    · rw [he] at k
      simp only [reduceCtorEq, false_and, true_and, false_or, or_false] at k
      rcases k with ⟨-, ⟨k1, k2, -⟩ | ⟨k1, k2, -⟩⟩ <;> simp [k1, k2]
  · intro he
    unfold GA.LogTimes at hT
    split at hT
    · rename_i hc
      refine ⟨hc, ?_⟩
      unfold GA.EliteTimes at hT
      rw [he] at hT
      simp only [or_true, if_true] at hT
      exact hT.2
    · exact absurd he hT.1

/-- What the first call of a run logs, and what remains. -/
theorem GA.lines_cons {ch : GAChoice α} {chs : List (GAChoice α)} {g : GA α} {ls : List (LogLine α)}
    (h : GA.lines env ctx (ch :: chs) g = some ls) :
    ls = [] ∨ ∃ line g' ls', GA.stepLog env ctx ch g = some line ∧ GA.iterate env ctx ch g = some g' ∧
      g'.state ≠ .terminated ∧ GA.lines env ctx chs g' = some ls' ∧ ls = line.toList ++ ls' := by
  rw [GA.lines] at h
  split at h
  · rw [Option.some.injEq] at h
    exact Or.inl h.symm
  · rename_i hg
    obtain ⟨line, h1, h⟩ := Option.bind_eq_some_iff.mp h
    obtain ⟨g', h2, h⟩ := Option.bind_eq_some_iff.mp h
    obtain ⟨ls', h3, rfl⟩ := Option.map_eq_some_iff.mp h
    cases ht : terminateNow env.timeLimit env.maxIterations ch.elapsed g.ctxIteration with
    | true =>
      left
      unfold GA.stepLog at h1
      rw [ht, if_pos rfl, Option.some.injEq] at h1
      unfold GA.iterate at h2
      rw [ht, if_pos rfl, Option.some.injEq] at h2
      subst h1 h2
      cases chs with
      | nil => simpa [GA.lines] using h3.symm
      | cons c cs => simpa [GA.lines] using h3.symm
    | false =>
      refine Or.inr ⟨line, g', ls', h1, h2, fun e => ?_, h3, rfl⟩
      have k := GA.iterate_counts h2 ht hg
      rw [e] at k
      rcases k with ⟨-, k, -⟩ | ⟨-, -, ⟨-, k, -⟩ | ⟨-, k, -⟩⟩ | ⟨-, k | k, -⟩ | ⟨-, -, ⟨k, -⟩ | ⟨k, -⟩⟩
      · split at k <;> simp at k
      all_goals simp at k

/-- Nothing is logged before its time. -/
theorem GA.lines_late {chs : List (GAChoice α)} : ∀ {g : GA α} {ls : List (LogLine α)},
    GA.lines env ctx chs g = some ls → (∀ l ∈ ls, g.iterations ≤ l.iterations) ∧
      ((g.state = .init ∨ g.state = .cycle) → g.iterations < g.nextLog → ∀ l ∈ ls, g.iterations < l.iterations) := by
  induction chs with
  | nil =>
    intro g ls h
    rw [GA.lines, Option.some.injEq] at h
    subst h
    simp
  | cons ch chs ih =>
    intro g ls h
    rcases GA.lines_cons h with rfl | ⟨line, g', ls', h1, h2, hn, h3, rfl⟩
    · simp
    · obtain ⟨ht, k⟩ := GA.iterate_times h2 hn
      obtain ⟨w1, w2⟩ := GA.stepLog_when h1 ht
      obtain ⟨i1, i2⟩ := ih h3
      have hle : g.iterations ≤ g'.iterations := by
        rcases k with ⟨-, -, k, -⟩ | ⟨-, k, -⟩ | ⟨-, -, k, -⟩ | ⟨-, k, -⟩ <;> omega
      constructor
      · intro l hl
        rw [List.mem_append, Option.mem_toList] at hl
        rcases hl with hl | hl
        · exact (w2 l hl).ge
        · exact hle.trans (i1 l hl)
      · intro hs hlt l hl
        have hnone : line = none := by
          rw [← Option.not_isSome_iff_eq_none, w1]
          rintro (⟨-, h⟩ | ⟨h, -⟩)
          · omega
          · rcases hs with hs | hs <;> rw [hs] at h <;> simp at h
        rw [hnone] at hl
        simp only [Option.toList_none, List.nil_append] at hl
        rcases k with ⟨k, -⟩ | ⟨k, -⟩ | ⟨-, k1, k2, k3⟩ | ⟨-, k, -⟩
        · rcases hs with hs | hs <;> rw [hs] at k <;> simp at k
        · rcases hs with hs | hs <;> rw [hs] at k <;> simp at k
        · rw [← k2]
          exact i2 k1 (by rw [k2, k3]; exact hlt) l hl
        · have := i1 l hl
          omega

/-- **C91, the lines of a run.** The iterations that the lines of a run name never go down, and no iteration is named
twice unless there is elite education and the interval is one. In any arithmetic. -/
theorem C91_lines {α : Type} [F64 α] (env : GAEnv α) (ctx : Ctx α) (ok : GAChoice α → Prop)
    (hk : 1 ≤ env.logInterval) (chs : List (GAChoice α)) (hok : ∀ ch ∈ chs, ok ch) (g : GA α)
    (h : GA.Reach env ctx ok g) (ls : List (LogLine α)) (hl : GA.lines env ctx chs g = some ls) :
    (ls.map (·.iterations)).Pairwise (· ≤ ·) ∧
    (Spec.hasElite env ctx = false ∨ 2 ≤ env.logInterval → (ls.map (·.iterations)).Pairwise (· < ·)) := by
  induction chs generalizing g ls with
  | nil =>
    rw [GA.lines, Option.some.injEq] at hl
    subst hl
    simp
  | cons ch chs ih =>
    rcases GA.lines_cons hl with rfl | ⟨line, g', ls', h1, h2, hn, h3, rfl⟩
    · simp
    · obtain ⟨i1, i2⟩ := ih (fun c hc => hok c (by simp [hc])) g' (h.step (hok ch (by simp)) h2) ls' h3
      cases line with
      | none => exact ⟨i1, i2⟩
      | some l =>
        obtain ⟨s, hr⟩ := h.run
        obtain ⟨w1, w2, w3⟩ := C91_log_times env ctx ok hk s g g' hr ch h2 hn _ h1
        obtain ⟨-, k⟩ := GA.iterate_times h2 hn
        obtain ⟨l1, l2⟩ := GA.lines_late h3
        have e := w2 l rfl
        have hc : g.state = .cycle ∨ g.state = .elite ∧ g'.state = .init := by
          rcases w1.mp rfl with ⟨h, -⟩ | h
          · exact Or.inl h
          · exact Or.inr h
        simp only [Option.toList_some, List.singleton_append, List.map_cons, List.pairwise_cons, List.mem_map,
          forall_exists_index, and_imp, forall_apply_eq_imp_iff₂]
        have hle : g.iterations ≤ g'.iterations := by
          rcases k with ⟨-, -, k, -⟩ | ⟨-, k, -⟩ | ⟨-, -, k, -⟩ | ⟨-, k, -⟩ <;> omega
        refine ⟨⟨fun a ha => ?_, i1⟩, fun hq => ⟨fun a ha => ?_, i2 hq⟩⟩
        · have := l1 a ha
          omega
        · rcases hc with hc | ⟨hc, hc'⟩
          · rw [hc] at k
            simp only [reduceCtorEq, false_and, true_and, false_or] at k
            have := l1 a ha
            omega
          · have hT := hr.logTimes hk (by rw [hc]; simp)
            have he := (w3 hc).1
            rw [he] at hq
            have hq := hq.resolve_left (by simp)
            unfold GA.LogTimes at hT
            rw [he, if_pos rfl] at hT
            unfold GA.EliteTimes at hT
            rw [hc] at hT
            simp only [or_true, if_true] at hT
            rw [hc, hc'] at k
            simp only [reduceCtorEq, false_and, true_and, and_false, false_or, or_false] at k
            obtain ⟨k1, -, k2⟩ := k
            have hb : s.elim 0 (· + 1) ≤ s.getD 0 + 1 := by cases s <;> simp
            have := l2 (Or.inl hc') (by omega) a ha
            omega

/-! ### Cases -/

namespace LogTimesEx

/-- The run of `GeneticEx.pens` with log interval `k`; it restarts in iterations 2, 5 and 8. -/
def plain (k : ℕ) : GAEnv ℚ := { GeneticEx.envTimes with logInterval := k }

/-- The instance of `EliteTimeEx` with elite education, log interval `k` and restarts in iterations 2 and 5. -/
def elite (k : ℕ) : GAEnv ℚ :=
  { EliteTimeEx.env false with logInterval := k, maxIterations := some 50, maxStagnation := 1 }

def chs (n : ℕ) : List (GAChoice ℚ) := List.replicate n { GeneticEx.choice 13 13 with fuel := 50 }

/-- The iterations in the lines. -/
def named (env : GAEnv ℚ) (ctx : Ctx ℚ) (n : ℕ) : Option (List ℕ) :=
  (GA.lines env ctx (chs n) (GA.new env ctx fun _ => 0)).map (·.map (·.iterations))

/-- Every third iteration: 0; after the restart in 2 the first iteration, 3, and 5 = 2 + 3; after the restart in 5 the
first iteration, 6, and 8. With elite education and interval 2: its end in 0, then 2; after the restart in 2 the end of
the second elite education in 3, then 4; after the restart in 5 the end of the third in 6. -/
theorem lines : Spec.hasElite (plain 3) GeneticEx.ctx = false ∧ named (plain 3) GeneticEx.ctx 24 = some [0, 3, 5, 6, 8] ∧
    Spec.hasElite (elite 2) EliteTimeEx.ctx = true ∧ named (elite 2) EliteTimeEx.ctx 24 = some [0, 2, 3, 4, 6] := by
  decide +kernel

/-- The exception in `C91_lines` is one: with elite education and interval 1 iteration 3 is named twice, and crossover
iteration 0 is not logged. -/
theorem twice : named (elite 1) EliteTimeEx.ctx 18 = some [0, 1, 2, 3, 3, 4, 5] := by decide +kernel

/-- The hypotheses of the theorems are met by these runs. -/
example : ∃ ls : List (LogLine ℚ), ls.map (·.iterations) = [0, 2, 3, 4, 6] ∧
    (ls.map (·.iterations)).Pairwise (· < ·) := by
  obtain ⟨ls, h, e⟩ := Option.map_eq_some_iff.mp lines.2.2.2
  exact ⟨ls, e, (C91_lines (elite 2) EliteTimeEx.ctx (fun _ => True) (by decide) _ (fun _ _ => trivial) _ (.new _) ls h).2
    (Or.inr (by decide))⟩

/-- Crossover iteration 5 of the first run, its latest restart in 2. -/
example : Spec.LogDue 3 false (some 2) 5 ∧ ¬ Spec.LogDue 3 false (some 2) 4 ∧ Spec.LogDue 2 true (some 2) 4 ∧
    ¬ Spec.LogDue 2 true none 0 := by
  refine ⟨Or.inr ⟨2, rfl, Or.inr (by decide)⟩, ?_, by simp [Spec.LogDue], by simp [Spec.LogDue]⟩
  simp [Spec.LogDue]

end LogTimesEx
end Verif
