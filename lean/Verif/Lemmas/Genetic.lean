import Verif.Model.Genetic

/-! # The genetic loop: what each step leaves alone (any arithmetic) -/

namespace Verif
open F64

variable {α : Type} [F64 α]

namespace GA

variable {env : GAEnv α} {ctx : Ctx α}

/-- A predicate that does not depend on local search, split, population and child. -/
structure Stable (J : GA α → Prop) : Prop where
  ls : ∀ g (l : LS α) x, J g → J { g with ls := l, child := x }
  split : ∀ g (s : Split α) x, J g → J { g with split := s, child := x }
  pop : ∀ g (p : Population α), J g → J { g with pop := p }
  child : ∀ g (x : Individual α), J g → J { g with child := x }
  best : ∀ g, J g → J g.updateBest

theorem localSearch_pres {J : GA α → Prop} (hJ : Stable J) {ω : Oracle} {fuel : ℕ} {factor : α}
    {g g' : GA α} (h : localSearch env ctx ω fuel factor g = some g') (hg : J g) : J g' := by
  unfold localSearch at h
  split at h
  · obtain ⟨p, -, rfl⟩ := Option.map_eq_some_iff.mp h
    exact hJ.ls _ _ _ hg
  · rw [Option.some.injEq] at h
    exact h ▸ hg

theorem addToPop_pres {J : GA α → Prop} (hJ : Stable J) {x : Individual α} {u : Bool}
    {g g' : GA α} (h : addToPop env x u g = some g') (hg : J g) : J g' := by
  unfold addToPop at h
  obtain ⟨p, -, rfl⟩ := Option.map_eq_some_iff.mp h
  exact hJ.pop _ _ hg

theorem runSplit_pres {J : GA α → Prop} (hJ : Stable J) {k : ℕ} {g g' : GA α}
    (h : runSplit env ctx k g = some g') (hg : J g) : J g' := by
  unfold runSplit at h
  obtain ⟨p, -, rfl⟩ := Option.map_eq_some_iff.mp h
  exact hJ.split _ _ _ hg

theorem repair_pres {J : GA α → Prop} (hJ : Stable J) {ω : Oracle} {fuel w : ℕ}
    {g g' : GA α} (h : repair env ctx ω fuel w g = some g') (hg : J g) : J g' := by
  unfold repair at h
  split at h
  · obtain ⟨g1, h1, h⟩ := Option.bind_eq_some_iff.mp h
    obtain ⟨g2, h2, rfl⟩ := Option.map_eq_some_iff.mp h
    have j1 := localSearch_pres hJ h1 hg
    refine hJ.child _ _ ?_
    split at h2
    · exact addToPop_pres hJ h2 (hJ.best _ j1)
    · rw [Option.some.injEq] at h2
      exact h2 ▸ j1
  · rw [Option.some.injEq] at h
    exact h ▸ hg

theorem educate_pres {J : GA α → Prop} (hJ : Stable J) {ch : GAChoice α}
    (hm : ∀ {w : ℕ} {g g' : GA α}, mutate env ctx ch w g = some g' → J g → J g') {ω : Oracle}
    {g g' : GA α} (h : educate env ctx ch ω g = some g') (hg : J g) : J g' := by
  unfold educate at h
  obtain ⟨g1, h1, h⟩ := Option.bind_eq_some_iff.mp h
  obtain ⟨g2, h2, h⟩ := Option.bind_eq_some_iff.mp h
  obtain ⟨g3, h3, rfl⟩ := Option.map_eq_some_iff.mp h
  exact hJ.best _ (repair_pres hJ h3 (hm h2 (localSearch_pres hJ h1 hg)))

/-- The counters a step of education leaves alone. -/
structure Frame (g g' : GA α) : Prop where
  state : g'.state = g.state
  iterations : g'.iterations = g.iterations
  nextPenaltyUpdate : g'.nextPenaltyUpdate = g.nextPenaltyUpdate
  nextLog : g'.nextLog = g.nextLog
  numInitialized : g'.numInitialized = g.numInitialized
  ctxIteration : g'.ctxIteration = g.ctxIteration
  best : g'.bestIteration = g.bestIteration ∨ g'.bestIteration = g.iterations

theorem Frame.refl (g : GA α) : Frame g g := ⟨rfl, rfl, rfl, rfl, rfl, rfl, Or.inl rfl⟩

theorem Frame.trans {a b c : GA α} (h : Frame a b) (k : Frame b c) : Frame a c := by
  refine ⟨k.state.trans h.state, k.iterations.trans h.iterations,
    k.nextPenaltyUpdate.trans h.nextPenaltyUpdate, k.nextLog.trans h.nextLog,
    k.numInitialized.trans h.numInitialized, k.ctxIteration.trans h.ctxIteration, ?_⟩
  rcases k.best with e | e
  · rw [e]; exact h.best
  · exact Or.inr (e.trans h.iterations)

theorem updateBest_frame (g : GA α) : Frame g g.updateBest := by
  unfold updateBest
  split
  · dsimp only
    split
    · exact ⟨rfl, rfl, rfl, rfl, rfl, rfl, Or.inr rfl⟩
    · exact ⟨rfl, rfl, rfl, rfl, rfl, rfl, Or.inr rfl⟩
  · exact .refl _

theorem updateBest_child (g : GA α) : g.updateBest.child = g.child := by
  unfold updateBest
  split
  · dsimp only
    split <;> rfl
  · rfl

theorem updateBest_other (g : GA α) : g.updateBest.ls = g.ls ∧ g.updateBest.pop = g.pop ∧
    g.updateBest.split = g.split ∧ ∃ h, g.updateBest.rr = { g.rr with hist := h } := by
  unfold updateBest
  split
  · dsimp only
    split
    · exact ⟨rfl, rfl, rfl, _, rfl⟩
    · exact ⟨rfl, rfl, rfl, _, rfl⟩
  · exact ⟨rfl, rfl, rfl, _, rfl⟩

theorem stable_frame (g0 : GA α) : Stable (Frame g0) where
  ls g l x h := h.trans ⟨rfl, rfl, rfl, rfl, rfl, rfl, Or.inl rfl⟩
  split g s x h := h.trans ⟨rfl, rfl, rfl, rfl, rfl, rfl, Or.inl rfl⟩
  pop g p h := h.trans ⟨rfl, rfl, rfl, rfl, rfl, rfl, Or.inl rfl⟩
  child g x h := h.trans ⟨rfl, rfl, rfl, rfl, rfl, rfl, Or.inl rfl⟩
  best g h := h.trans (updateBest_frame g)

theorem mutate_some {ch : GAChoice α} {w : ℕ} {g g' : GA α} (h : mutate env ctx ch w g = some g') :
    g' = g ∨ env.rrMutation = true ∧ ∃ rr x, g' = { g with rr := rr, child := x } := by
  unfold mutate at h
  split at h
  · rename_i hc
    rw [Bool.and_eq_true] at hc
    obtain ⟨r1, -, h⟩ := Option.bind_eq_some_iff.mp h
    obtain ⟨r2, -, h⟩ := Option.bind_eq_some_iff.mp h
    obtain ⟨x, -, rfl⟩ := Option.map_eq_some_iff.mp h
    exact Or.inr ⟨hc.1, r2, x, rfl⟩
  · rw [Option.some.injEq] at h
    exact Or.inl h.symm

theorem mutate_frame {ch : GAChoice α} {w : ℕ} {g0 g g' : GA α} (h : mutate env ctx ch w g = some g')
    (hg : Frame g0 g) : Frame g0 g' := by
  rcases mutate_some h with rfl | ⟨-, rr, x, rfl⟩
  · exact hg
  · exact hg.trans ⟨rfl, rfl, rfl, rfl, rfl, rfl, Or.inl rfl⟩

theorem educate_frame {ch : GAChoice α} {ω : Oracle} {g g' : GA α}
    (h : educate env ctx ch ω g = some g') : Frame g g' :=
  educate_pres (stable_frame g) mutate_frame h (.refl g)

theorem addToPop_frame {x : Individual α} {u : Bool} {g g' : GA α} (h : addToPop env x u g = some g') :
    Frame g g' := addToPop_pres (stable_frame g) h (.refl g)

theorem runSplit_frame {k : ℕ} {g g' : GA α} (h : runSplit env ctx k g = some g') : Frame g g' :=
  runSplit_pres (stable_frame g) h (.refl g)

theorem createInitial_frame {ch : GAChoice α} {g g' : GA α} {x : Individual α}
    (h : createInitial env ctx ch g = some (x, g')) : Frame g g' := by
  unfold createInitial at h
  obtain ⟨g1, h1, h⟩ := Option.bind_eq_some_iff.mp h
  obtain ⟨g2, h2, e⟩ := Option.map_eq_some_iff.mp h
  simp only [Prod.mk.injEq] at e
  obtain ⟨rfl, rfl⟩ := e
  have f0 : Frame g { g with child := Individual.newRandom ctx env.split.numVehicles (ch.ω.sub 0) g.numInitialized } :=
    ⟨rfl, rfl, rfl, rfl, rfl, rfl, Or.inl rfl⟩
  exact ((f0.trans (runSplit_frame h1)).trans (educate_frame h2)).trans
    ⟨rfl, rfl, rfl, rfl, rfl, rfl, Or.inl rfl⟩

theorem breed_frame {ch : GAChoice α} {g g' : GA α} (h : breed env ctx ch g = some g') : Frame g g' := by
  unfold breed at h
  obtain ⟨p1, -, h⟩ := Option.bind_eq_some_iff.mp h
  obtain ⟨p2, -, h⟩ := Option.bind_eq_some_iff.mp h
  obtain ⟨c, -, h⟩ := Option.bind_eq_some_iff.mp h
  obtain ⟨g1, h1, h⟩ := Option.bind_eq_some_iff.mp h
  have f0 : Frame g { g with child := Individual.new c g.pop.total } :=
    ⟨rfl, rfl, rfl, rfl, rfl, rfl, Or.inl rfl⟩
  exact (f0.trans (runSplit_frame h1)).trans (educate_frame h)

theorem log_some {g g' : GA α} (h : log env g = some g') :
    g.bestIteration ≤ g.iterations ∧ g' = { g with nextLog := g.nextLog + env.logInterval } := by
  unfold log at h
  split at h
  · rename_i hb
    obtain ⟨a, -, h⟩ := Option.bind_eq_some_iff.mp h
    obtain ⟨b, -, rfl⟩ := Option.map_eq_some_iff.mp h
    exact ⟨hb, rfl⟩
  · simp at h

/-- The state after the penalty update and the log of a cycle. -/
structure Wrap (g g' : GA α) : Prop where
  state : g'.state = g.state
  iterations : g'.iterations = g.iterations
  numInitialized : g'.numInitialized = g.numInitialized
  ctxIteration : g'.ctxIteration = g.ctxIteration
  best : g'.bestIteration = g.bestIteration
  hist : g'.rr.hist = g.rr.hist
  sol : g'.bestSolution = g.bestSolution

theorem finishCycle_some {g g' : GA α} (h : finishCycle env ctx g = some g') :
    ∃ g1 g2, (g1 = g ∨ updatePenalty env ctx g = some g1) ∧ (g2 = g1 ∨ log env g1 = some g2) ∧
      Wrap g g2 ∧ g2.bestIteration ≤ g2.iterations ∧
      g' = { (if env.maxStagnation < g2.iterations - g2.bestIteration then reset env g2 else g2) with
        iterations := g2.iterations + 1 } := by
  unfold finishCycle at h
  obtain ⟨g1, h1, h⟩ := Option.bind_eq_some_iff.mp h
  obtain ⟨g2, h2, h⟩ := Option.bind_eq_some_iff.mp h
  split at h
  · rename_i hb
    rw [Option.some.injEq] at h
    have w1 : (g1 = g ∨ updatePenalty env ctx g = some g1) ∧ Wrap g g1 := by
      split at h1
      · refine ⟨Or.inr h1, ?_⟩
        unfold updatePenalty at h1
        obtain ⟨p, -, rfl⟩ := Option.map_eq_some_iff.mp h1
        exact ⟨rfl, rfl, rfl, rfl, rfl, rfl, rfl⟩
      · rw [Option.some.injEq] at h1
        subst h1
        exact ⟨Or.inl rfl, rfl, rfl, rfl, rfl, rfl, rfl, rfl⟩
    have w2 : (g2 = g1 ∨ log env g1 = some g2) ∧ Wrap g g2 := by
      split at h2
      · refine ⟨Or.inr h2, ?_⟩
        obtain ⟨-, rfl⟩ := log_some h2
        exact ⟨w1.2.state, w1.2.iterations, w1.2.numInitialized, w1.2.ctxIteration, w1.2.best,
          w1.2.hist, w1.2.sol⟩
      · rw [Option.some.injEq] at h2
        subst h2
        exact ⟨Or.inl rfl, w1.2⟩
    refine ⟨g1, g2, w1.1, w2.1, w2.2, hb, ?_⟩
    rw [← h]
    split <;> rfl
  · simp at h

/-! ### Bookkeeping -/

/-- `best_iteration` does not exceed the iteration counter. -/
def Booked (g : GA α) : Prop := g.bestIteration ≤ g.iterations

theorem Frame.booked {g g' : GA α} (h : Frame g g') (hb : Booked g) : Booked g' := by
  unfold Booked at *
  rcases h.best with e | e <;> rw [e, h.iterations] <;> assumption

theorem finishCycle_booked {g g' : GA α} (h : finishCycle env ctx g = some g') : Booked g' := by
  obtain ⟨g1, g2, -, -, w, hb, rfl⟩ := finishCycle_some h
  unfold Booked
  split
  · simp [reset]
  · dsimp only; omega

theorem iterate_booked {ch : GAChoice α} {g g' : GA α} (hb : Booked g)
    (h : iterate env ctx ch g = some g') : Booked g' := by
  unfold iterate at h
  split at h
  · rw [Option.some.injEq] at h; subst h; exact hb
  · split at h
    · unfold stepCreated at h
      split at h
      · obtain ⟨g1, h1, h⟩ := Option.bind_eq_some_iff.mp h
        obtain ⟨g2, h2, h⟩ := Option.bind_eq_some_iff.mp h
        obtain ⟨r, -, rfl⟩ := Option.map_eq_some_iff.mp h
        exact (educate_frame h2).booked ((runSplit_frame h1).booked (g := { g with state := .elite }) hb)
      · rw [Option.some.injEq] at h; subst h; exact hb
    · unfold stepElite at h
      split at h
      · obtain ⟨x, -, h⟩ := Option.bind_eq_some_iff.mp h
        obtain ⟨g2, h2, h⟩ := Option.bind_eq_some_iff.mp h
        obtain ⟨-, rfl⟩ := log_some h
        exact (addToPop_frame h2).booked ((updateBest_frame _).booked
          (g := { g with state := .init, child := x }) hb)
      · obtain ⟨r, -, rfl⟩ := Option.map_eq_some_iff.mp h
        exact hb
    · unfold stepInit at h
      split at h
      · obtain ⟨⟨x, g1⟩, h1, h⟩ := Option.bind_eq_some_iff.mp h
        obtain ⟨g2, h2, rfl⟩ := Option.map_eq_some_iff.mp h
        exact (addToPop_frame h2).booked ((createInitial_frame h1).booked hb)
      · rw [Option.some.injEq] at h; subst h; exact hb
    · unfold stepCycle at h
      obtain ⟨g1, h1, h⟩ := Option.bind_eq_some_iff.mp h
      obtain ⟨g2, h2, h⟩ := Option.bind_eq_some_iff.mp h
      exact finishCycle_booked h
    · rw [Option.some.injEq] at h; subst h; exact hb

end GA
end Verif
