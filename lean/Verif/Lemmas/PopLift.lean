import Verif.Lemmas.Genetic
import Verif.Lemmas.PopInv

/-! # Properties of the subpopulations that insertions keep (any arithmetic) -/

namespace Verif
open F64

variable {α : Type} [F64 α]

namespace GA

variable {env : GAEnv α} {ctx : Ctx α}

/-- Both subpopulations have the property. -/
def Both (Q : SubPop α → Prop) (p : Population α) : Prop := Q p.feasible ∧ Q p.infeasible

/-- A property of subpopulations that every step of the run keeps. -/
structure Kept (env : GAEnv α) (Q : SubPop α → Prop) : Prop where
  new : Q (SubPop.new env.pop)
  add : ∀ {x s s'}, Q s → SubPop.add env.pop env.bs x s = some s' → Q s'
  perm : ∀ {s : SubPop α} {l : List (Individual α)}, Q s → l.length = s.pop.length → Q { s with pop := l }

theorem addToPop_both {Q : SubPop α → Prop} (hQ : Kept env Q) {x : Individual α} {u : Bool} {g g' : GA α}
    (hg : Both Q g.pop) (h : addToPop env x u g = some g') : Both Q g'.pop := by
  unfold addToPop at h
  obtain ⟨p, hp, rfl⟩ := Option.map_eq_some_iff.mp h
  unfold Population.add at hp
  dsimp only at hp
  split at hp
  · obtain ⟨s, hs, rfl⟩ := Option.map_eq_some_iff.mp hp
    exact ⟨hQ.add hg.1 hs, hg.2⟩
  · obtain ⟨s, hs, rfl⟩ := Option.map_eq_some_iff.mp hp
    exact ⟨hg.1, hQ.add hg.2 hs⟩

theorem localSearch_pop {ω : Oracle} {fuel : ℕ} {factor : α} {g g' : GA α}
    (h : localSearch env ctx ω fuel factor g = some g') : g'.pop = g.pop := by
  unfold localSearch at h
  split at h
  · obtain ⟨p, -, rfl⟩ := Option.map_eq_some_iff.mp h
    rfl
  · rw [Option.some.injEq] at h
    rw [h]

theorem runSplit_pop {k : ℕ} {g g' : GA α} (h : runSplit env ctx k g = some g') : g'.pop = g.pop := by
  unfold runSplit at h
  obtain ⟨p, -, rfl⟩ := Option.map_eq_some_iff.mp h
  rfl

theorem updateBest_pop (g : GA α) : g.updateBest.pop = g.pop := (updateBest_other g).2.1

theorem repair_both {Q : SubPop α → Prop} (hQ : Kept env Q) {ω : Oracle} {fuel w : ℕ} {g g' : GA α}
    (hg : Both Q g.pop) (h : repair env ctx ω fuel w g = some g') : Both Q g'.pop := by
  unfold repair at h
  split at h
  · obtain ⟨g1, h1, h⟩ := Option.bind_eq_some_iff.mp h
    obtain ⟨g2, h2, rfl⟩ := Option.map_eq_some_iff.mp h
    have e1 := localSearch_pop h1
    show Both Q g2.pop
    split at h2
    · exact addToPop_both hQ (by rw [updateBest_pop, e1]; exact hg) h2
    · rw [Option.some.injEq] at h2
      rw [← h2, e1]
      exact hg
  · rw [Option.some.injEq] at h
    exact h ▸ hg

theorem educate_both {Q : SubPop α → Prop} (hQ : Kept env Q) {ch : GAChoice α} {ω : Oracle} {g g' : GA α}
    (hg : Both Q g.pop) (h : educate env ctx ch ω g = some g') : Both Q g'.pop := by
  unfold educate at h
  obtain ⟨g1, h1, h⟩ := Option.bind_eq_some_iff.mp h
  obtain ⟨g2, h2, h⟩ := Option.bind_eq_some_iff.mp h
  obtain ⟨g3, h3, rfl⟩ := Option.map_eq_some_iff.mp h
  rw [updateBest_pop]
  refine repair_both hQ ?_ h3
  have e : g2.pop = g1.pop := by
    rcases mutate_some h2 with rfl | ⟨-, rr, x, rfl⟩ <;> rfl
  rw [e, localSearch_pop h1]
  exact hg

theorem createInitial_both {Q : SubPop α → Prop} (hQ : Kept env Q) {ch : GAChoice α} {g g' : GA α}
    {x : Individual α} (hg : Both Q g.pop) (h : createInitial env ctx ch g = some (x, g')) :
    Both Q g'.pop := by
  unfold createInitial at h
  obtain ⟨g1, h1, h⟩ := Option.bind_eq_some_iff.mp h
  obtain ⟨g2, h2, e⟩ := Option.map_eq_some_iff.mp h
  simp only [Prod.mk.injEq] at e
  obtain ⟨rfl, rfl⟩ := e
  have h3 := educate_both hQ (by rw [runSplit_pop h1]; exact hg) h2
  exact h3

theorem breed_both {Q : SubPop α → Prop} (hQ : Kept env Q) {ch : GAChoice α} {g g' : GA α}
    (hg : Both Q g.pop) (h : breed env ctx ch g = some g') : Both Q g'.pop := by
  unfold breed at h
  obtain ⟨p1, -, h⟩ := Option.bind_eq_some_iff.mp h
  obtain ⟨p2, -, h⟩ := Option.bind_eq_some_iff.mp h
  obtain ⟨c, -, h⟩ := Option.bind_eq_some_iff.mp h
  obtain ⟨g1, h1, h⟩ := Option.bind_eq_some_iff.mp h
  exact educate_both hQ (by rw [runSplit_pop h1]; exact hg) h

theorem finishCycle_both {Q : SubPop α → Prop} (hQ : Kept env Q) (hs : Population.SortPerm env.sort)
    {g g' : GA α} (hg : Both Q g.pop) (h : finishCycle env ctx g = some g') : Both Q g'.pop := by
  obtain ⟨g1, g2, h1, h2, -, -, rfl⟩ := finishCycle_some h
  have q1 : Both Q g1.pop := by
    rcases h1 with rfl | h1
    · exact hg
    · unfold updatePenalty at h1
      obtain ⟨p, hp, rfl⟩ := Option.map_eq_some_iff.mp h1
      unfold Population.reprice at hp
      obtain ⟨l, hl, hp⟩ := Option.bind_eq_some_iff.mp hp
      obtain ⟨l', hl', rfl⟩ := Option.map_eq_some_iff.mp hp
      refine ⟨hg.1, hQ.perm hg.2 ?_⟩
      rw [(hs _ _ hl').length_eq, (Population.evaluateAll_some hl).length_eq]
  have q2 : Both Q g2.pop := by
    rcases h2 with rfl | h2
    · exact q1
    · obtain ⟨-, rfl⟩ := log_some h2
      exact q1
  dsimp only
  split
  · exact ⟨hQ.new, hQ.new⟩
  · exact q2

/-- A property of the subpopulations that insertions keep holds after every call. -/
theorem iterate_both {Q : SubPop α → Prop} (hQ : Kept env Q) (hs : Population.SortPerm env.sort)
    {ch : GAChoice α} {g g' : GA α} (hg : Both Q g.pop) (h : iterate env ctx ch g = some g') :
    Both Q g'.pop := by
  unfold iterate at h
  split at h
  · rw [Option.some.injEq] at h; subst h; exact hg
  · split at h
    · unfold stepCreated at h
      split at h
      · obtain ⟨g1, h1, h⟩ := Option.bind_eq_some_iff.mp h
        obtain ⟨g2, h2, h⟩ := Option.bind_eq_some_iff.mp h
        obtain ⟨r, -, rfl⟩ := Option.map_eq_some_iff.mp h
        have := educate_both hQ (by rw [runSplit_pop h1]; exact hg) h2
        exact this
      · rw [Option.some.injEq] at h; subst h; exact hg
    · unfold stepElite at h
      split at h
      · obtain ⟨x, -, h⟩ := Option.bind_eq_some_iff.mp h
        obtain ⟨g2, h2, h⟩ := Option.bind_eq_some_iff.mp h
        obtain ⟨-, rfl⟩ := log_some h
        exact addToPop_both (g' := g2) hQ (by rw [updateBest_pop]; exact hg) h2
      · obtain ⟨r, -, rfl⟩ := Option.map_eq_some_iff.mp h
        exact hg
    · unfold stepInit at h
      split at h
      · obtain ⟨⟨x, g1⟩, h1, h⟩ := Option.bind_eq_some_iff.mp h
        obtain ⟨g2, h2, rfl⟩ := Option.map_eq_some_iff.mp h
        exact addToPop_both (g' := g2) hQ (createInitial_both hQ hg h1) h2
      · rw [Option.some.injEq] at h; subst h; exact hg
    · unfold stepCycle at h
      obtain ⟨g1, h1, h⟩ := Option.bind_eq_some_iff.mp h
      obtain ⟨g2, h2, h⟩ := Option.bind_eq_some_iff.mp h
      have hg' : Both Q ({ g with ctxIteration := g.ctxIteration + 1 } : GA α).pop := hg
      exact finishCycle_both hQ hs (addToPop_both hQ (breed_both hQ hg' h1) h2) h
    · rw [Option.some.injEq] at h; subst h; exact hg

end GA
end Verif
