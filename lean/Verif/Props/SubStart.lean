import Verif.Props.DecompProgress
import Verif.Props.EliteTime

/-! # C57: how a sub-run of the decomposition starts -/

namespace Verif
open F64

/-- **C57**, start. A sub-run starts from the part of the global solution that it is given: it is the only member
of the population and the current individual, and the record of outcomes by which the penalty is controlled is
still the one of a new population. -/
theorem C57_start {α : Type} [F64 α] (env : GAEnv α) (ctx : Ctx α) (hbs : BSearchOK env.bs) (ω : Oracle)
    (x : Individual α) (g : GA α) (h : GA.addInitial env x (GA.new env ctx ω) = some g) :
    g.state = .created ∧ g.child = x ∧ g.pop.history = List.replicate 100 true ∧
      ∀ y ∈ g.pop.feasible.pop ++ g.pop.infeasible.pop, y.phenotype = x.phenotype ∧ y.evaluation = x.evaluation := by
  unfold GA.addInitial at h
  obtain ⟨g1, h1, rfl⟩ := Option.map_eq_some_iff.mp h
  unfold GA.addToPop at h1
  obtain ⟨p, hp, rfl⟩ := Option.map_eq_some_iff.mp h1
  obtain ⟨-, e2, -, -⟩ := GA.updateBest_other { { GA.new env ctx ω with pop := p } with child := x }
  refine ⟨(GA.updateBest_frame _).state.trans rfl, GA.updateBest_child _, ?_⟩
  rw [e2]
  show p.history = _ ∧ ∀ y ∈ p.feasible.pop ++ p.infeasible.pop, _
  have key : ∀ (z : Individual α) (s : SubPop α), (SubPop.new env.pop).add env.pop env.bs z = some s →
      ∀ y ∈ s.pop, y.phenotype = z.phenotype ∧ y.evaluation = z.evaluation := by
    intro z s hs y hy
    obtain ⟨-, -, -, h4, -⟩ := SubPop.add_summary hbs hs SubPop.Table.new (by simp [SubPop.new, SubPop.nums])
    obtain ⟨w, hw, e⟩ := h4 y hy
    simp only [SubPop.new, List.mem_cons, List.not_mem_nil, or_false] at hw
    subst hw
    exact ⟨congrArg (f := Individual.phenotype) (a₁ := SubPop.strip y) (a₂ := SubPop.strip w) e,
      congrArg (f := Individual.evaluation) (a₁ := SubPop.strip y) (a₂ := SubPop.strip w) e⟩
  unfold Population.add at hp
  dsimp only at hp
  split at hp
  · obtain ⟨s, hs, rfl⟩ := Option.map_eq_some_iff.mp hp
    refine ⟨rfl, fun y hy => ?_⟩
    rw [List.mem_append] at hy
    rcases hy with hy | hy
    · exact key _ _ hs y hy
    · simp [GA.new, Population.new, SubPop.new] at hy
  · obtain ⟨s, hs, rfl⟩ := Option.map_eq_some_iff.mp hp
    refine ⟨rfl, fun y hy => ?_⟩
    rw [List.mem_append] at hy
    rcases hy with hy | hy
    · simp [GA.new, Population.new, SubPop.new] at hy
    · exact key _ _ hs y hy

/-- A sub-run started on an individual of the instance of `ProgramEx`. -/
example : (GA.addInitial (EliteTimeEx.env false) (GA.new (EliteTimeEx.env false) EliteTimeEx.ctx fun _ => 3).child
    (GA.new (EliteTimeEx.env false) EliteTimeEx.ctx fun _ => 0)).isSome = true ∧
    BSearchOK (EliteTimeEx.env false).bs := ⟨by decide +kernel, bsearchNew_ok⟩

end Verif
