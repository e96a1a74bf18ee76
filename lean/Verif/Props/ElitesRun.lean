import Verif.Props.Elites
import Verif.Props.PenaltyDoubleExamples

/-!
# C87 for whole runs
-/

namespace Verif
open F64 Dbl

/-- **C87**, runs, any arithmetic with the laws of `GA.Laws`: in every state of every run, restarts among them, any two
members of a subpopulation have different routes. -/
theorem C87_run {α : Type} [F64 α] {env : GAEnv α} {ctx : Ctx α} {P : α → Prop} {E : RRoute α → Prop}
    (hv : GA.Laws env ctx P E) {g : GA α} (hg : GA.Reach env ctx GA.ChOK g) :
    ∀ s ∈ [g.pop.feasible, g.pop.infeasible], (s.pop.map (·.phenotype)).Nodup := by
  obtain ⟨hs, hrun⟩ := (hg.any hv).base.pop
  intro s hmem
  rw [List.nodup_iff_pairwise_ne, List.pairwise_map, List.pairwise_iff_getElem]
  intro i j hi hj hij
  exact (C87_no_clones ctx env.pop env.bs hv.bs env.sort hv.sort g.pop hs hrun s hmem i j _ _
    (List.getElem?_eq_getElem hi) (List.getElem?_eq_getElem hj) (by omega)).1

/-- **C87**, runs of the program in double precision: in every state of every run the members of a subpopulation have
different routes, and every tournament in a population that is not empty returns a contestant of lowest, finite fitness. -/
theorem C87_program {ρ : Rounding} {lib : Lib (Dbl ρ)} {cfg : Settings (Dbl ρ)} {nodes : List (ℚ × ℚ × ℚ)} {cap : ℚ}
    {dist : ℕ → ℕ → ℚ} {dm : DistMatrix (Dbl ρ)} {c : Correlation} {m : Option (List (List (Dbl ρ)))}
    (hl : Program.DblLib lib) (hset : Program.DblSettings cfg nodes.length) (hload : Program.DblLoads nodes cap)
    (hx : Program.DblDist nodes.length dist) (hb : Program.Built lib nodes.length (fun a b => fin (dist a b)) dm)
    (hc : buildCorr lib.sqrt lib.corrSort dm = some c)
    {ctx : Ctx (Dbl ρ)} (hctx : ctx = Program.context lib (Program.parsed (Program.dblNodes ρ nodes) (fin cap) m) dm)
    (hN : cfg.pop.minSize + cfg.pop.lambda < 2 ^ 24) (hk : 1 ≤ cfg.pop.tournamentSize) {g : GA (Dbl ρ)}
    (hg : GA.Reach (Program.gaEnv lib cfg ctx dm c) ctx GA.ChOK g) :
    (∀ s ∈ [g.pop.feasible, g.pop.infeasible], (s.pop.map (·.phenotype)).Nodup) ∧
    ∀ all, all = g.pop.feasible.pop ++ g.pop.infeasible.pop → all ≠ [] → ∀ ω : Oracle,
      ∃ x v, g.pop.parent cfg.pop ω = some x ∧ x.fitness = fin v ∧
        (∃ j < cfg.pop.tournamentSize, all[ω j % all.length]? = some x) ∧
        ∀ j < cfg.pop.tournamentSize, ∀ y, all[ω j % all.length]? = some y → ∃ w, y.fitness = fin w ∧ v ≤ w := by
  subst hctx
  obtain ⟨Q, D, -, hw⟩ := Program.dbl_whole (lib := lib) (m := m) (d := dm) (ρ := ρ) hload
  have hv := Program.dbl_gaLaws (m := m) hl hset hload hx hb hc (loadExact_laws hw)
  refine ⟨C87_run hv hg, ?_⟩
  obtain ⟨hs, hrun⟩ := (hg.any hv).base.pop
  rintro all rfl hne ω
  exact C87_parents _ cfg.pop hN _ hv.bs _ hv.sort g.pop hs hrun ω
    (by by_contra h; push Not at h; exact hne (by rw [h.1, h.2]; rfl)) hk

namespace DoubleEx
open Spec

/-- The run before its first crossover iteration: the population is not empty. -/
theorem first_view : firstCycle.map (fun p => decide (p.1.pop.feasible.pop ++ p.1.pop.infeasible.pop = [])) =
    some false := by
  decide +kernel

/-- C87 applies to it: every tournament returns a contestant of lowest fitness. -/
example : ∃ g : GA F, (∀ s ∈ [g.pop.feasible, g.pop.infeasible], (s.pop.map (·.phenotype)).Nodup) ∧
    ∀ ω, ∃ x v, g.pop.parent cfg.pop ω = some x ∧ x.fitness = fin v := by
  obtain ⟨⟨g, g'⟩, hf, e⟩ := Option.map_eq_some_iff.mp first_view
  unfold firstCycle at hf
  obtain ⟨⟨d, c⟩, hm, hf⟩ := Option.bind_eq_some_iff.mp hf
  obtain ⟨g0, hg, hf⟩ := Option.bind_eq_some_iff.mp hf
  obtain ⟨g1, hit, hf⟩ := Option.map_eq_some_iff.mp hf
  simp only [Prod.mk.injEq] at hf
  obtain ⟨rfl, rfl⟩ := hf
  have hr := GA.steps_reach (chs.take 4) (fun ch hch => run_ok.choices ch (List.mem_of_mem_take hch)) (.new _) hg
  obtain ⟨-, d', ed, hb⟩ := exactPlane_data (lib := lib) (cfg := cfg) (cap := 20) root_ok
    (nodes := ProgramEx.nodes) (by decide) rfl coords_ok
  have hd : d = d' ∧ buildCorr lib.sqrt lib.corrSort d = some c := by
    unfold Program.matrices at hm
    split at hm
    · cases hm
    · obtain ⟨d1, h1, h2⟩ := Option.bind_eq_some_iff.mp hm
      obtain ⟨c1, h3, h4⟩ := Option.map_eq_some_iff.mp h2
      simp only [Prod.mk.injEq] at h4
      obtain ⟨rfl, rfl⟩ := h4
      have h1' : buildDist lib.sqrt (Program.locations inst) (decide (inst.nodes.length - 1 < cfg.precomputeLimit)) cfg.rounded
        none = some d1 := h1
      rw [ed, Option.some.injEq] at h1'
      exact ⟨h1'.symm, h3⟩
  obtain ⟨rfl, hc⟩ := hd
  have hx : Program.DblDist ProgramEx.nodes.length
      (fun a b => ((⌊realDist ProgramEx.nodes a b + 1 / 2⌋ : ℤ) : ℚ)) := by
    intro a ha b hb
    obtain ⟨x, y⟩ := (Program.plane_nearest root_ok coords_ok ha hb).2
    have y' : ⌊realDist ProgramEx.nodes a b + 1 / 2⌋ ≤ 2 ^ 43 := y.trans (by norm_num)
    dsimp only
    exact ⟨by exact_mod_cast x, by exact_mod_cast y'⟩
  obtain ⟨k1, k2⟩ := C87_program (m := none) lib_ok run_ok.settings loads_ok hx hb hc rfl (by decide) (by decide) hr
  refine ⟨g0, k1, fun ω => ?_⟩
  obtain ⟨x, v, h1, h2, -⟩ := k2 _ rfl (by simpa using e) ω
  exact ⟨x, v, h1, h2⟩

end DoubleEx
end Verif
