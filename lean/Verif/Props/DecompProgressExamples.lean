import Verif.Props.DecompProgress
import Verif.Props.DecompExamples

/-! # A run with decomposition, for the theorems about such runs -/

namespace Verif
open F64

namespace DecompRunEx

/-- The setting of `DecompEx` with a single vehicle. -/
def env : DecompEnv ℚ := { DecompEx.env with
  ga := { DecompEx.env.ga with
    split := ⟨true, 1.5, 1⟩
    rr := { DecompEx.env.ga.rr with numVehicles := 1 } } }

abbrev ctx : Ctx ℚ := GeneticEx.ctx

theorem valid : DGA.Valid env ctx where
  ga := by
    have h := DecompEx.valid.ga
    have hn := h.nbr
    exact ⟨h.n, h.dist, by decide, by decide, rfl, h.bs, h.sort, h.pen, h.mult, h.lim, fun _ => h.mag rfl,
      hn.gran, hn.cols, hn.len, hn.nbr, hn.cust⟩
  matrix := DecompEx.valid.matrix
  rows := DecompEx.valid.rows
  perm := DecompEx.valid.perm
  sorted := DecompEx.valid.sorted
  table := DecompEx.valid.table
  demand := DecompEx.valid.demand
  cap := DecompEx.valid.cap
  depot := rfl
  bound := by decide +kernel
  size := by decide
  width := by decide

theorem sturdy : GA.Sturdy env.ga ctx (10 ^ 13) where
  n := by decide
  sym := ProgressEx.sym
  depot := rfl
  tame := ProgressEx.tame (by norm_num) (by norm_num)
  nbrs := by
    intro c h1 h2
    obtain ⟨vs, a, -, -, b⟩ := valid.nbrs c h2
    exact ⟨vs, a, fun v hv => b v hv⟩
  sort l := ⟨l, rfl⟩
  closest := by decide
  minSize := by decide
  tournament := by decide
  initial := by decide
  elite h := by simp at h

theorem load : Spec.routeLoad ctx.demand (Spec.customers ctx.n) ≤ ctx.cap := by decide +kernel

/-- Draws that alternate, hash sets in the order of insertion, a clock at the start. -/
def ga : GAChoice ℚ where
  ω := fun i => i % 2
  rr := fun _ _ => ⟨fun i => i % 2, fun _ l => l, 0⟩
  clock := fun _ => 0
  elapsed := 0
  fuel := 5

/-- The same for all parts of a call, with choices for every call the sub-run can take. -/
def ch : DGAChoice ℚ := ⟨ga, fun _ => ga, id, List.replicate 14007 ga⟩

/-- The call at the time limit. -/
def last : DGAChoice ℚ := { ch with ga := { ga with elapsed := 100 } }

theorem ga_fair (n : ℕ) (h : 3 ≤ n) : GA.Fair n ga := by
  refine ⟨1, le_refl _, ?_⟩
  have h1 : ga.ω.sub 2 1 = 1 := by decide +kernel
  have h0 : ga.ω.sub 2 0 = 0 := by decide +kernel
  rw [h1, h0, Nat.zero_mod, Nat.mod_eq_of_lt (by omega)]
  decide

theorem ga_ok : GA.ChOK ga := fun _ _ _ l => List.Perm.refl l

theorem ample : DGA.Ample env ch :=
  ⟨⟨ga_ok, fun _ => ga_ok, fun l => List.Perm.refl l, fun c hc => by rw [List.eq_of_mem_replicate hc]; exact ga_ok⟩,
    fun c hc => by rw [List.eq_of_mem_replicate hc]; exact ga_fair, Or.inl (by
      show _ ≤ (List.replicate 14007 ga).length
      rw [List.length_replicate]
      decide)⟩

theorem ample_last : DGA.Ample env last :=
  ⟨⟨ga_ok, fun _ => ga_ok, ample.1.order, ample.1.sub⟩, ample.2.1, ample.2.2⟩

/-- `C75_first_call` applies: a state of the cycle is reached. -/
theorem reached : ∃ s, DGA.Reach env ctx DGA.ChOK s ∧ s.state = .cycle := by
  obtain ⟨s, N, h1, h2⟩ := C75_first_call env ctx valid sturdy (DGA.new env ctx fun _ => 0) (.new _) rfl ch ample.1
  exact ⟨s, .step (.new _) (DGA.refuel_ok ample.1 N) (h2 N (le_refl _)), h1 (by decide) (by decide)⟩

/-- `C75_one_vehicle_run` applies: three calls, the last one at the time limit, and the run is over. -/
example : ∃ s N, DGA.Reach env ctx DGA.ChOK s ∧ s.state = .terminated ∧ ∀ f, N ≤ f →
    DGA.steps env ctx ([ch, ch, last].map (DGAChoice.refuel f)) (DGA.new env ctx fun _ => 0) = some s := by
  obtain ⟨s, N, h1, h2, h3⟩ := C75_one_vehicle_run env ctx valid sturdy rfl load (by decide) [ch, ch, last] _
    (.new fun _ => 0) (by
      intro c hc
      simp only [List.mem_cons, List.not_mem_nil, or_false] at hc
      rcases hc with rfl | rfl | rfl
      · exact ample
      · exact ample
      · exact ample_last)
  exact ⟨s, N, h1, h3 ⟨last, by simp, by decide⟩, h2⟩

/-- `C75_cycle_call` and `C75_one_vehicle` apply in the reached state: a second call is made from it. -/
theorem second : ∃ s s' c, DGA.Reach env ctx DGA.ChOK s ∧ s.state = .cycle ∧ DGA.ChOK c ∧
    DGA.iterate env ctx c s = some s' ∧ s'.state = .cycle := by
  obtain ⟨s, h, hst⟩ := reached
  obtain ⟨s', N, e⟩ := C75_one_vehicle env ctx valid sturdy rfl load (by decide) s h ch ample
  obtain ⟨sub, mapping, rest, chosen, g, best, M, -, -, -, -, -, -, -, a, b, -⟩ :=
    C75_cycle_call env ctx valid sturdy s h hst ch ample.1 ample.2.1 ample.2.2 (by decide) (by decide)
  by_cases hgo : ∃ y, best = some y ∧ (y.phenotype.filter fun r => decide (r ≠ [])).length = chosen.length
  · obtain ⟨s2, h2, e2⟩ := a hgo
    exact ⟨s, s2, ch.refuel M, h, hst, DGA.refuel_ok ample.1 M, e2 M (le_refl _), h2⟩
  · have h5 := b hgo (max M N) (by omega)
    rw [e _ (by omega)] at h5
    simp at h5

/-- `C56_decomposed_run` speaks about it: there is a global solution, on one route. -/
example : ∃ s, DGA.Reach env ctx DGA.ChOK s ∧ Spec.IsPartition 4 s.global.phenotype ∧
    s.global.phenotype.length = 1 := by
  obtain ⟨s, h, hst⟩ := reached
  obtain ⟨-, h2, -⟩ := C56_decomposed_run env ctx valid s h
  exact ⟨s, h, (h2 hst).1, (h2 hst).2.1⟩

theorem reached_feasible {s : DGA ℚ} (h : DGA.Reach env ctx DGA.ChOK s) (hst : s.state = .cycle) :
    Spec.CapFeasible ctx.demand ctx.cap (1 / 1000000) s.global.phenotype ∧ s.global.cost ≤ 40 := by
  obtain ⟨-, h2, -⟩ := C56_decomposed_run env ctx valid s h
  obtain ⟨a1, a2, a3⟩ := h2 hst
  obtain ⟨r, hr⟩ := List.length_eq_one_iff.mp a2
  rw [hr] at a3
  unfold Spec.IsPartition at a1
  rw [hr] at a1
  simp only [List.flatten_cons, List.flatten_nil, List.append_nil] at a1
  have hl : Spec.routeLoad ctx.demand r ≤ ctx.cap := by rw [Spec.routeLoad_perm _ a1]; exact load
  constructor
  · intro r' hr'
    rw [hr, List.mem_singleton] at hr'
    subst hr'
    linarith
  · have h3 : Spec.pathDist ctx.dist (0 :: (r ++ [0])) ≤ ((0 :: (r ++ [0])).length - 1 : ℕ) * (10 : ℚ) :=
      Spec.pathDist_le ctx.dist 10 (by norm_num) (fun a b => by
        simp only [ctx, GeneticEx.ctx]
        split
        · norm_num
        · split
          · norm_num
          · split <;> norm_num) _
    have hlen : r.length = 3 := a1.length_eq
    simp only [List.length_cons, List.length_append, List.length_nil, hlen] at h3
    rw [a3]
    simp only [Spec.solCost, Spec.routeCost, List.map_cons, List.map_nil, List.sum_cons, List.sum_nil]
    rw [max_eq_left (by linarith)]
    unfold Spec.routeDist
    norm_num at h3 ⊢
    linarith

/-- `C57_cycle_no_worse` speaks about the second call; demands and capacity are whole. -/
example : ∃ s s' c, DGA.Reach env ctx DGA.ChOK s ∧ DGA.iterate env ctx c s = some s' ∧ s'.state = .cycle ∧
    s'.global.cost ≤ s.global.cost := by
  obtain ⟨s, s', c, h, hst, hc, e, hst'⟩ := second
  obtain ⟨f1, f2⟩ := reached_feasible h hst
  have hinf : (40 : ℚ) < inf - 1 / 1000000 := by
    show (40 : ℚ) < 2 ^ 1024 - 1 / 1000000
    have : (2 : ℚ) ^ 60 ≤ 2 ^ 1024 := pow_le_pow_right₀ (by norm_num) (by norm_num)
    generalize (2 : ℚ) ^ 1024 = B at this ⊢
    norm_num at this
    linarith
  refine ⟨s, s', c, h, e, hst', (C57_cycle_no_worse env ctx valid s s' h hst c hc e f1 (by linarith)).2 ?_ ⟨10, ?_⟩⟩
  · intro v
    simp only [ctx, GeneticEx.ctx]
    split
    · exact ⟨0, by norm_num⟩
    · exact ⟨1, by norm_num⟩
  · norm_num [ctx, GeneticEx.ctx]

/-- `C58_limit_ignored` speaks about it: the limit of five iterations is not reached. -/
example : ∃ s, DGA.Reach env ctx DGA.ChOK s ∧ s.state = .cycle ∧ s.ga.ctxIteration = 0 := by
  obtain ⟨s, h, hst⟩ := reached
  exact ⟨s, h, hst, (C58_limit_ignored env ctx _ s h).1⟩

end DecompRunEx
end Verif
