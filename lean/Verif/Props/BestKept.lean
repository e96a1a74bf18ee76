import Verif.Lemmas.BestKept
import Verif.Props.GeneticExamples

/-!
# C67: no feasible solution of the population is better than the reported one

Exact arithmetic; all random draws, hash orders and clock readings.
-/

namespace Verif
open F64 Spec

namespace GA

variable {env : GAEnv ℚ} {ctx : Ctx ℚ}

theorem HistRun.below_inf {P : ℚ → Prop} {nv : ℕ} {h : History ℚ} (r : HistRun P ctx nv History.new h) :
    h.bestCost ≤ inf := r.log.2

theorem Reach.seen (hv : Valid env ctx) {g : GA ℚ} (h : Reach env ctx ChOK g) : Seen ctx g := by
  induction h with
  | new ω =>
    refine ⟨?_, fun x hx => by simp [GA.new, Population.new, SubPop.new] at hx⟩
    show (inf : ℚ) ≤ inf + 1 / 1000000
    have : (0 : ℚ) ≤ 1 / 1000000 := by norm_num
    exact le_add_of_nonneg_right this
  | step r hok h ih => exact iterate_seen hv hok (r.inv hv).1 ih (HistRun.below_inf (r.inv hv).2.1) h

theorem steps_hist (hv : Valid env ctx) : ∀ (chs : List (GAChoice ℚ)) {g g' : GA ℚ},
    (∀ ch ∈ chs, ChOK ch) → Reach env ctx ChOK g → steps env ctx chs g = some g' →
    g'.rr.hist.bestCost ≤ g.rr.hist.bestCost
  | [], g, g', _, _, h => by
    simp only [steps, Option.some.injEq] at h
    rw [h]
  | ch :: chs, g, g', hok, r, h => by
    unfold steps at h
    split at h
    · rw [Option.some.injEq] at h
      rw [h]
    · obtain ⟨g1, h1, h⟩ := Option.bind_eq_some_iff.mp h
      obtain ⟨-, hh, -⟩ := iterate_inv hv (hok ch (by simp)) (r.inv hv).1 h1
      exact (steps_hist hv chs (fun c hc => hok c (by simp [hc])) (r.step (hok ch (by simp)) h1) h).trans hh.log.2

end GA

/-- All distances, demands and the capacity are whole numbers. -/
structure Spec.WholeNumbers (ctx : Ctx ℚ) : Prop where
  dist : ∀ a b, ∃ k : ℤ, ctx.dist a b = k
  demand : ∀ a, ∃ k : ℤ, ctx.demand a = k
  cap : ∃ k : ℤ, ctx.cap = k

theorem sum_whole {l : List ℚ} (h : ∀ x ∈ l, ∃ k : ℤ, x = k) : ∃ k : ℤ, l.sum = k := by
  induction l with
  | nil => exact ⟨0, by simp⟩
  | cons a l ih =>
    obtain ⟨k, hk⟩ := ih fun x hx => h x (by simp [hx])
    obtain ⟨j, hj⟩ := h a (by simp)
    exact ⟨j + k, by rw [List.sum_cons, hj, hk]; push_cast; rfl⟩

theorem pathDist_whole {dist : ℕ → ℕ → ℚ} (h : ∀ a b, ∃ k : ℤ, dist a b = k) :
    ∀ l : List ℕ, ∃ k : ℤ, pathDist dist l = k
  | [] => ⟨0, by simp [pathDist]⟩
  | [_] => ⟨0, by simp [pathDist]⟩
  | a :: b :: l => by
    obtain ⟨k, hk⟩ := pathDist_whole h (b :: l)
    obtain ⟨j, hj⟩ := h a b
    exact ⟨j + k, by rw [pathDist, hj, hk]; push_cast; rfl⟩

theorem length_whole {dist : ℕ → ℕ → ℚ} (h : ∀ a b, ∃ k : ℤ, dist a b = k) (R : List (List ℕ)) :
    ∃ k : ℤ, (R.map (routeDist dist)).sum = k :=
  sum_whole fun x hx => by
    obtain ⟨r, -, rfl⟩ := List.mem_map.mp hx
    exact pathDist_whole h _

theorem capFeasible_whole {ctx : Ctx ℚ} (hw : WholeNumbers ctx) {R : List (List ℕ)}
    (h : CapFeasible ctx.demand ctx.cap (1 / 1000000) R) : CapFeasible ctx.demand ctx.cap 0 R := by
  intro r hr
  obtain ⟨k, hk⟩ : ∃ k : ℤ, routeLoad ctx.demand r = k := sum_whole fun x hx => by
    obtain ⟨a, -, rfl⟩ := List.mem_map.mp hx
    exact hw.demand a
  obtain ⟨j, hj⟩ := hw.cap
  have := h r hr
  rw [hk, hj] at this ⊢
  have h7 : (k : ℚ) < (j + 1 : ℤ) := by push_cast; linarith
  have h8 : k ≤ j := by have : k < j + 1 := by exact_mod_cast h7
                        omega
  have h9 : (k : ℚ) ≤ j := by exact_mod_cast h8
  linarith

/-- **C67.** A member `x` of the population at any point of a run (state `g0`) that is within the capacity
and shorter than `2^1023`: from then on (state `g`, any number of calls later) a solution is recorded, and
the one that would be reported costs at most the length of `x` plus `2·10⁻⁶`. -/
theorem C67_best_of_all (env : GAEnv ℚ) (ctx : Ctx ℚ) (hv : GA.Valid env ctx) (g0 g : GA ℚ)
    (h : GA.Reach env ctx GA.ChOK g0) (chs : List (GAChoice ℚ)) (hok : ∀ ch ∈ chs, GA.ChOK ch)
    (hg : GA.steps env ctx chs g0 = some g) (x : Individual ℚ)
    (hx : x ∈ g0.pop.feasible.pop ++ g0.pop.infeasible.pop)
    (hf : CapFeasible ctx.demand ctx.cap 0 x.phenotype)
    (hlt : (x.phenotype.map (routeDist ctx.dist)).sum < 2 ^ 1023) :
    ∃ e, g.rr.hist.entries.getLast? = some e ∧
      e.cost ≤ (x.phenotype.map (routeDist ctx.dist)).sum + 2 / 1000000 := by
  have h1 := (h.seen hv).all x hx hf
  have h2 := GA.steps_hist hv chs hok h hg
  have hr := GA.steps_reach chs hok h hg
  obtain ⟨-, c2, c3, -⟩ := C38_history_improves env ctx hv g hr
  cases he : g.rr.hist.entries.getLast? with
  | none =>
    rw [List.getLast?_eq_none_iff] at he
    have e2 : g.rr.hist.bestCost = (2 : ℚ) ^ 1024 := c2 he
    exfalso
    have b : (2 : ℚ) ^ 1024 = 2 ^ 1023 * 2 := by rw [← pow_succ]
    have b1 : (1 : ℚ) ≤ 2 ^ 1023 := one_le_pow₀ (by norm_num)
    rw [e2, b] at h2
    clear b e2
    generalize (2 : ℚ) ^ 1023 = z at *
    linarith
  | some e => exact ⟨e, rfl, by rw [c3 e he]; exact h2.trans h1⟩

/-- **C67** for whole numbers: the reported solution is at most as long as any such `x`. -/
theorem C67_best_of_all_whole (env : GAEnv ℚ) (ctx : Ctx ℚ) (hv : GA.Valid env ctx) (hw : WholeNumbers ctx)
    (g0 g : GA ℚ) (h : GA.Reach env ctx GA.ChOK g0) (chs : List (GAChoice ℚ)) (hok : ∀ ch ∈ chs, GA.ChOK ch)
    (hg : GA.steps env ctx chs g0 = some g) (x : Individual ℚ) (hx : x ∈ g0.pop.feasible.pop)
    (hlt : (x.phenotype.map (routeDist ctx.dist)).sum < 2 ^ 1023) :
    ∃ e, g.rr.hist.entries.getLast? = some e ∧ IsPartition ctx.n e.routes ∧
      CapFeasible ctx.demand ctx.cap 0 e.routes ∧
      (e.routes.map (routeDist ctx.dist)).sum ≤ (x.phenotype.map (routeDist ctx.dist)).sum := by
  have hf : CapFeasible ctx.demand ctx.cap 0 x.phenotype := by
    obtain ⟨hs, hr⟩ := (h.inv hv).1.base.pop
    have hI := (hr.inv hv.bs hv.sort).feasible
    obtain ⟨p, hp⟩ := hI.good x hx
    exact capFeasible_whole hw (hp.feasible.mp (hI.class_ x hx))
  obtain ⟨e, he, hle⟩ := C67_best_of_all env ctx hv g0 g h chs hok hg x (List.mem_append_left _ hx) hf hlt
  have hr := GA.steps_reach chs hok h hg
  obtain ⟨-, -, -, -, -, c6⟩ := C38_history_improves env ctx hv g hr
  obtain ⟨r1, -, r3, -, r5⟩ := C39_recorded_feasible env ctx hv g hr e
    (List.mem_of_getLast? (by rw [← c6]; exact he))
  have r3' := capFeasible_whole hw r3
  refine ⟨e, he, r1, r3', ?_⟩
  rw [r5 r3'] at hle
  obtain ⟨k, hk⟩ := length_whole hw.dist e.routes
  obtain ⟨j, hj⟩ := length_whole hw.dist x.phenotype
  rw [hk, hj] at hle ⊢
  have h7 : (k : ℚ) < (j + 1 : ℤ) := by push_cast; linarith
  have h8 : k ≤ j := by have : k < j + 1 := by exact_mod_cast h7
                        omega
  exact_mod_cast h8

namespace GeneticEx

theorem whole : WholeNumbers ctx where
  dist a b := by
    simp only [ctx]
    split
    · exact ⟨0, by norm_num⟩
    · split
      · exact ⟨10, by norm_num⟩
      · split
        · exact ⟨1, by norm_num⟩
        · exact ⟨5, by norm_num⟩
  demand c := by
    simp only [ctx]
    split
    · exact ⟨0, by norm_num⟩
    · exact ⟨1, by norm_num⟩
  cap := ⟨10, by norm_num [ctx]⟩

/-- The hypotheses of C67 are met by the run of `C40_refuted`, whose population holds the tour 3-2-1: after
any further calls that do not panic a solution of length at most 22 is recorded. -/
example (chs : List (GAChoice ℚ)) (hok : ∀ ch ∈ chs, GA.ChOK ch) (g : GA ℚ)
    (hg : (run.bind (GA.steps env ctx chs)) = some g) :
    ∃ e, g.rr.hist.entries.getLast? = some e ∧ (e.routes.map (routeDist ctx.dist)).sum ≤ 22 := by
  obtain ⟨g0, h0, h1⟩ := Option.bind_eq_some_iff.mp hg
  have hp : run.map (fun g => g.pop.feasible.pop.map fun x => x.phenotype) = some [[[3, 2, 1]]] := by
    decide +kernel
  rw [h0, Option.map_some, Option.some.injEq, List.map_eq_singleton_iff] at hp
  obtain ⟨x, hx, hxp⟩ := hp
  have hlen : (x.phenotype.map (routeDist ctx.dist)).sum = 22 := by rw [hxp]; decide +kernel
  have hr : GA.Reach env ctx GA.ChOK g0 := GA.steps_reach _ (fun ch hch => by
    simp only [List.mem_cons, List.not_mem_nil, or_false, or_self] at hch
    exact hch ▸ choice_ok 0 0) (.new _) h0
  obtain ⟨e, a, -, -, b⟩ := C67_best_of_all_whole env ctx valid whole g0 g hr chs hok h1 x (by rw [hx]; simp) (by
    rw [hlen]
    exact lt_of_lt_of_le (show (22 : ℚ) < 2 ^ 10 by norm_num) (pow_le_pow_right₀ (by norm_num) (by norm_num)))
  exact ⟨e, a, by rw [hlen] at b; exact b⟩

end GeneticEx
end Verif
