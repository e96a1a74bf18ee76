import Verif.Lemmas.Run
import Verif.Props.Moves
import Mathlib.Tactic.IntervalCases

/-!
# C10, C11: a whole run of the local search
-/

namespace Verif
open F64 LS

section
variable {α : Type} [F64 α]

/-- **C10** (structure, any arithmetic). Whatever the earlier state of the local search, the random
choices, the enabled moves and the penalty multiplier: if the run on a valid individual ends, the result
visits every customer exactly once with the same number of routes, its giant tour is the concatenation
of its routes, its evaluation is that of its routes, and the local search is ready for another run. -/
theorem C10_run_structure (atan2 : α → α → α) (ctx : Ctx α) (f : MoveFlags) (ω : Oracle) (fuel : ℕ)
    (penMult : α) (s : LS α) (x : Individual α)
    (hA : Arith ctx) (hs : Ready s) (hn : NbrOK ctx s) (hp : Spec.IsPartition ctx.n x.phenotype)
    (hlen : x.phenotype.length = s.numRoutes) (s' : LS α) (y : Individual α)
    (hrun : LS.run atan2 ctx f ω fuel penMult s x = some (s', y)) :
    Spec.IsPartition ctx.n y.phenotype ∧ y.phenotype.length = x.phenotype.length ∧
      y.genotype = y.phenotype.flatten ∧ evaluate ctx x.evaluation y.phenotype = some y.evaluation ∧
      Ready s' ∧ NbrOK ctx s' ∧ s'.numRoutes = s.numRoutes := by
  obtain ⟨s1, e1, hr1, hn1, hp1, hnum1, hc1, -⟩ := load_run hs hn penMult hp hlen
  rw [LS.run, e1, Option.bind_some, Option.bind_eq_some_iff] at hrun
  obtain ⟨s2, e2, hrun⟩ := hrun
  obtain ⟨R', k, hr2, hn2, hp2, hnum2, hc2, st⟩ := searchLoop_sound hA fuel 0 0 s1 _ s2 hr1 hn1 e2
  rw [Option.map_eq_some_iff] at hrun
  obtain ⟨y', e3, e⟩ := hrun
  simp only [Prod.mk.injEq] at e
  obtain ⟨rfl, rfl⟩ := e
  obtain ⟨w1, w2, w3, w4⟩ := write_run hr2 atan2 (by rw [hnum2, hnum1]; exact hlen) e3
  refine ⟨w1.flatten.trans hr2.part, ?_, w2, w4, hr2.ready, hn2, hnum2.trans hnum1⟩
  rw [w1.length_eq, st.perm.2]

/-- A new local search is ready for a run. -/
theorem C10_new_ready (ctx : Ctx α) (numVehicles granularity : ℕ) (angle : ℕ → ℤ) (corr : List ℕ)
    (corrCols : ℕ) (penMult : α) : Ready (LS.new ctx numVehicles granularity angle corr corrCols penMult) :=
  ⟨fun _ _ => rfl, fun _ _ => ⟨rfl, rfl⟩, by simp [LS.new]⟩

end

/-- **C10**, **C11** (exact arithmetic). On a valid individual every run of the local search ends, after
at most `cost · 10⁶` accepted moves where `cost` is the penalized cost before, whatever the earlier state,
the random choices, the enabled moves; the result is valid, keeps the number of routes and does not cost
more under the penalty of the search. -/
theorem C10_C11_run (atan2 : ℚ → ℚ → ℚ) (ctx : Ctx ℚ) (f : MoveFlags) (ω : Oracle) (penMult : ℚ)
    (s : LS ℚ) (x : Individual ℚ)
    (hd : ∀ a b, 0 ≤ ctx.dist a b ∧ ctx.dist a b ≤ (maxv : ℚ)) (h0 : ctx.demand 0 = 0)
    (hsym : ∀ a b, ctx.dist a b = ctx.dist b a) (hpen : 0 ≤ ctx.pen * penMult) (hn0 : 0 < ctx.n)
    (hs : Ready s) (hn : NbrOK ctx s) (hp : Spec.IsPartition ctx.n x.phenotype)
    (hlen : x.phenotype.length = s.numRoutes) (fuel : ℕ)
    (hfuel : ⌊Spec.solCost ctx.dist ctx.demand ctx.cap (ctx.pen * penMult) x.phenotype * 1000000⌋.toNat
      < fuel) :
    ∃ s' y, LS.run atan2 ctx f ω fuel penMult s x = some (s', y) ∧
      Spec.IsPartition ctx.n y.phenotype ∧ y.phenotype.length = x.phenotype.length ∧
      y.genotype = y.phenotype.flatten ∧
      Spec.solCost ctx.dist ctx.demand ctx.cap (ctx.pen * penMult) y.phenotype ≤
        Spec.solCost ctx.dist ctx.demand ctx.cap (ctx.pen * penMult) x.phenotype ∧
      y.cost = Spec.solCost ctx.dist ctx.demand ctx.cap ctx.pen y.phenotype ∧
      Ready s' ∧ NbrOK ctx s' ∧ s'.numRoutes = s.numRoutes := by
  have hA := arith_rat hd
  obtain ⟨s1, e1, hr1, hn1, hp1, hnum1, hc1, -⟩ := load_run hs hn penMult hp hlen
  simp only [rat_mul] at hp1
  obtain ⟨s2, R', k, e2, hr2, hn2, hp2, hnum2, hc2, st⟩ := searchLoop_ends hA (f := f) (ω := ω) _ fuel 0 0
    s1 _ hr1 hn1 hfuel (fun k R' hst => by
      rw [hp1] at hst
      exact hst.bound h0 hsym (fun a b => (hd a b).1) hpen)
  have hlen2 : x.phenotype.length = s2.numRoutes := by rw [hnum2, hnum1]; exact hlen
  obtain ⟨y, e3⟩ := write_total hr2 atan2 hn0 hlen2
  obtain ⟨w1, w2, w3, w4⟩ := write_run hr2 atan2 hlen2 e3
  have hpart : Spec.IsPartition ctx.n y.phenotype := w1.flatten.trans hr2.part
  refine ⟨s2, y, ?_, hpart, by rw [w1.length_eq, st.perm.2], w2, ?_, ?_, hr2.ready, hn2,
    hnum2.trans hnum1⟩
  · rw [LS.run, e1, Option.bind_some, LS.search, e2, Option.bind_some, e3]; rfl
  · rw [hp1] at st
    have h1 := st.cost h0 hsym
    have h2 : (0 : ℚ) ≤ k * (1 / 1000000) := by positivity
    rw [Spec.solCost_perm ctx.dist ctx.demand ctx.cap _ w1]
    linarith
  · obtain ⟨e', ee, hc, -⟩ := C01_evaluate_exact ctx x.evaluation y.phenotype hn0 (by
      intro r hr c hc
      exact ((part_mem hpart).mp (List.mem_flatten.mpr ⟨r, hr, hc⟩)).2)
    rw [w4] at ee
    cases ee
    exact hc

/-- **C11**. Every accepted move lowers the penalized cost by at least `1e-6`, so at most `cost · 10⁶`
moves are accepted in a row. -/
theorem C11_accepted_decreases (ctx : Ctx ℚ) (fl : MoveFlags) (pen : ℚ) (k : ℕ) (R R' : List (List ℕ))
    (h : Steps ctx fl pen k R R') (h0 : ctx.demand 0 = 0) (hsym : ∀ a b, ctx.dist a b = ctx.dist b a)
    (hd : ∀ a b, 0 ≤ ctx.dist a b) (hpen : 0 ≤ pen) :
    Spec.solCost ctx.dist ctx.demand ctx.cap pen R' ≤
        Spec.solCost ctx.dist ctx.demand ctx.cap pen R - k * (1 / 1000000) ∧
      k ≤ ⌊Spec.solCost ctx.dist ctx.demand ctx.cap pen R * 1000000⌋.toNat :=
  ⟨h.cost h0 hsym, h.bound h0 hsym hd hpen⟩

namespace MoveEx

theorem ls_nbr : NbrOK ctx ls := by
  constructor
  · decide
  · decide
  · decide
  · intro u i hu hun hi v hv
    have h1 : u < 5 := hun
    have h2 : i < 2 := hi
    interval_cases u <;> interval_cases i <;> simp [ls, LS.new] at hv <;> subst hv <;> decide
  · intro u hu
    simp [ls, LS.new, ctx] at hu ⊢
    omega

/-- Bounded distances on the same nodes. -/
def ctxB : Ctx ℚ := { ctx with dist := fun a b => |((min a 4 : ℕ) : ℚ) - (min b 4 : ℕ)| }

/-- All hypotheses of `C10_C11_run` hold for a new local search and an individual with an empty
route. -/
example : (∀ a b, 0 ≤ ctxB.dist a b ∧ ctxB.dist a b ≤ (maxv : ℚ)) ∧ ctxB.demand 0 = 0 ∧
    (∀ a b, ctxB.dist a b = ctxB.dist b a) ∧ 0 ≤ ctxB.pen * 1 ∧ 0 < ctxB.n ∧ Ready ls ∧
    NbrOK ctxB ls ∧ Spec.IsPartition ctxB.n ind.phenotype ∧ ind.phenotype.length = ls.numRoutes := by
  refine ⟨fun a b => ⟨abs_nonneg _, ?_⟩, rfl, fun a b => abs_sub_comm _ _, by norm_num [ctxB, ctx], by decide,
    C10_new_ready _ _ _ _ _ _ _, ?_, ?_, rfl⟩
  · refine le_trans ?_ four_le_maxv
    have ha : ((min a 4 : ℕ) : ℚ) ≤ 4 := by exact_mod_cast min_le_right a 4
    have hb : ((min b 4 : ℕ) : ℚ) ≤ 4 := by exact_mod_cast min_le_right b 4
    have ha0 : (0 : ℚ) ≤ (min a 4 : ℕ) := Nat.cast_nonneg _
    have hb0 : (0 : ℚ) ≤ (min b 4 : ℕ) := Nat.cast_nonneg _
    simp only [ctxB]
    rw [abs_le]; constructor <;> linarith
  · exact ⟨ls_nbr.gran, ls_nbr.cols, ls_nbr.len, ls_nbr.nbr, ls_nbr.cust⟩
  · rw [Spec.IsPartition]; decide

end MoveEx
end Verif
