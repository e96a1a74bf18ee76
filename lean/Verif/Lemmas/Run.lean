import Verif.Lemmas.Search
import Verif.Lemmas.Load
import Verif.Lemmas.SwapStarCost
import Verif.Props.Evaluate

/-!
# A whole run of the local search
-/

namespace Verif
open F64 LS Spec

set_option linter.unusedSectionVars false

variable {fl : MoveFlags}

theorem Accepted.perm {α : Type} [F64 α] {ctx : Ctx α} {pen : α} {R R' : List (List ℕ)}
    (h : Accepted ctx fl pen R R') :
    R'.flatten.Perm R.flatten ∧ R'.length = R.length := by
  cases h with
  | move h _ _ _ hm _ => exact hm.perm
  | swap h _ hne hg hb _ _ =>
    obtain ⟨⟨s', -, hr, f, -⟩, -⟩ := hg.perform h hne hb
    refine ⟨hr.part.trans h.part.symm, ?_⟩
    rw [hr.len, f.numRoutes, h.len]

theorem Steps.perm {α : Type} [F64 α] {ctx : Ctx α} {pen : α} {k : ℕ} {R R' : List (List ℕ)}
    (h : Steps ctx fl pen k R R') : R'.flatten.Perm R.flatten ∧ R'.length = R.length := by
  induction h with
  | zero => exact ⟨.refl _, rfl⟩
  | succ _ ha ih => exact ⟨ha.perm.1.trans ih.1, ha.perm.2.trans ih.2⟩

/-- Every accepted move lowers the penalized cost by at least `EPSILON`. -/
theorem Accepted.cost {ctx : Ctx ℚ} {pen : ℚ} {R R' : List (List ℕ)} (h : Accepted ctx fl pen R R')
    (h0 : ctx.demand 0 = 0) (hsym : ∀ a b, ctx.dist a b = ctx.dist b a) :
    solCost ctx.dist ctx.demand ctx.cap pen R' ≤
      solCost ctx.dist ctx.demand ctx.cap pen R - 1 / 1000000 := by
  cases h with
  | move h hp hd hlt hm _ =>
    subst hp
    rw [hm.delta h h0 hsym] at hd
    cases hd
    rw [rat_approxLt, decide_eq_true_eq] at hlt
    simp only [rat_lit] at hlt
    linarith
  | swap h hp hne hg hb hge _ =>
    subst hp
    have := hg.cost_rat h h0 hne hb
    rw [rat_approxGte, decide_eq_false_iff_not, this] at hge
    simp only [rat_lit, not_or, not_lt, sub_zero] at hge
    rw [abs_of_nonpos hge.1] at hge
    linarith [hge.2]

theorem Steps.cost {ctx : Ctx ℚ} {pen : ℚ} {k : ℕ} {R R' : List (List ℕ)} (h : Steps ctx fl pen k R R')
    (h0 : ctx.demand 0 = 0) (hsym : ∀ a b, ctx.dist a b = ctx.dist b a) :
    solCost ctx.dist ctx.demand ctx.cap pen R' ≤
      solCost ctx.dist ctx.demand ctx.cap pen R - k * (1 / 1000000) := by
  induction h with
  | zero => simp
  | succ _ ha ih =>
    have := ha.cost h0 hsym
    push_cast
    linarith

theorem four_le_maxv : (4 : ℚ) ≤ (maxv : ℚ) := by
  have h : (1 : ℚ) ≤ 2 ^ 1021 := one_le_pow₀ (by norm_num)
  rw [rat_maxv, show (1023 : ℕ) = 2 + 1021 from rfl, pow_add]
  generalize (2 : ℚ) ^ 1021 = z at *
  linarith

theorem arith_rat {ctx : Ctx ℚ} (hd : ∀ a b, 0 ≤ ctx.dist a b ∧ ctx.dist a b ≤ (maxv : ℚ)) :
    Arith ctx := by
  refine ⟨by rw [rat_approxLt, decide_eq_false_iff_not]; simp only [rat_lit]; norm_num, ?_,
    insertFinite_rat hd⟩
  rw [rat_approxGte, decide_eq_true_eq]
  left
  simp only [rat_lit, rat_inf]
  positivity

/-- The number of accepted moves is bounded by the cost. -/
theorem Steps.bound {ctx : Ctx ℚ} {pen : ℚ} {k : ℕ} {R R' : List (List ℕ)} (h : Steps ctx fl pen k R R')
    (h0 : ctx.demand 0 = 0) (hsym : ∀ a b, ctx.dist a b = ctx.dist b a)
    (hd : ∀ a b, 0 ≤ ctx.dist a b) (hpen : 0 ≤ pen) :
    k ≤ ⌊solCost ctx.dist ctx.demand ctx.cap pen R * 1000000⌋.toNat := by
  have h1 := h.cost h0 hsym
  have h2 := solCost_nonneg ctx.dist ctx.demand hd ctx.cap hpen R'
  have h3 : (k : ℚ) ≤ solCost ctx.dist ctx.demand ctx.cap pen R * 1000000 := by linarith
  have h4 : (k : ℤ) ≤ ⌊solCost ctx.dist ctx.demand ctx.cap pen R * 1000000⌋ := by
    rw [Int.le_floor]; exact_mod_cast h3
  omega

section
variable {α : Type} [F64 α] {ctx : Ctx α}

/-- Loading, in the form used by `run`. -/
theorem load_run {s : LS α} (h : Ready s) (hn : NbrOK ctx s) {x : Individual α} (penMult : α)
    (hp : IsPartition ctx.n x.phenotype) (hlen : x.phenotype.length = s.numRoutes) :
    ∃ s1, loadIndividual ctx x ((s.reset).updatePenalty ctx penMult) = some s1 ∧
      Repr ctx s1 x.phenotype ∧ NbrOK ctx s1 ∧ s1.pen = ctx.pen *. penMult ∧
      s1.numRoutes = s.numRoutes ∧ s1.customers = s.customers ∧ s1.moveCount = 0 ∧
      (∀ r < s.numRoutes, (s1.route r).lastModified = 0) ∧ s1.lastTested = (fun _ => -1) ∧
      s1.corr = s.corr ∧ s1.corrCols = s.corrCols ∧ s1.granularity = s.granularity ∧
      (∀ r < s.numRoutes, (s1.route r).lastTestedSwapStar = -1) ∧ s1.angle = s.angle := by
  have hr : Ready ((s.reset).updatePenalty ctx penMult) := ⟨h.fin0, h.cums, h.empty⟩
  have hn' : NbrOK ctx ((s.reset).updatePenalty ctx penMult) :=
    ⟨hn.gran, hn.cols, hn.len, hn.nbr, hn.cust⟩
  obtain ⟨s1, e, h1, f, c0, m0⟩ := loadIndividual_repr hr rfl hp hlen
  exact ⟨s1, e, h1, hn'.frame f, f.pen, f.numRoutes, f.customers, c0,
    fun r hr => (m0 r hr).1, f.lastTested, f.corr, f.corrCols, f.granularity, fun r hr => (m0 r hr).2, f.angle⟩

/-- `sort_routes` when it does not panic on a matching genotype. -/
theorem sortRoutes_of_some {atan2 : α → α → α} {x y : Individual α}
    (hlen : x.genotype.length = x.phenotype.flatten.length)
    (h : Individual.sortRoutes atan2 ctx x = some y) : y.phenotype.Perm x.phenotype ∧
      y.genotype = y.phenotype.flatten ∧ y.number = x.number ∧ y.fitness = x.fitness ∧
      y.evaluation = x.evaluation := by
  have hp := sortRoutes_perm_of_some atan2 ctx x y h
  refine ⟨hp, ?_⟩
  have hlen' : x.genotype.length = y.phenotype.flatten.length := by rw [hlen, hp.flatten.length_eq]
  unfold Individual.sortRoutes at h
  dsimp only at h
  split at h
  · simp at h
  · split at h
    · simp at h
    · next g hg =>
      simp only [Option.some.injEq] at h
      subst h
      rw [writeGenotype_some _ _ _ (by rw [hlen']; simp)] at hg
      cases hg
      refine ⟨?_, rfl, rfl, rfl⟩
      simp [-List.length_flatten, hlen']

/-- Writing back, in the form used by `run`. -/
theorem write_run {s : LS α} {R : List (List ℕ)} (h : Repr ctx s R) (atan2 : α → α → α)
    {x y : Individual α} (hlen : x.phenotype.length = s.numRoutes)
    (e : updateIndividual atan2 ctx s x = some y) :
    y.phenotype.Perm R ∧ y.genotype = y.phenotype.flatten ∧ y.number = x.number ∧
      evaluate ctx x.evaluation y.phenotype = some y.evaluation := by
  rw [updateIndividual, writeRoutes_all h hlen, Option.bind_some, Option.bind_eq_some_iff] at e
  obtain ⟨z, ez, ey⟩ := e
  obtain ⟨h1, h2, h3, h4, h5⟩ := sortRoutes_of_some rfl ez
  rw [Individual.evaluate, Option.map_eq_some_iff] at ey
  obtain ⟨e', e1, rfl⟩ := ey
  exact ⟨h1, h2, h3, by rw [← h5]; exact e1⟩

/-- Writing back never panics over the rationals. -/
theorem write_total {ctx : Ctx ℚ} {s : LS ℚ} {R : List (List ℕ)} (h : Repr ctx s R)
    (atan2 : ℚ → ℚ → ℚ) {x : Individual ℚ} (hn : 0 < ctx.n)
    (hlen : x.phenotype.length = s.numRoutes) : ∃ y, updateIndividual atan2 ctx s x = some y := by
  rw [updateIndividual, writeRoutes_all h hlen, Option.bind_some]
  obtain ⟨z, ez, hp, -⟩ := C03_sort_routes_perm atan2 ctx
    { x with genotype := R.flatten, phenotype := R } rfl (by simp)
  rw [ez, Option.bind_some, Individual.evaluate]
  obtain ⟨e', ee, -⟩ := C01_evaluate_exact ctx z.evaluation z.phenotype hn (by
    intro r hr c hc
    have := (part_mem h.part (c := c)).mp
      (List.mem_flatten.mpr ⟨r, hp.mem_iff.mp hr, hc⟩)
    exact this.2)
  rw [ee]
  exact ⟨_, rfl⟩

end
end Verif
