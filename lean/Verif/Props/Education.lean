import Verif.Lemmas.Education
import Verif.Props.GeneticExamples

/-!
# C65: every member of the population is educated
-/

namespace Verif
open F64 Spec

theorem GA.Reach.educated {env : GAEnv ℚ} {ctx : Ctx ℚ} (hv : GA.Valid env ctx) (he : GA.Even ctx)
    (hls : env.lsEnabled = true) (hel : env.eliteEducation = false) {g : GA ℚ}
    (h : GA.Reach env ctx GA.ChOK g) :
    GA.Table env ctx g ∧ GA.AllEducated env ctx 10000000 g ∧ g.state ≠ .elite := by
  induction h with
  | new ω =>
    exact ⟨GA.new_table ω, fun x hx => by simp [GA.new, Population.new, SubPop.new] at hx, by simp [GA.new]⟩
  | step r hok h ih => exact GA.iterate_educated hv he hls hel hok (r.inv hv).1 ih.2.2 ih.1 ih.2.1 h

/-- **C65**, without mutation. At every point of every run every member of the population, feasible or not,
is a local optimum: for a penalty the loop can have (or ten times that, for repaired individuals), no enabled
move of any customer towards any customer of its neighbour list lowers the penalized cost by more than
`1e-6`. -/
theorem C65_local_optima (env : GAEnv ℚ) (ctx : Ctx ℚ) (hv : GA.Valid env ctx) (h0 : ctx.demand 0 = 0)
    (hsym : ∀ a b, ctx.dist a b = ctx.dist b a) (hls : env.lsEnabled = true)
    (hmut : env.rrMutation = false) (hel : env.eliteEducation = false) (g : GA ℚ)
    (h : GA.Reach env ctx GA.ChOK g) (x : Individual ℚ)
    (hx : x ∈ g.pop.feasible.pop ++ g.pop.infeasible.pop) :
    ∃ p, 1 / 10000 ≤ p ∧ p ≤ 100000000 ∧
      LocalOptimum ctx env.moves.neighbor (GA.NbrOf env) p x.phenotype := by
  obtain ⟨p, h1, h2, -, h3⟩ := (h.educated hv ⟨h0, hsym⟩ hls hel).2.1 x hx
  exact ⟨p, h1, by norm_num at h2 ⊢; exact h2, (h3 hmut).1⟩

/-- **C65**, with mutation. Every member costs no more than a complete local optimum, at one penalty: mutation
does not undo what the local search gained. -/
theorem C65_no_worse_than_optimum (env : GAEnv ℚ) (ctx : Ctx ℚ) (hv : GA.Valid env ctx)
    (h0 : ctx.demand 0 = 0) (hsym : ∀ a b, ctx.dist a b = ctx.dist b a) (hls : env.lsEnabled = true)
    (hel : env.eliteEducation = false) (g : GA ℚ) (h : GA.Reach env ctx GA.ChOK g) (x : Individual ℚ)
    (hx : x ∈ g.pop.feasible.pop ++ g.pop.infeasible.pop) :
    ∃ p, 1 / 10000 ≤ p ∧ p ≤ 100000000 ∧ ∃ R, IsPartition ctx.n R ∧
      LocalOptimum ctx env.moves.neighbor (GA.NbrOf env) p R ∧
      solCost ctx.dist ctx.demand ctx.cap p x.phenotype ≤ solCost ctx.dist ctx.demand ctx.cap p R := by
  obtain ⟨p, h1, h2, ⟨R, h3, h4, h5⟩, -⟩ := (h.educated hv ⟨h0, hsym⟩ hls hel).2.1 x hx
  exact ⟨p, h1, by norm_num at h2 ⊢; exact h2, R, h3, h4.1, h5⟩

/-- **C65**, SWAP*, without mutation. If SWAP* is enabled and the distances satisfy the triangle inequality,
then every member is also without gain for SWAP*, at the penalty it is a local optimum for: no exchange of
customers between two routes whose sectors overlap lowers the penalized cost by more than `3e-6`. -/
theorem C65_swap_star (env : GAEnv ℚ) (ctx : Ctx ℚ) (hv : GA.Valid env ctx) (h0 : ctx.demand 0 = 0)
    (hsym : ∀ a b, ctx.dist a b = ctx.dist b a)
    (htri : ∀ a b c, ctx.dist a c ≤ ctx.dist a b + ctx.dist b c) (hls : env.lsEnabled = true)
    (hsw : env.moves.swapStar = true) (hmut : env.rrMutation = false) (hel : env.eliteEducation = false)
    (g : GA ℚ) (h : GA.Reach env ctx GA.ChOK g) (x : Individual ℚ)
    (hx : x ∈ g.pop.feasible.pop ++ g.pop.infeasible.pop) :
    ∃ p, 1 / 10000 ≤ p ∧ p ≤ 100000000 ∧
      LocalOptimum ctx env.moves.neighbor (GA.NbrOf env) p x.phenotype ∧
      SwapOptimum ctx env.angle p x.phenotype := by
  obtain ⟨p, h1, h2, -, h3⟩ := (h.educated hv ⟨h0, hsym⟩ hls hel).2.1 x hx
  exact ⟨p, h1, by norm_num at h2 ⊢; exact h2, (h3 hmut).1, (h3 hmut).2 hsw htri⟩

/-- **C65**, SWAP*, with mutation. Every member costs no more than routes that are complete and without gain
for all moves, SWAP* included. -/
theorem C65_swap_star_mutation (env : GAEnv ℚ) (ctx : Ctx ℚ) (hv : GA.Valid env ctx) (h0 : ctx.demand 0 = 0)
    (hsym : ∀ a b, ctx.dist a b = ctx.dist b a)
    (htri : ∀ a b c, ctx.dist a c ≤ ctx.dist a b + ctx.dist b c) (hls : env.lsEnabled = true)
    (hsw : env.moves.swapStar = true) (hel : env.eliteEducation = false)
    (g : GA ℚ) (h : GA.Reach env ctx GA.ChOK g) (x : Individual ℚ)
    (hx : x ∈ g.pop.feasible.pop ++ g.pop.infeasible.pop) :
    ∃ p, 1 / 10000 ≤ p ∧ p ≤ 100000000 ∧ ∃ R, IsPartition ctx.n R ∧
      LocalOptimum ctx env.moves.neighbor (GA.NbrOf env) p R ∧ SwapOptimum ctx env.angle p R ∧
      solCost ctx.dist ctx.demand ctx.cap p x.phenotype ≤ solCost ctx.dist ctx.demand ctx.cap p R := by
  obtain ⟨p, h1, h2, ⟨R, h3, h4, h5⟩, -⟩ := (h.educated hv ⟨h0, hsym⟩ hls hel).2.1 x hx
  exact ⟨p, h1, by norm_num at h2 ⊢; exact h2, R, h3, h4.1, h4.2 hsw htri, h5⟩

namespace GeneticEx

/-- The settings of the example with local search and all moves, without mutation. -/
def envLS : GAEnv ℚ := { env with
  lsEnabled := true, rrMutation := false,
  moves := ⟨true, true, true, true, true, true, true, true, true, true⟩ }

def runLS : Option (GA ℚ) := GA.steps envLS ctx [choice 0 0, choice 5 0] (GA.new envLS ctx fun _ => 0)

/-- `C65_local_optima` speaks about something: a reachable state with a member, which is the tour 1-2-3,
and 3 is on the neighbour list of 1. -/
example : ∃ g x, GA.Valid envLS ctx ∧ GA.Reach envLS ctx GA.ChOK g ∧
    x ∈ g.pop.feasible.pop ++ g.pop.infeasible.pop ∧ x.phenotype = [[1, 2, 3]] ∧ GA.NbrOf envLS 1 3 := by
  have h : runLS.map (fun g => g.pop.feasible.pop.map (·.phenotype)) = some [[[1, 2, 3]]] := by
    decide +kernel
  obtain ⟨g, hg, e⟩ := Option.map_eq_some_iff.mp h
  obtain ⟨x, hx, ex⟩ := List.mem_map.mp (show [[1, 2, 3]] ∈ g.pop.feasible.pop.map (·.phenotype) by rw [e]; simp)
  refine ⟨g, x, ⟨valid.n, valid.dist, valid.fleet, valid.bound, valid.vehicles, valid.bs, valid.sort, valid.pen,
    valid.mult, valid.lim, valid.mag, ?_⟩, ?_, List.mem_append_left _ hx, ex, 1, by decide, by decide⟩
  · exact ⟨valid.nbr.gran, valid.nbr.cols, valid.nbr.len, valid.nbr.nbr, valid.nbr.cust⟩
  · exact GA.steps_reach _ (fun ch hch => by
      simp only [List.mem_cons, List.not_mem_nil, or_false] at hch
      rcases hch with rfl | rfl
      · exact choice_ok 0 0
      · exact choice_ok 5 0) (.new _) hg

/-- Four customers on a line through the depot, two on each side. -/
def pos (c : ℕ) : ℚ := if c = 1 then 1 else if c = 2 then -1 else if c = 3 then 2 else if c = 4 then -2 else 0

theorem pos_bound (c : ℕ) : -2 ≤ pos c ∧ pos c ≤ 2 := by
  unfold pos
  repeat' split
  all_goals norm_num

def ctxM : Ctx ℚ where
  n := 5
  dist a b := |pos a - pos b|
  demand c := if c = 0 then 0 else 1
  cap := 2
  pen := 10
  lng c := pos c
  lat _ := 0

def envM : GAEnv ℚ := { envLS with
  rr := ⟨10, 10, 2, 1.2, 0.85, fun c => some ([1, 2, 3, 4].erase c), fun _ _ => 0, fun _ => 1, fun _ => -1⟩
  split := ⟨true, 1.5, 2⟩
  lowerBound := 2
  granularity := 3
  corr := [0, 0, 0, 2, 3, 4, 1, 3, 4, 1, 2, 4, 1, 2, 3]
  corrCols := 3 }

theorem validM : GA.Valid envM ctxM where
  n := by decide
  dist a b := by
    have h : (4 : ℚ) ≤ (maxv : ℚ) := by
      show (4 : ℚ) ≤ 2 ^ 1023
      calc (4 : ℚ) ≤ 2 ^ 4 := by norm_num
        _ ≤ 2 ^ 1023 := pow_le_pow_right₀ (by norm_num) (by norm_num)
    obtain ⟨a1, a2⟩ := pos_bound a
    obtain ⟨b1, b2⟩ := pos_bound b
    exact ⟨abs_nonneg _, le_trans (abs_le.mpr ⟨by linarith, by linarith⟩) h⟩
  fleet := by decide
  bound := by decide
  vehicles := rfl
  bs := bsearchNew_ok
  sort := valid.sort
  pen := by norm_num [envM, envLS, env]
  mult := by norm_num [envM, envLS, env]
  lim := le_refl _
  mag := fun _ => by
    refine ⟨4, 1, ?_, ?_, ?_, ?_⟩
    · intro a b
      obtain ⟨a1, a2⟩ := pos_bound a
      obtain ⟨b1, b2⟩ := pos_bound b
      exact ⟨abs_nonneg _, abs_le.mpr ⟨by linarith, by linarith⟩⟩
    · intro c
      simp only [RR.ctxAt, ctxM]
      split <;> norm_num
    · norm_num [RR.ctxAt]
    · norm_num [RR.ctxAt, ctxM]
  nbr := by
    refine ⟨by decide, by decide, by decide, ?_, ?_⟩
    · intro u i h1 h2 h3 v hv
      have hu : u < 5 := h2
      have hi : i < 3 := h3
      have hv' : ([0, 0, 0, 2, 3, 4, 1, 3, 4, 1, 2, 4, 1, 2, 3] : List ℕ)[u * 3 + i]? = some v := hv
      show 0 < v ∧ v < 5 ∧ v ≠ u
      interval_cases u <;> interval_cases i <;> simp at hv' <;> omega
    · decide

def runM : Option (GA ℚ) := GA.steps envM ctxM [choice 0 0, choice 5 0] (GA.new envM ctxM fun _ => 0)

/-- `C65_swap_star` applies: in a reachable state the routes 3-1 and 2-4 are a member; their sectors overlap,
and exchanging 1 and 2 is a SWAP* move between them, which by the theorem gains nothing. -/
example : ∃ g x p, GA.Reach envM ctxM GA.ChOK g ∧ x ∈ g.pop.feasible.pop ++ g.pop.infeasible.pop ∧
    x.phenotype = [[3, 1], [2, 4]] ∧ SwapStarEffect x.phenotype 0 1 [[3, 2], [1, 4]] ∧ 1 / 10000 ≤ p ∧
    solCost ctxM.dist ctxM.demand ctxM.cap p [[3, 1], [2, 4]] ≤
      solCost ctxM.dist ctxM.demand ctxM.cap p [[3, 2], [1, 4]] + 3 / 1000000 := by
  have h : runM.map (fun g => g.pop.feasible.pop.map (·.phenotype)) = some [[[3, 1], [2, 4]]] := by
    decide +kernel
  obtain ⟨g, hg, e⟩ := Option.map_eq_some_iff.mp h
  obtain ⟨x, hx, ex⟩ := List.mem_map.mp
    (show [[3, 1], [2, 4]] ∈ g.pop.feasible.pop.map (·.phenotype) by rw [e]; simp)
  have hr : GA.Reach envM ctxM GA.ChOK g := GA.steps_reach _ (fun ch hch => by
      simp only [List.mem_cons, List.not_mem_nil, or_false] at hch
      rcases hch with rfl | rfl
      · exact choice_ok 0 0
      · exact choice_ok 5 0) (.new _) hg
  have hx' : x ∈ g.pop.feasible.pop ++ g.pop.infeasible.pop := List.mem_append_left _ hx
  obtain ⟨p, p1, -, -, hs⟩ := C65_swap_star envM ctxM validM rfl (fun a b => abs_sub_comm _ _)
    (fun a b c => abs_sub_le _ _ _) rfl rfl rfl rfl g hr x hx'
  have heff : SwapStarEffect [[3, 1], [2, 4]] 0 1 [[3, 2], [1, 4]] :=
    .both 1 2 [3] [] [] [4] [] [4] [3] [] rfl rfl rfl rfl
  rw [ex] at hs
  exact ⟨g, x, p, hr, hx', ex, ex ▸ heff, p1,
    hs 0 1 [3, 1] [2, 4] (by decide) rfl rfl (by simp) (by simp) (by decide) _ heff⟩

end GeneticEx
end Verif
