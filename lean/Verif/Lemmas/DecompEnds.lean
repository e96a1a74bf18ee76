import Mathlib.Algebra.Order.Archimedean.Basic
import Verif.Lemmas.DecompSub
import Verif.Props.Progress

/-! # The calls of the decomposed algorithm return (exact arithmetic) -/

namespace Verif
open F64 RRSol

namespace GA

/-- What is asked for progress of everything but elite education, which the decomposed algorithm never
starts. -/
def Sturdy (env : GAEnv ℚ) (ctx : Ctx ℚ) (hi : ℚ) : Prop := Robust { env with eliteEducation := false } ctx hi

variable {env : GAEnv ℚ} {ctx : Ctx ℚ} {hi : ℚ}

theorem educate_ends' (hv : ValidUpTo env ctx hi) (hr : Sturdy env ctx hi) {ch : GAChoice ℚ} (hch : ChOK ch)
    (ω : Oracle) {g : GA ℚ} (hg : Edu env ctx hi g) :
    ∃ g', EndsIn (fun f => educate env ctx { ch with fuel := f } ω g) g' :=
  educate_ends (env := { env with eliteEducation := false })
    ⟨hv.n, hv.dist, hv.fleet, hv.bound, hv.vehicles, hv.bs, hv.sort, hv.pen, hv.mult, hv.lim, hv.mag, hv.nbr⟩
    hr hch ω ⟨⟨hg.base.pop, hg.base.len, hg.base.ready, hg.base.nbr, hg.base.lsLen, hg.base.split⟩,
      ⟨hg.mu.idle, hg.mu.upd, hg.mu.sched, hg.mu.pen⟩, hg.child.good, hg.child.len⟩

end GA

/-- The same choices with `f` rounds granted to every loop the code does not bound. -/
def DGAChoice.refuel (f : ℕ) (ch : DGAChoice ℚ) : DGAChoice ℚ where
  ga := GA.refuel f ch.ga
  rounds k := GA.refuel f (ch.rounds k)
  order := ch.order
  sub := ch.sub.map (GA.refuel f)

namespace DGA

theorem refuel_ok {ch : DGAChoice ℚ} (h : ChOK ch) (f : ℕ) : ChOK (ch.refuel f) :=
  ⟨h.ga, h.rounds, h.order, fun c hc => by
    obtain ⟨c', hc', rfl⟩ := List.mem_map.mp hc
    exact h.sub c' hc'⟩

/-- Ruin and recreate to the end of the schedule returns with a best solution that can be written back. -/
theorem refine_ends {env : GAEnv ℚ} {ctx : Ctx ℚ} {hi : ℚ} (hv : GA.ValidUpTo env ctx hi)
    (hr : GA.Sturdy env ctx hi) {ch : GAChoice ℚ} (hch : GA.ChOK ch) {r : RR ℚ} {x : Individual ℚ}
    (hi' : RR.Inv ctx env.split.numVehicles r) (hu : r.updatePenalty = false) (hp : 0 < r.pen) (hp' : r.pen ≤ hi)
    {s : IterSchedule ℚ} (ha : r.acceptance = .iteration s) {b : RRSol ℚ} (hb : r.best = some b)
    (hx : x.phenotype.length = env.split.numVehicles) :
    ∃ r' y, EndsIn (fun f => RR.runToEnd env.rr ctx ch.rr f 0 r) r' ∧ RR.getBest env.rr ctx r' x = some y := by
  have ht : Tame (RR.ctxAt ctx r.pen) := hr.tame.at_le hp.le hp'
  obtain ⟨r2, e2⟩ := RR.searchLoop_runs hch hv.vehicles hv.n hr.nbrs _ 0 hi' hu ht ha
    (le_refl (s.total - s.iteration))
  obtain ⟨f, hf⟩ := e2.some_of
  obtain ⟨s2, n2, -⟩ := RR.runToEnd_inv (P := (0 < ·)) hv.vehicles hch _ _ hi' hu hp hf
  obtain ⟨b', hb', -⟩ := n2.2 _ hb
  obtain ⟨v, l, -⟩ := s2.inv.best b' hb'
  obtain ⟨y, hy⟩ := RR.updateIndividual_total (atan2 := env.rr.atan2) (x := x)
    (ctx := RR.ctxAt ctx r2.pen) (by show 0 < ctx.n; have := hv.n; omega) v.at (l.trans hx.symm)
  refine ⟨r2, y, e2, ?_⟩
  unfold RR.getBest
  rw [hb']
  exact hy

/-- The loop of `create_global_solution` ends: every round but the last lowers the best cost by at least
`10⁻⁶`, and costs are not negative. -/
theorem polish_ends {env : DecompEnv ℚ} {ctx : Ctx ℚ} {hi : ℚ} (hv : GA.ValidUpTo env.ga ctx hi)
    (hr : GA.Sturdy env.ga ctx hi) {ch : ℕ → GAChoice ℚ} (hch : ∀ k, GA.ChOK (ch k)) : ∀ (m k : ℕ) {g : GA ℚ},
    RR.Inv ctx env.ga.split.numVehicles g.rr → g.rr.updatePenalty = false → 0 < g.rr.pen → g.rr.pen ≤ hi →
    (∃ s, g.rr.acceptance = .iteration s) → (∃ b, g.rr.best = some b) →
    g.child.phenotype.length = env.ga.split.numVehicles → g.rr.bestCost < m * (1 / 1000000) →
    ∃ g' N, ∀ f, N ≤ f → ∀ fuel, N ≤ fuel → polish env ctx (fun k => GA.refuel f (ch k)) fuel k g = some g'
  | 0, _, g, hg, _, hp, _, _, ⟨b, hb⟩, _, hlt => by
    exfalso
    obtain ⟨-, -, hc⟩ := hg.best b hb
    have : 0 ≤ b.cost := by
      rw [hc]
      exact Spec.solCost_nonneg _ _ (fun a b => (hv.dist a b).1) _ hp.le _
    rw [RR.bestCost, hb] at hlt
    simp only [Option.map_some, Option.getD_some, Nat.cast_zero, zero_mul] at hlt
    linarith
  | m + 1, k, g, hg, hu, hp, hp', ⟨s, hs⟩, ⟨b, hb⟩, hx, hlt => by
    obtain ⟨r, y, ⟨N1, e1⟩, e2⟩ := refine_ends hv hr (hch k) (x := g.child)
      (inv_acceptance hg (g.rr.acceptance.reset ((ch k).clock 0))) hu hp hp'
      (s := s.reset) (by dsimp only; rw [hs]; rfl) hb hx
    obtain ⟨a1, a2, a3, a4, -, a6, -, a8, -⟩ := refine_inv hv (ch := GA.refuel N1 (ch k)) (hch k)
      (inv_acceptance hg (g.rr.acceptance.reset ((ch k).clock 0))) hu hp
      ⟨s.reset, by dsimp only; rw [hs]; rfl⟩ hb hx (e1 N1 (le_refl _)) e2
    dsimp only at a3
    by_cases hge : approxGte r.bestCost g.rr.bestCost = true
    · refine ⟨{ g with rr := r, child := y }, max N1 1, fun f hf fuel hfu => ?_⟩
      obtain ⟨fuel', rfl⟩ : ∃ fuel', fuel = fuel' + 1 := ⟨fuel - 1, by omega⟩
      unfold polish
      have := e1 f (by omega)
      dsimp only at this
      dsimp only [GA.refuel]
      rw [this, Option.bind_some, e2, Option.bind_some, if_pos hge]
    · have hlow : r.bestCost < m * (1 / 1000000) := by
        rw [rat_approxGte, decide_eq_true_eq, not_or, not_lt, not_lt] at hge
        obtain ⟨c1, c2⟩ := hge
        rw [abs_of_nonpos (by linarith)] at c2
        push_cast at hlt
        linarith
      obtain ⟨g', N2, e3⟩ := polish_ends hv hr hch m (k + 1) (g := { g with rr := r, child := y }) a1 a2
        (by dsimp only; rw [a3]; exact hp) (by dsimp only; rw [a3]; exact hp') a4 a6 a8 hlow
      refine ⟨g', max N1 (N2 + 1), fun f hf fuel hfu => ?_⟩
      obtain ⟨fuel', rfl⟩ : ∃ fuel', fuel = fuel' + 1 := ⟨fuel - 1, by omega⟩
      unfold polish
      have := e1 f (by omega)
      dsimp only at this
      dsimp only [GA.refuel]
      rw [this, Option.bind_some, e2, Option.bind_some, if_neg hge]
      exact e3 f (by omega) fuel' (by omega)

/-- The first call makes a global solution. -/
theorem createGlobal_ends {env : DecompEnv ℚ} {ctx : Ctx ℚ} (hv : Valid env ctx)
    (hr : GA.Sturdy env.ga ctx (10 ^ 13)) {ch : DGAChoice ℚ} (hch : ChOK ch) {s : DGA ℚ} (hs : Inv env ctx s)
    (hst : s.state = .notInitialized) :
    ∃ p, EndsIn (fun f => createGlobal env ctx (ch.refuel f) s) p := by
  have hpen := hv.ga.pen
  obtain ⟨t, ht1, ht2⟩ := hs.sched
  have hP : s.ga.rr.pen *. lit 1000000 = env.ga.initialPen * 1000000 := by
    rw [hs.pen, rat_mul, rat_lit]
  obtain ⟨g1, e1, i1, r1⟩ := GA.runSplit_ok hv.ga (le_refl _) hv.ga.fleet
    (g := { s.ga with
      rr := { s.ga.rr with pen := s.ga.rr.pen *. lit 1000000 }
      child := Individual.newRandom ctx env.ga.split.numVehicles (ch.ga.ω.sub 0) 0 })
    ⟨hs.base.pop, hs.base.len, hs.base.ready, hs.base.nbr, hs.base.lsLen, hs.base.split⟩
    ⟨⟨hs.idle.routes, hs.idle.locs, hs.idle.unassigned, hs.idle.ruined⟩, hs.upd, ⟨t, ht1, ht2 hst⟩, by
      dsimp only
      rw [hP]
      constructor <;> linarith [hpen.1, hpen.2]⟩ (GA.newRandom_geno _ _ _ _)
  obtain ⟨g2, e2⟩ := GA.educate_ends' hv.ga hr hch.ga (ch.ga.ω.sub 1) i1
  obtain ⟨f0, hf0⟩ := e2.some_of
  obtain ⟨i2, r2⟩ := GA.educate_edu hv.ga (ch := GA.refuel f0 ch.ga) hch.ga i1 hf0
  have hp2 : g2.rr.pen = env.ga.initialPen * 1000000 := by
    rw [(r1.trans r2).pen]; exact hP
  have hpos : 0 < g2.rr.pen := by rw [hp2]; linarith [hpen.1]
  have hle : g2.rr.pen ≤ 10 ^ 13 := by rw [hp2]; linarith [hpen.2]
  obtain ⟨r', e3, j1, j2, j3, j4, j5, -, j6, -⟩ := RR.load_inv (now := ch.ga.clock 1)
    (st := { g2.rr with acceptance := .iteration (IterSchedule.new (lit 10) 100000) })
    i2.child.good i2.child.len i2.mu.idle.routes i2.mu.idle.locs i2.mu.idle.unassigned i2.mu.idle.ruined
  dsimp only at j2 j3 j4 j5
  obtain ⟨m, hm⟩ := exists_nat_gt (r'.bestCost / (1 / 1000000))
  obtain ⟨g3, N, e4⟩ := polish_ends hv.ga hr hch.rounds m 0
    (g := { g2 with rr := r' }) j1 (j4.trans i2.mu.upd) (by dsimp only; rw [j2]; exact hpos)
    (by dsimp only; rw [j2]; exact hle) ⟨_, by dsimp only; rw [j5]; rfl⟩ ⟨_, j6⟩ i2.child.len
    ((div_lt_iff₀ (by norm_num)).mp hm)
  obtain ⟨-, -, -, -, -, k6, k7, -⟩ := polish_inv (env := env) hv.ga (ch := fun k => GA.refuel N (ch.rounds k))
    hch.rounds _ _ (g := { g2 with rr := r' }) j1 (j4.trans i2.mu.upd) (by dsimp only; rw [j2]; exact hpos)
    ⟨_, by dsimp only; rw [j5]; rfl⟩ ⟨_, j6⟩ i2.child.len (e4 N (le_refl _) N (le_refl _))
  obtain ⟨e, he, -⟩ := C01_evaluate_exact (RR.ctxAt ctx (g3.rr.pen /. lit 1000000)) g3.child.evaluation
    g3.child.phenotype (by show 0 < ctx.n; have := hv.ga.n; omega)
    (fun r hr c hc => (k6.part.mem_iff.mp (List.mem_flatten.mpr ⟨r, hr, hc⟩)).2)
  refine ⟨({ g3.child with evaluation := e }, { g3 with rr := { g3.rr with pen := g3.rr.pen /. lit 1000000 } }), ?_⟩
  obtain ⟨N0, e2⟩ := e2
  refine ⟨max N N0, fun f hf => ?_⟩
  have h2 := e2 f (by omega)
  have h4 := e4 f (by omega) f (by omega)
  dsimp only at h2 ⊢
  unfold createGlobal
  dsimp only [DGAChoice.refuel, GA.refuel] at h4 ⊢
  rw [e1, Option.bind_some, h2, Option.bind_some, e3, Option.bind_some, h4, Option.bind_some]
  unfold Individual.evaluate
  rw [he]
  rfl

end DGA
end Verif
