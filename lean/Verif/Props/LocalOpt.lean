import Verif.Lemmas.LocalOpt

/-!
# C59, C14, C15: the local search ends in a local optimum
-/

namespace Verif
open F64 LS Spec

/-- What a finished run of the local search leaves: the routes in some order, reached by `k` accepted
moves, with nothing left to gain. -/
theorem run_done {atan2 : ℚ → ℚ → ℚ} {ctx : Ctx ℚ} {f : MoveFlags} {ω : Oracle} {fuel : ℕ} {penMult : ℚ}
    {s : LS ℚ} {x : Individual ℚ} (hd : ∀ a b, 0 ≤ ctx.dist a b ∧ ctx.dist a b ≤ (maxv : ℚ))
    (h0 : ctx.demand 0 = 0) (hsym : ∀ a b, ctx.dist a b = ctx.dist b a) (hs : Ready s) (hn : NbrOK ctx s)
    (hp : IsPartition ctx.n x.phenotype) (hlen : x.phenotype.length = s.numRoutes) {s' : LS ℚ}
    {y : Individual ℚ} (hrun : LS.run atan2 ctx f ω fuel penMult s x = some (s', y)) :
    ∃ R k, Repr ctx s' R ∧ y.phenotype.Perm R ∧ Steps ctx f (ctx.pen * penMult) k x.phenotype R ∧
      s'.customers.Perm s.customers ∧ (∀ w v, w < ctx.n → (Neighbour s' w v ↔ Neighbour s w v)) ∧
      (∀ u ∈ s.customers,
        (∀ v, Neighbour s u v → NoGain ctx (ctx.pen * penMult) R f.neighbor u (.cust v)) ∧
        (f.swapStar = true → 0 < k → EmptyDone ctx f.emptyRoute (ctx.pen * penMult) R u)) ∧
      (f.swapStar = true → ∀ r1 r2, r1 < r2 → SwapPair s.angle R r1 r2 →
        SwapNoGain ctx (ctx.pen * penMult) R r1 r2) ∧ s'.angle = s.angle := by
  have hA := arith_rat hd
  obtain ⟨s1, e1, hr1, hn1, hp1, hnum1, hc1, hm1, hl1, ht1, hco, hcc, hg, hsw1, hang1⟩ := load_run hs hn penMult hp hlen
  simp only [rat_mul] at hp1
  rw [LS.run, e1, Option.bind_some, Option.bind_eq_some_iff] at hrun
  obtain ⟨s2, e2, hrun⟩ := hrun
  have ho : Opt ctx f.neighbor s1 x.phenotype := by
    constructor
    · intro u _ _ v _ r r' l l' hr _ _ _ hle
      rw [ht1, hl1 r (by rw [← hlen]; exact get_lt hr)] at hle
      simp at hle
    · intro u; rw [ht1, hm1]; simp
  have hso : SwapOpt ctx s1 x.phenotype := by
    constructor
    · intro r hr hst
      rw [hsw1 r (by omega), hm1] at hst
      simp at hst
    · intro r hr
      rw [hsw1 r (by omega), hm1]; simp
  obtain ⟨R, k, hr2, hnum2, st, hnb, hfin, hsf, ha⟩ := searchLoop_done hA h0 hsym fuel 0 0 s1 _ s2 hr1 hn1 ho
    hso e2
  obtain ⟨_, _, -, -, -, -, hc2, -⟩ := searchLoop_sound hA fuel 0 0 s1 _ s2 hr1 hn1 e2
  obtain ⟨y', e3, e⟩ := Option.map_eq_some_iff.mp hrun
  simp only [Prod.mk.injEq] at e
  obtain ⟨rfl, rfl⟩ := e
  obtain ⟨w1, -⟩ := write_run hr2 atan2 (by rw [hnum2, hnum1]; exact hlen) e3
  have hnb1 : ∀ w v, Neighbour s1 w v ↔ Neighbour s w v := fun w v => Neighbour.congr hco hcc hg
  rw [hp1] at st hfin
  rw [hp1, hang1] at hsf
  refine ⟨R, k, hr2, w1, st, by rw [← hc1]; exact hc2, fun w v hw => (hnb w v hw).trans (hnb1 w v),
    fun u hu => ?_, hsf, ha.trans hang1⟩
  obtain ⟨g1, g2⟩ := hfin u (by rw [hc1]; exact hu)
  exact ⟨fun v hv => g1 v ((hnb1 u v).mpr hv), fun hsw hk => g2 hsw (.inr hk)⟩

/-- **C59**. Whatever the earlier state, the random choices, the enabled moves and the penalty: when the
local search ends, no enabled move of any customer `u` towards any of its neighbours `v` lowers the
penalized cost of the result by more than `1e-6`. In particular the test that skips pairs whose routes
did not change since they were examined skips no improving pair. The neighbours and the customer list are
the same for the next run. -/
theorem C59_local_optimum (atan2 : ℚ → ℚ → ℚ) (ctx : Ctx ℚ) (f : MoveFlags) (ω : Oracle) (fuel : ℕ)
    (penMult : ℚ) (s : LS ℚ) (x : Individual ℚ)
    (hd : ∀ a b, 0 ≤ ctx.dist a b ∧ ctx.dist a b ≤ (maxv : ℚ)) (h0 : ctx.demand 0 = 0)
    (hsym : ∀ a b, ctx.dist a b = ctx.dist b a) (hs : Ready s) (hn : NbrOK ctx s)
    (hcust : ∀ u, 0 < u → u < ctx.n → u ∈ s.customers)
    (hp : IsPartition ctx.n x.phenotype) (hlen : x.phenotype.length = s.numRoutes) (s' : LS ℚ)
    (y : Individual ℚ) (hrun : LS.run atan2 ctx f ω fuel penMult s x = some (s', y)) :
    (∀ u v, 0 < u → u < ctx.n → Neighbour s u v →
      NoGain ctx (ctx.pen * penMult) y.phenotype f.neighbor u (.cust v)) ∧
    (∀ u, 0 < u → u < ctx.n → u ∈ s'.customers) ∧
    ∀ u v, u < ctx.n → (Neighbour s' u v ↔ Neighbour s u v) := by
  obtain ⟨R, k, hr, hperm, -, hc, hnb, hfin, -, -⟩ := run_done hd h0 hsym hs hn hp hlen hrun
  exact ⟨fun u v hu hun hv => NoGain.perm hr.part hperm ((hfin u (hcust u hu hun)).1 v hv),
    fun u hu hun => hc.mem_iff.mpr (hcust u hu hun), hnb⟩

/-- **C14** (the part that holds). The moves of the depot list are without gain at the end for every
customer and each of its neighbours, but not for the depot before a neighbour. -/
theorem C14_depot_list_partial (atan2 : ℚ → ℚ → ℚ) (ctx : Ctx ℚ) (f : MoveFlags) (ω : Oracle) (fuel : ℕ)
    (penMult : ℚ) (s : LS ℚ) (x : Individual ℚ)
    (hd : ∀ a b, 0 ≤ ctx.dist a b ∧ ctx.dist a b ≤ (maxv : ℚ)) (h0 : ctx.demand 0 = 0)
    (hsym : ∀ a b, ctx.dist a b = ctx.dist b a) (hs : Ready s) (hn : NbrOK ctx s)
    (hcust : ∀ u, 0 < u → u < ctx.n → u ∈ s.customers)
    (hp : IsPartition ctx.n x.phenotype) (hlen : x.phenotype.length = s.numRoutes) (s' : LS ℚ)
    (y : Individual ℚ) (hrun : LS.run atan2 ctx f ω fuel penMult s x = some (s', y)) (u v : ℕ)
    (hu : 0 < u) (hun : u < ctx.n) (hv : Neighbour s u v) :
    NoGain ctx (ctx.pen * penMult) y.phenotype f.depot u (.cust v) := fun m hm =>
  (C59_local_optimum atan2 ctx f ω fuel penMult s x hd h0 hsym hs hn hcust hp hlen s' y hrun).1 u v hu hun hv
    m (depot_subset f m hm)

/-- **C15** (the part that holds). With SWAP* enabled, a run that changed the routes ends with no enabled
move of a customer into an empty route lowering the penalized cost by more than `1e-6`. Missing: runs
without SWAP* and runs whose first pass accepts nothing; there it is false, see
`C15_counter_stuck_refuted` and `C15_empty_route_refuted`. -/
theorem C15_empty_route_partial (atan2 : ℚ → ℚ → ℚ) (ctx : Ctx ℚ) (f : MoveFlags) (ω : Oracle) (fuel : ℕ)
    (penMult : ℚ) (s : LS ℚ) (x : Individual ℚ)
    (hd : ∀ a b, 0 ≤ ctx.dist a b ∧ ctx.dist a b ≤ (maxv : ℚ)) (h0 : ctx.demand 0 = 0)
    (hsym : ∀ a b, ctx.dist a b = ctx.dist b a) (hs : Ready s) (hn : NbrOK ctx s)
    (hcust : ∀ u, 0 < u → u < ctx.n → u ∈ s.customers)
    (hp : IsPartition ctx.n x.phenotype) (hlen : x.phenotype.length = s.numRoutes) (s' : LS ℚ)
    (y : Individual ℚ) (hrun : LS.run atan2 ctx f ω fuel penMult s x = some (s', y))
    (hsw : f.swapStar = true) (hchg : ¬ y.phenotype.Perm x.phenotype) (u : ℕ) (hu : 0 < u) (hun : u < ctx.n)
    (r : ℕ) (hr : y.phenotype[r]? = some []) :
    NoGain ctx (ctx.pen * penMult) y.phenotype f.emptyRoute u (.start r) := by
  obtain ⟨R, k, -, hperm, st, -, -, hfin, -, -⟩ := run_done hd h0 hsym hs hn hp hlen hrun
  have hk : 0 < k := by
    rcases Nat.eq_zero_or_pos k with rfl | h
    · rw [st.zero_eq] at hperm; exact absurd hperm hchg
    · exact h
  intro m hm T' heff
  obtain ⟨q, hq⟩ := List.getElem?_of_mem (hperm.mem_iff.mp (List.mem_of_getElem? hr))
  obtain ⟨R2, he2, hc2⟩ := heff.empty (ctx := ctx) (pen := ctx.pen * penMult) hperm hr hq
  rw [← hc2, solCost_perm ctx.dist ctx.demand ctx.cap (ctx.pen * penMult) hperm]
  exact (hfin u (hcust u hu hun)).2 hsw hk q hq m hm R2 he2

namespace MoveEx

theorem ctxB_dist : ∀ a b, 0 ≤ ctxB.dist a b ∧ ctxB.dist a b ≤ (maxv : ℚ) := by
  refine fun a b => ⟨abs_nonneg _, le_trans ?_ four_le_maxv⟩
  have ha : ((min a 4 : ℕ) : ℚ) ≤ 4 := by exact_mod_cast min_le_right a 4
  have hb : ((min b 4 : ℕ) : ℚ) ≤ 4 := by exact_mod_cast min_le_right b 4
  have ha0 : (0 : ℚ) ≤ (min a 4 : ℕ) := Nat.cast_nonneg _
  have hb0 : (0 : ℚ) ≤ (min b 4 : ℕ) := Nat.cast_nonneg _
  simp only [ctxB]
  rw [abs_le]; constructor <;> linarith

/-- A run of a new local search on four customers in two routes ends, in a local optimum; customers 2 and
3 are neighbours of customer 1. -/
example (atan2 : ℚ → ℚ → ℚ) (f : MoveFlags) (ω : Oracle) : ∃ fuel s' y,
    LS.run atan2 ctxB f ω fuel 1 ls ind = some (s', y) ∧ Neighbour ls 1 2 ∧
      ∀ u v, 0 < u → u < 5 → Neighbour ls u v →
        NoGain ctxB (ctxB.pen * 1) y.phenotype f.neighbor u (.cust v) := by
  have hn : NbrOK ctxB ls := ⟨ls_nbr.gran, ls_nbr.cols, ls_nbr.len, ls_nbr.nbr, ls_nbr.cust⟩
  have hp : IsPartition ctxB.n ind.phenotype := by rw [Spec.IsPartition]; decide
  have hs : Ready ls := C10_new_ready _ _ _ _ _ _ _
  have hsym : ∀ a b, ctxB.dist a b = ctxB.dist b a := fun a b => abs_sub_comm _ _
  obtain ⟨s', y, e, -⟩ := C10_C11_run atan2 ctxB f ω 1 ls ind ctxB_dist rfl hsym
    (by norm_num [ctxB, ctx]) (by decide) hs hn hp rfl _ (Nat.lt_succ_self _)
  refine ⟨_, s', y, e, by unfold Neighbour; decide, ?_⟩
  exact (C59_local_optimum atan2 ctxB f ω _ 1 ls ind ctxB_dist rfl hsym hs hn (by
    intro u hu hun
    have h : u < 5 := hun
    simp [ls, LS.new, ctx]
    omega) hp rfl s' y e).1

/-- A search that changes the routes and ends with an empty route, as in `C15_empty_route_partial`. -/
example : GapEx.routesAfter ctxB GapEx.allOn ls ind 3 = some [[1, 2], [3, 4], []] ∧
    GapEx.allOn.swapStar = true := ⟨by decide +kernel, rfl⟩

end MoveEx
end Verif
