import Verif.Lemmas.Run
import Verif.Lemmas.Good
import Verif.Props.SplitFleet

/-! # Split::run in any arithmetic (runs that return) -/

namespace Verif
open F64 Split

variable {α : Type} [F64 α]

namespace Split

/-- The loaded data are the running sums over the tour `g`. -/
structure LoadedBy (ctx : Ctx α) (g : List ℕ) (s : Split α) : Prop where
  pen : s.pen = ctx.pen
  loadZero : s.cumLoad 0 = lit 0
  loadSucc : ∀ j, j + 1 < ctx.n → s.cumLoad (j + 1) = s.cumLoad j +. ctx.demand (g.getD j 0)
  distOne : 1 < ctx.n → s.cumDist 1 = lit 0 +. lit 0
  distSucc : ∀ j, 1 ≤ j → j + 1 < ctx.n →
    s.cumDist (j + 1) = s.cumDist j +. ctx.dist (g.getD (j - 1) 0) (g.getD j 0)
  depot : ∀ j, 1 ≤ j → j < ctx.n → s.distDepot j = ctx.dist (g.getD (j - 1) 0) 0

theorem load_by (ctx : Ctx α) (s : Split α) (g : List ℕ) (hg : g.length = ctx.n - 1)
    (h0 : ZeroOK s) : ∃ s', load ctx s g = some s' ∧ LoadedBy ctx g s' := by
  have key : ∀ (m i : ℕ) (s : Split α), 1 ≤ i → i + m ≤ ctx.n ∨ m = 0 → ZeroOK s →
      (∀ j, j + 1 < i → s.cumLoad (j + 1) = s.cumLoad j +. ctx.demand (g.getD j 0)) →
      (1 < i → s.cumDist 1 = lit 0 +. lit 0) →
      (∀ j, 1 ≤ j → j + 1 < i →
        s.cumDist (j + 1) = s.cumDist j +. ctx.dist (g.getD (j - 1) 0) (g.getD j 0)) →
      (∀ j, 1 ≤ j → j < i → s.distDepot j = ctx.dist (g.getD (j - 1) 0) 0) →
      (∀ j, 1 ≤ j → j < i → j < ctx.n - 1 →
        s.distNext j = ctx.dist (g.getD (j - 1) 0) (g.getD j 0)) →
      ∃ s', loadLoop ctx g (List.range' i m) s = some s' ∧ s'.pen = s.pen ∧ ZeroOK s' ∧
        (∀ j, j + 1 < i + m → s'.cumLoad (j + 1) = s'.cumLoad j +. ctx.demand (g.getD j 0)) ∧
        (1 < i + m → s'.cumDist 1 = lit 0 +. lit 0) ∧
        (∀ j, 1 ≤ j → j + 1 < i + m →
          s'.cumDist (j + 1) = s'.cumDist j +. ctx.dist (g.getD (j - 1) 0) (g.getD j 0)) ∧
        (∀ j, 1 ≤ j → j < i + m → s'.distDepot j = ctx.dist (g.getD (j - 1) 0) 0) := by
    intro m
    induction m with
    | zero =>
      intro i s _ _ hz h1 h2 h3 h4 _
      exact ⟨s, rfl, rfl, hz, h1, h2, h3, h4⟩
    | succ m ih =>
      intro i s hi him hz h1 h2 h3 h4 h5
      have him' : i + (m + 1) ≤ ctx.n := by omega
      obtain ⟨s1, e1, e2, -, e3, e4, e5, e6, e7, e8, e9⟩ :=
        loadStep_some ctx g s i hi (by omega) hg
      rw [List.range'_succ]
      unfold loadLoop
      rw [e1]
      obtain ⟨s', f1, f2, f3, f4, f5, f6, f7⟩ := ih (i + 1) s1 (by omega) (by omega)
        (by
          refine ⟨?_, ?_, ?_⟩
          · rw [e8]; simp only [setAt]; rw [if_neg (by omega)]; exact hz.1
          · rw [e9]; simp only [setAt]; rw [if_neg (by omega)]; exact hz.2.1
          · rw [e7]; simp only [setAt]; rw [if_neg (by omega)]; exact hz.2.2)
        (by
          intro j hj
          rw [e9]; simp only [setAt]
          rw [if_neg (show j ≠ i by omega)]
          split
          · rename_i hji
            subst hji
            simp
          · exact h1 j (by omega))
        (by
          intro _
          rw [e8]; simp only [setAt]
          split
          · rename_i hji
            subst hji
            rw [Nat.sub_self, hz.1, hz.2.2]
          · exact h2 (by omega))
        (by
          intro j hj1 hj
          rw [e8]; simp only [setAt]
          rw [if_neg (show j ≠ i by omega)]
          split
          · rename_i hji
            subst hji
            rw [Nat.add_sub_cancel, h5 j hj1 (by omega) (by omega)]
          · exact h3 j hj1 (by omega))
        (by
          intro j hj1 hj
          rw [e6]; simp only [setAt]
          split
          · rename_i hji; subst hji; rfl
          · exact h4 j hj1 (by omega))
        (by
          intro j hj1 hj hjn
          rw [e7]; simp only [setAt]
          split
          · rename_i hji; subst hji; rw [if_pos hjn]
          · exact h5 j hj1 (by omega) hjn)
      refine ⟨s', f1, by rw [f2, e4], f3, ?_, ?_, ?_, ?_⟩
      · intro j hj; exact f4 j (by omega)
      · intro h; exact f5 (by omega)
      · intro j h hj; exact f6 j h (by omega)
      · intro j h hj; exact f7 j h (by omega)
  obtain ⟨s', f1, f2, f3, f4, f5, f6, f7⟩ := key (ctx.n - 1) 1 { s with pen := ctx.pen }
    (le_refl _) (by omega) h0 (by intro j hj; omega) (by intro h; omega) (by intro j _ _; omega)
    (by intro j _ _; omega) (by intro j _ _; omega)
  exact ⟨s', f1, f2, f3.2.1, fun j hj => f4 j (by omega), fun h => f5 (by omega),
    fun j h hj => f6 j h (by omega), fun j h hj => f7 j h (by omega)⟩

theorem SameData.loadedBy {s t : Split α} (h : SameData s t) {ctx : Ctx α} {g : List ℕ}
    (hl : LoadedBy ctx g s) : LoadedBy ctx g t := by
  obtain ⟨a1, a2, a3, a4, a5, a6, a7⟩ := h
  exact ⟨by rw [a7]; exact hl.pen, by rw [a5]; exact hl.loadZero, by rw [a5]; exact hl.loadSucc,
    by rw [a4]; exact hl.distOne, by rw [a4]; exact hl.distSucc, by rw [a2]; exact hl.depot⟩

end Split

/-- What the split with a limited fleet asks of the arithmetic: the two sentinels are told apart and, for
the linear variant, the way from the depot dominates every unreached position in the first row. -/
structure SplitOK (cfg : SplitCfg α) (ctx : Ctx α) : Prop where
  sentinel : ((lit (10 ^ 29) : α) <. lit (10 ^ 30)) = true
  depot : cfg.linear = true → ∀ g : List ℕ, g.Perm (Spec.customers ctx.n) → ∀ s : Split α,
    LoadedBy ctx g s → ∀ rows, 0 < rows → ∀ j, 1 ≤ j → j < ctx.n - 1 →
    dominates (resetAll rows ctx.n s) 0 j 0 = true

/-- What a run of the split does before the routes are sorted: some routes that cover the tour, at most as
many as allowed. No part of it panics. -/
theorem splitRun_core (atan2 : α → α → α) {cfg : SplitCfg α} {ctx : Ctx α} {lowerBound : ℕ}
    {s : Split α} (hs : SplitReachable cfg ctx.n ctx.cap s) {x : Individual α} {maxVehicles : ℕ}
    (hx : x.genotype.Perm (Spec.customers ctx.n))
    (hmv : 1 ≤ max maxVehicles lowerBound) (hok : SplitOK cfg ctx) :
    ∃ s3 routes, Split.run atan2 cfg ctx lowerBound s x maxVehicles =
        (Individual.sortRoutes atan2 ctx { x with phenotype := pad cfg.numVehicles routes }).bind
          (fun x => (x.evaluate ctx).map (fun x => (s3, x))) ∧
      SplitReachable cfg ctx.n ctx.cap s3 ∧
      routes.flatten.Perm x.genotype ∧ routes.length ≤ max maxVehicles lowerBound := by
  have hg : x.genotype.length = ctx.n - 1 := by rw [hx.length_eq, Spec.length_customers]
  have hinv := Split.splitReachable_inv cfg ctx.n ctx.cap s hs
  obtain ⟨s1, h1, hl1⟩ := load_by ctx s x.genotype hg hinv.zero
  have hs1 : SplitReachable cfg ctx.n ctx.cap s1 := .load ctx rfl s s1 x.genotype hs h1
  have hinv1 := Split.splitReachable_inv cfg ctx.n ctx.cap s1 hs1
  obtain ⟨s2, r2, h2, -, hf2, hne2⟩ := split_core cfg ctx s1 x.genotype
    (max maxVehicles lowerBound) hg hinv1.pred
  have hs2 : SplitReachable cfg ctx.n ctx.cap s2 :=
    .split ctx rfl s1 s2 x.genotype _ _ hs1 hg h2
  have hinv2 := Split.splitReachable_inv cfg ctx.n ctx.cap s2 hs2
  have hres : ∃ s3 routes, (if (decide (r2.length ≤ max maxVehicles lowerBound)) = true
        then some (s2, pad cfg.numVehicles r2) else
        (splitLimited cfg ctx s2 x.genotype (max maxVehicles lowerBound)).map
          (fun r => (r.1, r.2.1))) = some (s3, pad cfg.numVehicles routes) ∧
      SplitReachable cfg ctx.n ctx.cap s3 ∧
      routes.flatten.Perm x.genotype ∧ routes.length ≤ max maxVehicles lowerBound := by
    by_cases hlen : r2.length ≤ max maxVehicles lowerBound
    · refine ⟨s2, r2, by rw [if_pos (by simpa using hlen)], hs2, ?_, hlen⟩
      have : r2.flatten.Perm r2.reverse.flatten := (List.reverse_perm r2).symm.flatten
      rw [hf2] at this; exact this
    · have hld : LoadedBy ctx x.genotype s2 := by
        unfold Split.split at h2
        dsimp only at h2
        split at h2
        · simp at h2
        · rename_i s2' hrun
          split at h2
          · simp at h2
          · simp only [Option.some.injEq, Prod.mk.injEq] at h2
            obtain ⟨rfl, -⟩ := h2
            have hreset : LoadedBy ctx x.genotype (resetRow0 ctx.n s1) :=
              ⟨hl1.pen, hl1.loadZero, hl1.loadSucc, hl1.distOne, hl1.distSucc, hl1.depot⟩
            split at hrun
            · exact (linearLoop_data ctx.n _ _ _ _ [0] (by simp) (by simp) hrun hinv1.le).1.loadedBy
                hreset
            · exact (bellmanLoop_data ctx x.genotype _ hg _ _ _ (by simp) hrun
                hinv1.le).1.loadedBy hreset
      obtain ⟨s3, routes, h3, hf3, hlen3⟩ := splitLimited_core cfg ctx s2 x.genotype
        (max maxVehicles lowerBound) hg hmv hinv2.le hok.sentinel
        (fun hl => hok.depot hl _ hx s2 hld _ (by omega))
        (fun hl => splitReachable_row1 cfg hok.sentinel hl ctx.n ctx.cap s2 hs2)
      refine ⟨s3, routes, ?_, .limited ctx rfl s2 s3 x.genotype _ _ hs2 hg h3, ?_, hlen3⟩
      · rw [if_neg (by simpa using hlen), h3]; rfl
      · rw [hf3]
  obtain ⟨s3, routes, h3, hs3, hf3, hlen3⟩ := hres
  refine ⟨s3, routes, ?_, hs3, hf3, hlen3⟩
  unfold Split.run
  dsimp only
  rw [h1]
  dsimp only
  rw [h2]
  dsimp only
  rw [h3]
  dsimp only
  cases Individual.sortRoutes atan2 ctx { x with phenotype := pad cfg.numVehicles routes } <;> rfl

theorem pad_flatten (k : ℕ) (routes : List (List ℕ)) : (pad k routes).flatten = routes.flatten := by
  unfold pad
  rw [List.flatten_append]
  have : (List.replicate (k - routes.length) ([] : List ℕ)).flatten = [] := by
    simp
  rw [this, List.append_nil]

/-- In any arithmetic that meets `SplitOK`, a run of the split on a permutation of the customers that
returns gives a complete individual on exactly `num_vehicles` routes. -/
theorem splitRun_any {atan2 : α → α → α} {cfg : SplitCfg α} {ctx : Ctx α} {lowerBound : ℕ}
    {s s' : Split α} (hs : SplitReachable cfg ctx.n ctx.cap s) {x y : Individual α} {maxVehicles : ℕ}
    (hx : x.genotype.Perm (Spec.customers ctx.n))
    (hmv : 1 ≤ max maxVehicles lowerBound) (hfleet : max maxVehicles lowerBound ≤ cfg.numVehicles)
    (hok : SplitOK cfg ctx)
    (h : Split.run atan2 cfg ctx lowerBound s x maxVehicles = some (s', y)) :
    SplitReachable cfg ctx.n ctx.cap s' ∧ y.Good ctx ∧ y.phenotype.length = cfg.numVehicles ∧
      y.numNonemptyRoutes ≤ max maxVehicles lowerBound := by
  obtain ⟨s3, routes, hrun, hs3, hf3, hlen3⟩ := splitRun_core atan2 (lowerBound := lowerBound) hs hx hmv hok
  have hflat := pad_flatten cfg.numVehicles routes
  rw [hrun] at h
  obtain ⟨z, hz, h⟩ := Option.bind_eq_some_iff.mp h
  · obtain ⟨w, hw, e⟩ := Option.map_eq_some_iff.mp h
    simp only [Prod.mk.injEq] at e
    obtain ⟨rfl, rfl⟩ := e
    obtain ⟨hyp, hyg, -⟩ := sortRoutes_of_some (by simp only [hflat]; rw [hf3.length_eq]) hz
    unfold Individual.evaluate at hw
    obtain ⟨ev, he, rfl⟩ := Option.map_eq_some_iff.mp hw
    refine ⟨hs3, ⟨?_, hyg, _, he⟩, ?_, ?_⟩
    · unfold Spec.IsPartition
      have := hyp.flatten
      simp only [hflat] at this
      exact this.trans (hf3.trans hx)
    · dsimp only
      rw [hyp.length_eq]
      simp [pad]; omega
    · have := numNonempty_le z routes (cfg.numVehicles - routes.length) hyp
      exact le_trans this hlen3

end Verif
