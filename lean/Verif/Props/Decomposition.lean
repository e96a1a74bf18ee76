import Verif.Lemmas.Decomposition

/-!
# C46: splitting off a subproblem and writing it back
-/

namespace Verif
open F64

/-- The same routes after renaming the customers. -/
def Spec.rename (f : ℕ → ℕ) (routes : List (List ℕ)) : List (List ℕ) := routes.map (·.map f)

namespace Decomp

theorem pathDist_map (d : ℕ → ℕ → ℚ) (f : ℕ → ℕ) : ∀ l : List ℕ,
    Spec.pathDist d (l.map f) = Spec.pathDist (fun i j => d (f i) (f j)) l
  | [] => rfl
  | [_] => rfl
  | a :: b :: l => by
    have := pathDist_map d f (b :: l)
    simp only [List.map_cons] at this ⊢
    rw [Spec.pathDist, Spec.pathDist, this]

theorem solCost_rename (ctx : Ctx ℚ) {mapping : List ℕ} (h0 : mapping.getD 0 0 = 0) (pen : ℚ)
    (ls : List (List ℕ)) :
    Spec.solCost ctx.dist ctx.demand ctx.cap pen (Spec.rename (fun c => mapping.getD c 0) ls)
      = Spec.solCost (subCtx ctx mapping).dist (subCtx ctx mapping).demand (subCtx ctx mapping).cap pen ls := by
  unfold Spec.solCost Spec.rename
  rw [List.map_map]
  congr 1
  apply List.map_congr_left
  intro l _
  simp only [Function.comp]
  unfold Spec.routeCost Spec.routeDist Spec.routeLoad
  have h1 := pathDist_map ctx.dist (fun c => mapping.getD c 0) (0 :: (l ++ [0]))
  simp only [List.map_cons, List.map_append, List.map_nil, h0] at h1
  rw [h1, List.map_map]
  rfl

theorem solCost_filter (d : ℕ → ℕ → ℚ) (q : ℕ → ℚ) (cap pen : ℚ) (h0 : d 0 0 = 0) (hc : 0 ≤ cap)
    (ls : List (List ℕ)) :
    Spec.solCost d q cap pen (ls.filter fun l => decide (l ≠ [])) = Spec.solCost d q cap pen ls := by
  induction ls with
  | nil => rfl
  | cons l ls ih =>
    rw [List.filter_cons]
    by_cases hl : l = []
    · subst hl
      rw [if_neg (by simp), ih]
      have : Spec.routeCost d q cap pen [] = 0 := by
        simp [Spec.routeCost, Spec.routeDist, Spec.pathDist, Spec.routeLoad, h0, hc]
      simp [Spec.solCost, this]
    · rw [if_pos (by simpa using hl)]
      simp only [Spec.solCost, List.map_cons, List.sum_cons] at ih ⊢
      rw [ih]

theorem solCost_append (d : ℕ → ℕ → ℚ) (q : ℕ → ℚ) (cap pen : ℚ) (a b : List (List ℕ)) :
    Spec.solCost d q cap pen (a ++ b) = Spec.solCost d q cap pen a + Spec.solCost d q cap pen b := by
  simp [Spec.solCost]

/-- A tenth of the routes, rounded, and two more. -/
theorem extraRoutes_rat (k : ℕ) : extraRoutes ℚ k = (k + 5) / 10 + 2 := by
  have h : (0 : ℚ) ≤ (k : ℚ) / 10 + 2 := by positivity
  have e : (k : ℚ) / 10 + 2 + 1 / 2 = (((k + 25 : ℕ) : ℤ) : ℚ) / ((10 : ℕ) : ℚ) := by push_cast; ring
  simp only [extraRoutes, rat_lit, rat_div, rat_add, rat_round, rat_toNat, ratRound]
  rw [if_pos (by exact_mod_cast h)]
  have e2 : ((k : ℚ) / (10 : ℚ) + 2 + 1 / 2) = (((k + 25 : ℕ) : ℤ) : ℚ) / ((10 : ℕ) : ℚ) := e
  simp only [Int.floor_intCast]
  rw [e2, Rat.floor_intCast_div_natCast]
  omega

/-- The successful run of `decompose_global`. -/
theorem decomposeGlobal_some {α : Type} [F64 α] (ctx : Ctx α) {nbrs : ℕ → Option (List ℕ)} (size w : ℕ)
    {order : List ℕ → List ℕ} {x : Individual α} (hn : 2 ≤ ctx.n) (hx : Spec.IsPartition ctx.n x.phenotype)
    (hg : x.genotype = x.phenotype.flatten) (hord : ∀ l, (order l).Perm l)
    (hnb : ∀ v < ctx.n, ∃ vs, nbrs v = some vs ∧ ∀ u ∈ vs, u < ctx.n) :
    ∃ sub mapping rest chosen, decomposeGlobal ctx nbrs size w order x = some (sub, mapping, rest) ∧
      (rest.phenotype ++ chosen).Perm x.phenotype ∧ mapping = 0 :: chosen.flatten ∧
      (sub.phenotype = numbered 1 chosen ++ List.replicate (extraRoutes α chosen.length) []) ∧
      sub.genotype = sub.phenotype.flatten ∧
      (1 ≤ size → 1 ≤ w % (ctx.n - 1) → w % (ctx.n - 1) ∈ mapping) ∧
      (size ≤ chosen.flatten.length ∨ ∀ vs, nbrs (w % (ctx.n - 1)) = some vs → ∀ v ∈ vs, 1 ≤ v → v ∈ mapping) := by
  have hlen : x.genotype.length = ctx.n - 1 := by rw [hg, Spec.IsPartition.length hx]
  have hne : 0 < x.phenotype.length := by
    rw [List.length_pos_iff]
    intro e
    rw [e] at hx
    have := hx.length_eq
    simp [Spec.customers] at this
    omega
  obtain ⟨rf, e1, l1, g1⟩ := routeOf_some x.phenotype 0 (List.replicate ctx.n 0) (by
    intro l hl c hc
    rw [List.length_replicate]
    exact Spec.IsPartition.lt hx l hl c hc)
  rw [List.length_replicate] at l1 g1
  have hrf : ∀ v < ctx.n, ∃ r, rf[v]? = some r ∧ r < x.phenotype.length := by
    intro v hv
    rcases g1 v hv with ⟨k, l, hk, -, e⟩ | ⟨-, e⟩
    · exact ⟨_, e, by rw [Nat.zero_add]; exact (List.getElem?_eq_some_iff.mp hk).1⟩
    · rw [List.getElem?_replicate, if_pos hv] at e
      exact ⟨0, e, hne⟩
  have hrange : rangeUsize w 0 x.genotype.length = some (w % (ctx.n - 1)) := by
    unfold rangeUsize
    rw [hlen, if_pos (by omega)]
    simp
  generalize hseed : w % (ctx.n - 1) = seed at hrange ⊢
  have hseedlt : seed < ctx.n := by
    have := Nat.mod_lt w (show 0 < ctx.n - 1 by omega)
    omega
  obtain ⟨vs, e3, hvs⟩ := hnb seed hseedlt
  have hnd := Spec.IsPartition.nodup hx
  obtain ⟨p, e4, hs, -, h4, h6⟩ := select_some (size := size) hnd (seed :: vs) [] [] ⟨by simp, by simp, by simp [pick]⟩
    (by
      intro v hv
      rw [List.mem_cons] at hv
      rcases hv with rfl | hv
      · exact hrf _ hseedlt
      · exact hrf v (hvs v hv))
  have hol : ∀ r ∈ order p.2, r < x.phenotype.length := fun r hr => hs.lt r ((hord _).mem_iff.mp hr)
  have hon : (order p.2).Nodup := (hord _).nodup_iff.mpr hs.nodup
  have hcl : p.1.length = (pick x.phenotype (order p.2)).flatten.length := by
    rw [hs.cust.length_eq]
    exact (((hord p.2).map _).flatten.length_eq).symm
  have e5 := renumber_some (pick x.phenotype (order p.2)) 1 (List.replicate (p.1.length + 1) 0) (by
    rw [List.length_replicate, ← hcl]; omega)
  have em : List.take 1 (List.replicate (p.1.length + 1) 0) ++ (pick x.phenotype (order p.2)).flatten ++
      List.drop (1 + (pick x.phenotype (order p.2)).flatten.length) (List.replicate (p.1.length + 1) 0)
      = 0 :: (pick x.phenotype (order p.2)).flatten := by
    rw [← hcl, List.drop_eq_nil_of_le (by simp; omega), List.append_nil, List.take_replicate]
    rw [show min 1 (p.1.length + 1) = 1 by omega]
    rfl
  rw [em] at e5
  have hin : ∀ v r, 1 ≤ v → v < ctx.n → rf[v]? = some r → r ∈ p.2 →
      v ∈ 0 :: (pick x.phenotype (order p.2)).flatten := by
    intro v r h1 hvn hr hrp
    rcases g1 v hvn with ⟨k, l, hk, hv, e⟩ | ⟨hv, -⟩
    · rw [hr, Option.some.injEq, Nat.zero_add] at e
      subst e
      refine List.mem_cons_of_mem _ ?_
      rw [List.mem_flatten]
      refine ⟨l, ?_, hv⟩
      unfold pick
      rw [List.mem_map]
      exact ⟨r, (hord _).mem_iff.mpr hrp, by simp [List.getD_eq_getElem?_getD, hk]⟩
    · exfalso
      have := (Spec.IsPartition.mem_iff hx (x := v)).mpr ⟨h1, hvn⟩
      obtain ⟨l, hl, hvl⟩ := List.mem_flatten.mp this
      exact hv l hl hvl
  refine ⟨{ Individual.empty with
        genotype := (numbered 1 (pick x.phenotype (order p.2))).flatten
        phenotype := numbered 1 (pick x.phenotype (order p.2)) ++
          List.replicate (extraRoutes α (numbered 1 (pick x.phenotype (order p.2))).length) [] },
    _, { x with
        genotype := x.genotype.filter fun c => decide (c ∉ p.1)
        phenotype := unselected p.2 0 x.phenotype }, pick x.phenotype (order p.2), ?_, ?_, rfl, ?_, ?_, ?_, ?_⟩
  · unfold decomposeGlobal
    rw [e1, Option.bind_some, hrange, Option.bind_some, e3, Option.bind_some, e4, Option.bind_some,
      mapM_pick _ hol, Option.bind_some, e5, Option.map_some]
  · refine List.Perm.trans (List.Perm.append_left _ ((hord p.2).map _)) ?_
    exact unselected_perm hs.nodup hs.lt
  · dsimp only; rw [numbered_length]
  · simp
  · intro hsz h1
    obtain ⟨r, hr, -⟩ := hrf seed hseedlt
    exact hin seed r h1 hseedlt hr (h4 seed vs rfl hsz r hr)
  · rw [← hcl]
    refine h6.imp id fun h6 vs' hvs' v hv h1 => ?_
    rw [e3, Option.some.injEq] at hvs'
    subst hvs'
    obtain ⟨r, hr, -⟩ := hrf v (hvs v hv)
    exact hin v r h1 (hvs v hv) hr (h6 v (by simp [hv]) r hr)

end Decomp

/-- **C46.** Splitting a subproblem off a complete solution never panics, whatever the seed customer, the
size and the order of the hash set. The mapping lists the depot and the customers of the chosen routes,
once each: at least the seed customer (if it is not the depot and a size is asked for), and at least the
asked size unless the neighbours of the seed run out. The sub-solution is a complete, evaluated solution
of the subproblem: the chosen routes, renamed, and empty routes for a tenth of their number and two more. Writing *any* complete
solution of the subproblem back never panics and gives a complete, evaluated solution: the untouched
routes and the renamed non-empty routes. If the depot is at distance 0 from itself and the capacity is not
negative, the cost of the whole changes by exactly what the cost of the part changes. -/
theorem C46_decomposition (atan2 : ℚ → ℚ → ℚ) (ctx : Ctx ℚ) (nbrs : ℕ → Option (List ℕ)) (size w : ℕ)
    (order : List ℕ → List ℕ) (x : Individual ℚ) (hn : 2 ≤ ctx.n) (hx : x.Good ctx)
    (hord : ∀ l, (order l).Perm l)
    (hnb : ∀ v < ctx.n, ∃ vs, nbrs v = some vs ∧ ∀ u ∈ vs, u < ctx.n) :
    ∃ sub mapping rest chosen, Decomp.new atan2 ctx nbrs size w order x = some (sub, mapping, rest) ∧
      (rest.phenotype ++ chosen).Perm x.phenotype ∧
      mapping = 0 :: chosen.flatten ∧ mapping.Nodup ∧ (∀ c ∈ mapping, c < ctx.n) ∧
      (1 ≤ size → 1 ≤ w % (ctx.n - 1) → w % (ctx.n - 1) ∈ mapping) ∧
      (size ≤ chosen.flatten.length ∨ ∀ vs, nbrs (w % (ctx.n - 1)) = some vs → ∀ v ∈ vs, 1 ≤ v → v ∈ mapping) ∧
      sub.Good (subCtx ctx mapping) ∧
      (Spec.rename (fun c => mapping.getD c 0) sub.phenotype).Perm
        (chosen ++ List.replicate ((chosen.length + 5) / 10 + 2) []) ∧
      ∀ y : Individual ℚ, Spec.IsPartition mapping.length y.phenotype →
        ∃ z, Decomp.finish atan2 ctx mapping y rest = some z ∧ z.Good ctx ∧
          z.phenotype.Perm (rest.phenotype ++
            (Spec.rename (fun c => mapping.getD c 0) y.phenotype).filter fun r => decide (r ≠ [])) ∧
          (ctx.dist 0 0 = 0 → 0 ≤ ctx.cap → z.cost - x.cost =
            Spec.solCost (subCtx ctx mapping).dist (subCtx ctx mapping).demand ctx.cap ctx.pen y.phenotype
              - sub.cost) := by
  obtain ⟨s0, mapping, rest, chosen, e, h1, h2, h3, h4, h5, h6⟩ :=
    Decomp.decomposeGlobal_some ctx size w hn hx.part hx.geno hord hnb
  rw [Decomp.extraRoutes_rat] at h3
  generalize hk : (chosen.length + 5) / 10 + 2 = k at h3
  have hflat : (rest.phenotype.flatten ++ chosen.flatten).Perm (Spec.customers ctx.n) := by
    have := h1.flatten.trans hx.part
    rwa [List.flatten_append] at this
  have hml : mapping.length = chosen.flatten.length + 1 := by rw [h2]; rfl
  have hmem : ∀ c ∈ chosen.flatten, 1 ≤ c ∧ c < ctx.n := fun c hc =>
    Spec.mem_customers.mp (hflat.mem_iff.mp (List.mem_append_right _ hc))
  have hnd : chosen.flatten.Nodup := by
    have := hflat.nodup_iff.mpr (Spec.nodup_customers _)
    exact (List.nodup_append.mp this).2.1
  have hget0 : mapping.getD 0 0 = 0 := by rw [h2]; rfl
  have hsubpart : Spec.IsPartition mapping.length s0.phenotype := by
    unfold Spec.IsPartition
    rw [h3, List.flatten_append, List.flatten_replicate_nil, List.append_nil, Decomp.numbered_flatten, hml]
    exact List.Perm.refl _
  have hren : Spec.rename (fun c => mapping.getD c 0) s0.phenotype = chosen ++ List.replicate k [] := by
    unfold Spec.rename
    rw [h3, List.map_append, Decomp.numbered_map mapping chosen 1 [0] rfl ⟨[], by rw [h2]; simp⟩]
    simp
  have hm0 : 0 < (subCtx ctx mapping).n := by show 0 < mapping.length; omega
  obtain ⟨s1, e1, p1, g1, -⟩ := C03_sort_routes_perm atan2 (subCtx ctx mapping) s0 (by rw [h4]) (by simp)
  have hs1 : Spec.IsPartition (subCtx ctx mapping).n s1.phenotype := (Spec.isPartition_perm p1).mpr hsubpart
  obtain ⟨ev, e2, -⟩ := C01_evaluate_exact (subCtx ctx mapping) s1.evaluation s1.phenotype hm0
    (Spec.IsPartition.lt hs1)
  have hsub : ({ s1 with evaluation := ev } : Individual ℚ).Good (subCtx ctx mapping) := ⟨hs1, g1, _, e2⟩
  refine ⟨{ s1 with evaluation := ev }, mapping, rest, chosen, ?_, h1, h2, ?_, ?_, h5, h6, hsub, ?_, ?_⟩
  · unfold Decomp.new
    rw [e, Option.bind_some]
    dsimp only
    rw [e1, Option.bind_some, Individual.evaluate, e2]
    rfl
  · rw [h2, List.nodup_cons]
    exact ⟨fun h0 => by have := (hmem 0 h0).1; omega, hnd⟩
  · intro c hc
    rw [h2, List.mem_cons] at hc
    rcases hc with rfl | hc
    · omega
    · exact (hmem c hc).2
  · rw [hk, ← hren]
    exact p1.map _
  · intro y hy
    have hlt : ∀ l ∈ y.phenotype, ∀ c ∈ l, c < mapping.length := Spec.IsPartition.lt hy
    have hyf : (Spec.rename (fun c => mapping.getD c 0) y.phenotype).flatten.Perm chosen.flatten := by
      unfold Spec.rename
      rw [← List.map_flatten]
      refine (hy.map _).trans (List.Perm.of_eq ?_)
      unfold Spec.customers
      rw [hml, Nat.add_sub_cancel]
      have := Decomp.numbered_map mapping [chosen.flatten] 1 [0] rfl ⟨[], by rw [h2]; simp⟩
      simpa [Decomp.numbered] using this
    generalize hrs : (Spec.rename (fun c => mapping.getD c 0) y.phenotype).filter (fun r => decide (r ≠ [])) = rs
    have hback : Decomp.mapBack mapping y.phenotype = some rs := by
      rw [Decomp.mapBack_some _ hlt, ← hrs]; rfl
    have hrsf : rs.flatten.Perm chosen.flatten := by rw [← hrs, Decomp.filter_flatten]; exact hyf
    have hpart : Spec.IsPartition ctx.n (rest.phenotype ++ rs) := by
      unfold Spec.IsPartition
      rw [List.flatten_append]
      exact (List.Perm.append_left _ hrsf).trans hflat
    obtain ⟨z, ez, pz, gz, -⟩ := C03_sort_routes_perm atan2 ctx
      { rest with phenotype := rest.phenotype ++ rs, genotype := (rest.phenotype ++ rs).flatten } rfl (by simp)
    have hz : Spec.IsPartition ctx.n z.phenotype := (Spec.isPartition_perm pz).mpr hpart
    obtain ⟨ez', e3, c3, -⟩ := C01_evaluate_exact ctx z.evaluation z.phenotype (by omega)
      (Spec.IsPartition.lt hz)
    refine ⟨{ z with evaluation := ez' }, ?_, ⟨hz, gz, _, e3⟩, pz, fun hd hc => ?_⟩
    · unfold Decomp.finish
      rw [hback, Option.bind_some, ez, Option.bind_some, Individual.evaluate, e3]
      rfl
    · have hcost : ({ z with evaluation := ez' } : Individual ℚ).cost = ez'.cost := rfl
      rw [hcost, c3, hsub.cost, hx.cost, Spec.solCost_perm _ _ _ _ pz, Spec.solCost_perm _ _ _ _ h1.symm]
      dsimp only
      rw [Decomp.solCost_append, Decomp.solCost_append, ← hrs, Decomp.solCost_filter _ _ _ _ hd hc,
        Decomp.solCost_rename ctx hget0]
      have hsc : Spec.solCost (subCtx ctx mapping).dist (subCtx ctx mapping).demand (subCtx ctx mapping).cap
          (subCtx ctx mapping).pen s1.phenotype = Spec.solCost ctx.dist ctx.demand ctx.cap ctx.pen chosen := by
        rw [Spec.solCost_perm _ _ _ _ p1]
        show Spec.solCost (subCtx ctx mapping).dist (subCtx ctx mapping).demand (subCtx ctx mapping).cap
          ctx.pen s0.phenotype = _
        rw [← Decomp.solCost_rename ctx hget0, hren, Decomp.solCost_append]
        have : Spec.solCost ctx.dist ctx.demand ctx.cap ctx.pen (List.replicate k []) = 0 := by
          rw [← Decomp.solCost_filter _ _ _ _ hd hc]
          simp [Spec.solCost]
        rw [this, add_zero]
      rw [hsc]
      show _ + Spec.solCost (subCtx ctx mapping).dist (subCtx ctx mapping).demand ctx.cap ctx.pen y.phenotype - _ = _
      ring

end Verif
