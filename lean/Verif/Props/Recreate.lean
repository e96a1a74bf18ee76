import Verif.Lemmas.Recreate

/-! # C23, C24: the recreate step -/

namespace Verif
open F64

variable {α : Type} [F64 α]

namespace RRSol

/-- **C24.** One insertion, exact arithmetic, values below `f64::MAX`. The customer goes to exactly one
place. If a route ruined or already refilled in this step has room for it, it goes into such a route, at
a position whose extra length is minimal among all positions of all such routes up to `1e-6`. Otherwise,
and only then, it may go anywhere, to a place minimal (up to `1e-6`) in extra length plus penalty for
the route's resulting overload. -/
theorem C24_insertion (ctx : Ctx ℚ) (order : List ℕ → List ℕ) (hord : ∀ l, (order l).Perm l) (c : ℕ)
    (routes : List (RRoute ℚ)) (updated : List ℕ) (hne : routes ≠ [])
    (he : ∀ rt ∈ routes, rt.Exact ctx) (hup : ∀ r ∈ updated, r < routes.length) (hpen : 0 ≤ ctx.pen)
    (hfin : ∀ rt ∈ routes, ∀ i ≤ rt.nodes.length, fallback ctx c rt.nodes i < 2 ^ 1023 - 1) :
    ∃ r rt i rt', routes[r]? = some rt ∧ i ≤ rt.nodes.length ∧
      insertCustomer ctx order c routes updated = some (routes.set r rt', setInsert updated r) ∧
      rt.add ctx i c = some rt' ∧ rt'.nodes = rt.nodes.insertIdx i c ∧
      ((r ∈ updated ∧ Room ctx c rt.nodes ∧
          ∀ r2 ∈ updated, ∀ rt2, routes[r2]? = some rt2 → Room ctx c rt2.nodes →
            ∀ j ≤ rt2.nodes.length,
              extra ctx.dist rt.nodes i c ≤ extra ctx.dist rt2.nodes j c + 1 / 1000000) ∨
        ((∀ r2 ∈ updated, ∀ rt2, routes[r2]? = some rt2 → ¬ Room ctx c rt2.nodes) ∧
          ∀ rt2 ∈ routes, ∀ j ≤ rt2.nodes.length,
            fallback ctx c rt.nodes i ≤ fallback ctx c rt2.nodes j + 1 / 1000000)) := by
  have hins : ∀ r rt i, routes[r]? = some rt → i ≤ rt.nodes.length →
      ∃ rt', insertAt ctx c r i routes updated = some (routes.set r rt', setInsert updated r) ∧
        rt.add ctx i c = some rt' ∧ rt'.nodes = rt.nodes.insertIdx i c := by
    intro r rt i hr hi
    obtain ⟨d, hd⟩ := rt.delta_total ctx hi c
    refine ⟨⟨rt.nodes.insertIdx i c, rt.distance +. d, rt.overload +. ctx.demand c⟩, ?_, ?_, rfl⟩
    · unfold insertAt RRoute.add
      rw [hr, Option.bind_some, hd]
      rfl
    · unfold RRoute.add
      rw [hd]
      rfl
  have hle : ∀ rt ∈ routes, ∀ i ≤ rt.nodes.length, extra ctx.dist rt.nodes i c < 2 ^ 1023 - 1 := by
    intro rt hrt i hi
    have h1 := hfin rt hrt i hi
    have h2 : 0 ≤ max 0 (Spec.routeLoad ctx.demand rt.nodes + ctx.demand c - ctx.cap) * ctx.pen :=
      mul_nonneg (le_max_left _ _) hpen
    unfold fallback at h1
    linarith
  obtain ⟨b, h1, h2, h3, h4⟩ := scanFeasible_rat ctx c he (order updated) ⟨none, maxv, 0⟩
    (fun r hr => hup r ((hord updated).mem_iff.mp hr))
  rcases h2 with hb | ⟨r, hr, rt, i, x1, x2, x3, x4⟩
  · obtain ⟨b', e1, e2, e3, e4⟩ := scanAll_rat ctx c routes 0 ⟨none, maxv, 0⟩ he
    rcases e2 with hb' | ⟨r, rt, i, y1, y2, y3⟩
    · exfalso
      obtain ⟨rt, hrt⟩ := List.exists_mem_of_ne_nil _ hne
      have z1 := hfin rt hrt 0 (Nat.zero_le _)
      have z2 := e4 rt hrt 0 (Nat.zero_le _)
      rw [hb'] at z2
      dsimp only [rat_maxv] at z2
      generalize (2 : ℚ) ^ 1023 = z at *
      have : z ≤ fallback ctx c rt.nodes 0 + 1 / 1000000 := z2
      linarith
    · obtain ⟨rt', w1, w2, w3⟩ := hins r rt i y1 y2
      refine ⟨r, rt, i, rt', y1, y2, ?_, w2, w3, Or.inr ⟨?_, ?_⟩⟩
      · unfold insertCustomer
        rw [h1, hb, Option.bind_some]
        dsimp only
        rw [e1, Option.bind_some, y3]
        simpa using w1
      · intro r2 hr2 rt2 hrt2 hroom
        have z1 := hle rt2 (List.mem_of_getElem? hrt2) 0 (Nat.zero_le _)
        have z2 := h4 r2 ((hord updated).mem_iff.mpr hr2) rt2 hrt2 hroom 0 (Nat.zero_le _)
        rw [hb] at z2
        dsimp only [rat_maxv] at z2
        generalize (2 : ℚ) ^ 1023 = z at *
        have : z ≤ extra ctx.dist rt2.nodes 0 c + 1 / 1000000 := z2
        linarith
      · intro rt2 hrt2 j hj
        have := e4 rt2 hrt2 j hj
        rwa [y3] at this
  · obtain ⟨rt', w1, w2, w3⟩ := hins r rt i x1 x3
    have hru := (hord updated).mem_iff.mp hr
    refine ⟨r, rt, i, rt', x1, x3, ?_, w2, w3, Or.inl ⟨hru, x2, ?_⟩⟩
    · unfold insertCustomer
      rw [h1, Option.bind_some, x4]
      exact w1
    · intro r2 hr2 rt2 hrt2 hroom j hj
      have := h4 r2 ((hord updated).mem_iff.mpr hr2) rt2 hrt2 hroom j hj
      rwa [x4] at this

/-- **C23** (structure, any arithmetic and any iteration order of the hash set). Whenever a recreate step
on a ruined solution returns, every unassigned customer has been inserted exactly once, nothing is left
unassigned or marked as ruined, no route lost a customer or changed the order of those it had, and every
recorded location is right. -/
theorem C23_recreate_structure (ctx : Ctx α) (order : ℕ → List ℕ → List ℕ)
    (hord : ∀ k l, (order k l).Perm l) (ω : Oracle) (s s' : RRSol α)
    (hp : (s.stops.flatten ++ s.unassigned).Perm (Spec.customers ctx.n))
    (hl : LocsOn (fun r => r ∉ s.ruined) s.routes s.locs) (hlen : s.locs.length = ctx.n)
    (hr : ∀ r ∈ s.ruined, r < s.routes.length) (h : s.recreate ctx order ω = some s') :
    s'.Sound ctx ∧ s'.routes.length = s.routes.length ∧
      ∀ (r : ℕ) (rt : RRoute α), s.routes[r]? = some rt →
        ∃ rt', s'.routes[r]? = some rt' ∧ rt.nodes.Sublist rt'.nodes := by
  unfold recreate at h
  simp only [Option.bind_eq_some_iff, Option.map_eq_some_iff] at h
  obtain ⟨cs, hcs, p, hpp, s1, hs1, rfl⟩ := h
  have hg := insertAll_some hpp
  have hperm : ((p.1.map (·.nodes)).flatten).Perm (Spec.customers ctx.n) :=
    (hg.perm.trans ((sortUnassigned_perm hcs).append_left _)).trans hp
  have hnd : ((p.1.map (·.nodes)).flatten).Nodup := hperm.nodup_iff.mpr (Spec.nodup_customers _)
  obtain ⟨locs', e1, e2, e3⟩ := relocate_some hnd (P := fun _ => True) (order 0 p.2) s.locs
    (fun r => r ∉ p.2)
    (fun r hr' => by
      rw [hg.count]
      exact hg.range hr r ((hord 0 p.2).mem_iff.mp hr'))
    (fun x hx => by
      rw [hlen]
      exact (Spec.mem_customers.mp (hperm.mem_iff.mp hx)).2)
    (fun r rt i x hr' h1 h2 => by
      refine hl r rt i x (fun hm => hr' (hg.keeps r hm)) ?_ h2
      rw [← hg.same r hr']
      exact h1)
    (fun r _ => by
      by_cases hm : r ∈ p.2
      · exact Or.inr ((hord 0 p.2).mem_iff.mpr hm)
      · exact Or.inl hm)
  unfold evaluate at hs1
  simp only [Option.map_eq_some_iff] at hs1
  obtain ⟨l2, hl2, rfl⟩ := hs1
  rw [e1, Option.some.injEq] at hl2
  subst hl2
  exact ⟨⟨hperm, fun r rt i x h1 h2 => e3 r rt i x trivial h1 h2, by rw [← hlen]; exact e2, rfl, rfl⟩,
    hg.count, hg.grows⟩

/-- Numbers stay far below `f64::MAX`: non-negative distances, demands, capacity and penalty, with
distances and the penalty for all demand on one route at most `2 ^ 1000`. -/
structure Tame (ctx : Ctx ℚ) : Prop where
  dist : ∀ a b, 0 ≤ ctx.dist a b ∧ ctx.dist a b ≤ 2 ^ 1000
  demand : ∀ a, 0 ≤ ctx.demand a
  cap : 0 ≤ ctx.cap
  pen : 0 ≤ ctx.pen
  bound : Spec.routeLoad ctx.demand (Spec.customers ctx.n) * ctx.pen ≤ 2 ^ 1000

theorem big : 2 * (2 : ℚ) ^ 1000 + 2 ^ 1000 < 2 ^ 1023 - 1 := by
  have h1 : (1 : ℚ) ≤ 2 ^ 1000 := one_le_pow₀ (by norm_num)
  have h2 : (2 : ℚ) ^ 1023 = 2 ^ 1000 * 2 ^ 23 := by rw [← pow_add]
  rw [h2]
  clear h2
  generalize (2 : ℚ) ^ 1000 = z at *
  norm_num
  linarith

theorem small {q : ℚ} (h : q ≤ 2 ^ 10) : q ≤ 2 ^ 1000 :=
  h.trans (pow_le_pow_right₀ (by norm_num) (by norm_num))

theorem extra_le {ctx : Ctx ℚ} (ht : Tame ctx) {l : List ℕ} {i : ℕ} (hi : i ≤ l.length) (c : ℕ) :
    extra ctx.dist l i c ≤ 2 * 2 ^ 1000 := by
  obtain ⟨p, q, rfl, rfl⟩ := split_at hi
  unfold extra
  rw [insertIdx_at, routeDist_detour]
  unfold detour
  have h1 := (ht.dist (p.getLastD 0) c).2
  have h2 := (ht.dist c (q.headD 0)).2
  have h3 := (ht.dist (p.getLastD 0) (q.headD 0)).1
  generalize (2 : ℚ) ^ 1000 = z at *
  linarith

theorem fallback_lt {ctx : Ctx ℚ} (ht : Tame ctx) {l : List ℕ} {i c : ℕ} (hi : i ≤ l.length)
    (hl : (l ++ [c]).Subperm (Spec.customers ctx.n)) : fallback ctx c l i < 2 ^ 1023 - 1 := by
  have h1 := extra_le ht hi c
  have h2 : Spec.routeLoad ctx.demand l + ctx.demand c ≤
      Spec.routeLoad ctx.demand (Spec.customers ctx.n) := by
    obtain ⟨m, hm, hs⟩ := hl
    have e : Spec.routeLoad ctx.demand (l ++ [c]) = Spec.routeLoad ctx.demand m :=
      Spec.routeLoad_perm _ hm.symm
    have : Spec.routeLoad ctx.demand m ≤ Spec.routeLoad ctx.demand (Spec.customers ctx.n) := by
      clear hm e
      generalize Spec.customers ctx.n = k at hs
      induction hs with
      | slnil => exact le_refl _
      | cons a _ ih => rw [Spec.routeLoad_cons]; have := ht.demand a; linarith
      | cons_cons a _ ih => rw [Spec.routeLoad_cons, Spec.routeLoad_cons]; linarith
    rw [Spec.routeLoad_append] at e
    simp only [Spec.routeLoad_cons, Spec.routeLoad_nil, add_zero] at e
    linarith
  have h3 : max 0 (Spec.routeLoad ctx.demand l + ctx.demand c - ctx.cap) * ctx.pen ≤ 2 ^ 1000 := by
    refine le_trans (mul_le_mul_of_nonneg_right ?_ ht.pen) ht.bound
    refine max_le ?_ ?_
    · exact Spec.routeLoad_nonneg _ ht.demand _
    · have := ht.cap; linarith
  have h4 := big
  unfold fallback
  generalize (2 : ℚ) ^ 1000 = z at *
  generalize (2 : ℚ) ^ 1023 = w at *
  linarith

theorem insertAll_total {ctx : Ctx ℚ} (ht : Tame ctx) {order : ℕ → List ℕ → List ℕ}
    (hord : ∀ k l, (order k l).Perm l) : ∀ (cs : List ℕ) (routes : List (RRoute ℚ))
      (updated : List ℕ), routes ≠ [] → (∀ rt ∈ routes, rt.Exact ctx) →
      (∀ r ∈ updated, r < routes.length) →
      ((routes.map (·.nodes)).flatten ++ cs).Perm (Spec.customers ctx.n) →
      ∃ p, insertAll ctx order cs routes updated = some p ∧ ∀ rt ∈ p.1, rt.Exact ctx
  | [], routes, updated, _, he, _, _ => ⟨_, rfl, he⟩
  | c :: cs, routes, updated, hne, he, hup, hp => by
    obtain ⟨r, rt, i, rt', h1, h2, h3, h4, h5, -⟩ := C24_insertion ctx (order (cs.length + 1))
      (hord _) c routes updated hne he hup ht.pen (by
        intro rt hrt i hi
        refine fallback_lt ht hi ?_
        refine List.Subperm.trans ?_ hp.subperm
        obtain ⟨r, hr, e⟩ := List.mem_iff_getElem.mp hrt
        obtain ⟨rest, e1, -⟩ := perm_set_one hr
        rw [e] at e1
        have e2 := ((e1.map (·.nodes)).flatten).append_right (c :: cs)
        refine List.Subperm.trans ?_ e2.symm.subperm
        simp only [List.map_cons, List.flatten_cons, List.append_assoc]
        refine (List.subperm_append_left _).mpr ?_
        refine List.Subperm.trans ?_ (List.sublist_append_right _ _).subperm
        exact List.Sublist.subperm (by simp))
    have hg := grown_set (updated := updated) h1 h4
    have he' : ∀ x ∈ routes.set r rt', x.Exact ctx := by
      intro x hx
      rcases List.mem_or_eq_of_mem_set hx with hx | rfl
      · exact he x hx
      · exact RRoute.add_exact h4 (he rt (List.mem_of_getElem? h1))
    obtain ⟨p, hp1, hp2⟩ := insertAll_total ht hord cs (routes.set r rt') (setInsert updated r)
      (by rw [← List.length_pos_iff] at hne ⊢; simpa using hne) he'
      (by rw [List.length_set]; exact hg.range hup)
      (by
        refine (hg.perm.append_right cs).trans ?_
        simpa using hp)
    unfold insertAll
    rw [h3, Option.bind_some]
    exact ⟨p, hp1, hp2⟩

theorem costOf_rat {ctx : Ctx ℚ} {routes : List (RRoute ℚ)} (he : ∀ rt ∈ routes, rt.Exact ctx) :
    costOf ctx routes =
      Spec.solCost ctx.dist ctx.demand ctx.cap ctx.pen (routes.map (·.nodes)) := by
  have : ∀ (rs : List (RRoute ℚ)) (a : ℚ), (∀ rt ∈ rs, rt.Exact ctx) →
      rs.foldl (fun c r => c +. (r.distance +. F64.max (lit 0) r.overload *. ctx.pen)) a =
        a + Spec.solCost ctx.dist ctx.demand ctx.cap ctx.pen (rs.map (·.nodes)) := by
    intro rs
    induction rs with
    | nil => intro a _; simp
    | cons r rs ih =>
      intro a h
      have hr := h r (by simp)
      rw [List.foldl_cons, ih _ (fun x hx => h x (by simp [hx]))]
      simp only [rat_add, rat_mul, rat_max, rat_lit, List.map_cons, Spec.solCost_cons,
        Spec.routeCost, hr.1, hr.2]
      ring
  unfold costOf
  rw [this routes _ he]
  simp

/-- **C23** (exact arithmetic, numbers below `f64::MAX`). A recreate step on a ruined solution never
panics; it leaves a solution in which every customer is on exactly one route, nothing is unassigned or
marked as ruined, distances and overloads are exact, every recorded location is right, the cost is the
true penalized cost, and every route still contains its customers in the same order. -/
theorem C23_recreate (ctx : Ctx ℚ) (ht : Tame ctx) (order : ℕ → List ℕ → List ℕ)
    (hord : ∀ k l, (order k l).Perm l) (ω : Oracle) (s : RRSol ℚ) (hne : s.routes ≠ [])
    (hp : (s.stops.flatten ++ s.unassigned).Perm (Spec.customers ctx.n))
    (he : ∀ rt ∈ s.routes, rt.Exact ctx)
    (hl : LocsOn (fun r => r ∉ s.ruined) s.routes s.locs) (hlen : s.locs.length = ctx.n)
    (hr : ∀ r ∈ s.ruined, r < s.routes.length) :
    ∃ s', s.recreate ctx order ω = some s' ∧ s'.Valid ctx ∧ s'.routes.length = s.routes.length ∧
      s'.cost = Spec.solCost ctx.dist ctx.demand ctx.cap ctx.pen s'.stops ∧
      ∀ (r : ℕ) (rt : RRoute ℚ), s.routes[r]? = some rt →
        ∃ rt', s'.routes[r]? = some rt' ∧ rt.nodes.Sublist rt'.nodes := by
  obtain ⟨cs, hcs⟩ := sortUnassigned_rat ctx ω s.unassigned
  have hcp := sortUnassigned_perm hcs
  obtain ⟨p, hp1, hp2⟩ := insertAll_total ht hord cs s.routes s.ruined hne he hr
    ((hcp.append_left _).trans hp)
  have hg := insertAll_some hp1
  have hperm : ((p.1.map (·.nodes)).flatten).Perm (Spec.customers ctx.n) :=
    (hg.perm.trans (hcp.append_left _)).trans hp
  obtain ⟨locs', e1, -⟩ := relocate_some (hperm.nodup_iff.mpr (Spec.nodup_customers _))
    (P := fun _ => False) (order 0 p.2) s.locs (fun _ => False)
    (fun r hr' => by
      rw [hg.count]
      exact hg.range hr r ((hord 0 p.2).mem_iff.mp hr'))
    (fun x hx => by
      rw [hlen]
      exact (Spec.mem_customers.mp (hperm.mem_iff.mp hx)).2)
    (fun _ _ _ _ h => h.elim) (fun _ h => h.elim)
  have hrun : s.recreate ctx order ω = some
      { s with routes := p.1, unassigned := [], locs := locs', cost := costOf ctx p.1, ruined := [] } := by
    unfold recreate
    rw [hcs, Option.bind_some, hp1, Option.bind_some]
    unfold evaluate
    dsimp only
    rw [e1]
    rfl
  obtain ⟨h1, h2, h3⟩ := C23_recreate_structure ctx order hord ω s _ hp hl hlen hr hrun
  exact ⟨_, hrun, ⟨h1, hp2⟩, h2, costOf_rat hp2, h3⟩

/-- A ruined solution is what recreate expects. -/
theorem Ruined.ready {ctx : Ctx α} {lsmax : α} {s0 s : RRSol α} (h : Ruined lsmax s0 s)
    (hs : s0.Sound ctx) : (s.stops.flatten ++ s.unassigned).Perm (Spec.customers ctx.n) ∧
      LocsOn (fun r => r ∉ s.ruined) s.routes s.locs ∧ s.locs.length = ctx.n ∧
      ∀ r ∈ s.ruined, r < s.routes.length := by
  refine ⟨?_, ?_, ?_, ?_⟩
  · refine h.perm.trans ?_
    rw [hs.unassigned, List.append_nil]
    exact hs.part
  · intro r rt i x hr h1 h2
    rw [h.locs]
    exact hs.locs r rt i x ((h.untouched r hr).symm.trans h1) h2
  · rw [h.locs]; exact hs.len
  · intro r hr
    obtain ⟨rt, -, -, h1, -⟩ := h.lost r hr
    exact (List.getElem?_eq_some_iff.mp h1).1

end RRSol

/-! ### A concrete instance -/

namespace RuinEx
open RRSol

theorem ctx_tame : Tame ctx where
  dist a b := ⟨abs_nonneg _, by
    refine small ?_
    have h1 : ((a % 6 : ℕ) : ℚ) < 6 := by exact_mod_cast Nat.mod_lt a (by norm_num)
    have h2 : ((b % 6 : ℕ) : ℚ) < 6 := by exact_mod_cast Nat.mod_lt b (by norm_num)
    have h3 : (0 : ℚ) ≤ (a % 6 : ℕ) := Nat.cast_nonneg _
    have h4 : (0 : ℚ) ≤ (b % 6 : ℕ) := Nat.cast_nonneg _
    simp only [ctx]
    rw [abs_le]
    constructor <;> norm_num <;> linarith⟩
  demand a := by simp only [ctx]; split <;> norm_num
  cap := by norm_num [ctx]
  pen := by norm_num [ctx]
  bound := by
    refine small ?_
    simp [ctx, Spec.routeLoad, Spec.customers, List.range']
    norm_num

/-- The solution with customers 3 and 5 taken out meets the hypotheses of `C23_recreate`. -/
def ruinedSol : RRSol ℚ :=
  ⟨[⟨[1, 2], 4, -2⟩, ⟨[], 0, -4⟩, ⟨[4], 8, -3⟩], [3, 5], [0, 2],
    [(0, 0), (0, 0), (0, 1), (0, 2), (2, 1), (2, 0)], 16⟩

example : Tame ctx ∧ (∀ (k : ℕ) (l : List ℕ), ((fun _ l => l.reverse) k l : List ℕ).Perm l) ∧
    ruinedSol.routes ≠ [] ∧
    (ruinedSol.stops.flatten ++ ruinedSol.unassigned).Perm (Spec.customers ctx.n) ∧
    (∀ rt ∈ ruinedSol.routes, rt.Exact ctx) ∧
    LocsOn (fun r => r ∉ ruinedSol.ruined) ruinedSol.routes ruinedSol.locs ∧
    ruinedSol.locs.length = ctx.n ∧ ∀ r ∈ ruinedSol.ruined, r < ruinedSol.routes.length := by
  refine ⟨ctx_tame, fun _ l => List.reverse_perm l, by decide, by decide, ?_, ?_, rfl, by decide⟩
  · intro r hr
    simp only [ruinedSol, List.mem_cons, List.not_mem_nil, or_false] at hr
    rcases hr with rfl | rfl | rfl <;> refine ⟨?_, ?_⟩ <;>
      simp [ctx, Spec.routeDist, Spec.routeLoad] <;> norm_num [abs_of_nonneg, abs_of_nonpos]
  · intro r rt i x h0 h1 h2
    obtain ⟨a, rfl⟩ := List.getElem?_eq_some_iff.mp h1
    obtain ⟨b, rfl⟩ := List.getElem?_eq_some_iff.mp h2
    have a' : r < 3 := a
    clear h1 h2
    interval_cases r
    · exact absurd h0 (by decide)
    · exact absurd b (by simp [ruinedSol])
    · exact absurd h0 (by decide)

/-- The hypotheses of `C24_insertion`: customer 3, two ruined routes, one of which has room. -/
example : ruinedSol.routes ≠ [] ∧ (∀ r ∈ ruinedSol.ruined, r < ruinedSol.routes.length) ∧
    0 ≤ ctx.pen ∧ Room ctx 3 [1, 2] ∧
    (∀ rt ∈ ruinedSol.routes, ∀ i ≤ rt.nodes.length,
      fallback ctx 3 rt.nodes i < 2 ^ 1023 - 1) := by
  refine ⟨by decide, by decide, by norm_num [ctx], ?_, ?_⟩
  · unfold Room
    norm_num [ctx, Spec.routeLoad]
  · intro rt hrt i hi
    refine fallback_lt ctx_tame hi ?_
    simp only [ruinedSol, List.mem_cons, List.not_mem_nil, or_false] at hrt
    rcases hrt with rfl | rfl | rfl <;> decide

end RuinEx
end Verif
