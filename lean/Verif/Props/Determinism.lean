import Verif.Props.RuinRecreate

/-!
# C52: the result depends on the unseeded hash order

`RuinRecreateSolution::new` makes the hash set `ruined_routes` with `RandomState::new()`, not with the
seeded state of the context (`/repo/src/solver/improvement/ruin_recreate/mod.rs:43`). Its iteration order
is the argument `order` of the model of recreate.
-/

namespace Verif
open F64

namespace RRSol

/-- A place where recreate may put customer `c`: position `i` of an updated route with room. -/
def Place (ctx : Ctx ℚ) (c : ℕ) (routes : List (RRoute ℚ)) (updated : List ℕ) (r : ℕ) (rt : RRoute ℚ)
    (i : ℕ) : Prop :=
  r ∈ updated ∧ routes[r]? = some rt ∧ Room ctx c rt.nodes ∧ i ≤ rt.nodes.length

/-- Only one route has a best place: the places that are the best up to `1e-6` are on one route and cost
the same. The same cost at two positions of one route is no tie between routes. -/
def BestUnique (ctx : Ctx ℚ) (c : ℕ) (routes : List (RRoute ℚ)) (updated : List ℕ) : Prop :=
  ∀ r1 rt1 i1 r2 rt2 i2, Place ctx c routes updated r1 rt1 i1 → Place ctx c routes updated r2 rt2 i2 →
    (∀ r rt i, Place ctx c routes updated r rt i →
      extra ctx.dist rt1.nodes i1 c ≤ extra ctx.dist rt.nodes i c + 1 / 1000000) →
    (∀ r rt i, Place ctx c routes updated r rt i →
      extra ctx.dist rt2.nodes i2 c ≤ extra ctx.dist rt.nodes i c + 1 / 1000000) →
    r1 = r2 ∧ extra ctx.dist rt1.nodes i1 c = extra ctx.dist rt2.nodes i2 c

/-- No customer meets a tie while the customers `cs` are inserted. -/
def NoTies (ctx : Ctx ℚ) (order : ℕ → List ℕ → List ℕ) :
    List ℕ → List (RRoute ℚ) → List ℕ → Prop
  | [], _, _ => True
  | c :: cs, routes, updated => BestUnique ctx c routes updated ∧
      ∀ p, insertCustomer ctx (order (cs.length + 1)) c routes updated = some p →
        NoTies ctx order cs p.1 p.2

/-- The position found on a route is cheaper than all positions before it. -/
theorem scanPositions_first (ctx : Ctx ℚ) (c : ℕ) (f : ℚ → ℚ) (r : ℕ) (rt : RRoute ℚ) :
    ∀ (is pre : List ℕ) (b b' : BestIns ℚ), (∀ i ∈ is, i ≤ rt.nodes.length) →
      (∀ j ∈ pre, b.value ≤ f (extra ctx.dist rt.nodes j c) + 1 / 1000000) →
      scanPositions ctx c f r rt is b = some b' →
      b' = b ∨ ∃ p i q, is = p ++ i :: q ∧ b' = ⟨some r, f (extra ctx.dist rt.nodes i c), i⟩ ∧
        ∀ j ∈ pre ++ p, f (extra ctx.dist rt.nodes i c) < f (extra ctx.dist rt.nodes j c)
  | [], pre, b, b', _, _, h => by
    simp only [scanPositions, Option.some.injEq] at h
    exact .inl h.symm
  | i :: is, pre, b, b', hi, hpre, h => by
    unfold scanPositions at h
    rw [RRoute.delta_exact (hi i (by simp)), Option.bind_some] at h
    change scanPositions ctx c f r rt is (if approxLt (f (extra ctx.dist rt.nodes i c)) b.value = true then
      ⟨some r, f (extra ctx.dist rt.nodes i c), i⟩ else b) = some b' at h
    have hi' : ∀ j ∈ is, j ≤ rt.nodes.length := fun j hj => hi j (by simp [hj])
    split at h
    · rename_i hlt
      rw [rat_approxLt, decide_eq_true_eq] at hlt
      rcases scanPositions_first ctx c f r rt is (pre ++ [i]) _ b' hi' (by
          intro j hj
          dsimp only
          rcases List.mem_append.mp hj with hj | hj
          · have := hpre j hj
            linarith
          · rw [List.mem_singleton.mp hj]
            linarith) h with e | ⟨p, k, q, e1, e2, e3⟩
      · refine .inr ⟨[], i, is, rfl, e, ?_⟩
        intro j hj
        rw [List.append_nil] at hj
        have := hpre j hj
        linarith
      · exact .inr ⟨i :: p, k, q, by rw [e1]; rfl, e2, fun j hj => e3 j (by simpa using hj)⟩
    · rename_i hlt
      rw [rat_approxLt, decide_eq_true_eq, not_lt] at hlt
      rcases scanPositions_first ctx c f r rt is (pre ++ [i]) _ b' hi' (by
          intro j hj
          rcases List.mem_append.mp hj with hj | hj
          · exact hpre j hj
          · rw [List.mem_singleton.mp hj]
            linarith) h with e | ⟨p, k, q, e1, e2, e3⟩
      · exact .inl e
      · exact .inr ⟨i :: p, k, q, by rw [e1]; rfl, e2, fun j hj => e3 j (by simpa using hj)⟩

theorem scanFeasible_first (ctx : Ctx ℚ) (c : ℕ) {routes : List (RRoute ℚ)} : ∀ (rs : List ℕ)
    (b b' : BestIns ℚ), scanFeasible ctx c routes rs b = some b' →
      b' = b ∨ ∃ r rt i, routes[r]? = some rt ∧ b' = ⟨some r, extra ctx.dist rt.nodes i c, i⟩ ∧
        ∀ j < i, extra ctx.dist rt.nodes i c < extra ctx.dist rt.nodes j c
  | [], b, b', h => by
    simp only [scanFeasible, Option.some.injEq] at h
    exact .inl h.symm
  | r :: rs, b, b', h => by
    unfold scanFeasible at h
    simp only [Option.bind_eq_some_iff] at h
    obtain ⟨rt, hrt, h⟩ := h
    split at h
    · simp only [Option.bind_eq_some_iff] at h
      obtain ⟨b1, h1, h⟩ := h
      rcases scanFeasible_first ctx c rs b1 b' h with rfl | h
      · rcases scanPositions_first ctx c id r rt _ [] b b' (fun i hi => by
            rw [List.mem_range] at hi; omega) (by simp) h1 with e | ⟨p, i, q, e1, e2, e3⟩
        · exact .inl e
        · refine .inr ⟨r, rt, i, hrt, e2, fun j hj => e3 j ?_⟩
          have hpi : p.length = i := by
            have := congrArg (fun l => l[p.length]?) e1
            simp only [List.getElem?_append_right (le_refl p.length), Nat.sub_self,
              List.getElem?_cons_zero] at this
            rw [List.getElem?_eq_some_iff] at this
            obtain ⟨_, this⟩ := this
            simpa using this
          have hlen : j < p.length := by omega
          have := congrArg (fun l => l[j]?) e1
          simp only [List.getElem?_append_left hlen] at this
          rw [List.getElem?_range (by
            have := congrArg List.length e1
            simp at this
            omega)] at this
          simpa using List.mem_of_getElem? this.symm
      · exact .inr h
    · exact scanFeasible_first ctx c rs b b' h

theorem insertCustomer_order {ctx : Ctx ℚ} {o1 o2 : List ℕ → List ℕ} (h1 : ∀ l, (o1 l).Perm l)
    (h2 : ∀ l, (o2 l).Perm l) {c : ℕ} {routes : List (RRoute ℚ)} {updated : List ℕ}
    (he : ∀ rt ∈ routes, rt.Exact ctx) (hup : ∀ r ∈ updated, r < routes.length)
    (hle : ∀ rt ∈ routes, ∀ i ≤ rt.nodes.length, extra ctx.dist rt.nodes i c < 2 ^ 1023 - 1)
    (hu : BestUnique ctx c routes updated) :
    insertCustomer ctx o1 c routes updated = insertCustomer ctx o2 c routes updated := by
  have key : ∀ o : List ℕ → List ℕ, (∀ l, (o l).Perm l) → ∃ b,
      scanFeasible ctx c routes (o updated) ⟨none, maxv, 0⟩ = some b ∧
      (b = ⟨none, maxv, 0⟩ ∨ ∃ r rt i, Place ctx c routes updated r rt i ∧
        b = ⟨some r, extra ctx.dist rt.nodes i c, i⟩ ∧
        ∀ j < i, extra ctx.dist rt.nodes i c < extra ctx.dist rt.nodes j c) ∧
      ∀ r rt i, Place ctx c routes updated r rt i → b.value ≤ extra ctx.dist rt.nodes i c + 1 / 1000000 := by
    intro o ho
    obtain ⟨b, e1, e2, -, e4⟩ := scanFeasible_rat ctx c he (o updated) ⟨none, maxv, 0⟩
      (fun r hr => hup r ((ho updated).mem_iff.mp hr))
    refine ⟨b, e1, ?_, fun r rt i ⟨a1, a2, a3, a4⟩ => e4 r ((ho updated).mem_iff.mpr a1) rt a2 a3 i a4⟩
    rcases e2 with e2 | ⟨r, hr, rt, i, x1, x2, x3, x4⟩
    · exact .inl e2
    · rcases scanFeasible_first ctx c _ _ _ e1 with e | ⟨r', rt', i', y1, y2, y3⟩
      · exact .inl e
      · rw [x4] at y2
        injection y2 with z1 z2 z3
        injection z1 with z1
        subst z1 z3
        rw [x1, Option.some.injEq] at y1
        subst y1
        exact .inr ⟨r, rt, i, ⟨(ho updated).mem_iff.mp hr, x1, x2, x3⟩, x4, y3⟩
  have absurdly : ∀ {b : BestIns ℚ} {r rt i}, Place ctx c routes updated r rt i →
      b = ⟨none, maxv, 0⟩ → b.value ≤ extra ctx.dist rt.nodes i c + 1 / 1000000 → False := by
    rintro b r rt i ⟨-, x1, -, x3⟩ rfl hb
    have := hle rt (List.mem_of_getElem? x1) i x3
    dsimp only [rat_maxv] at hb
    generalize (2 : ℚ) ^ 1023 = z at *
    have hb' : z ≤ extra ctx.dist rt.nodes i c + 1 / 1000000 := hb
    linarith
  obtain ⟨b1, e1, c1, m1⟩ := key o1 h1
  obtain ⟨b2, e2, c2, m2⟩ := key o2 h2
  have hb : b1 = b2 := by
    rcases c1 with c1 | ⟨r1, rt1, i1, p1, c1, f1⟩
    · rcases c2 with c2 | ⟨r2, rt2, i2, p2, c2, f2⟩
      · rw [c1, c2]
      · exact (absurdly p2 c1 (m1 _ _ _ p2)).elim
    · rcases c2 with c2 | ⟨r2, rt2, i2, p2, c2, f2⟩
      · exact (absurdly p1 c2 (m2 _ _ _ p1)).elim
      · rw [c1] at m1
        rw [c2] at m2
        obtain ⟨rfl, hv⟩ := hu _ _ _ _ _ _ p1 p2 m1 m2
        obtain rfl : rt1 = rt2 := Option.some.inj (p1.2.1.symm.trans p2.2.1)
        rcases lt_trichotomy i1 i2 with h | rfl | h
        · exact absurd (f2 i1 h) (by rw [hv]; exact lt_irrefl _)
        · rw [c1, c2]
        · exact absurd (f1 i2 h) (by rw [hv]; exact lt_irrefl _)
  unfold insertCustomer
  rw [e1, e2, hb]

theorem insertAll_order {ctx : Ctx ℚ} (ht : Tame ctx) {o1 o2 : ℕ → List ℕ → List ℕ}
    (h1 : ∀ k l, (o1 k l).Perm l) (h2 : ∀ k l, (o2 k l).Perm l) : ∀ (cs : List ℕ)
      (routes : List (RRoute ℚ)) (updated : List ℕ), routes ≠ [] → (∀ rt ∈ routes, rt.Exact ctx) →
      (∀ r ∈ updated, r < routes.length) →
      ((routes.map (·.nodes)).flatten ++ cs).Perm (Spec.customers ctx.n) →
      NoTies ctx o1 cs routes updated →
      insertAll ctx o1 cs routes updated = insertAll ctx o2 cs routes updated
  | [], routes, updated, _, _, _, _, _ => rfl
  | c :: cs, routes, updated, hne, he, hup, hp, hnt => by
    have hfin : ∀ rt ∈ routes, ∀ i ≤ rt.nodes.length, fallback ctx c rt.nodes i < 2 ^ 1023 - 1 := by
      intro rt hrt i hi
      refine fallback_lt ht hi ?_
      refine List.Subperm.trans ?_ hp.subperm
      obtain ⟨r, hr, e⟩ := List.mem_iff_getElem.mp hrt
      obtain ⟨rest, e1, -⟩ := perm_set_one hr
      rw [e] at e1
      have e2 := ((e1.map (·.nodes)).flatten).append_right (c :: cs)
      refine List.Subperm.trans ?_ e2.symm.subperm
      simp only [List.map_cons, List.flatten_cons, List.append_assoc]
      refine (List.subperm_append_left _).mpr ?_
      refine List.Subperm.trans ?_ (List.sublist_append_right _ _).subperm
      exact List.Sublist.subperm (by simp)
    have hle : ∀ rt ∈ routes, ∀ i ≤ rt.nodes.length, extra ctx.dist rt.nodes i c < 2 ^ 1023 - 1 := by
      intro rt hrt i hi
      have g1 := hfin rt hrt i hi
      have g2 : 0 ≤ max 0 (Spec.routeLoad ctx.demand rt.nodes + ctx.demand c - ctx.cap) * ctx.pen :=
        mul_nonneg (le_max_left _ _) ht.pen
      unfold fallback at g1
      linarith
    obtain ⟨r, rt, i, rt', g1, -, g3, g4, -, -⟩ := C24_insertion ctx (o1 (cs.length + 1))
      (h1 _) c routes updated hne he hup ht.pen hfin
    have hsame := insertCustomer_order (h1 (cs.length + 1)) (h2 (cs.length + 1)) he hup hle hnt.1
    have hg := grown_set (updated := updated) g1 g4
    have he' : ∀ x ∈ routes.set r rt', x.Exact ctx := by
      intro x hx
      rcases List.mem_or_eq_of_mem_set hx with hx | rfl
      · exact he x hx
      · exact RRoute.add_exact g4 (he rt (List.mem_of_getElem? g1))
    have ih := insertAll_order ht h1 h2 cs (routes.set r rt') (setInsert updated r)
      (by rw [← List.length_pos_iff] at hne ⊢; simpa using hne) he'
      (by rw [List.length_set]; exact hg.range hup)
      (by
        refine (hg.perm.append_right cs).trans ?_
        simpa using hp) (hnt.2 _ g3)
    unfold insertAll
    rw [← hsame, g3, Option.bind_some, Option.bind_some, ih]

/-- Locations of nodes on no route stay as they are. -/
theorem relocate_other {routes : List (RRoute ℚ)} (hnd : (routes.map (·.nodes)).flatten.Nodup) :
    ∀ (rs : List ℕ) (locs locs' : List (ℕ × ℕ)), (∀ r ∈ rs, r < routes.length) →
      (∀ x ∈ (routes.map (·.nodes)).flatten, x < locs.length) →
      relocate routes rs locs = some locs' → ∀ x, x ∉ (routes.map (·.nodes)).flatten →
      locs'[x]? = locs[x]?
  | [], locs, locs', _, _, h, x, _ => by
    simp only [relocate, Option.some.injEq] at h
    rw [h]
  | r :: rs, locs, locs', hrs, hlt, h, x, hx => by
    have hr := hrs r (by simp)
    obtain ⟨rt, hrt⟩ : ∃ rt, routes[r]? = some rt := ⟨_, List.getElem?_eq_getElem hr⟩
    have hin : ∀ y ∈ rt.nodes, y ∈ (routes.map (·.nodes)).flatten := fun y hy =>
      List.mem_flatten.mpr ⟨_, List.mem_map.mpr ⟨rt, List.mem_of_getElem? hrt, rfl⟩, hy⟩
    obtain ⟨l1, e1, e2, -, e4⟩ := writeLocs_some r rt.nodes 0 locs (nodup_route hnd hrt)
      (fun y hy => hlt y (hin y hy))
    unfold relocate at h
    rw [hrt, Option.bind_some, e1, Option.bind_some] at h
    rw [relocate_other hnd rs l1 locs' (fun s hs => hrs s (by simp [hs])) (by rw [e2]; exact hlt) h x hx,
      e4 x (fun hy => hx (hin x hy))]

/-- **C52** (the part that holds). When no customer meets a tie between routes (`BestUnique` each time),
the result of a recreate step does not depend on the iteration order of the hash set.
Missing: steps with ties. There the claim is false, see `C52_hash_order_refuted`. -/
theorem C52_no_ties_partial (ctx : Ctx ℚ) (ht : Tame ctx) (o1 o2 : ℕ → List ℕ → List ℕ)
    (h1 : ∀ k l, (o1 k l).Perm l) (h2 : ∀ k l, (o2 k l).Perm l) (ω : Oracle) (s : RRSol ℚ)
    (hne : s.routes ≠ []) (hp : (s.stops.flatten ++ s.unassigned).Perm (Spec.customers ctx.n))
    (he : ∀ rt ∈ s.routes, rt.Exact ctx)
    (hl : LocsOn (fun r => r ∉ s.ruined) s.routes s.locs) (hlen : s.locs.length = ctx.n)
    (hr : ∀ r ∈ s.ruined, r < s.routes.length) (cs : List ℕ)
    (hcs : sortUnassigned ctx ω s.unassigned = some cs) (hnt : NoTies ctx o1 cs s.routes s.ruined) :
    s.recreate ctx o1 ω = s.recreate ctx o2 ω := by
  have hcp := sortUnassigned_perm hcs
  have hsame := insertAll_order ht h1 h2 cs s.routes s.ruined hne he hr ((hcp.append_left _).trans hp) hnt
  obtain ⟨p, hp1, hp2⟩ := insertAll_total ht h1 cs s.routes s.ruined hne he hr
    ((hcp.append_left _).trans hp)
  have hg := insertAll_some hp1
  have hperm : ((p.1.map (·.nodes)).flatten).Perm (Spec.customers ctx.n) :=
    (hg.perm.trans (hcp.append_left _)).trans hp
  have hnd := hperm.nodup_iff.mpr (Spec.nodup_customers _)
  have hlt : ∀ x ∈ (p.1.map (·.nodes)).flatten, x < s.locs.length := fun x hx => by
    rw [hlen]
    exact (Spec.mem_customers.mp (hperm.mem_iff.mp hx)).2
  have hreloc : ∀ o : List ℕ → List ℕ, (∀ l, (o l).Perm l) → ∃ locs',
      relocate p.1 (o p.2) s.locs = some locs' ∧ LocsOn (fun _ => True) p.1 locs' ∧
      ∀ x, x ∉ (p.1.map (·.nodes)).flatten → locs'[x]? = s.locs[x]? := by
    intro o ho
    have hrange : ∀ r ∈ o p.2, r < p.1.length := fun r hr' => by
      rw [hg.count]
      exact hg.range hr r ((ho p.2).mem_iff.mp hr')
    obtain ⟨locs', e1, -, e3⟩ := relocate_some hnd (P := fun _ => True) (o p.2) s.locs
      (fun r => r ∉ p.2) hrange hlt
      (fun r rt i x hr' g1 g2 => by
        refine hl r rt i x (fun hm => hr' (hg.keeps r hm)) ?_ g2
        rw [← hg.same r hr']
        exact g1)
      (fun r _ => by
        by_cases hm : r ∈ p.2
        · exact Or.inr ((ho p.2).mem_iff.mpr hm)
        · exact Or.inl hm)
    exact ⟨locs', e1, e3, relocate_other hnd (o p.2) s.locs locs' hrange hlt e1⟩
  obtain ⟨k1, a1, b1, d1⟩ := hreloc (o1 0) (h1 0)
  obtain ⟨k2, a2, b2, d2⟩ := hreloc (o2 0) (h2 0)
  have hk : k1 = k2 := by
    apply List.ext_getElem?
    intro x
    by_cases hx : x ∈ (p.1.map (·.nodes)).flatten
    · obtain ⟨l, hl', hxl⟩ := List.mem_flatten.mp hx
      obtain ⟨rt, hrt, rfl⟩ := List.mem_map.mp hl'
      obtain ⟨r, hr'⟩ := List.getElem?_of_mem hrt
      obtain ⟨i, hi⟩ := List.getElem?_of_mem hxl
      rw [b1 r rt i x trivial hr' hi, b2 r rt i x trivial hr' hi]
    · rw [d1 x hx, d2 x hx]
  unfold recreate
  rw [hcs, Option.bind_some, Option.bind_some, ← hsame, hp1, Option.bind_some, Option.bind_some]
  unfold evaluate
  dsimp only
  rw [a1, a2, hk]

/-! ### A step without ties -/

theorem bestUnique_of {ctx : Ctx ℚ} {c : ℕ} {routes : List (RRoute ℚ)} {updated : List ℕ} {r0 : ℕ} {v : ℚ}
    (hp : ∃ rt i, Place ctx c routes updated r0 rt i ∧ extra ctx.dist rt.nodes i c = v)
    (h : ∀ r rt i, Place ctx c routes updated r rt i →
      (r = r0 ∧ extra ctx.dist rt.nodes i c = v) ∨ v + 1 / 1000000 < extra ctx.dist rt.nodes i c) :
    BestUnique ctx c routes updated := by
  obtain ⟨rt0, i0, hp0, hv⟩ := hp
  intro r1 rt1 i1 r2 rt2 i2 h1 h2 m1 m2
  have a1 := m1 _ _ _ hp0
  have a2 := m2 _ _ _ hp0
  rw [hv] at a1 a2
  rcases h _ _ _ h1 with ⟨e1, f1⟩ | f1
  · rcases h _ _ _ h2 with ⟨e2, f2⟩ | f2
    · exact ⟨e1.trans e2.symm, f1.trans f2.symm⟩
    · exact absurd f2 (not_lt.mpr a2)
  · exact absurd f1 (not_lt.mpr a1)

end RRSol

namespace RuinEx
open RRSol

deriving instance DecidableEq for RRoute

/-- Customers 5 and 3 are put back into the routes `[1, 2]` and `[4]`. Each has two equally good positions,
on the same route. -/
example : sortUnassigned ctx (fun _ => 0) ruinedSol.unassigned = some [5, 3] ∧
    NoTies ctx (fun _ => id) [5, 3] ruinedSol.routes ruinedSol.ruined := by
  refine ⟨by decide +kernel, ?_, ?_⟩
  · refine bestUnique_of (r0 := 2) (v := 2) ⟨⟨[4], 8, -3⟩, 0, ⟨by decide, rfl, ?_, by simp⟩, ?_⟩ ?_
    · unfold Room
      norm_num [ctx, Spec.routeLoad]
    · decide +kernel
    · rintro r rt i ⟨a1, a2, -, a4⟩
      have hr : r = 0 ∨ r = 2 := by simpa [ruinedSol] using a1
      rcases hr with rfl | rfl
      · obtain rfl : (⟨[1, 2], 4, -2⟩ : RRoute ℚ) = rt := Option.some.inj a2
        have : i ≤ 2 := a4
        right
        interval_cases i <;> decide +kernel
      · obtain rfl : (⟨[4], 8, -3⟩ : RRoute ℚ) = rt := Option.some.inj a2
        have : i ≤ 1 := a4
        left
        interval_cases i <;> exact ⟨rfl, by decide +kernel⟩
  · intro p hp
    have he : insertCustomer ctx id 5 ruinedSol.routes ruinedSol.ruined =
        some ([⟨[1, 2], 4, -2⟩, ⟨[], 0, -4⟩, ⟨[5, 4], 10, -2⟩], [0, 2]) := by decide +kernel
    have hp' : insertCustomer ctx id 5 ruinedSol.routes ruinedSol.ruined = some p := hp
    rw [he, Option.some.injEq] at hp'
    subst hp'
    refine ⟨?_, fun _ _ => trivial⟩
    refine bestUnique_of (r0 := 2) (v := 0) ⟨⟨[5, 4], 10, -2⟩, 2, ⟨by decide, rfl, ?_, by simp⟩, ?_⟩ ?_
    · unfold Room
      norm_num [ctx, Spec.routeLoad]
    · decide +kernel
    · rintro r rt i ⟨a1, a2, -, a4⟩
      have hr : r = 0 ∨ r = 2 := by simpa using a1
      rcases hr with rfl | rfl
      · obtain rfl : (⟨[1, 2], 4, -2⟩ : RRoute ℚ) = rt := Option.some.inj a2
        have : i ≤ 2 := a4
        right
        interval_cases i <;> decide +kernel
      · obtain rfl : (⟨[5, 4], 10, -2⟩ : RRoute ℚ) = rt := Option.some.inj a2
        have : i ≤ 2 := a4
        interval_cases i
        · left; exact ⟨rfl, by decide +kernel⟩
        · right; decide +kernel
        · left; exact ⟨rfl, by decide +kernel⟩

end RuinEx

/-! ### A run with ties -/

namespace HashEx
open RRSol

/-- Four customers, two routes. -/
def ctx : Ctx ℚ where
  n := 5
  dist a b := if a = b then 0 else if a * b = 0 then 10
    else if a * b = 3 ∨ a * b = 6 ∨ a * b = 4 then 1 else 5
  demand c := if c = 0 then 0 else if c = 4 then 2 else 1
  cap := 3
  pen := 10
  lng _ := 0
  lat _ := 0

/-- The individual handed to the search. -/
def ind : Individual ℚ :=
  ⟨0, [1, 3, 2, 4], [[1, 3], [2, 4]], 0, (evaluate ctx SolEval.new [[1, 3], [2, 4]]).getD SolEval.new⟩

/-- All other customers. -/
def nbrs (c : ℕ) : Option (List ℕ) := some (([3, 4, 1, 2] : List ℕ).erase c)

/-- The settings of the search. -/
def env : RREnv ℚ := ⟨10, 10, 2, 1.2, 0.85, nbrs, fun _ _ => 0, fun _ => 1, fun _ => -1⟩

/-- The draws of the seeded generator. -/
def draws : Oracle := fun i => if i = 2 then 0 else if i = 3 then 1 else (4 * i + 16) * 7919 + 2 ^ 50

/-- A history in which a solution of cost 42 was recorded before. -/
def hist : History ℚ :=
  History.new.add ⟨0, [1, 3, 2, 4], [[1, 3, 2], [4]], 0,
    (evaluate ctx SolEval.new [[1, 3, 2], [4]]).getD SolEval.new⟩

/-- One whole ruin-and-recreate search from `ind`: the best solution it ends with. Everything but the
iteration order `order` of the hash set is fixed. -/
def result (order : List ℕ → List ℕ) : Option (ℚ × List (List ℕ)) :=
  (RR.load ctx 0 ind (RR.new ctx 2 100 1 10 hist)).bind fun st =>
  (RR.search env ctx (fun _ => ⟨draws, fun _ => order, 0⟩) st).bind fun st =>
  st.best.map fun b => (b.cost, b.stops)

/-- **C52** is false of the code: on one instance with one configuration and one seed, two iteration
orders of the hash set `ruined_routes` make the search end with two solutions of different cost. The set
is made with `RandomState::new()` (`/repo/src/solver/improvement/ruin_recreate/mod.rs:43`), whose keys are
drawn per process and not from the seed, so both orders can happen. -/
theorem C52_hash_order_refuted : ∃ o1 o2 : List ℕ → List ℕ, (∀ l, (o1 l).Perm l) ∧ (∀ l, (o2 l).Perm l) ∧
    result o1 = some (46, [[1, 3], [2, 4]]) ∧ result o2 = some (42, [[4, 1], [3, 2]]) :=
  ⟨id, List.reverse, fun l => List.Perm.refl l, fun l => List.reverse_perm l, by decide +kernel,
    by decide +kernel⟩

end HashEx
end Verif
