import Verif.Lemmas.GeneticEnds

/-! # Elite education where every customer is too large for a vehicle (exact arithmetic) -/

namespace Verif
open F64 RRSol

namespace RRSol

/-- Every customer exceeds the capacity by one unit or more; distances lie between 0 and `D`. -/
structure TooLarge (ctx : Ctx ℚ) (D : ℚ) : Prop where
  demand : ∀ a, 0 ≤ ctx.demand a
  large : ∀ c, 1 ≤ c → c < ctx.n → ctx.cap + 1 ≤ ctx.demand c
  dist : ∀ a b, 0 ≤ ctx.dist a b ∧ ctx.dist a b ≤ D

variable {ctx : Ctx ℚ} {D : ℚ}

theorem delta_ge (h : TooLarge ctx D) {rt : RRoute ℚ} {i c : ℕ} {d : ℚ}
    (hd : rt.deltaDistance ctx i c = some d) : -D ≤ d := by
  unfold RRoute.deltaDistance at hd
  obtain ⟨p, -, hd⟩ := Option.bind_eq_some_iff.mp hd
  obtain ⟨x, -, rfl⟩ := Option.map_eq_some_iff.mp hd
  simp only [rat_neg, rat_add]
  have := h.dist p x
  have := h.dist p c
  have := h.dist c x
  linarith

theorem scanPositions_stay {f : ℚ → ℚ} {c r : ℕ} {rt : RRoute ℚ} {b : BestIns ℚ}
    (hf : ∀ i d, rt.deltaDistance ctx i c = some d → b.value ≤ f d) : ∀ (is : List ℕ) {b' : BestIns ℚ},
    scanPositions ctx c f r rt is b = some b' → b' = b
  | [], b', h => by
    simp only [scanPositions, Option.some.injEq] at h
    exact h.symm
  | i :: is, b', h => by
    unfold scanPositions at h
    obtain ⟨d, hd, h⟩ := Option.bind_eq_some_iff.mp h
    have := hf i d hd
    rw [if_neg (by rw [rat_approxLt, decide_eq_true_eq]; linarith)] at h
    exact scanPositions_stay hf is h

theorem overload_large (h : TooLarge ctx D) {rt : RRoute ℚ} (he : rt.Exact ctx) {c : ℕ} (h1 : 1 ≤ c)
    (h2 : c < ctx.n) : 1 ≤ rt.overload + ctx.demand c := by
  have := h.large c h1 h2
  have := Spec.routeLoad_nonneg _ h.demand rt.nodes
  rw [he.2]
  linarith

theorem scanFeasible_stay (h : TooLarge ctx D) {c : ℕ} (h1 : 1 ≤ c) (h2 : c < ctx.n) {R : List (RRoute ℚ)}
    (he : ∀ r ∈ R, r.Exact ctx) {b : BestIns ℚ} : ∀ (rs : List ℕ) {b' : BestIns ℚ},
    scanFeasible ctx c R rs b = some b' → b' = b
  | [], b', hs => by
    simp only [scanFeasible, Option.some.injEq] at hs
    exact hs.symm
  | r :: rs, b', hs => by
    unfold scanFeasible at hs
    obtain ⟨rt, hrt, hs⟩ := Option.bind_eq_some_iff.mp hs
    have := overload_large h (he rt (List.mem_of_getElem? hrt)) h1 h2
    rw [if_neg (by
      rw [rat_approxLte, decide_eq_true_eq]
      simp only [rat_add, rat_lit]
      rintro (k | k)
      · linarith
      · have := (abs_lt.mp k).2
        norm_num at this
        linarith)] at hs
    exact scanFeasible_stay h h1 h2 he rs hs

theorem scanAll_stay (h : TooLarge ctx D) (hp : (maxv : ℚ) + D ≤ ctx.pen) {c : ℕ} (h1 : 1 ≤ c)
    (h2 : c < ctx.n) : ∀ (R : List (RRoute ℚ)) (r : ℕ) {b b' : BestIns ℚ}, (∀ r ∈ R, r.Exact ctx) →
    b.value = maxv → scanAll ctx c r R b = some b' → b' = b
  | [], _, b, b', _, _, hs => by
    simp only [scanAll, Option.some.injEq] at hs
    exact hs.symm
  | rt :: R, r, b, b', he, hb, hs => by
    unfold scanAll at hs
    obtain ⟨b1, e1, hs⟩ := Option.bind_eq_some_iff.mp hs
    have hD : 0 ≤ D := (h.dist 0 0).1.trans (h.dist 0 0).2
    have hm : (0 : ℚ) ≤ maxv := by show (0 : ℚ) ≤ 2 ^ 1023; positivity
    have := scanPositions_stay (fun i d hd => by
      have k1 := delta_ge h hd
      have k2 := overload_large h (he rt (by simp)) h1 h2
      simp only [rat_add, rat_mul, rat_max, rat_lit]
      have k3 : ctx.pen ≤ max 0 (rt.overload + ctx.demand c) * ctx.pen :=
        le_mul_of_one_le_left (by linarith) (k2.trans (le_max_right _ _))
      rw [hb]
      linarith) _ e1
    rw [this] at hs
    exact scanAll_stay h hp h1 h2 R (r + 1) (fun r hr => he r (by simp [hr])) hb hs

theorem recreate_none (h : TooLarge ctx D) (hp : (maxv : ℚ) + D ≤ ctx.pen) {s : RRSol ℚ}
    (he : ∀ r ∈ s.routes, r.Exact ctx) (hu : s.unassigned ≠ [])
    (hc : ∀ c ∈ s.unassigned, 1 ≤ c ∧ c < ctx.n) (order : ℕ → List ℕ → List ℕ) (ω : Oracle) :
    s.recreate ctx order ω = none := by
  unfold recreate
  cases hs : sortUnassigned ctx ω s.unassigned with
  | none => rfl
  | some l =>
    rw [Option.bind_some]
    have hperm := sortUnassigned_perm hs
    cases l with
    | nil => exact absurd hperm.symm.eq_nil hu
    | cons c cs =>
      obtain ⟨h1, h2⟩ := hc c (hperm.mem_iff.mp (by simp))
      have : insertCustomer ctx (order (cs.length + 1)) c s.routes s.ruined = none := by
        unfold insertCustomer
        cases e1 : scanFeasible ctx c s.routes (order (cs.length + 1) s.ruined) ⟨none, maxv, 0⟩ with
        | none => rfl
        | some b =>
          have := scanFeasible_stay h h1 h2 he _ e1
          subst this
          rw [Option.bind_some]
          dsimp only
          cases e2 : scanAll ctx c 0 s.routes ⟨none, maxv, 0⟩ with
          | none => rfl
          | some b =>
            have := scanAll_stay h hp h1 h2 _ _ he rfl e2
            subst this
            rfl
      unfold insertAll
      rw [this]
      rfl

/-- A ruin step with a neighbour list that is not empty takes customers out. -/
theorem ruin_takes {nbrs : ℕ → Option (List ℕ)} {cavg lmax : ℕ} {ω : Oracle} {s s' : RRSol ℚ}
    (hs : s.Valid ctx) (hnb : ∀ c vs, nbrs c = some vs → vs ≠ [])
    (h : s.ruin ctx nbrs cavg lmax ω = some s') : s'.unassigned ≠ [] := by
  have hR := C22_ruin_structure ctx nbrs cavg lmax ω s s' hs.ruined h
  have hru : s'.ruined ≠ [] := by
    have grow : ∀ {vs : List ℕ} {ω : Oracle} {l : ℚ} {ks : ℕ} {a b : RRSol ℚ},
        ruinLoop ctx ω l ks vs a = some b → a.ruined ≠ [] → b.ruined ≠ [] := by
      intro vs
      induction vs with
      | nil =>
        intro ω l ks a b e ha
        simp only [ruinLoop, Option.some.injEq] at e
        exact e ▸ ha
      | cons v vs ih =>
        intro ω l ks a b e ha
        unfold ruinLoop at e
        obtain ⟨loc, -, e⟩ := Option.bind_eq_some_iff.mp e
        split at e
        · exact ih e ha
        · obtain ⟨rt, -, e⟩ := Option.bind_eq_some_iff.mp e
          obtain ⟨a1, e1, e⟩ := Option.bind_eq_some_iff.mp e
          have h1 : a1.ruined ≠ [] := by
            unfold ruinRoute at e1
            obtain ⟨_, -, e1⟩ := Option.bind_eq_some_iff.mp e1
            obtain ⟨_, -, e1⟩ := Option.bind_eq_some_iff.mp e1
            obtain ⟨_, -, e1⟩ := Option.bind_eq_some_iff.mp e1
            obtain ⟨_, -, rfl⟩ := Option.map_eq_some_iff.mp e1
            dsimp only [setInsert]
            split
            · exact ha
            · simp
          split at e
          · rw [Option.some.injEq] at e
            exact e ▸ h1
          · exact ih e h1
    unfold ruin at h
    obtain ⟨seed, -, h⟩ := Option.bind_eq_some_iff.mp h
    obtain ⟨vs, hvs, h⟩ := Option.bind_eq_some_iff.mp h
    cases vs with
    | nil => exact absurd rfl (hnb seed _ hvs)
    | cons v vs =>
      unfold ruinLoop at h
      obtain ⟨loc, -, h⟩ := Option.bind_eq_some_iff.mp h
      rw [if_neg (by simp [hs.unassigned, hs.ruined])] at h
      obtain ⟨rt, -, h⟩ := Option.bind_eq_some_iff.mp h
      obtain ⟨a1, e1, h⟩ := Option.bind_eq_some_iff.mp h
      have h1 : a1.ruined ≠ [] := by
        unfold ruinRoute at e1
        obtain ⟨_, -, e1⟩ := Option.bind_eq_some_iff.mp e1
        obtain ⟨_, -, e1⟩ := Option.bind_eq_some_iff.mp e1
        obtain ⟨_, -, e1⟩ := Option.bind_eq_some_iff.mp e1
        obtain ⟨_, -, rfl⟩ := Option.map_eq_some_iff.mp e1
        simp [setInsert, hs.ruined]
      split at h
      · rw [Option.some.injEq] at h
        exact h ▸ h1
      · exact grow h h1
  intro hu
  obtain ⟨r, hr⟩ := List.exists_mem_of_ne_nil _ hru
  obtain ⟨rt, rt0, w, e1, e2, hsub, hl, hlen⟩ := hR.lost r hr
  -- all stops are still there, so no route is shorter
  have hperm := hR.perm
  rw [hu, hs.unassigned, List.append_nil, List.append_nil] at hperm
  have hnd : s.stops.flatten.Nodup := hs.part.nodup_iff.mpr (Spec.nodup_customers _)
  have hnd' := hperm.nodup_iff.mpr hnd
  obtain ⟨x, hx0, hx⟩ : ∃ x ∈ rt0.nodes, x ∉ rt.nodes := by
    by_contra hc
    push Not at hc
    have : rt0.nodes.length ≤ rt.nodes.length := by
      have hn0 : rt0.nodes.Nodup := by
        refine hnd.sublist ?_
        exact List.sublist_flatten_of_mem (List.mem_map_of_mem (List.mem_of_getElem? e2))
      exact (List.subperm_of_subset hn0 hc).length_le
    omega
  have hin : x ∈ s'.stops.flatten := hperm.mem_iff.mpr
    (List.mem_flatten.mpr ⟨_, List.mem_map_of_mem (List.mem_of_getElem? e2), hx0⟩)
  obtain ⟨ns, hns, hxn⟩ := List.mem_flatten.mp hin
  obtain ⟨rt', hrt', rfl⟩ := List.mem_map.mp hns
  obtain ⟨r', hr'⟩ := List.mem_iff_getElem?.mp hrt'
  -- the stop sits in another route, where it was before
  have hne : r' ≠ r := by
    rintro rfl
    rw [e1, Option.some.injEq] at hr'
    subst hr'
    exact hx hxn
  have hwas : ∃ q, s.routes[r']? = some q ∧ x ∈ q.nodes := by
    by_cases hm : r' ∈ s'.ruined
    · obtain ⟨a, a0, _, k1, k2, ks, -⟩ := hR.lost r' hm
      rw [k1, Option.some.injEq] at hr'
      subst hr'
      exact ⟨a0, k2, ks.subset hxn⟩
    · rw [hR.untouched r' hm] at hr'
      exact ⟨rt', hr', hxn⟩
  obtain ⟨q, hq, hxq⟩ := hwas
  obtain ⟨i, hi⟩ := List.mem_iff_getElem?.mp hxq
  obtain ⟨j, hj⟩ := List.mem_iff_getElem?.mp hx0
  have l1 := hs.locs r' q i x hq hi
  have l2 := hs.locs r rt0 j x e2 hj
  rw [l1, Option.some.injEq, Prod.mk.injEq] at l2
  exact hne l2.1

theorem not_feasible (h : TooLarge ctx D) (hn : 2 ≤ ctx.n) {s : RRSol ℚ} (hs : s.Valid ctx) :
    s.isFeasible = false := by
  cases hf : s.isFeasible with
  | false => rfl
  | true =>
    have hc := feasible_rat hs.exact hf
    obtain ⟨r, hr, h1⟩ := List.mem_flatten.mp (hs.part.mem_iff.mpr ⟨le_refl 1, by omega⟩)
    have h2 := hc r hr
    have h3 := h.large 1 (le_refl _) (by omega)
    have h4 : ctx.demand 1 ≤ Spec.routeLoad ctx.demand r := by
      obtain ⟨a, b, rfl⟩ := List.append_of_mem h1
      have := Spec.routeLoad_nonneg _ h.demand a
      have := Spec.routeLoad_nonneg _ h.demand b
      simp only [Spec.routeLoad_append, Spec.routeLoad_cons]
      linarith
    norm_num at h2
    linarith

end RRSol

namespace RR

variable {env : RREnv ℚ} {ctx : Ctx ℚ} {nv : ℕ} {D : ℚ}

theorem TooLarge.at (h : TooLarge ctx D) (p : ℚ) : TooLarge (ctxAt ctx p) D := ⟨h.demand, h.large, h.dist⟩

/-- With a penalty near `f64::MAX` no round is possible. -/
theorem round_none (h : TooLarge ctx D) {ch : RRChoice ℚ} {st : RR ℚ} (hi : Inv ctx nv st)
    (hnb : ∀ c vs, env.nbrs c = some vs → vs ≠ []) (hp : (maxv : ℚ) + D ≤ st.pen) :
    round env ctx ch st = none := by
  unfold round
  dsimp only
  cases h1 : st.current.ruin (ctxAt ctx st.pen) env.nbrs env.cavg env.lmax (ch.ω.sub 0) with
  | none => rfl
  | some c =>
    rw [Option.bind_some]
    have hex : ∀ rt ∈ c.routes, rt.Exact (ctxAt ctx st.pen) := by
      have h1 := h1
      unfold ruin at h1
      obtain ⟨seed, -, h1⟩ := Option.bind_eq_some_iff.mp h1
      obtain ⟨vs, -, h1⟩ := Option.bind_eq_some_iff.mp h1
      exact ruinLoop_exact (fun rt hrt => hi.cur.exact rt hrt) h1
    have hR := C22_ruin_structure _ _ _ _ _ _ _ hi.cur.ruined h1
    rw [recreate_none (TooLarge.at h st.pen) hp hex (ruin_takes hi.cur.at hnb h1)]
    · rfl
    · intro x hx
      have : x ∈ st.current.stops.flatten ++ st.current.unassigned :=
        hR.perm.mem_iff.mp (by simp [hx])
      rw [hi.cur.unassigned, List.append_nil] at this
      exact hi.cur.part.mem_iff.mp this

theorem search_none (h : TooLarge ctx D) {ch : ℕ → RRChoice ℚ} {st : RR ℚ} (hi : Inv ctx nv st)
    (hnb : ∀ c vs, env.nbrs c = some vs → vs ≠ []) (hp : (maxv : ℚ) + D ≤ st.pen) :
    search env ctx ch st = none := by
  unfold search searchLoop
  rw [if_neg (by decide), round_none h hi hnb hp]
  rfl

/-- A full search raises the penalty. -/
theorem searchLoop_raises (h : TooLarge ctx D) (hn : 2 ≤ ctx.n) {ch : ℕ → RRChoice ℚ}
    (hch : ∀ i, ChoiceOK (ch i)) (hnv : env.numVehicles = nv) : ∀ (k : ℕ) {st st' : RR ℚ} {s : IterSchedule ℚ},
    1 ≤ k → Inv ctx nv st → st.updatePenalty = true → st.acceptance = .iteration s →
    s.iteration + k ≤ s.total → searchLoop env ctx ch k st = some st' →
    st'.pen = st.pen * env.incMultiplier ∧ ∃ s', st'.acceptance = .iteration s' ∧ s'.total = s.total ∧
      s'.iteration = s.iteration + k
  | 0, _, _, _, hk, _, _, _, _, _ => by omega
  | k + 1, st, st', s, _, hi, hu, hs, hle, hsl => by
    unfold searchLoop at hsl
    obtain ⟨st1, h1, hsl⟩ := Option.bind_eq_some_iff.mp hsl
    obtain ⟨i0, -, u0, -⟩ := penaltyUpdate_inv (env := env) hi
    by_cases hk : k = 0
    · subst hk
      rw [if_pos rfl] at h1
      obtain ⟨-, n1, -⟩ := round_inv (P := fun _ => True) (hch 0) i0 hnv trivial h1
      have a1 := round_acceptance h1
      rw [penaltyUpdate_acceptance, hs] at a1
      have e : st' = st1 := by
        split at hsl
        · simpa using hsl.symm
        · simpa [searchLoop] using hsl.symm
      subst e
      refine ⟨?_, _, a1, rfl, rfl⟩
      rw [n1.1]
      unfold penaltyUpdate
      rw [if_pos hu, RRSol.not_feasible h hn hi.sol]
      rfl
    · rw [if_neg hk] at h1
      obtain ⟨s1, n1, -⟩ := round_inv (P := fun _ => True) (hch k) hi hnv trivial h1
      have a1 := round_acceptance h1
      rw [hs] at a1
      have hcomp : ¬ st1.acceptance.completed = true := by
        rw [a1]
        show ¬ decide (s.total ≤ s.iteration + 1) = true
        rw [decide_eq_true_eq]
        omega
      rw [if_neg hcomp] at hsl
      obtain ⟨b1, s', b2, b3, b4⟩ := searchLoop_raises h hn hch hnv k (st := st1) (s := s.update env.exp)
        (by omega) s1.inv (s1.upd.trans hu) a1 (by show s.iteration + 1 + k ≤ s.total; omega) hsl
      refine ⟨by rw [b1, n1.1], s', b2, b3, ?_⟩
      rw [b4]
      show s.iteration + 1 + k = _
      omega

end RR
end Verif
