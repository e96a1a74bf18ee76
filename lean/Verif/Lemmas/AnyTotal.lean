import Verif.Lemmas.AnyGenetic
import Verif.Lemmas.GeneticEnds

/-! # Ruin, recreate, loading and splitting do not panic, in any arithmetic

What is asked of the arithmetic is listed in `RR.Calm`. -/

namespace Verif
open F64 RRSol

variable {α : Type} [F64 α]

/-- What ruin and recreate need not to panic, beyond `RouteLaws`: neighbour lists of customers, no NaN among
the angles and the sorting keys, drawn strings no longer than their route, and insertion costs below
`f64::MAX`. `P` holds of the penalties, `E` of the recorded values of a route. -/
structure RR.Calm (env : RREnv α) (ctx : Ctx α) (P : α → Prop) (E : RRoute α → Prop) : Prop where
  n : 2 ≤ ctx.n
  nbrs : RR.NbrsOK ctx.n env.nbrs
  angle : ∀ r : List ℕ, r.length < ctx.n →
    (Individual.routeAngle env.atan2 ctx r ≤. Individual.routeAngle env.atan2 ctx r) = true
  string : ∀ (w : ℕ) (lsmax : α) (len : ℕ), 1 ≤ len → len < ctx.n → stringLen w lsmax len ≤ len
  demand : ∀ c, 1 ≤ c → c < ctx.n → (ctx.demand c ≤. ctx.demand c) = true
  depot : ∀ c, 1 ≤ c → c < ctx.n → (ctx.dist c 0 ≤. ctx.dist c 0) = true
  insert : ∀ p, P p → ∀ rt : RRoute α, E rt → rt.nodes.length + 1 < ctx.n → ∀ c, 1 ≤ c → c < ctx.n → ∀ d,
    rt.deltaDistance ctx 0 c = some d →
    approxLt (d +. F64.max (lit 0) (rt.overload +. ctx.demand c) *. p) maxv = true

/-- Evaluating a complete individual. -/
theorem evaluate_total {ctx : Ctx α} {x : Individual α} (hn : 0 < ctx.n)
    (hp : Spec.IsPartition ctx.n x.phenotype) : ∃ y, x.evaluate ctx = some y := by
  obtain ⟨e', ee, -⟩ := evalRoutes_some ctx ctx.n hn x.phenotype 0
    { x.evaluation.reset x.phenotype.length ctx.n with cost := lit 0, feasible := true }
    (fun r hr c hc => (hp.mem_iff.mp (List.mem_flatten.mpr ⟨r, hr, hc⟩)).2)
    (by simp [SolEval.reset, resize_length]) (by simp [SolEval.reset, resize_length])
    (by simp [SolEval.reset, resize_length])
  unfold Individual.evaluate evaluate
  rw [ee]
  exact ⟨_, rfl⟩

/-- Sorting the routes of a solution and evaluating it. -/
theorem sortEval_total {atan2 : α → α → α} {ctx : Ctx α} {x : Individual α} (hn : 0 < ctx.n)
    (hp : Spec.IsPartition ctx.n x.phenotype) (hg : x.genotype.length = x.phenotype.flatten.length)
    (hnan : ∀ r : List ℕ, r.length < ctx.n →
      (Individual.routeAngle atan2 ctx r ≤. Individual.routeAngle atan2 ctx r) = true) :
    ∃ y z, Individual.sortRoutes atan2 ctx x = some y ∧ y.evaluate ctx = some z := by
  obtain ⟨y, hy, hperm, -⟩ := C03_sort_routes_perm atan2 ctx x hg (by
    intro r hr
    refine hnan r ?_
    have h1 := length_le_flatten hr
    have h2 := hp.length_eq
    rw [Spec.length_customers] at h2
    omega)
  obtain ⟨z, hz⟩ := evaluate_total hn (hperm.flatten.trans hp : Spec.IsPartition ctx.n y.phenotype)
  exact ⟨y, z, hy, hz⟩

namespace RR

variable {env : RREnv α} {ctx : Ctx α} {P : α → Prop} {E : RRoute α → Prop} {nv : ℕ}

/-! ### Recreate -/

/-- The scan of the positions of one route: it keeps a place found before and finds one when the first
position is below the value so far. -/
theorem scanPositions_any {c : ℕ} {f : α → α} {r : ℕ} {rt : RRoute α} : ∀ (is : List ℕ) (b : BestIns α),
    (∀ i ∈ is, i ≤ rt.nodes.length) →
    ∃ b', scanPositions ctx c f r rt is b = some b' ∧
      (b'.route = b.route ∧ b'.index = b.index ∨ b'.route = some r ∧ b'.index ≤ rt.nodes.length) ∧
      (∀ i rest d, is = i :: rest → rt.deltaDistance ctx i c = some d → approxLt (f d) b.value = true →
        b'.route = some r)
  | [], b, _ => ⟨b, rfl, Or.inl ⟨rfl, rfl⟩, fun i rest d h => by simp at h⟩
  | i :: is, b, h => by
    obtain ⟨d, hd⟩ := rt.delta_total ctx (h i (by simp)) c
    obtain ⟨b', h1, h2, -⟩ := scanPositions_any is (if approxLt (f d) b.value then ⟨some r, f d, i⟩ else b)
      (fun j hj => h j (by simp [hj]))
    refine ⟨b', by unfold scanPositions; rw [hd, Option.bind_some]; exact h1, ?_, ?_⟩
    · split at h2
      · rcases h2 with ⟨a, b⟩ | h2
        · exact Or.inr ⟨a, by rw [b]; exact h i (by simp)⟩
        · exact Or.inr h2
      · exact h2
    · intro i' rest d' he hd' hlt
      simp only [List.cons.injEq] at he
      obtain ⟨rfl, -⟩ := he
      rw [hd, Option.some.injEq] at hd'
      subst hd'
      rw [if_pos hlt] at h2
      rcases h2 with ⟨a, -⟩ | ⟨a, -⟩ <;> exact a

/-- The place found, if any, is a position of a route. -/
def PlaceOK (routes : List (RRoute α)) (b : BestIns α) : Prop :=
  ∀ r, b.route = some r → ∃ rt, routes[r]? = some rt ∧ b.index ≤ rt.nodes.length

theorem scanFeasible_any {c : ℕ} {routes : List (RRoute α)} : ∀ (rs : List ℕ) (b : BestIns α),
    (∀ r ∈ rs, r < routes.length) → PlaceOK routes b →
    ∃ b', scanFeasible ctx c routes rs b = some b' ∧ PlaceOK routes b'
  | [], b, _, hb => ⟨b, rfl, hb⟩
  | r :: rs, b, hr, hb => by
    have hlt := hr r (by simp)
    have hrt : routes[r]? = some routes[r] := List.getElem?_eq_getElem hlt
    unfold scanFeasible
    rw [hrt, Option.bind_some]
    split
    · obtain ⟨b1, h1, h2, -⟩ := scanPositions_any (ctx := ctx) (c := c) (f := id) (r := r) (rt := routes[r])
        (List.range (routes[r].nodes.length + 1)) b (fun i hi => by
          have := List.mem_range.mp hi
          omega)
      rw [h1, Option.bind_some]
      refine scanFeasible_any rs b1 (fun x hx => hr x (by simp [hx])) ?_
      rcases h2 with ⟨a1, a2⟩ | ⟨a1, a2⟩
      · intro s hs
        rw [a1] at hs
        rw [a2]
        exact hb s hs
      · intro s hs
        rw [a1, Option.some.injEq] at hs
        subst hs
        exact ⟨_, hrt, a2⟩
    · exact scanFeasible_any rs b (fun x hx => hr x (by simp [hx])) hb

theorem scanAll_any {c : ℕ} {routes : List (RRoute α)} : ∀ (rts : List (RRoute α)) (r : ℕ) (b : BestIns α),
    (∀ j, rts[j]? = routes[r + j]?) → PlaceOK routes b →
    ∃ b', scanAll ctx c r rts b = some b' ∧ PlaceOK routes b' ∧ (b.route.isSome = true → b'.route.isSome = true) ∧
      ∀ rt rest d, rts = rt :: rest → rt.deltaDistance ctx 0 c = some d →
        approxLt (d +. F64.max (lit 0) (rt.overload +. ctx.demand c) *. ctx.pen) b.value = true →
        b'.route.isSome = true
  | [], r, b, _, hb => ⟨b, rfl, hb, fun h => h, fun rt rest d h => by simp at h⟩
  | rt :: rts, r, b, hr, hb => by
    have hrt : routes[r]? = some rt := by simpa using (hr 0).symm
    obtain ⟨b1, h1, h2, h3⟩ := scanPositions_any (ctx := ctx) (c := c)
      (f := fun d => d +. F64.max (lit 0) (rt.overload +. ctx.demand c) *. ctx.pen) (r := r) (rt := rt)
      (List.range (rt.nodes.length + 1)) b (fun i hi => by
        have := List.mem_range.mp hi
        omega)
    have hb1 : PlaceOK routes b1 := by
      rcases h2 with ⟨a1, a2⟩ | ⟨a1, a2⟩
      · intro s hs
        rw [a1] at hs
        rw [a2]
        exact hb s hs
      · intro s hs
        rw [a1, Option.some.injEq] at hs
        subst hs
        exact ⟨_, hrt, a2⟩
    obtain ⟨b', e1, e2, e3, -⟩ := scanAll_any rts (r + 1) b1 (fun j => by
      have := hr (j + 1)
      rw [List.getElem?_cons_succ] at this
      rw [this]
      congr 1
      omega) hb1
    refine ⟨b', by unfold scanAll; rw [h1, Option.bind_some]; exact e1, e2, fun h => e3 ?_, ?_⟩
    · rcases h2 with ⟨a1, -⟩ | ⟨a1, -⟩
      · rw [a1]; exact h
      · rw [a1]; rfl
    · intro rt' rest d he hd hlt
      simp only [List.cons.injEq] at he
      obtain ⟨rfl, -⟩ := he
      refine e3 ?_
      rw [h3 0 (List.range' 1 rt.nodes.length) d (by
        rw [List.range_eq_range', List.range'_succ]) hd hlt]
      rfl

theorem insertAt_total {c r i : ℕ} {routes : List (RRoute α)} {updated : List ℕ} {rt : RRoute α}
    (hr : routes[r]? = some rt) (hi : i ≤ rt.nodes.length) :
    ∃ p, insertAt ctx c r i routes updated = some p := by
  obtain ⟨d, hd⟩ := rt.delta_total ctx hi c
  unfold insertAt RRoute.add
  rw [hr, Option.bind_some, hd]
  exact ⟨_, rfl⟩

theorem insertCustomer_total (hc : Calm env ctx P E) {p : α} (hp : P p) {order : List ℕ → List ℕ}
    (hord : ∀ l, (order l).Perm l) {c : ℕ} (h1 : 1 ≤ c) (h2 : c < ctx.n) {routes : List (RRoute α)} {updated : List ℕ}
    (hne : routes ≠ []) (he : ∀ rt ∈ routes, E rt ∧ rt.nodes.length + 1 < ctx.n)
    (hup : ∀ r ∈ updated, r < routes.length) :
    ∃ q, insertCustomer (ctxAt ctx p) order c routes updated = some q := by
  unfold insertCustomer
  obtain ⟨b, hb, hok⟩ := scanFeasible_any (ctx := ctxAt ctx p) (c := c) (routes := routes) (order updated)
    ⟨none, maxv, 0⟩ (fun r hr => hup r ((hord updated).mem_iff.mp hr)) (fun r hr => by simp at hr)
  rw [hb, Option.bind_some]
  cases hbr : b.route with
  | some r =>
    dsimp only
    obtain ⟨rt, k1, k2⟩ := hok r hbr
    exact insertAt_total k1 k2
  | none =>
    dsimp only
    obtain ⟨b', hb', hok', -, hfound⟩ := scanAll_any (ctx := ctxAt ctx p) (c := c) (routes := routes) routes 0
      ⟨none, maxv, 0⟩ (fun j => by simp) (fun r hr => by simp at hr)
    have hs : b'.route.isSome = true := by
      cases hrs : routes with
      | nil => exact absurd hrs hne
      | cons rt rest =>
        obtain ⟨k1, k2⟩ := he rt (by rw [hrs]; simp)
        obtain ⟨d, hd⟩ := rt.delta_total (ctxAt ctx p) (i := 0) (Nat.zero_le _) c
        exact hfound rt rest d hrs hd (hc.insert p hp rt k1 k2 c h1 h2 d hd)
    obtain ⟨r, hr⟩ := Option.isSome_iff_exists.mp hs
    obtain ⟨rt, k1, k2⟩ := hok' r hr
    rw [hb', Option.bind_some, hr, Option.bind_some]
    exact insertAt_total k1 k2

theorem insertAll_total (hc : Calm env ctx P E) (hE : RouteLaws ctx E) {p : α} (hp : P p)
    {order : ℕ → List ℕ → List ℕ} (hord : ∀ k l, (order k l).Perm l) : ∀ (cs : List ℕ)
    (routes : List (RRoute α)) (updated : List ℕ), routes ≠ [] → (∀ c ∈ cs, 1 ≤ c ∧ c < ctx.n) →
    (∀ rt ∈ routes, E rt ∧ rt.nodes.length + cs.length < ctx.n) → (∀ r ∈ updated, r < routes.length) →
    ∃ q, insertAll (ctxAt ctx p) order cs routes updated = some q
  | [], routes, updated, _, _, _, _ => ⟨_, rfl⟩
  | c :: cs, routes, updated, hne, hcs, he, hup => by
    obtain ⟨c1, c2⟩ := hcs c (by simp)
    obtain ⟨q, hq⟩ := insertCustomer_total hc hp (hord (cs.length + 1)) c1 c2 hne (fun rt hrt => by
      obtain ⟨k1, k2⟩ := he rt hrt
      rw [List.length_cons] at k2
      exact ⟨k1, by omega⟩) hup
    obtain ⟨r, i, hi⟩ := insertCustomer_some hq
    obtain ⟨rt, rt', e1, e2, rfl⟩ := insertAt_some hi
    have hg := grown_set (updated := updated) e1 e2
    obtain ⟨q2, hq2⟩ := insertAll_total hc hE hp hord cs (routes.set r rt') (setInsert updated r)
      (by rw [← List.length_pos_iff] at hne ⊢; simpa using hne) (fun x hx => hcs x (by simp [hx]))
      (by
        intro x hx
        rcases List.mem_or_eq_of_mem_set hx with hx | rfl
        · obtain ⟨k1, k2⟩ := he x hx
          rw [List.length_cons] at k2
          exact ⟨k1, by omega⟩
        · obtain ⟨k1, k2⟩ := he rt (List.mem_of_getElem? e1)
          rw [List.length_cons] at k2
          obtain ⟨a, b, n1, -, n3⟩ := RRoute.add_some e2
          refine ⟨hE.add _ _ _ _ (by omega) k1 e2, ?_⟩
          rw [n1] at k2
          rw [n3]
          simp only [List.length_append, List.length_cons] at k2 ⊢
          omega)
      (by rw [List.length_set]; exact hg.range hup)
    unfold insertAll
    rw [hq, Option.bind_some]
    exact ⟨q2, hq2⟩

theorem sortUnassigned_total (hc : Calm env ctx P E) {p : α} (ω : Oracle) {l : List ℕ}
    (hl : ∀ c ∈ l, 1 ≤ c ∧ c < ctx.n) : ∃ l', sortUnassigned (ctxAt ctx p) ω l = some l' := by
  unfold sortUnassigned
  obtain ⟨n, hn⟩ := rangeUsize_isSome (w := ω 0) (lo := 0) (hi := 11) (by omega)
  rw [hn, Option.bind_some]
  have hs : ∀ (key : ℕ → α) (le : α → α → Bool), (∀ c ∈ l, (key c ≤. key c) = true) →
      ∃ l', sortKey key le l = some l' := by
    intro key le h
    unfold sortKey
    rw [if_neg]
    · exact ⟨_, rfl⟩
    · rintro ⟨-, h'⟩
      obtain ⟨c, h1, h2⟩ := List.any_eq_true.mp h'
      rw [h c h1] at h2
      simp at h2
  have h1 : ∀ c ∈ l, ((ctxAt ctx p).demand c ≤. (ctxAt ctx p).demand c) = true := fun c hc' =>
    hc.demand c (hl c hc').1 (hl c hc').2
  have h2 : ∀ c ∈ l, ((ctxAt ctx p).dist c 0 ≤. (ctxAt ctx p).dist c 0) = true := fun c hc' =>
    hc.depot c (hl c hc').1 (hl c hc').2
  split
  · exact ⟨_, rfl⟩
  · split
    · exact hs _ _ h1
    · split <;> exact hs _ _ h2

theorem recreate_total (hc : Calm env ctx P E) (hE : RouteLaws ctx E) {p : α} (hp : P p)
    {order : ℕ → List ℕ → List ℕ} (hord : ∀ k l, (order k l).Perm l) (ω : Oracle) {s : RRSol α}
    (hne : s.routes ≠ []) (hperm : (s.stops.flatten ++ s.unassigned).Perm (Spec.customers ctx.n))
    (he : ∀ rt ∈ s.routes, E rt) (hlen : s.locs.length = ctx.n) (hr : ∀ r ∈ s.ruined, r < s.routes.length) :
    ∃ s', s.recreate (ctxAt ctx p) order ω = some s' := by
  have hmem : ∀ c ∈ s.unassigned, 1 ≤ c ∧ c < ctx.n := fun c h =>
    Spec.mem_customers.mp (hperm.mem_iff.mp (List.mem_append_right _ h))
  obtain ⟨cs, hcs⟩ := sortUnassigned_total hc (p := p) ω hmem
  have hcp := sortUnassigned_perm hcs
  have h4 := hperm.length_eq
  rw [List.length_append, Spec.length_customers] at h4
  have h5 := hcp.length_eq
  have hn := hc.n
  obtain ⟨q, hq⟩ := insertAll_total hc hE hp hord cs s.routes s.ruined hne
    (fun c h => hmem c (hcp.mem_iff.mp h)) (fun rt hrt => ⟨he rt hrt, by
      have h3 := length_le_flatten (l := rt.nodes) (ls := s.stops) (List.mem_map.mpr ⟨rt, hrt, rfl⟩)
      omega⟩) hr
  have hg := insertAll_some hq
  have hpp : ((q.1.map (·.nodes)).flatten).Perm (Spec.customers ctx.n) :=
    (hg.perm.trans (hcp.append_left _)).trans hperm
  obtain ⟨locs', e1, -⟩ := relocate_some (hpp.nodup_iff.mpr (Spec.nodup_customers _))
    (P := fun _ => False) (order 0 q.2) s.locs (fun _ => False)
    (fun r hr' => by
      rw [hg.count]
      exact hg.range hr r ((hord 0 q.2).mem_iff.mp hr'))
    (fun x hx => by
      rw [hlen]
      exact (Spec.mem_customers.mp (hpp.mem_iff.mp hx)).2)
    (fun _ _ _ _ h => h.elim) (fun _ h => h.elim)
  unfold recreate
  rw [hcs, Option.bind_some, hq, Option.bind_some]
  unfold RRSol.evaluate
  dsimp only
  rw [e1]
  exact ⟨_, rfl⟩

/-! ### Ruin -/

theorem ruinLoop_total (hc : Calm env ctx P E) {p : α} {ω : Oracle} {lsmax : α} {ks : ℕ} {s0 : RRSol α}
    (hv : s0.Sound ctx) : ∀ (vs : List ℕ) (s : RRSol α), (∀ v ∈ vs, 1 ≤ v ∧ v < ctx.n) →
      Ruined lsmax s0 s → ∃ s', ruinLoop (ctxAt ctx p) ω lsmax ks vs s = some s'
  | [], s, _, _ => ⟨s, rfl⟩
  | v :: vs, s, hvs, h => by
    obtain ⟨r, rt, i, h1, h2, h3⟩ := hv.locate (hvs v (by simp))
    unfold ruinLoop
    rw [h.locs, h3, Option.bind_some]
    split
    · exact ruinLoop_total hc hv vs s (fun x hx => hvs x (by simp [hx])) h
    · rename_i hcc
      have hr : r ∉ s.ruined := fun hm => hcc (Or.inr hm)
      have hrt : s.routes[r]? = some rt := (h.untouched r hr).trans h1
      have hi : i < rt.nodes.length := (List.getElem?_eq_some_iff.mp h2).1
      have hlt : rt.nodes.length < ctx.n := by
        have h3 := length_le_flatten (l := rt.nodes) (ls := s0.stops)
          (List.mem_map.mpr ⟨rt, List.mem_of_getElem? h1, rfl⟩)
        have h4 := hv.part.length_eq
        rw [Spec.length_customers] at h4
        have := hc.n
        omega
      obtain ⟨is, p1, p2, p3⟩ := ruinPositions_ok (ω.sub (vs.length + 1)) hi
        (hc.string (ω (vs.length + 2)) lsmax rt.nodes.length (by omega) hlt)
        (by simp [stringLen])
      obtain ⟨q, hq⟩ := removeSeq_total (ctxAt ctx p) is rt p3
      have hru : ruinRoute (ctxAt ctx p) (ω.sub (vs.length + 1)) s v r
          (stringLen (ω (vs.length + 2)) lsmax rt.nodes.length) =
          some { s with routes := s.routes.set r q.1, unassigned := s.unassigned ++ q.2,
                        ruined := setInsert s.ruined r } := by
        unfold ruinRoute
        rw [h.locs, h3, Option.bind_some, hrt, Option.bind_some, p1, Option.bind_some, hq]
        rfl
      have h' := (ruinRoute_some h hrt hr hru).1
      dsimp only
      rw [hrt, Option.bind_some, hru, Option.bind_some]
      split
      · exact ⟨_, rfl⟩
      · exact ruinLoop_total hc hv vs _ (fun x hx => hvs x (by simp [hx])) h'

theorem ruin_total (hc : Calm env ctx P E) {p : α} (ω : Oracle) {s : RRSol α} (hs : s.Sound ctx) :
    ∃ s', s.ruin (ctxAt ctx p) env.nbrs env.cavg env.lmax ω = some s' := by
  have hn := hc.n
  obtain ⟨seed, hseed⟩ := rangeUsize_isSome (w := ω 1) (lo := 1) (hi := ctx.n) (by omega)
  have hse := rangeUsize_some hseed
  obtain ⟨vs, hvs, hm⟩ := hc.nbrs seed hse.1 hse.2
  unfold ruin
  dsimp only
  have hseed' : rangeUsize (ω 1) 1 (ctxAt ctx p).n = some seed := hseed
  rw [hseed', Option.bind_some, hvs, Option.bind_some]
  exact ruinLoop_total hc hs vs s hm (.refl _ _ hs.ruined)

/-! ### The search -/

theorem updateIndividual_calm (hc : Calm env ctx P E) {p : α} {s : RRSol α} {x : Individual α}
    (hs : s.OK ctx E nv) (hl : x.phenotype.length = nv) :
    ∃ y, updateIndividual env.atan2 (ctxAt ctx p) s x = some y := by
  unfold updateIndividual
  rw [if_pos (by simp [hs.unassigned])]
  have hl' : s.routes.length = x.phenotype.length := hs.count.trans hl.symm
  unfold overwrite
  rw [if_pos (by simp [hl']), Option.bind_some, List.drop_eq_nil_of_le (by simp [hl']),
    List.append_nil]
  have hn := hc.n
  obtain ⟨y, z, h1, h2⟩ := sortEval_total (atan2 := env.atan2) (ctx := ctxAt ctx p)
    (x := { x with genotype := (s.routes.map (·.nodes)).flatten, phenotype := s.routes.map (·.nodes) })
    (by show 0 < ctx.n; omega) hs.part rfl hc.angle
  rw [h1, Option.bind_some, h2]
  exact ⟨_, rfl⟩

theorem updateBest_total_any (hc : Calm env ctx P E) {ω : Oracle} {st : RR α} (hi : AnyInv ctx E nv st)
    (hnv : env.numVehicles = nv) : ∃ st', updateBest env ctx ω st = some st' := by
  unfold updateBest
  dsimp only
  split
  · obtain ⟨y, hy⟩ := updateIndividual_calm hc (p := st.pen) (x := Individual.newRandom ctx env.numVehicles ω 0)
      hi.cur (by rw [newRandom_len, hnv])
    rw [hy]
    exact ⟨_, rfl⟩
  · exact ⟨_, rfl⟩

omit [F64 α] in
theorem copyFrom_total {s t : RRSol α} (hs : s.OK ctx E nv) (ht : t.OK ctx E nv) :
    ∃ u, s.copyFrom t = some u := by
  unfold copyFrom
  rw [if_pos ⟨by rw [hs.len, ht.len], by rw [hs.count, ht.count]⟩]
  exact ⟨_, rfl⟩

theorem round_total_any (hc : Calm env ctx P E) (hE : RouteLaws ctx E) {ch : RRChoice α} (hch : ChoiceOK ch)
    {st : RR α} (hi : AnyInv ctx E nv st) (hnv : env.numVehicles = nv) (hp : P st.pen) :
    ∃ st', round env ctx ch st = some st' := by
  have hn := hc.n
  obtain ⟨c1, h1⟩ := ruin_total hc (p := st.pen) (ch.ω.sub 0) hi.cur.toSound
  have r1 := C22_ruin_structure _ _ _ _ _ _ _ hi.cur.ruined h1
  obtain ⟨q1, q2, q3, q4⟩ := r1.ready (ctx := ctxAt ctx st.pen) hi.cur.toSound.at
  have hne : c1.routes ≠ [] := by
    intro e
    have h2 := (hi.cur.part.mem_iff (x := 1)).mpr ⟨le_refl _, by omega⟩
    have h3 : st.current.routes = [] := by
      rw [← List.length_eq_zero_iff, ← r1.count, e]; rfl
    simp [stops, h3] at h2
  have e1 : ∀ rt ∈ c1.routes, E rt ∧ rt.nodes.length < ctx.n := by
    have h1' := h1
    unfold ruin at h1'
    simp only [Option.bind_eq_some_iff] at h1'
    obtain ⟨seed, -, vs, -, h1'⟩ := h1'
    refine ruinLoop_any (ctx := ctxAt ctx st.pen) (RouteLaws.at (p := st.pen) hE) (fun rt hrt => ⟨hi.cur.all rt hrt, ?_⟩) h1'
    have h3 := length_le_flatten (l := rt.nodes) (ls := st.current.stops) (List.mem_map.mpr ⟨rt, hrt, rfl⟩)
    have h4 := hi.cur.part.length_eq
    rw [Spec.length_customers] at h4
    show rt.nodes.length < ctx.n
    omega
  obtain ⟨c2, h2⟩ := recreate_total hc hE hp hch (ch.ω.sub 1) hne q1 (fun rt hrt => (e1 rt hrt).1) q3 q4
  obtain ⟨v2, hc2⟩ := operators_any (env := env) hE hch (by omega) hi.cur h1 h2
  have hi1 : AnyInv ctx E nv { st with current := c2 } := ⟨hi.sol, v2, hi.best, hi.hist⟩
  unfold round
  dsimp only
  rw [h1, Option.bind_some, h2, Option.bind_some]
  have key : ∃ st2, (if st.acceptance.accept env.ln (ch.ω.sub 2 0) c2.cost st.current.cost = true then
      (if improvesBest { st with current := c2 } = true then
        updateBest env ctx (ch.ω.sub 3) { st with current := c2 } else
        some { st with current := c2 }).bind fun st =>
          (st.solution.copyFrom st.current).map fun sol => { st with solution := sol }
      else some { st with current := c2 }) = some st2 ∧ AnyInv ctx E nv st2 := by
    split
    · have key3 : ∃ st3, (if improvesBest { st with current := c2 } = true then
          updateBest env ctx (ch.ω.sub 3) { st with current := c2 } else
          some { st with current := c2 }) = some st3 ∧ AnyInv ctx E nv st3 := by
        split
        · obtain ⟨st3, h3⟩ := updateBest_total_any (env := env) (ω := ch.ω.sub 3) hc hi1 hnv
          exact ⟨st3, h3, (updateBest_any hi1 hc2 hnv h3).1⟩
        · exact ⟨_, rfl, hi1⟩
      obtain ⟨st3, h3, a1⟩ := key3
      obtain ⟨u, hu⟩ := copyFrom_total a1.sol a1.cur
      rw [h3, Option.bind_some, hu]
      exact ⟨_, rfl, copyFrom_any a1.sol.toSound a1.cur a1.sol.count hu, a1.cur, a1.best, a1.hist⟩
    · exact ⟨_, rfl, hi1⟩
  obtain ⟨st2, h3, g1⟩ := key
  obtain ⟨u, hu⟩ := copyFrom_total g1.cur g1.sol
  rw [h3, Option.bind_some, hu]
  exact ⟨_, rfl⟩

theorem searchLoop_total_any (hc : Calm env ctx P E) (hE : RouteLaws ctx E) {ch : ℕ → RRChoice α}
    (hch : ∀ i, ChoiceOK (ch i)) (hnv : env.numVehicles = nv) :
    ∀ (k : ℕ) {st : RR α}, AnyInv ctx E nv st → st.updatePenalty = false → P st.pen →
      ∃ st', searchLoop env ctx ch k st = some st'
  | 0, st, _, _, _ => ⟨_, rfl⟩
  | k + 1, st, hi, hu, hp => by
    have hn := hc.n
    have hpu : (if k = 0 then penaltyUpdate env ctx st else st) = st := by
      split
      · exact (penaltyUpdate_any hi).2.2.2 hu
      · rfl
    obtain ⟨st1, h1⟩ := round_total_any hc hE (hch k) hi hnv hp
    obtain ⟨i1, -, u1, p1⟩ := round_any hE (by omega) (hch k) hi hnv h1
    unfold searchLoop
    rw [hpu, h1, Option.bind_some]
    split
    · exact ⟨_, rfl⟩
    · exact searchLoop_total_any hc hE hch hnv k i1 (u1.trans hu) (by rw [p1]; exact hp)

theorem runToEnd_ends_any (hc : Calm env ctx P E) (hE : RouteLaws ctx E) {ch : ℕ → ℕ → RRChoice α}
    (hch : ∀ i k, ChoiceOK (ch i k)) (hnv : env.numVehicles = nv) : ∀ (d i : ℕ) {st : RR α}
    {s : IterSchedule α}, AnyInv ctx E nv st → st.updatePenalty = false → P st.pen →
    st.acceptance = .iteration s → s.total - s.iteration ≤ d →
    ∃ r, EndsIn (fun f => runToEnd env ctx ch f i st) r := by
  intro d
  induction d with
  | zero =>
    intro i st s _ _ _ hs hd
    refine ⟨st, 1, fun f hf => ?_⟩
    obtain ⟨m, rfl⟩ : ∃ m, f = m + 1 := ⟨f - 1, by omega⟩
    dsimp only
    unfold runToEnd
    rw [if_pos]
    rw [hs]
    show decide _ = true
    rw [decide_eq_true_eq]
    omega
  | succ d ih =>
    intro i st s hi hu hp hs hd
    have hn := hc.n
    by_cases hcm : st.acceptance.completed = true
    · refine ⟨st, 1, fun f hf => ?_⟩
      obtain ⟨m, rfl⟩ : ∃ m, f = m + 1 := ⟨f - 1, by omega⟩
      dsimp only
      unfold runToEnd
      rw [if_pos hcm]
    · obtain ⟨st1, h1⟩ := searchLoop_total_any hc hE (hch i) hnv 1000 hi hu hp
      obtain ⟨a1, -, a3, a4⟩ := searchLoop_any hE (by omega) (hch i) hnv 1000 hi h1
      obtain ⟨s', e1, e2, e3⟩ := search_acceptance hs h1
      have hlt : s.iteration < s.total := by
        rw [hs] at hcm
        have hcm : ¬ decide (s.total ≤ s.iteration) = true := hcm
        rw [decide_eq_true_eq] at hcm
        omega
      obtain ⟨r, N, hr⟩ := ih (i + 1) a1 (a3.trans hu) (by rw [a4 hu]; exact hp) e1 (by omega)
      refine ⟨r, N + 1, fun f hf => ?_⟩
      obtain ⟨m, rfl⟩ : ∃ m, f = m + 1 := ⟨f - 1, by omega⟩
      dsimp only
      unfold runToEnd
      rw [if_neg hcm]
      unfold search
      rw [h1, Option.bind_some]
      exact hr m (by omega)

/-- `Calm` for fewer penalties. -/
theorem Calm.mono {P' : α → Prop} (hc : Calm env ctx P E) (h : ∀ p, P' p → P p) : Calm env ctx P' E :=
  ⟨hc.n, hc.nbrs, hc.angle, hc.string, hc.demand, hc.depot, fun p hp => hc.insert p (h p hp)⟩

/-- A search that updates the penalty. The penalty has been changed `q` times before, which takes 1000
rounds each. -/
theorem searchLoop_elite_any {W : ℕ → α → Prop} {T : ℕ}
    (hc : Calm env ctx (fun p => ∃ k ≤ T / 1000, W k p) E) (hE : RouteLaws ctx E) {ch : ℕ → RRChoice α}
    (hch : ∀ i, ChoiceOK (ch i)) (hnv : env.numVehicles = nv)
    (hW : ∀ k p, k < T / 1000 → W k p → W (k + 1) (p *. env.incMultiplier) ∧ W (k + 1) (p *. env.decMultiplier)) :
    ∀ (k : ℕ) {st : RR α} {s : IterSchedule α} {q : ℕ}, k ≤ 1000 → AnyInv ctx E nv st → st.updatePenalty = true →
      st.acceptance = .iteration s → s.total = T → (0 < k → s.iteration < T) → W q st.pen → q ≤ T / 1000 →
      1000 * q + 1000 ≤ s.iteration + k + (if k = 0 then 1000 else 0) →
      ∃ st' s' q', searchLoop env ctx ch k st = some st' ∧ st'.acceptance = .iteration s' ∧ s'.total = T ∧
        W q' st'.pen ∧ q' ≤ T / 1000 ∧ (s'.iteration < T → 1000 * q' ≤ s'.iteration)
  | 0, st, s, q, _, _, _, hs, hT, _, hp, hqT, hq => by
    rw [if_pos rfl] at hq
    exact ⟨st, s, q, rfl, hs, hT, hp, hqT, fun _ => by omega⟩
  | k + 1, st, s, q, hk, hi, hu, hs, hT, hlt, hp, hqT, hq => by
    have hn := hc.n
    have hlt := hlt (by omega)
    rw [if_neg (by omega)] at hq
    obtain ⟨i0, -, u0, -⟩ := penaltyUpdate_any (env := env) hi
    -- the state before the round
    have key : ∃ st0 q0, (if k = 0 then penaltyUpdate env ctx st else st) = st0 ∧ AnyInv ctx E nv st0 ∧
        st0.updatePenalty = true ∧ st0.acceptance = .iteration s ∧ W q0 st0.pen ∧ q0 ≤ T / 1000 ∧
        (k ≠ 0 → q0 = q) ∧ (k = 0 → 1000 * q0 ≤ s.iteration + 1) := by
      by_cases h0 : k = 0
      · rw [if_pos h0]
        have hqT : q + 1 ≤ T / 1000 := by
          rw [Nat.le_div_iff_mul_le (by omega)]
          omega
        refine ⟨_, q + 1, rfl, i0, u0.trans hu, (penaltyUpdate_acceptance st).trans hs, ?_, hqT,
          fun h => absurd h0 h, fun _ => by omega⟩
        unfold penaltyUpdate
        rw [if_pos hu]
        dsimp only
        split
        · exact (hW q _ hqT hp).2
        · exact (hW q _ hqT hp).1
      · rw [if_neg h0]
        exact ⟨st, q, rfl, hi, hu, hs, hp, hqT, fun _ => rfl, fun h => absurd h h0⟩
    obtain ⟨st0, q0, e0, j0, u0, a0, b0, c0, d2, d3⟩ := key
    obtain ⟨st1, h1⟩ := round_total_any hc hE (hch k) j0 hnv ⟨q0, c0, b0⟩
    obtain ⟨i1, -, u1, p1⟩ := round_any hE (by omega) (hch k) j0 hnv h1
    have a1 := round_acceptance h1
    rw [a0] at a1
    unfold searchLoop
    rw [e0, h1, Option.bind_some]
    have hpen : W q0 st1.pen := by rw [p1]; exact b0
    by_cases hcomp : st1.acceptance.completed = true
    · rw [if_pos hcomp]
      refine ⟨st1, _, q0, rfl, a1, hT, hpen, c0, fun h => ?_⟩
      rw [a1] at hcomp
      have hcomp : decide (s.total ≤ s.iteration + 1) = true := hcomp
      rw [decide_eq_true_eq] at hcomp
      have h : s.iteration + 1 < T := h
      omega
    · rw [if_neg hcomp]
      rw [a1] at hcomp
      have hcomp : ¬ decide (s.total ≤ s.iteration + 1) = true := hcomp
      rw [decide_eq_true_eq] at hcomp
      exact searchLoop_elite_any hc hE hch hnv hW k
        (st := st1) (s := s.update env.exp) (q := q0) (by omega) i1 (u1.trans u0) a1 hT
        (fun _ => (by omega : s.iteration + 1 < T)) hpen c0 (by
          show 1000 * q0 + 1000 ≤ s.iteration + 1 + k + _
          by_cases h0 : k = 0
          · rw [if_pos h0]; have := d3 h0; omega
          · rw [if_neg h0, d2 h0]; omega)

/-! ### Loading -/

omit [F64 α] in
theorem loadRoutes_total {n : ℕ} : ∀ (ls : List (List ℕ)) (es : List (RouteEval α)) (r : ℕ)
    (locs : List (ℕ × ℕ)), ls.flatten.Nodup → (∀ x ∈ ls.flatten, x < n) → locs.length = n →
    ls.length ≤ es.length → ∃ p, loadRoutes r ls es locs = some p
  | [], es, r, locs, _, _, _, _ => ⟨_, rfl⟩
  | l :: ls, [], r, locs, _, _, _, h => by simp at h
  | l :: ls, e :: es, r, locs, hnd, hlt, hl, h => by
    rw [List.flatten_cons, List.nodup_append] at hnd
    obtain ⟨nd1, nd2, nd3⟩ := hnd
    obtain ⟨l1, h1, h2, -⟩ := writeLocs_some r l 0 locs nd1
      (fun x hx => by rw [hl]; exact hlt x (by simp [hx]))
    obtain ⟨p, hp⟩ := loadRoutes_total ls es (r + 1) l1 nd2
      (fun x hx => hlt x (by rw [List.flatten_cons]; exact List.mem_append_right _ hx)) (h2.trans hl)
      (by simpa using h)
    unfold loadRoutes
    rw [h1, Option.bind_some, hp]
    exact ⟨_, rfl⟩

/-- Loading an evaluated complete individual does not panic. -/
theorem load_total {now p : α} {x : Individual α} {st : RR α} (hn : 0 < ctx.n)
    (hx : x.Good (ctxAt ctx p)) (hst : st.Idle ctx nv) (hl : x.phenotype.length = nv) :
    ∃ st', load ctx now x st = some st' := by
  have hel : x.phenotype.length ≤ x.evaluation.routes.length := by
    obtain ⟨e0, he⟩ := hx.eval
    obtain ⟨e', ee, -, -, e4⟩ := evalRoutes_some (ctxAt ctx p) ctx.n hn x.phenotype 0
      { e0.reset x.phenotype.length ctx.n with cost := lit 0, feasible := true }
      (fun r hr c hc => (hx.part.mem_iff.mp (List.mem_flatten.mpr ⟨r, hr, hc⟩)).2)
      (by simp [SolEval.reset, resize_length]) (by simp [SolEval.reset, resize_length])
      (by simp [SolEval.reset, resize_length])
    unfold Verif.evaluate at he
    have he := ee.symm.trans he
    rw [Option.some.injEq] at he
    rw [← he, e4]
    simp [SolEval.reset, resize_length]
  obtain ⟨q, hq⟩ := loadRoutes_total x.phenotype x.evaluation.routes 0 st.solution.locs hx.part.nodup
    (fun y hy => (hx.part.mem_iff.mp hy).2) hst.locs hel
  obtain ⟨a1, -, a3, a4, -⟩ := loadRoutes_any (n := ctx.n) _ _ _ _ _ hx.part.nodup
    (fun y hy => (hx.part.mem_iff.mp hy).2) hst.locs hq
  have hload : st.solution.load x = some { st.solution with routes := q.1, locs := q.2 } := by
    unfold RRSol.load
    rw [if_pos (by rw [hl, hst.routes]), hq]
    rfl
  obtain ⟨l', g1, -⟩ := relocate_some (routes := q.1) (P := fun _ => False)
    (by rw [a1]; exact hx.part.nodup) (List.range q.1.length) q.2 (fun _ => False)
    (fun r hr' => List.mem_range.mp hr') (by
      rw [a1]
      intro y hy
      rw [a3]
      exact (hx.part.mem_iff.mp hy).2)
    (fun _ _ _ _ h => h.elim) (fun _ h => h.elim)
  unfold load
  rw [hload, Option.bind_some]
  unfold RRSol.evaluate
  dsimp only
  rw [g1]
  exact ⟨_, rfl⟩

end RR

/-- The split of a permutation of the customers does not panic when no angle is NaN. -/
theorem splitRun_total {atan2 : α → α → α} {cfg : SplitCfg α} {ctx : Ctx α} {lowerBound : ℕ}
    {s : Split α} (hs : SplitReachable cfg ctx.n ctx.cap s) {x : Individual α} {maxVehicles : ℕ} (hn : 0 < ctx.n)
    (hx : x.genotype.Perm (Spec.customers ctx.n))
    (hmv : 1 ≤ max maxVehicles lowerBound) (hok : SplitOK cfg ctx)
    (hnan : ∀ r : List ℕ, r.length < ctx.n →
      (Individual.routeAngle atan2 ctx r ≤. Individual.routeAngle atan2 ctx r) = true) :
    ∃ r, Split.run atan2 cfg ctx lowerBound s x maxVehicles = some r := by
  obtain ⟨s3, routes, hrun, -, hf3, -⟩ := splitRun_core atan2 (lowerBound := lowerBound) hs hx hmv hok
  have hflat := pad_flatten cfg.numVehicles routes
  obtain ⟨y, z, h1, h2⟩ := sortEval_total (atan2 := atan2) (ctx := ctx)
    (x := { x with phenotype := Split.pad cfg.numVehicles routes }) hn
    (by unfold Spec.IsPartition; dsimp only; rw [hflat]; exact hf3.trans hx)
    (by dsimp only; rw [hflat, hf3.length_eq]) hnan
  rw [hrun, h1, Option.bind_some, h2]
  exact ⟨_, rfl⟩

end Verif
