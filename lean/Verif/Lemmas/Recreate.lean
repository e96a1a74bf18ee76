import Verif.Props.Ruin

/-! # Lemmas on recreate -/

namespace Verif
open F64

variable {α : Type} [F64 α]

namespace RRSol

/-! ### Locations -/

theorem writeLocs_some (r : ℕ) : ∀ (xs : List ℕ) (i : ℕ) (locs : List (ℕ × ℕ)), xs.Nodup →
    (∀ x ∈ xs, x < locs.length) → ∃ locs', writeLocs r i xs locs = some locs' ∧
      locs'.length = locs.length ∧ (∀ j x, xs[j]? = some x → locs'[x]? = some (r, i + j)) ∧
      ∀ y, y ∉ xs → locs'[y]? = locs[y]?
  | [], i, locs, _, _ => ⟨locs, rfl, rfl, by simp, fun _ _ => rfl⟩
  | x :: xs, i, locs, hnd, hlt => by
    rw [List.nodup_cons] at hnd
    have hx := hlt x (by simp)
    obtain ⟨locs', h1, h2, h3, h4⟩ := writeLocs_some r xs (i + 1) (locs.set x (r, i)) hnd.2
      (fun y hy => by simpa using hlt y (by simp [hy]))
    refine ⟨locs', ?_, by simpa using h2, ?_, ?_⟩
    · unfold writeLocs
      rw [setIdx_of_lt _ hx, Option.bind_some, h1]
    · intro j y hj
      cases j with
      | zero =>
        simp only [List.getElem?_cons_zero, Option.some.injEq] at hj
        subst hj
        rw [h4 x hnd.1]
        simp [hx]
      | succ j =>
        simp only [List.getElem?_cons_succ] at hj
        rw [h3 j y hj]
        congr 2
        omega
    · intro y hy
      simp only [List.mem_cons, not_or] at hy
      rw [h4 y hy.2, List.getElem?_set_ne (fun e => hy.1 e.symm)]

/-- Every recorded location of a node on the routes satisfying `P` is right. -/
def LocsOn (P : ℕ → Prop) (routes : List (RRoute α)) (locs : List (ℕ × ℕ)) : Prop :=
  ∀ (r : ℕ) (rt : RRoute α) (i x : ℕ), P r → routes[r]? = some rt → rt.nodes[i]? = some x →
    locs[x]? = some (r, i)

theorem nodup_route {routes : List (RRoute α)} (h : (routes.map (·.nodes)).flatten.Nodup) {r : ℕ}
    {rt : RRoute α} (hr : routes[r]? = some rt) : rt.nodes.Nodup :=
  (List.nodup_flatten.mp h).1 _ (List.mem_map.mpr ⟨rt, List.mem_of_getElem? hr, rfl⟩)

theorem disjoint_routes {routes : List (RRoute α)} (h : (routes.map (·.nodes)).flatten.Nodup)
    {r s : ℕ} {rt st : RRoute α} (hr : routes[r]? = some rt) (hs : routes[s]? = some st)
    (hne : r ≠ s) {x : ℕ} (hx : x ∈ rt.nodes) : x ∉ st.nodes := by
  have hd := (List.nodup_flatten.mp h).2
  rw [List.pairwise_iff_getElem] at hd
  obtain ⟨h1, rfl⟩ := List.getElem?_eq_some_iff.mp hr
  obtain ⟨h2, rfl⟩ := List.getElem?_eq_some_iff.mp hs
  intro hy
  rcases lt_or_gt_of_ne hne with hlt | hlt
  · exact hd r s (by simpa using h1) (by simpa using h2) hlt (by simpa using hx) (by simpa using hy)
  · exact hd s r (by simpa using h2) (by simpa using h1) hlt (by simpa using hy) (by simpa using hx)

theorem relocate_some {routes : List (RRoute α)} (hnd : (routes.map (·.nodes)).flatten.Nodup)
    {P : ℕ → Prop} : ∀ (rs : List ℕ) (locs : List (ℕ × ℕ)) (Q : ℕ → Prop),
      (∀ r ∈ rs, r < routes.length) → (∀ x ∈ (routes.map (·.nodes)).flatten, x < locs.length) →
      LocsOn Q routes locs → (∀ r, P r → Q r ∨ r ∈ rs) →
      ∃ locs', relocate routes rs locs = some locs' ∧ locs'.length = locs.length ∧
        LocsOn P routes locs'
  | [], locs, Q, _, _, hl, hP => ⟨locs, rfl, rfl, fun r rt i x hp h1 h2 =>
      hl r rt i x ((hP r hp).resolve_right (by simp)) h1 h2⟩
  | r :: rs, locs, Q, hrs, hlt, hl, hP => by
    have hr := hrs r (by simp)
    obtain ⟨rt, hrt⟩ : ∃ rt, routes[r]? = some rt := ⟨_, List.getElem?_eq_getElem hr⟩
    have hmem : ∀ x ∈ rt.nodes, x < locs.length := fun x hx => hlt x
      (List.mem_flatten.mpr ⟨_, List.mem_map.mpr ⟨rt, List.mem_of_getElem? hrt, rfl⟩, hx⟩)
    obtain ⟨l1, h1, h2, h3, h4⟩ := writeLocs_some r rt.nodes 0 locs (nodup_route hnd hrt) hmem
    obtain ⟨l2, e1, e2, e3⟩ := relocate_some hnd rs l1 (fun s => Q s ∨ s = r)
      (fun s hs => hrs s (by simp [hs])) (by rw [h2]; exact hlt) (by
        intro s st i x hs hst hx
        by_cases hsr : s = r
        · subst hsr
          rw [hst, Option.some.injEq] at hrt
          subst hrt
          simpa using h3 i x hx
        · rw [h4 x (disjoint_routes hnd hst hrt hsr (List.mem_of_getElem? hx))]
          exact hl s st i x (hs.resolve_right hsr) hst hx)
      (by
        intro s hs
        rcases hP s hs with h | h
        · exact Or.inl (Or.inl h)
        · simp only [List.mem_cons] at h
          rcases h with h | h
          · exact Or.inl (Or.inr h)
          · exact Or.inr h)
    refine ⟨l2, ?_, by rw [e2, h2], e3⟩
    unfold relocate
    rw [hrt, Option.bind_some, h1, Option.bind_some, e1]

/-! ### Insertion -/

theorem mem_setInsert {l : List ℕ} {x y : ℕ} : y ∈ setInsert l x ↔ y ∈ l ∨ y = x := by
  unfold setInsert
  split
  · constructor
    · exact Or.inl
    · rintro (h | rfl) <;> assumption
  · simp

/-- The effect of inserting customers: routes only grow, in order, by exactly the listed customers, and
every changed route is marked as updated. -/
structure Grown (cs : List ℕ) (routes : List (RRoute α)) (updated : List ℕ)
    (p : List (RRoute α) × List ℕ) : Prop where
  perm : ((p.1.map (·.nodes)).flatten).Perm ((routes.map (·.nodes)).flatten ++ cs)
  count : p.1.length = routes.length
  grows : ∀ (r : ℕ) (rt : RRoute α), routes[r]? = some rt →
    ∃ rt', p.1[r]? = some rt' ∧ rt.nodes.Sublist rt'.nodes
  same : ∀ r, r ∉ p.2 → p.1[r]? = routes[r]?
  keeps : ∀ r ∈ updated, r ∈ p.2
  range : (∀ r ∈ updated, r < routes.length) → ∀ r ∈ p.2, r < routes.length

theorem Grown.refl (routes : List (RRoute α)) (updated : List ℕ) :
    Grown [] routes updated (routes, updated) :=
  ⟨by simp, rfl, fun r rt h => ⟨rt, h, List.Sublist.refl _⟩, fun _ _ => rfl, fun _ h => h, fun h => h⟩

theorem Grown.trans {cs cs' : List ℕ} {routes : List (RRoute α)} {updated : List ℕ}
    {p q : List (RRoute α) × List ℕ} (h : Grown cs routes updated p) (h' : Grown cs' p.1 p.2 q) :
    Grown (cs ++ cs') routes updated q where
  perm := by
    refine h'.perm.trans ?_
    rw [← List.append_assoc]
    exact h.perm.append_right _
  count := h'.count.trans h.count
  grows r rt hr := by
    obtain ⟨rt', h1, h2⟩ := h.grows r rt hr
    obtain ⟨rt'', h3, h4⟩ := h'.grows r rt' h1
    exact ⟨rt'', h3, h2.trans h4⟩
  same r hr := by
    rw [h'.same r hr]
    exact h.same r fun hm => hr (h'.keeps r hm)
  keeps r hr := h'.keeps r (h.keeps r hr)
  range hr := by
    have := h'.range (fun r hm => by rw [h.count]; exact h.range hr r hm)
    rwa [h.count] at this

theorem insertAt_some {ctx : Ctx α} {c r i : ℕ} {routes : List (RRoute α)} {updated : List ℕ}
    {p : List (RRoute α) × List ℕ} (h : insertAt ctx c r i routes updated = some p) :
    ∃ rt rt', routes[r]? = some rt ∧ rt.add ctx i c = some rt' ∧ p = (routes.set r rt', setInsert updated r) := by
  unfold insertAt at h
  simp only [Option.bind_eq_some_iff, Option.map_eq_some_iff] at h
  obtain ⟨rt, h1, rt', h2, rfl⟩ := h
  exact ⟨rt, rt', h1, h2, rfl⟩

theorem grown_set {ctx : Ctx α} {c r i : ℕ} {routes : List (RRoute α)} {updated : List ℕ}
    {rt rt' : RRoute α} (h1 : routes[r]? = some rt) (h2 : rt.add ctx i c = some rt') :
    Grown [c] routes updated (routes.set r rt', setInsert updated r) := by
  obtain ⟨a, b, e1, -, e3⟩ := RRoute.add_some h2
  have hr := (List.getElem?_eq_some_iff.mp h1).1
  have hp : rt'.nodes.Perm (rt.nodes ++ [c]) := by
    rw [e1, e3]
    refine List.perm_middle.trans ?_
    exact (List.perm_append_singleton c (a ++ b)).symm
  refine ⟨?_, by simp, ?_, ?_, ?_, ?_⟩
  · have h3 : (routes.set r rt')[r]? = some rt' := by simp [hr]
    have := flatten_set (rt' := rt) (out := [c]) h3 hp.symm
    rw [List.set_set] at this
    have e : routes.set r rt = routes := by
      apply List.ext_getElem?
      intro j
      by_cases hj : j = r
      · subst hj; simp [hr]; exact (List.getElem?_eq_some_iff.mp h1).2.symm
      · rw [List.getElem?_set_ne (Ne.symm hj)]
    rw [e] at this
    exact this.symm
  · intro s st hs
    by_cases e : s = r
    · subst e
      rw [h1, Option.some.injEq] at hs
      subst hs
      refine ⟨rt', by simp [hr], ?_⟩
      rw [e1, e3]
      exact List.Sublist.append_left (List.sublist_cons_self _ _) _
    · exact ⟨st, by rw [List.getElem?_set_ne (Ne.symm e)]; exact hs, List.Sublist.refl _⟩
  · intro s hs
    dsimp only at hs ⊢
    rw [mem_setInsert, not_or] at hs
    rw [List.getElem?_set_ne (Ne.symm hs.2)]
  · intro s hs
    exact mem_setInsert.mpr (Or.inl hs)
  · intro h s hs
    rcases mem_setInsert.mp hs with hs | rfl
    · exact h s hs
    · exact hr

theorem insertCustomer_some {ctx : Ctx α} {order : List ℕ → List ℕ} {c : ℕ}
    {routes : List (RRoute α)} {updated : List ℕ} {p : List (RRoute α) × List ℕ}
    (h : insertCustomer ctx order c routes updated = some p) :
    ∃ r i, insertAt ctx c r i routes updated = some p := by
  unfold insertCustomer at h
  simp only [Option.bind_eq_some_iff] at h
  obtain ⟨b, -, h⟩ := h
  split at h
  · exact ⟨_, _, h⟩
  · simp only [Option.bind_eq_some_iff] at h
    obtain ⟨b', -, r, -, h⟩ := h
    exact ⟨_, _, h⟩

theorem insertAll_some {ctx : Ctx α} {order : ℕ → List ℕ → List ℕ} : ∀ {cs : List ℕ}
    {routes : List (RRoute α)} {updated : List ℕ} {p : List (RRoute α) × List ℕ},
    insertAll ctx order cs routes updated = some p → Grown cs routes updated p
  | [], routes, updated, p, h => by
    simp only [insertAll, Option.some.injEq] at h
    subst h
    exact .refl _ _
  | c :: cs, routes, updated, p, h => by
    unfold insertAll at h
    simp only [Option.bind_eq_some_iff] at h
    obtain ⟨q, hq, h⟩ := h
    obtain ⟨r, i, hi⟩ := insertCustomer_some hq
    obtain ⟨rt, rt', e1, e2, rfl⟩ := insertAt_some hi
    exact (grown_set e1 e2).trans (insertAll_some h)

theorem sortKey_perm {key : ℕ → α} {le : α → α → Bool} {l l' : List ℕ} (h : sortKey key le l = some l') :
    l'.Perm l := by
  unfold sortKey at h
  split at h
  · simp at h
  · simp only [Option.some.injEq] at h
    subst h
    exact stableSort_perm _ _

theorem sortUnassigned_perm {ctx : Ctx α} {ω : Oracle} {l l' : List ℕ}
    (h : sortUnassigned ctx ω l = some l') : l'.Perm l := by
  unfold sortUnassigned at h
  simp only [Option.bind_eq_some_iff] at h
  obtain ⟨n, -, h⟩ := h
  split at h
  · simp only [Option.some.injEq] at h
    subst h
    exact shuffle_perm _ _
  · split at h
    · exact sortKey_perm h
    · split at h <;> exact sortKey_perm h

theorem sortUnassigned_rat (ctx : Ctx ℚ) (ω : Oracle) (l : List ℕ) :
    ∃ l', sortUnassigned ctx ω l = some l' := by
  unfold sortUnassigned
  obtain ⟨n, hn⟩ := rangeUsize_isSome (w := ω 0) (lo := 0) (hi := 11) (by omega)
  rw [hn, Option.bind_some]
  have hs : ∀ (key : ℕ → ℚ) (le : ℚ → ℚ → Bool), ∃ l', sortKey key le l = some l' := by
    intro key le
    unfold sortKey
    rw [if_neg (by simp)]
    exact ⟨_, rfl⟩
  split
  · exact ⟨_, rfl⟩
  · split
    · exact hs _ _
    · split <;> exact hs _ _

/-! ### The choice of the insertion place (exact arithmetic) -/

/-- Extra length of inserting `c` at position `i`. -/
def extra (d : ℕ → ℕ → ℚ) (l : List ℕ) (i c : ℕ) : ℚ :=
  Spec.routeDist d (l.insertIdx i c) - Spec.routeDist d l

theorem scanPositions_rat (ctx : Ctx ℚ) (c : ℕ) (f : ℚ → ℚ) (r : ℕ) (rt : RRoute ℚ) :
    ∀ (is : List ℕ) (b : BestIns ℚ), (∀ i ∈ is, i ≤ rt.nodes.length) →
      ∃ b', scanPositions ctx c f r rt is b = some b' ∧
        (b' = b ∨ ∃ i ∈ is, b' = ⟨some r, f (extra ctx.dist rt.nodes i c), i⟩) ∧
        b'.value ≤ b.value ∧ ∀ i ∈ is, b'.value ≤ f (extra ctx.dist rt.nodes i c) + 1 / 1000000
  | [], b, _ => ⟨b, rfl, Or.inl rfl, le_refl _, by simp⟩
  | i :: is, b, h => by
    unfold scanPositions
    rw [RRoute.delta_exact (h i (by simp)), Option.bind_some]
    generalize hb1 : (if approxLt (f (Spec.routeDist ctx.dist (rt.nodes.insertIdx i c) -
      Spec.routeDist ctx.dist rt.nodes)) b.value = true then (⟨some r, f (Spec.routeDist ctx.dist
      (rt.nodes.insertIdx i c) - Spec.routeDist ctx.dist rt.nodes), i⟩ : BestIns ℚ) else b) = b1
    obtain ⟨b', h1, h2, h3, h4⟩ := scanPositions_rat ctx c f r rt is b1
      (fun j hj => h j (by simp [hj]))
    have key : (b1 = b ∨ b1 = ⟨some r, f (extra ctx.dist rt.nodes i c), i⟩) ∧ b1.value ≤ b.value ∧
        b1.value ≤ f (extra ctx.dist rt.nodes i c) + 1 / 1000000 := by
      split at hb1
      · rename_i hlt
        subst hb1
        simp only [rat_approxLt, decide_eq_true_eq] at hlt
        refine ⟨Or.inr rfl, ?_, ?_⟩
        · dsimp only; linarith
        · show f (extra ctx.dist rt.nodes i c) ≤ _
          linarith
      · rename_i hlt
        subst hb1
        simp only [rat_approxLt, decide_eq_true_eq, not_lt] at hlt
        refine ⟨Or.inl rfl, le_refl _, ?_⟩
        change b.value - 1 / 1000000 ≤ f (extra ctx.dist rt.nodes i c) at hlt
        linarith
    refine ⟨b', h1, ?_, h3.trans key.2.1, ?_⟩
    · rcases h2 with rfl | ⟨j, hj, rfl⟩
      · rcases key.1 with e | e
        · exact Or.inl e
        · exact Or.inr ⟨i, by simp, e⟩
      · exact Or.inr ⟨j, by simp [hj], rfl⟩
    · intro j hj
      simp only [List.mem_cons] at hj
      rcases hj with rfl | hj
      · exact h3.trans key.2.2
      · exact h4 j hj

/-- The customer fits on the route (up to the comparison tolerance). -/
def Room (ctx : Ctx ℚ) (c : ℕ) (l : List ℕ) : Prop :=
  Spec.routeLoad ctx.demand l + ctx.demand c < ctx.cap + 1 / 1000000

theorem room_iff {ctx : Ctx ℚ} {c : ℕ} {rt : RRoute ℚ} (he : rt.Exact ctx) :
    approxLte (rt.overload +. ctx.demand c) (lit 0) = true ↔ Room ctx c rt.nodes := by
  rw [rat_approxLte, decide_eq_true_eq, rat_add, rat_lit, he.2, sub_zero]
  unfold Room
  constructor
  · rintro (h | h)
    · linarith
    · have := (abs_lt.mp h).2
      linarith
  · intro h
    rcases lt_or_ge (Spec.routeLoad ctx.demand rt.nodes - ctx.cap + ctx.demand c) 0 with h' | h'
    · exact Or.inl h'
    · right
      rw [abs_of_nonneg h']
      linarith

theorem scanFeasible_rat (ctx : Ctx ℚ) (c : ℕ) {routes : List (RRoute ℚ)}
    (he : ∀ rt ∈ routes, rt.Exact ctx) : ∀ (rs : List ℕ) (b : BestIns ℚ), (∀ r ∈ rs, r < routes.length) →
      ∃ b', scanFeasible ctx c routes rs b = some b' ∧
        (b' = b ∨ ∃ r ∈ rs, ∃ rt i, routes[r]? = some rt ∧ Room ctx c rt.nodes ∧
          i ≤ rt.nodes.length ∧ b' = ⟨some r, extra ctx.dist rt.nodes i c, i⟩) ∧
        b'.value ≤ b.value ∧ ∀ r ∈ rs, ∀ rt, routes[r]? = some rt → Room ctx c rt.nodes →
          ∀ i ≤ rt.nodes.length, b'.value ≤ extra ctx.dist rt.nodes i c + 1 / 1000000
  | [], b, _ => ⟨b, rfl, Or.inl rfl, le_refl _, by simp⟩
  | r :: rs, b, hrs => by
    obtain ⟨rt, hrt⟩ : ∃ rt, routes[r]? = some rt := ⟨_, List.getElem?_eq_getElem (hrs r (by simp))⟩
    have hex := he rt (List.mem_of_getElem? hrt)
    unfold scanFeasible
    rw [hrt, Option.bind_some]
    have hrs' : ∀ s ∈ rs, s < routes.length := fun s hs => hrs s (by simp [hs])
    split
    · rename_i hroom
      rw [room_iff hex] at hroom
      obtain ⟨b1, h1, h2, h3, h4⟩ := scanPositions_rat ctx c id r rt (List.range (rt.nodes.length + 1))
        b (fun i hi => by rw [List.mem_range] at hi; omega)
      obtain ⟨b', e1, e2, e3, e4⟩ := scanFeasible_rat ctx c he rs b1 hrs'
      rw [h1, Option.bind_some]
      refine ⟨b', e1, ?_, e3.trans h3, ?_⟩
      · rcases e2 with rfl | ⟨s, hs, st, i, x1, x2, x3, x4⟩
        · rcases h2 with e | ⟨i, hi, e⟩
          · exact Or.inl e
          · rw [List.mem_range] at hi
            exact Or.inr ⟨r, by simp, rt, i, hrt, hroom, by omega, e⟩
        · exact Or.inr ⟨s, by simp [hs], st, i, x1, x2, x3, x4⟩
      · intro s hs st hst hsr i hi
        simp only [List.mem_cons] at hs
        rcases hs with rfl | hs
        · rw [hrt, Option.some.injEq] at hst
          subst hst
          exact e3.trans (h4 i (by rw [List.mem_range]; omega))
        · exact e4 s hs st hst hsr i hi
    · rename_i hroom
      rw [room_iff hex] at hroom
      obtain ⟨b', e1, e2, e3, e4⟩ := scanFeasible_rat ctx c he rs b hrs'
      refine ⟨b', e1, ?_, e3, ?_⟩
      · rcases e2 with rfl | ⟨s, hs, st, i, x1, x2, x3, x4⟩
        · exact Or.inl rfl
        · exact Or.inr ⟨s, by simp [hs], st, i, x1, x2, x3, x4⟩
      · intro s hs st hst hsr i hi
        simp only [List.mem_cons] at hs
        rcases hs with rfl | hs
        · rw [hrt, Option.some.injEq] at hst
          subst hst
          exact absurd hsr hroom
        · exact e4 s hs st hst hsr i hi

/-- What the fallback compares: extra length plus the penalty for the whole resulting overload. -/
def fallback (ctx : Ctx ℚ) (c : ℕ) (l : List ℕ) (i : ℕ) : ℚ :=
  extra ctx.dist l i c + max 0 (Spec.routeLoad ctx.demand l + ctx.demand c - ctx.cap) * ctx.pen

theorem scanAll_rat (ctx : Ctx ℚ) (c : ℕ) : ∀ (routes : List (RRoute ℚ)) (k : ℕ) (b : BestIns ℚ),
    (∀ rt ∈ routes, rt.Exact ctx) →
      ∃ b', scanAll ctx c k routes b = some b' ∧
        (b' = b ∨ ∃ r rt i, routes[r]? = some rt ∧
          i ≤ rt.nodes.length ∧ b' = ⟨some (k + r), fallback ctx c rt.nodes i, i⟩) ∧
        b'.value ≤ b.value ∧ ∀ rt ∈ routes,
          ∀ i ≤ rt.nodes.length, b'.value ≤ fallback ctx c rt.nodes i + 1 / 1000000
  | [], k, b, _ => ⟨b, rfl, Or.inl rfl, le_refl _, by simp⟩
  | rt :: rts, k, b, he => by
    have hex := he rt (by simp)
    have hf : ∀ i, extra ctx.dist rt.nodes i c +. F64.max (lit 0) (rt.overload +. ctx.demand c) *. ctx.pen
        = fallback ctx c rt.nodes i := by
      intro i
      simp only [rat_add, rat_max, rat_mul, rat_lit, hex.2, fallback]
      congr 3
      ring
    unfold scanAll
    obtain ⟨b1, h1, h2, h3, h4⟩ := scanPositions_rat ctx c
      (fun d => d +. F64.max (lit 0) (rt.overload +. ctx.demand c) *. ctx.pen) k rt
      (List.range (rt.nodes.length + 1)) b (fun i hi => by rw [List.mem_range] at hi; omega)
    obtain ⟨b', e1, e2, e3, e4⟩ := scanAll_rat ctx c rts (k + 1) b1
      (fun x hx => he x (by simp [hx]))
    rw [h1, Option.bind_some]
    refine ⟨b', e1, ?_, e3.trans h3, ?_⟩
    · rcases e2 with rfl | ⟨s, st, i, x1, x2, x3⟩
      · rcases h2 with e | ⟨i, hi, e⟩
        · exact Or.inl e
        · rw [List.mem_range] at hi
          refine Or.inr ⟨0, rt, i, by simp, by omega, ?_⟩
          rw [e, hf]
          simp
      · refine Or.inr ⟨s + 1, st, i, by simpa using x1, x2, ?_⟩
        rw [x3]
        congr 2
        omega
    · intro st hst i hi
      simp only [List.mem_cons] at hst
      rcases hst with rfl | hst
      · rw [← hf]
        exact e3.trans (h4 i (by rw [List.mem_range]; omega))
      · exact e4 st hst i hi

end RRSol
end Verif
