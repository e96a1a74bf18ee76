import Verif.Props.Recreate

/-! # C81: the order in which a recreate step puts customers back, and where -/

namespace Verif
open F64

namespace Spec

/-- `l'` is `l` in ascending order of `key`; customers with the same key keep their order. -/
def StableBy (key : ℕ → ℚ) (l l' : List ℕ) : Prop :=
  l'.Perm l ∧ l'.Pairwise (fun a b => key a ≤ key b) ∧
    ∀ v, l'.filter (fun a => key a = v) = l.filter (fun a => key a = v)

/-- Extra length of a route with `c` inserted at position `i`. -/
def extraDist (dist : ℕ → ℕ → ℚ) (t : List ℕ) (i c : ℕ) : ℚ := routeDist dist (t.insertIdx i c) - routeDist dist t

/-- Extra length plus the penalty of the resulting overload. -/
def extraCost (dist : ℕ → ℕ → ℚ) (demand : ℕ → ℚ) (cap pen : ℚ) (t : List ℕ) (i c : ℕ) : ℚ :=
  extraDist dist t i c + pen * max 0 (routeLoad demand t + demand c - cap)

/-- `c` fits into the route, up to `1e-6`. -/
def Fits (demand : ℕ → ℚ) (cap : ℚ) (t : List ℕ) (c : ℕ) : Prop := routeLoad demand t + demand c < cap + 1 / 1000000

/-- The place `i` of route `r` is a best one for `c`, up to `1e-6`: if some open route has room for `c`, then among the open
routes with room and by length, and otherwise among all routes and by length plus penalty. -/
def BestPlace (dist : ℕ → ℕ → ℚ) (demand : ℕ → ℚ) (cap pen : ℚ) (c : ℕ) (routes : List (List ℕ)) (open_ : List ℕ)
    (r i : ℕ) (t : List ℕ) : Prop :=
  (r ∈ open_ ∧ Fits demand cap t c ∧ ∀ r2 ∈ open_, ∀ t2, routes[r2]? = some t2 → Fits demand cap t2 c →
      ∀ j ≤ t2.length, extraDist dist t i c ≤ extraDist dist t2 j c + 1 / 1000000) ∨
    ((∀ r2 ∈ open_, ∀ t2, routes[r2]? = some t2 → ¬ Fits demand cap t2 c) ∧
      ∀ t2 ∈ routes, ∀ j ≤ t2.length,
        extraCost dist demand cap pen t i c ≤ extraCost dist demand cap pen t2 j c + 1 / 1000000)

/-- The customers are inserted one after the other, each at a best place of the routes as they then are. A route
that receives a customer is open from then on. -/
inductive Greedy (dist : ℕ → ℕ → ℚ) (demand : ℕ → ℚ) (cap pen : ℚ) :
    List ℕ → List (List ℕ) → List ℕ → List (List ℕ) → Prop
  | done (routes open_) : Greedy dist demand cap pen [] routes open_ routes
  | step {c cs routes open_ routes'} (r i : ℕ) (t : List ℕ) : routes[r]? = some t → i ≤ t.length →
      BestPlace dist demand cap pen c routes open_ r i t →
      Greedy dist demand cap pen cs (routes.set r (t.insertIdx i c)) (r :: open_) routes' →
      Greedy dist demand cap pen (c :: cs) routes open_ routes'

/-- Only which routes are open matters. -/
theorem Greedy.congr {dist : ℕ → ℕ → ℚ} {demand : ℕ → ℚ} {cap pen : ℚ} {cs : List ℕ} {routes routes' : List (List ℕ)}
    {o o' : List ℕ} (h : Greedy dist demand cap pen cs routes o routes') (ho : ∀ r, r ∈ o' ↔ r ∈ o) :
    Greedy dist demand cap pen cs routes o' routes' := by
  induction h generalizing o' with
  | done => exact .done _ _
  | step r i t h1 h2 h3 _ ih =>
    refine .step r i t h1 h2 ?_ (ih (by simp [ho]))
    unfold BestPlace at h3 ⊢
    simpa only [ho] using h3

end Spec

/-! ### Shuffles reach every order -/

theorem swapIdx_eq {β : Type} (l : List β) {i j : ℕ} (hi : i < l.length) (hj : j < l.length) :
    swapIdx l i j = (l.set i l[j]).set j l[i] := by
  unfold swapIdx Array.swapIfInBounds
  rw [dif_pos (by simpa using hi), dif_pos (by simpa using hj)]
  simp [Array.swap]

theorem swapIdx_append {β : Type} (l : List β) (x : β) {i j : ℕ} (hi : i < l.length) (hj : j < l.length) :
    swapIdx (l ++ [x]) i j = swapIdx l i j ++ [x] := by
  rw [swapIdx_eq l hi hj, swapIdx_eq (l ++ [x]) (by simp; omega) (by simp; omega),
    List.getElem_append_left hi, List.getElem_append_left hj, List.set_append_left _ _ hi,
    List.set_append_left _ _ (by simpa using hj)]

theorem swapIdx_swapIdx {β : Type} (l : List β) {i j : ℕ} (hi : i < l.length) (hj : j < l.length) :
    swapIdx (swapIdx l i j) i j = l := by
  have h1 : i < (swapIdx l i j).length := by rwa [swapIdx_length]
  have h2 : j < (swapIdx l i j).length := by rwa [swapIdx_length]
  rw [swapIdx_eq _ h1 h2]
  refine List.ext_getElem (by simp [swapIdx_length]) fun k a b => ?_
  simp only [swapIdx_eq l hi hj, List.getElem_set]
  split
  · rename_i e; subst e
    split
    · rename_i e; subst e; rfl
    · simp
  · split
    · rename_i e; subst e; simp
    · rfl

theorem foldl_swap_append {β : Type} (ω : Oracle) (x : β) : ∀ (is : List ℕ) (l : List β), (∀ i ∈ is, i < l.length) →
    is.foldl (fun l i => swapIdx l i (ω i % (i + 1))) (l ++ [x]) =
      is.foldl (fun l i => swapIdx l i (ω i % (i + 1))) l ++ [x]
  | [], _, _ => rfl
  | i :: is, l, h => by
    have hi := h i (by simp)
    have hj : ω i % (i + 1) < l.length := by
      have := Nat.mod_lt (ω i) (show 0 < i + 1 by omega)
      omega
    rw [List.foldl_cons, List.foldl_cons, swapIdx_append l x hi hj,
      foldl_swap_append ω x is _ fun k hk => by rw [swapIdx_length]; exact h k (by simp [hk])]

theorem foldl_swap_congr {β : Type} {ω ω' : Oracle} : ∀ (is : List ℕ) (l : List β), (∀ i ∈ is, ω i = ω' i) →
    is.foldl (fun l i => swapIdx l i (ω i % (i + 1))) l = is.foldl (fun l i => swapIdx l i (ω' i % (i + 1))) l
  | [], _, _ => rfl
  | i :: is, l, h => by
    rw [List.foldl_cons, List.foldl_cons, h i (by simp), foldl_swap_congr is _ fun k hk => h k (by simp [hk])]

/-- **C54**, shuffle: every rearrangement is the result of some draws. -/
theorem C54_shuffle_onto {β : Type} (l l' : List β) (h : l'.Perm l) : ∃ ω, shuffle ω l = l' := by
  induction l using List.reverseRecOn generalizing l' with
  | nil => exact ⟨fun _ => 0, by simp [h.eq_nil, shuffle]⟩
  | append_singleton l x ih =>
    rcases Nat.eq_zero_or_pos l.length with h0 | h0
    · rw [List.length_eq_zero_iff] at h0
      subst h0
      refine ⟨fun _ => 0, ?_⟩
      rw [List.nil_append, List.perm_singleton] at h
      subst h
      rfl
    · obtain ⟨j, hj, e⟩ := List.mem_iff_getElem.mp (h.mem_iff.mpr (show x ∈ l ++ [x] by simp))
      have hlen : l'.length = l.length + 1 := by simpa using h.length_eq
      have hk : l.length < l'.length := by omega
      have hm : (swapIdx l' l.length j).length = l.length + 1 := by rw [swapIdx_length, hlen]
      have hlast : (swapIdx l' l.length j)[l.length]'(by omega) = x := by
        simp only [swapIdx_eq l' hk hj, List.getElem_set]
        split
        · rename_i e'; rw [← e]; congr 1; exact e'.symm
        · simpa using e
      obtain ⟨m, hm2⟩ : ∃ m, swapIdx l' l.length j = m ++ [x] := by
        refine ⟨(swapIdx l' l.length j).dropLast, ?_⟩
        have hne : swapIdx l' l.length j ≠ [] := by
          intro e0
          rw [e0] at hm
          simp at hm
        conv_lhs => rw [← List.dropLast_append_getLast hne]
        rw [List.getLast_eq_getElem]
        congr 2
        rw [← hlast]
        congr 1
        omega
      have hp : m.Perm l := by
        refine (List.perm_append_right_iff [x]).mp ?_
        rw [← hm2]
        exact (swapIdx_perm _ _ _).trans h
      obtain ⟨η, hη⟩ := ih m hp
      obtain ⟨ω, w1, w2⟩ : ∃ ω : Oracle, ω l.length = j ∧ ∀ i, i < l.length → ω i = η i :=
        ⟨fun i => if i = l.length then j else η i, if_pos rfl, fun i hi => if_neg (by omega)⟩
      refine ⟨ω, ?_⟩
      unfold shuffle at hη ⊢
      have e1 : (l ++ [x]).length - 1 = (l.length - 1) + 1 := by simp; omega
      rw [e1, List.range'_1_concat, List.foldl_append, List.foldl_cons, List.foldl_nil]
      have e2 : 1 + (l.length - 1) = l.length := by omega
      rw [e2, w1, foldl_swap_append _ _ _ _ (fun i hi => by
        rw [List.mem_range'_1] at hi; omega),
        foldl_swap_congr (ω' := η) _ _ (fun i hi => by
          rw [List.mem_range'_1] at hi
          exact w2 i (by omega)), hη, Nat.mod_eq_of_lt (by omega), ← hm2]
      exact swapIdx_swapIdx l' hk hj

example : ∃ ω, shuffle ω [1, 2, 3, 4] = [3, 1, 4, 2] := C54_shuffle_onto _ _ (by decide)

/-! ### Stable sorts -/

theorem insertStable_filter {β : Type} (le : β → β → Bool) (p : β → Bool) (x : β) (hx : p x = false) :
    ∀ l, (insertStable le x l).filter p = l.filter p
  | [] => by simp [insertStable, hx]
  | y :: l => by
    unfold insertStable
    split
    · simp [hx]
    · simp only [List.filter_cons, insertStable_filter le p x hx l]

theorem insertStable_filter_cons {β : Type} (le : β → β → Bool) (p : β → Bool) (x : β) (hx : p x = true)
    (hle : ∀ y, p y = true → le x y = true) : ∀ l, (insertStable le x l).filter p = x :: l.filter p
  | [] => by simp [insertStable, hx]
  | y :: l => by
    unfold insertStable
    split
    · simp [hx]
    · rename_i h
      have hy : p y = false := by
        by_contra hc
        exact h (hle y (by simpa using hc))
      simp [hy, insertStable_filter_cons le p x hx hle l]

theorem stableSort_filter {β : Type} (le : β → β → Bool) (p : β → Bool)
    (hle : ∀ x y, p x = true → p y = true → le x y = true) : ∀ l, (stableSort le l).filter p = l.filter p
  | [] => rfl
  | x :: l => by
    show (insertStable le x (stableSort le l)).filter p = _
    cases hx : p x with
    | true => rw [insertStable_filter_cons le p x hx (fun y => hle x y hx), stableSort_filter le p hle l]; simp [hx]
    | false => rw [insertStable_filter le p x hx, stableSort_filter le p hle l]; simp [hx]

theorem sortKey_stable {key key' : ℕ → ℚ} {le : ℚ → ℚ → Bool} {l l' : List ℕ} (h : RRSol.sortKey key le l = some l')
    (hle : ∀ a b, le (key a) (key b) = true ↔ key' a ≤ key' b) : Spec.StableBy key' l l' := by
  unfold RRSol.sortKey at h
  split at h
  · simp at h
  · cases h
    refine ⟨stableSort_perm _ _, ?_, fun v => ?_⟩
    · refine (pairwise_stableSort ?_ ?_ l).imp fun {a b} hab => (hle a b).mp hab
      · intro a b c h1 h2
        rw [hle] at *
        exact h1.trans h2
      · intro a b
        rw [Bool.or_eq_true, hle, hle]
        exact le_total _ _
    · refine stableSort_filter _ _ (fun x y hx hy => ?_) l
      rw [hle]
      simp only [decide_eq_true_eq] at hx hy
      rw [hx, hy]

/-! ### The insertions -/

namespace RRSol

theorem insertAll_greedy {ctx : Ctx ℚ} (ht : Tame ctx) {order : ℕ → List ℕ → List ℕ}
    (hord : ∀ k l, (order k l).Perm l) : ∀ (cs : List ℕ) (routes : List (RRoute ℚ))
      (updated : List ℕ) (p : List (RRoute ℚ) × List ℕ), routes ≠ [] → (∀ rt ∈ routes, rt.Exact ctx) →
      (∀ r ∈ updated, r < routes.length) →
      ((routes.map (·.nodes)).flatten ++ cs).Perm (Spec.customers ctx.n) →
      insertAll ctx order cs routes updated = some p →
      Spec.Greedy ctx.dist ctx.demand ctx.cap ctx.pen cs (routes.map (·.nodes)) updated (p.1.map (·.nodes))
  | [], routes, updated, p, _, _, _, _, hrun => by
    cases hrun
    exact .done _ _
  | c :: cs, routes, updated, p, hne, he, hup, hp, hrun => by
    obtain ⟨r, rt, i, rt', h1, h2, h3, h4, h5, h6⟩ := C24_insertion ctx (order (cs.length + 1))
      (hord _) c routes updated hne he hup ht.pen (by
        intro rt hrt i hi
        refine fallback_lt ht hi ?_
        refine List.Subperm.trans ?_ hp.subperm
        obtain ⟨r, hr, e⟩ := List.mem_iff_getElem.mp hrt
        obtain ⟨rest, e1, -⟩ := perm_set_one hr
        rw [e] at e1
        have e2 := ((e1.map (·.nodes)).flatten).append_right (c :: cs)
        refine List.Subperm.trans ?_ e2.symm.subperm
        simp only [List.map_cons, List.flatten_cons, List.append_assoc]
        refine (List.subperm_append_left _).mpr ?_
        refine List.Subperm.trans ?_ (List.sublist_append_right _ _).subperm
        exact List.Sublist.subperm (by simp))
    have hg := grown_set (updated := updated) h1 h4
    have he' : ∀ x ∈ routes.set r rt', x.Exact ctx := by
      intro x hx
      rcases List.mem_or_eq_of_mem_set hx with hx | rfl
      · exact he x hx
      · exact RRoute.add_exact h4 (he rt (List.mem_of_getElem? h1))
    unfold insertAll at hrun
    rw [h3, Option.bind_some] at hrun
    have ih := insertAll_greedy ht hord cs (routes.set r rt') (setInsert updated r) p
      (by rw [← List.length_pos_iff] at hne ⊢; simpa using hne) he'
      (by rw [List.length_set]; exact hg.range hup)
      (by
        refine (hg.perm.append_right cs).trans ?_
        simpa using hp) hrun
    rw [List.map_set, h5] at ih
    refine .step r i rt.nodes (by simp [h1]) h2 ?_ (ih.congr fun x => ?_)
    · have hget : ∀ (r2 : ℕ) (t2 : List ℕ), (routes.map (·.nodes))[r2]? = some t2 →
          ∃ rt2, routes[r2]? = some rt2 ∧ rt2.nodes = t2 := by
        intro r2 t2 h
        simpa [Option.map_eq_some_iff] using h
      rcases h6 with ⟨a1, a2, a3⟩ | ⟨a1, a2⟩
      · refine Or.inl ⟨a1, a2, fun r2 hr2 t2 ht2 hf j hj => ?_⟩
        obtain ⟨rt2, e, rfl⟩ := hget r2 t2 ht2
        exact a3 r2 hr2 rt2 e hf j hj
      · refine Or.inr ⟨fun r2 hr2 t2 ht2 hf => ?_, fun t2 ht2 j hj => ?_⟩
        · obtain ⟨rt2, e, rfl⟩ := hget r2 t2 ht2
          exact a1 r2 hr2 rt2 e hf
        · obtain ⟨rt2, e, rfl⟩ := List.mem_map.mp ht2
          have := a2 rt2 e j hj
          unfold fallback extra at this
          unfold Spec.extraCost Spec.extraDist
          linarith
    · unfold setInsert
      split
      · rename_i hc
        simp only [List.mem_cons]
        constructor
        · rintro (rfl | h)
          · exact hc
          · exact h
        · exact Or.inr
      · simp [or_comm]

/-- **C81.** A recreate step draws a number below 11 and puts the removed customers back one after the other,
each at a best place at that moment: in any order for the numbers 0 to 3, by falling demand for 4 to 7, by
falling distance from the depot for 8 and 9, and by rising distance for 10, in the last three cases keeping the
order of removal where demands or distances are equal. Exact arithmetic. -/
theorem C81_recreate (ctx : Ctx ℚ) (ht : Tame ctx) (order : ℕ → List ℕ → List ℕ)
    (hord : ∀ k l, (order k l).Perm l) (ω : Oracle) (s s' : RRSol ℚ) (hne : s.routes ≠ [])
    (hp : (s.stops.flatten ++ s.unassigned).Perm (Spec.customers ctx.n))
    (he : ∀ rt ∈ s.routes, rt.Exact ctx) (hr : ∀ r ∈ s.ruined, r < s.routes.length)
    (hrun : s.recreate ctx order ω = some s') :
    ∃ number cs, rangeUsize (ω 0) 0 11 = some number ∧ cs.Perm s.unassigned ∧
      (4 ≤ number → number < 8 → Spec.StableBy (fun c => - ctx.demand c) s.unassigned cs) ∧
      (8 ≤ number → number < 10 → Spec.StableBy (fun c => - ctx.dist c 0) s.unassigned cs) ∧
      (number = 10 → Spec.StableBy (fun c => ctx.dist c 0) s.unassigned cs) ∧
      Spec.Greedy ctx.dist ctx.demand ctx.cap ctx.pen cs s.stops s.ruined s'.stops := by
  unfold recreate at hrun
  simp only [Option.bind_eq_some_iff, Option.map_eq_some_iff] at hrun
  obtain ⟨cs, hcs, p, hp1, s1, h1, rfl⟩ := hrun
  have hperm := sortUnassigned_perm hcs
  have hG := insertAll_greedy ht hord cs s.routes s.ruined p hne he hr ((hperm.append_left _).trans hp) hp1
  have hroutes : s1.routes = p.1 := by
    unfold evaluate at h1
    simp only [Option.map_eq_some_iff] at h1
    obtain ⟨_, -, rfl⟩ := h1
    rfl
  unfold sortUnassigned at hcs
  simp only [Option.bind_eq_some_iff] at hcs
  obtain ⟨number, hnum, hcs⟩ := hcs
  refine ⟨number, cs, hnum, hperm, fun a b => ?_, fun a b => ?_, fun a => ?_, ?_⟩
  · rw [if_neg (by omega), if_pos b] at hcs
    exact sortKey_stable hcs (by simp)
  · rw [if_neg (by omega), if_neg (by omega), if_pos b] at hcs
    exact sortKey_stable hcs (by simp)
  · rw [if_neg (by omega), if_neg (by omega), if_neg (by omega)] at hcs
    exact sortKey_stable hcs (by simp)
  · unfold stops
    dsimp only
    rw [hroutes]
    exact hG

/-- **C81**, orders: every order of the removed customers can be drawn, and with it the recreate step inserts in
that order. -/
theorem C81_any_order (ctx : Ctx ℚ) (l cs : List ℕ) (h : cs.Perm l) :
    ∃ ω, ω 0 % 11 < 4 ∧ sortUnassigned ctx ω l = some cs := by
  obtain ⟨η, hη⟩ := C54_shuffle_onto l cs h
  obtain ⟨ω, w1, w2⟩ : ∃ ω : Oracle, ω 0 = 0 ∧ ∀ i, 1 ≤ i → ω.sub 0 i = η i := by
    refine ⟨fun i => if (Nat.unpair i).2 = 0 then 0 else η (Nat.unpair i).2, by simp, fun i hi => ?_⟩
    show (if (Nat.unpair (Nat.pair 0 i)).2 = 0 then 0 else η (Nat.unpair (Nat.pair 0 i)).2) = η i
    rw [Nat.unpair_pair]
    exact if_neg (by dsimp only; omega)
  refine ⟨ω, by simp [w1], ?_⟩
  unfold sortUnassigned rangeUsize
  rw [w1, if_pos (by omega), Option.bind_some, if_pos (by simp), ← hη]
  unfold shuffle
  congr 1
  refine foldl_swap_congr _ _ fun i hi => ?_
  rw [List.mem_range'_1] at hi
  exact w2 i (by omega)

end RRSol

/-! ### A case -/

namespace RuinEx
open RRSol

/-- C81 applies to the solution with customers 3 and 5 taken out; with the number 10 customer 3 is inserted before 5. -/
example (s' : RRSol ℚ) (h : ruinedSol.recreate ctx (fun _ l => l) (fun _ => 10) = some s') :
    Spec.Greedy ctx.dist ctx.demand 4 10 [3, 5] [[1, 2], [], [4]] [0, 2] s'.stops := by
  obtain ⟨number, cs, h1, h2, -, -, h5, h6⟩ := C81_recreate ctx ctx_tame (fun _ l => l) (fun _ _ => .refl _)
    (fun _ => 10) ruinedSol s' (by decide) (by decide) (by
      intro r hr
      simp only [ruinedSol, List.mem_cons, List.not_mem_nil, or_false] at hr
      rcases hr with rfl | rfl | rfl <;> refine ⟨?_, ?_⟩ <;>
        simp [ctx, Spec.routeDist, Spec.routeLoad] <;> norm_num [abs_of_nonneg, abs_of_nonpos]) (by decide) h
  cases h1
  have h5 := (h5 rfl).2.1
  have h7 : cs.Perm [3, 5] := h2
  have : cs = [3, 5] := by
    have hl : cs.length = 2 := h7.length_eq
    match cs, hl with
    | [a, b], _ =>
      have ha : a ∈ [3, 5] := h7.mem_iff.mp (by simp)
      have hb : b ∈ [3, 5] := h7.mem_iff.mp (by simp)
      have hn := h7.nodup_iff.mpr (by decide)
      simp only [List.mem_cons, List.not_mem_nil, or_false] at ha hb
      rcases ha with rfl | rfl <;> rcases hb with rfl | rfl
      · simp at hn
      · rfl
      · simp [ctx] at h5
      · simp at hn
  subst this
  exact h6

example : (ruinedSol.recreate ctx (fun _ l => l) (fun _ => 10)).map stops = some [[1, 2], [], [3, 5, 4]] := by
  decide +kernel

end RuinEx
end Verif
