import Verif.Lemmas.MoveHeap
import Verif.Props.SortRoutes

/-!
# Loading an individual into the local search and writing it back
-/

namespace Verif
open F64 LS Spec

set_option linter.unusedSectionVars false

variable {α : Type} [F64 α]

/-- What every run leaves behind and the next run relies on, whatever individual was loaded. -/
structure Ready (s : LS α) : Prop where
  fin0 : ∀ r < s.numRoutes, s.heap.succ (.fin r) = none
  cums : ∀ r < s.numRoutes, s.cumD (.start r) = lit 0 ∧ s.cumL (.start r) = lit 0
  empty : ∀ r ∈ s.empty, r < s.numRoutes

theorem linkRoute_fin (r k : ℕ) : ∀ (l : List ℕ) (p : Ref) (h : Heap), (∀ j, p ≠ .fin j) →
    (linkRoute r p l h).succ (.fin k) = h.succ (.fin k)
  | [], p, h, hp => by rw [linkRoute, link_succ_of_ne (Ne.symm (hp k))]
  | c :: l, p, h, hp => by
    rw [linkRoute, linkRoute_fin r k l _ _ (by simp), link_succ_of_ne (Ne.symm (hp k))]

theorem linkRoute_start (r k : ℕ) : ∀ (l : List ℕ) (p : Ref) (h : Heap),
    (linkRoute r p l h).pred (.start k) = h.pred (.start k)
  | [], p, h => by rw [linkRoute, link_pred_of_ne (by simp)]
  | c :: l, p, h => by
    rw [linkRoute, linkRoute_start r k l _ _, link_pred_of_ne (by simp)]

theorem linkRoute_segs (r : ℕ) : ∀ (l : List ℕ) (A : List Ref) (p : Ref) (h : Heap)
    (Ls : List (List Ref)), Segs h ((A ++ [p]) :: Ls) →
    ((A ++ [p]) ++ l.map Ref.cust ++ [Ref.fin r] ++ Ls.flatten).Nodup →
    Segs (linkRoute r p l h) ((A ++ [p] ++ l.map Ref.cust ++ [Ref.fin r]) :: Ls)
  | [], A, p, h, Ls, hs, hnd => by
    have hx : ∀ L ∈ (A ++ [p]) :: Ls, Ref.fin r ∉ L := by
      intro L hL hm
      rw [List.map_nil, List.append_nil, List.append_assoc, List.nodup_append] at hnd
      rcases List.mem_cons.mp hL with rfl | hL
      · exact hnd.2.2 _ hm _ (by simp) rfl
      · have := hnd.2.1
        rw [List.singleton_append, List.nodup_cons] at this
        exact this.1 (List.mem_flatten.mpr ⟨L, hL, hm⟩)
    have := (hs.single hx).swap.link
    rw [linkRoute]
    simpa using this
  | c :: l, A, p, h, Ls, hs, hnd => by
    have hx : ∀ L ∈ (A ++ [p]) :: Ls, Ref.cust c ∉ L := by
      intro L hL hm
      have e : A ++ [p] ++ (c :: l).map Ref.cust ++ [Ref.fin r] ++ Ls.flatten =
        (A ++ [p]) ++ (Ref.cust c :: (l.map Ref.cust ++ [Ref.fin r] ++ Ls.flatten)) := by simp
      rw [e, List.nodup_append] at hnd
      rcases List.mem_cons.mp hL with rfl | hL
      · exact hnd.2.2 _ hm _ (by simp) rfl
      · have := hnd.2.1
        rw [List.nodup_cons] at this
        refine this.1 ?_
        rw [List.mem_append]
        exact .inr (List.mem_flatten.mpr ⟨L, hL, hm⟩)
    have h1 := (hs.single hx).swap.link
    have e1 : A ++ [p, Ref.cust c] = (A ++ [p]) ++ [Ref.cust c] := by simp
    rw [e1] at h1
    have := linkRoute_segs r l (A ++ [p]) (.cust c) _ Ls h1 (by simpa using hnd)
    rw [linkRoute]
    simpa using this

/-- The state after the routes `R` have been loaded. -/
structure LoadInv (ctx : Ctx α) (s : LS α) (R : List (List ℕ)) : Prop where
  segs : Segs s.heap (allRefs R)
  pred0 : ∀ r < R.length, s.heap.pred (.start r) = none
  ready : Ready s
  data : ∀ r l, R[r]? = some l → RouteData ctx s r l
  empty : ∀ r < R.length, r ∈ s.empty ↔ R[r]? = some []
  stamps : ∀ r < R.length, (s.route r).lastModified = s.moveCount
  cache : ∀ r < R.length, ∀ u, (s.inserts r u).lastCalculated = -1
  count : s.moveCount = 0
  swap : ∀ r < R.length, (s.route r).lastTestedSwapStar = -1

theorem allRefs_concat (R : List (List ℕ)) (l : List ℕ) :
    allRefs (R ++ [l]) = allRefs R ++ [routeRefs R.length l] := by
  simp [allRefs, List.mapIdx_append]

/-- All nodes of all routes are different when the customers are. -/
theorem allRefs_nodup : ∀ (R : List (List ℕ)), R.flatten.Nodup → (allRefs R).flatten.Nodup ∧
    ∀ x ∈ (allRefs R).flatten, (∃ c ∈ R.flatten, x = .cust c) ∨
      (∃ r < R.length, x = .start r ∨ x = .fin r) := by
  intro R
  induction R using List.reverseRecOn with
  | nil => intro _; simp [allRefs]
  | append_singleton R l ih =>
    intro hnd
    rw [List.flatten_append, List.nodup_append] at hnd
    obtain ⟨ih1, ih2⟩ := ih hnd.1
    have hl : l.Nodup := by simpa using hnd.2.1
    rw [allRefs_concat, List.flatten_append]
    have hmem : ∀ x ∈ [routeRefs R.length l].flatten, (∃ c ∈ l, x = .cust c) ∨
        (x = .start R.length ∨ x = .fin R.length) := by
      intro x hx
      simp only [routeRefs, List.flatten_cons, List.flatten_nil, List.append_nil, List.mem_cons,
        List.mem_append, List.mem_map, List.not_mem_nil, or_false] at hx
      rcases hx with h | ⟨c, h, rfl⟩ | h
      · exact .inr (.inl h)
      · exact .inl ⟨c, h, rfl⟩
      · exact .inr (.inr h)
    refine ⟨?_, ?_⟩
    · rw [List.nodup_append]
      refine ⟨ih1, ?_, ?_⟩
      · simp only [routeRefs, List.flatten_cons, List.flatten_nil, List.append_nil, List.nodup_cons,
          List.mem_append, List.mem_map, List.mem_singleton]
        refine ⟨by simp, ?_⟩
        rw [List.nodup_append]
        refine ⟨hl.map (fun a b h => by simpa using h), by simp, ?_⟩
        simp
      · rintro x hx y hy rfl
        rcases ih2 x hx with ⟨c, hc, rfl⟩ | ⟨r, hr, h⟩ <;>
          rcases hmem _ hy with ⟨c', hc', e⟩ | e
        · cases e
          exact hnd.2.2 c hc c (by simpa using hc') rfl
        · rcases e with e | e <;> cases e
        · rcases h with rfl | rfl <;> cases e
        · rcases h with rfl | rfl <;> rcases e with e | e <;> cases e <;> omega
    · intro x hx
      rcases List.mem_append.mp hx with hx | hx
      · rcases ih2 x hx with ⟨c, hc, rfl⟩ | ⟨r, hr, h⟩
        · exact .inl ⟨c, by simp only [List.flatten_append, List.mem_append]; exact .inl hc, rfl⟩
        · exact .inr ⟨r, by simp; omega, h⟩
      · rcases hmem x hx with ⟨c, hc, rfl⟩ | h
        · exact .inl ⟨c, by simp only [List.flatten_append, List.mem_append]; exact .inr (by simpa using hc), rfl⟩
        · exact .inr ⟨R.length, by simp, h⟩

/-- Resetting the outer ends does not touch the links inside the chains. -/
theorem isChain_clearEnds {r : ℕ} {h : Heap} : ∀ {L : List Ref}, L.IsChain (Linked h) →
    h.succ (.fin r) = none → Ref.start r ∉ L.tail → L.IsChain (Linked (clearEnds r h))
  | [], _, _, _ => .nil
  | [x], _, _, _ => .singleton x
  | x :: y :: L, hc, hf, hs => by
    rw [List.isChain_cons_cons] at hc ⊢
    rw [List.tail_cons, List.mem_cons, not_or] at hs
    refine ⟨⟨?_, ?_⟩, isChain_clearEnds hc.2 hf hs.2⟩
    · have : x ≠ .fin r := by rintro rfl; rw [hc.1.1] at hf; cases hf
      simp only [clearEnds, ne_eq, this, not_false_eq_true, Function.update_of_ne]; exact hc.1.1
    · have : y ≠ .start r := Ne.symm hs.1
      simp only [clearEnds, ne_eq, this, not_false_eq_true, Function.update_of_ne]; exact hc.1.2

theorem LoadInv.step {ctx : Ctx α} {s : LS α} {R : List (List ℕ)} {l : List ℕ}
    (h : LoadInv ctx s R) (hnd : (R ++ [l]).flatten.Nodup) (hpos : ∀ c ∈ l, c ≠ 0 ∧ c < ctx.n)
    (hlen : l.length ≤ ctx.n) (hr : R.length < s.numRoutes) :
    ∃ s', loadRoute ctx R.length l s = some s' ∧ LoadInv ctx s' (R ++ [l]) ∧ SameBase s s' := by
  have hall := (allRefs_nodup _ hnd).1
  rw [allRefs_concat, List.flatten_append] at hall
  have hnd' : ((([] : List Ref) ++ [Ref.start R.length]) ++ l.map Ref.cust ++ [Ref.fin R.length] ++
      (allRefs R).flatten).Nodup := by
    refine (List.perm_append_comm.nodup_iff.mp hall).sublist ?_
    simp [routeRefs]
  have hst : ∀ L ∈ allRefs R, Ref.start R.length ∉ L := by
    intro L hL hm
    rw [List.append_assoc, List.append_assoc, List.nil_append, List.singleton_append,
      List.nodup_cons] at hnd'
    refine hnd'.1 ?_
    rw [List.mem_append, List.mem_append]
    exact .inr (.inr (List.mem_flatten.mpr ⟨L, hL, hm⟩))
  have hsegs : Segs (linkRoute R.length (.start R.length) l s.heap)
      (routeRefs R.length l :: allRefs R) := by
    have := linkRoute_segs R.length l [] (.start R.length) s.heap (allRefs R) (h.segs.single hst) hnd'
    simpa [routeRefs] using this
  rw [loadRoute, if_pos ⟨hr, fun c hc => (hpos c hc).2⟩]
  obtain ⟨s', hs', hheap, hdata, hso⟩ := updateRoute_spec ctx
    { s with
        heap := linkRoute R.length (.start R.length) l s.heap
        route := Function.update s.route R.length { s.route R.length with lastTestedSwapStar := -1 }
        inserts := Function.update s.inserts R.length
          (fun _ => ⟨Loc.new, Loc.new, Loc.new, -1⟩) } R.length l
    hsegs.chain_head hsegs.nodup_head
    (by
      show (linkRoute _ _ _ _).succ _ = none
      rw [linkRoute_fin _ _ _ _ _ (by simp)]; exact h.ready.fin0 _ hr)
    (fun c hc => (hpos c hc).1) hlen (h.ready.cums _ hr)
  have hmc : s'.moveCount = s.moveCount := hso.rest.2.2.2.2.2.1
  have hins := hso.rest.2.2.2.2.1
  have hfr : SameBase s s' := by
    have := hso.frame.1
    exact ⟨this.1, this.2, this.3, this.4, this.5, this.6, this.7, this.8⟩
  have hdisj : ∀ r l', R[r]? = some l' → List.Disjoint (routeRefs r l') (routeRefs R.length l) := by
    intro r l' hr' x hx hx'
    have := hsegs.1
    rw [List.flatten_cons, List.nodup_append] at this
    exact this.2.2 x hx' x (List.mem_flatten.mpr ⟨_, List.mem_of_getElem? (allRefs_get hr'), hx⟩) rfl
  refine ⟨s', hs', ?_, hfr⟩
  have hfin : ∀ r, s'.heap.succ (.fin r) = if r = R.length then none else s.heap.succ (.fin r) := by
    intro r
    rw [hheap, clearEnds]
    by_cases e : r = R.length
    · subst e; simp
    · simp only [ne_eq, Ref.fin.injEq, e, not_false_eq_true, Function.update_of_ne, if_false]
      exact linkRoute_fin _ _ _ _ _ (by simp)
  have hpr : ∀ r, s'.heap.pred (.start r) =
      if r = R.length then none else s.heap.pred (.start r) := by
    intro r
    rw [hheap, clearEnds]
    by_cases e : r = R.length
    · subst e; simp
    · simp only [ne_eq, Ref.start.injEq, e, not_false_eq_true, Function.update_of_ne, if_false]
      exact linkRoute_start _ _ _ _ _
  have hlast : ∀ k, k < (R ++ [l]).length → k ≠ R.length → k < R.length := by
    intro k hk hne; simp at hk; omega
  have hget : ∀ k, k < R.length → (R ++ [l])[k]? = R[k]? := by
    intro k hk; rw [List.getElem?_append_left hk]
  have hgetl : (R ++ [l])[R.length]? = some l := by simp
  constructor
  · have h1 : Segs s'.heap (routeRefs R.length l :: allRefs R) := by
      refine ⟨hsegs.1, ?_⟩
      intro L hL
      rw [hheap]
      have hc := hsegs.2 L hL
      refine isChain_clearEnds hc ?_ ?_
      · rw [linkRoute_fin _ _ _ _ _ (by simp)]; exact h.ready.fin0 _ hr
      · rcases List.mem_cons.mp hL with rfl | hL
        · simp [routeRefs]
        · exact fun hm => hst L hL (List.mem_of_mem_tail hm)
    rw [allRefs_concat]
    exact h1.perm (List.perm_append_singleton _ _).symm
  · intro r hr'
    rw [hpr]
    by_cases e : r = R.length
    · rw [if_pos e]
    · rw [if_neg e]; exact h.pred0 r (hlast r hr' e)
  · constructor
    · intro r hr'
      rw [hfin]
      split
      · rfl
      · exact h.ready.fin0 r (by rw [← hfr.numRoutes]; exact hr')
    · intro r hr'
      rw [hso.cumD _ (by simp), hso.cumL _ (by simp)]
      exact h.ready.cums r (by rw [← hfr.numRoutes]; exact hr')
    · intro r hr'
      rw [hfr.numRoutes]
      rw [hso.empty] at hr'
      split at hr'
      · next e => rw [e]; exact hr
      · exact h.ready.empty r hr'
  · intro r l' hr'
    by_cases e : r = R.length
    · subst e
      rw [hgetl] at hr'
      cases hr'
      exact hdata
    · have hlt := hlast r (List.getElem?_eq_some_iff.mp hr').1 e
      rw [hget r hlt] at hr'
      refine hso.data e (hdisj r l' hr') ?_
      refine (h.data r l' hr').congr (fun _ _ => rfl) (fun _ _ => rfl) (fun _ _ => rfl)
        (fun _ _ => rfl) ?_ ?_ ?_ ?_ ?_ rfl ?_ rfl <;> simp [e]
  · intro r hr'
    rw [hso.empty]
    by_cases e : r = R.length
    · subst e; rw [if_pos rfl, hgetl]; simp
    · rw [if_neg e, hget r (hlast r hr' e)]; exact h.empty r (hlast r hr' e)
  · intro r hr'
    by_cases e : r = R.length
    · subst e; rw [hso.stamp, hmc]
    · rw [hso.route r e, hmc]
      simp only [ne_eq, e, not_false_eq_true, Function.update_of_ne]
      exact h.stamps r (hlast r hr' e)
  · intro r hr' u
    rw [hins]
    by_cases e : r = R.length
    · subst e; simp
    · simp only [ne_eq, e, not_false_eq_true, Function.update_of_ne]
      exact h.cache r (hlast r hr' e) u
  · rw [hmc]; exact h.count
  · intro r hr'
    by_cases e : r = R.length
    · subst e; rw [hso.swap]; simp
    · rw [hso.route r e]
      simp only [ne_eq, e, not_false_eq_true, Function.update_of_ne]
      exact h.swap r (hlast r hr' e)

theorem LoadInv.loop {ctx : Ctx α} {n : ℕ} : ∀ (ls : List (List ℕ)) (R : List (List ℕ)) (s : LS α),
    LoadInv ctx s R → IsPartition ctx.n (R ++ ls) → R.length + ls.length = n → n ≤ s.numRoutes →
    ∃ s', loadRoutes ctx R.length ls s = some s' ∧ LoadInv ctx s' (R ++ ls) ∧ SameBase s s'
  | [], R, s, h, _, _, _ => ⟨s, rfl, by simpa using h, .refl s⟩
  | l :: ls, R, s, h, hp, hlen, hle => by
    have hmem : l ∈ R ++ l :: ls := by simp
    have hnd : (R ++ [l]).flatten.Nodup := by
      refine hp.nodup.sublist ?_
      simp
    have hsub : ∀ c ∈ l, c ∈ (R ++ l :: ls).flatten := fun c hc => List.mem_flatten.mpr ⟨l, hmem, hc⟩
    obtain ⟨s1, e1, h1, f1⟩ := h.step hnd
      (fun c hc => by have := hp.mem_iff.mp (hsub c hc); omega)
      (by
        have h1 : l.length ≤ (R ++ l :: ls).flatten.length :=
          (List.sublist_flatten_of_mem hmem).length_le
        have := hp.length
        omega)
      (by simp at hlen; omega)
    obtain ⟨s2, e2, h2, f2⟩ := LoadInv.loop (n := n) ls (R ++ [l]) s1 h1 (by simpa using hp)
      (by simp at hlen ⊢; omega) (by rw [f1.numRoutes]; exact hle)
    refine ⟨s2, ?_, by simpa using h2, f1.trans f2⟩
    rw [loadRoutes, e1, Option.bind_some]
    simpa using e2

/-- Loading an individual with exactly one route per vehicle sets up the routes. -/
theorem loadIndividual_repr {ctx : Ctx α} {s : LS α} {x : Individual α} (h : Ready s)
    (hc : s.moveCount = 0) (hp : IsPartition ctx.n x.phenotype) (hlen : x.phenotype.length = s.numRoutes) :
    ∃ s', loadIndividual ctx x s = some s' ∧ Repr ctx s' x.phenotype ∧ SameBase s s' ∧
      s'.moveCount = 0 ∧ ∀ r < s.numRoutes, (s'.route r).lastModified = 0 ∧
        (s'.route r).lastTestedSwapStar = -1 := by
  have h0 : LoadInv ctx s [] := by
    constructor <;> first | exact h | exact hc | simp [Segs, allRefs]
  obtain ⟨s', e, h', f⟩ := LoadInv.loop x.phenotype [] s h0 (by simpa using hp) rfl (by simp [hlen])
  rw [List.nil_append] at h'
  refine ⟨s', e, ?_, f, h'.count, fun r hr => ⟨by rw [h'.stamps r (by omega), h'.count],
    h'.swap r (by omega)⟩⟩
  constructor
  · exact ⟨h'.segs, h'.pred0, fun r hr => h'.ready.fin0 r (by rw [f.numRoutes]; omega)⟩
  · rw [f.numRoutes]; exact hlen
  · exact hp
  · exact fun r hr => h'.ready.cums r (by rw [f.numRoutes]; omega)
  · exact fun r l _ => h'.data r l
  · intro r _
    by_cases hr : r < x.phenotype.length
    · exact h'.empty r hr
    · constructor
      · intro hm
        have := h'.ready.empty r hm
        rw [f.numRoutes] at this; omega
      · intro hm
        exact absurd (List.getElem?_eq_some_iff.mp hm).1 hr
  · exact fun r hr => (h'.stamps r hr).le
  · intro r hr u; rw [h'.cache r hr u, h'.count]; omega
  · intro r l u _ hr hle
    have hlt := (List.getElem?_eq_some_iff.mp hr).1
    rw [h'.stamps r hlt, h'.cache r hlt u, h'.count] at hle
    omega
  · simp

/-- Every state that holds routes is ready for the next run. -/
theorem ReprOn.ready {ctx : Ctx α} {s : LS α} {R : List (List ℕ)} (h : Repr ctx s R) : Ready s := by
  constructor
  · exact fun r hr => h.enc.succ0 r (by rw [h.len]; exact hr)
  · exact fun r hr => h.cums r (by rw [h.len]; exact hr)
  · intro r hr
    have := (List.getElem?_eq_some_iff.mp ((h.empty r trivial).mp hr)).1
    rwa [h.len] at this

theorem readRoute_repr {ctx : Ctx α} {s : LS α} {R : List (List ℕ)} (h : Repr ctx s R) {r : ℕ}
    {l : List ℕ} (hr : R[r]? = some l) : readRoute ctx s r = some l := by
  have hlt := (List.getElem?_eq_some_iff.mp hr).1
  have hw := walk_chain (routeRefs r l) s.heap (s.fuel ctx) (.fin r) (h.enc.chain hr)
    (by
      have h1 := part_length h.part hr
      have h2 : 0 < s.numRoutes := by rw [← h.len]; omega
      simp [routeRefs, fuel]; omega) (by rw [routeRefs, ← List.cons_append]; exact List.getLast?_concat) (h.enc.succ0 r hlt)
  have hf : ((routeRefs r l).filter fun x => !x.isDepot).map Ref.number = l := by
    have hp := part_pos h.part hr
    rw [routeRefs, List.filter_cons, if_neg (by simp [Ref.isDepot, Ref.number]), List.filter_append]
    have : (l.map Ref.cust).filter (fun x => !x.isDepot) = l.map Ref.cust := by
      rw [List.filter_eq_self]
      intro x hx
      obtain ⟨c, hc, rfl⟩ := List.mem_map.mp hx
      simp [Ref.isDepot, Ref.number, (hp c hc).1]
    rw [this]
    simp [Ref.isDepot, Ref.number, Function.comp_def]
  rw [readRoute]
  have : (routeRefs r l).head? = some (.start r) := rfl
  rw [← this, hw, Option.map_some, hf]

theorem writeRoutes_repr {ctx : Ctx α} {s : LS α} {R : List (List ℕ)} (h : Repr ctx s R) :
    ∀ (k r : ℕ) (g : List ℕ) (p : List (List ℕ)), r + k = R.length → p.length = R.length →
      p.take r = R.take r → writeRoutes ctx s r k g p = some (g ++ (R.drop r).flatten, R)
  | 0, r, g, p, hk, hp, ht => by
    rw [writeRoutes]
    have : r = R.length := by omega
    subst this
    rw [List.take_length, ← hp, List.take_length] at ht
    rw [ht]; simp
  | k + 1, r, g, p, hk, hp, ht => by
    have hr : r < R.length := by omega
    have hl : R[r]? = some R[r] := List.getElem?_eq_getElem hr
    rw [writeRoutes, readRoute_repr h hl, Option.bind_some, setIdx_of_lt _ (by omega),
      Option.bind_some, writeRoutes_repr h k (r + 1) _ _ (by omega) (by simpa using hp)]
    · rw [List.drop_eq_getElem_cons hr (l := R), List.flatten_cons, List.append_assoc]
    · rw [List.take_succ_eq_append_getElem hr, ← ht,
        List.take_succ_eq_append_getElem (by simp; omega), List.take_set_of_le le_rfl]
      simp

/-- Writing back gives exactly the routes held by the state. -/
theorem writeRoutes_all {ctx : Ctx α} {s : LS α} {R : List (List ℕ)} (h : Repr ctx s R)
    {p : List (List ℕ)} (hp : p.length = s.numRoutes) :
    writeRoutes ctx s 0 s.numRoutes [] p = some (R.flatten, R) := by
  have := writeRoutes_repr h s.numRoutes 0 [] p (by rw [h.len]; omega) (by rw [h.len]; exact hp) rfl
  simpa using this

end Verif
