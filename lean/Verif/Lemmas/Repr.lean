import Verif.Lemmas.UpdateRoute
import Verif.Lemmas.Spec
import Verif.Model.Moves

/-!
# Updating routes after links were changed
-/

namespace Verif
open F64 LS Spec

set_option linter.unusedSectionVars false

variable {α : Type} [F64 α]

theorem allRefs_get {R : List (List ℕ)} {r : ℕ} {l : List ℕ} (h : R[r]? = some l) :
    (allRefs R)[r]? = some (routeRefs r l) := by
  simp [allRefs, List.getElem?_mapIdx, h]

theorem allRefs_length (R : List (List ℕ)) : (allRefs R).length = R.length := by simp [allRefs]

theorem Encodes.chain {h : Heap} {R : List (List ℕ)} (he : Encodes h R) {r : ℕ} {l : List ℕ}
    (hr : R[r]? = some l) : (routeRefs r l).IsChain (Linked h) :=
  he.segs.2 _ (List.mem_of_getElem? (allRefs_get hr))

theorem Encodes.nodup {h : Heap} {R : List (List ℕ)} (he : Encodes h R) {r : ℕ} {l : List ℕ}
    (hr : R[r]? = some l) : (routeRefs r l).Nodup :=
  (List.nodup_flatten.mp he.segs.1).1 _ (List.mem_of_getElem? (allRefs_get hr))

theorem Encodes.disjoint {h : Heap} {R : List (List ℕ)} (he : Encodes h R) {r r' : ℕ} {l l' : List ℕ}
    (hr : R[r]? = some l) (hr' : R[r']? = some l') (hne : r ≠ r') :
    List.Disjoint (routeRefs r l) (routeRefs r' l') := by
  have hp := (List.nodup_flatten.mp he.segs.1).2
  rw [List.pairwise_iff_getElem] at hp
  obtain ⟨h1, e1⟩ := List.getElem?_eq_some_iff.mp (allRefs_get hr)
  obtain ⟨h2, e2⟩ := List.getElem?_eq_some_iff.mp (allRefs_get hr')
  rcases Nat.lt_or_gt_of_ne hne with hlt | hlt
  · have := hp r r' h1 h2 hlt
    rwa [e1, e2] at this
  · have := hp r' r h2 h1 hlt
    rw [e1, e2] at this
    exact fun x h1 h2 => this h2 h1

theorem mem_flatten_of_get {R : List (List ℕ)} {r : ℕ} {l : List ℕ} (hr : R[r]? = some l) {c : ℕ}
    (hc : c ∈ l) : c ∈ R.flatten := List.mem_flatten.mpr ⟨l, List.mem_of_getElem? hr, hc⟩

theorem part_pos {n : ℕ} {R : List (List ℕ)} (hp : IsPartition n R) {r : ℕ} {l : List ℕ}
    (hr : R[r]? = some l) : ∀ c ∈ l, c ≠ 0 ∧ c < n := by
  intro c hc
  have := hp.mem_iff.mp (mem_flatten_of_get hr hc)
  omega

theorem part_length {n : ℕ} {R : List (List ℕ)} (hp : IsPartition n R) {r : ℕ} {l : List ℕ}
    (hr : R[r]? = some l) : l.length ≤ n := by
  have h1 : l.length ≤ R.flatten.length :=
    (List.sublist_flatten_of_mem (List.mem_of_getElem? hr)).length_le
  have := hp.length
  omega

/-- Fields that no move changes. -/
structure SameBase (s s' : LS α) : Prop where
  lastTested : s'.lastTested = s.lastTested
  numRoutes : s'.numRoutes = s.numRoutes
  customers : s'.customers = s.customers
  corr : s'.corr = s.corr
  corrCols : s'.corrCols = s.corrCols
  granularity : s'.granularity = s.granularity
  pen : s'.pen = s.pen
  angle : s'.angle = s.angle

theorem SameBase.refl (s : LS α) : SameBase s s := ⟨rfl, rfl, rfl, rfl, rfl, rfl, rfl, rfl⟩

theorem SameBase.trans {s s' s'' : LS α} (h : SameBase s s') (h' : SameBase s' s'') :
    SameBase s s'' :=
  ⟨h'.1.trans h.1, h'.2.trans h.2, h'.3.trans h.3, h'.4.trans h.4, h'.5.trans h.5, h'.6.trans h.6,
    h'.7.trans h.7, h'.8.trans h.8⟩

/-- Also the numbers of the last SWAP* test of the routes are the same. -/
structure SameFrame (s s' : LS α) : Prop extends SameBase s s' where
  swapTest : ∀ r, (s'.route r).lastTestedSwapStar = (s.route r).lastTestedSwapStar

theorem SameFrame.refl (s : LS α) : SameFrame s s := ⟨.refl s, fun _ => rfl⟩

theorem SameFrame.trans {s s' s'' : LS α} (h : SameFrame s s') (h' : SameFrame s' s'') :
    SameFrame s s'' :=
  ⟨h.1.trans h'.1, fun r => (h'.2 r).trans (h.2 r)⟩

theorem SameOutside.frame {r : ℕ} {l : List ℕ} {s s' : LS α} (h : SameOutside r l s s') :
    SameFrame s s' := by
  obtain ⟨h1, h2, h3, h4, h5, h6, h7, h8, h9, h10, h11⟩ := h.rest
  refine ⟨⟨h1, h4, h7, h8, h9, h10, h11, h3⟩, fun k => ?_⟩
  by_cases e : k = r
  · subst e; exact h.swap
  · rw [h.route k e]

/-- Routes that do not carry a modification number above the old move count are the old ones. -/
structure Stamped (s : LS α) (R : List (List ℕ)) (s' : LS α) (R' : List (List ℕ)) : Prop where
  count : s.moveCount ≤ s'.moveCount
  kept : ∀ r, (s'.route r).lastModified ≤ s.moveCount →
    R'[r]? = R[r]? ∧ (s'.route r).lastModified = (s.route r).lastModified

theorem Stamped.refl (s : LS α) (R : List (List ℕ)) : Stamped s R s R := ⟨le_refl _, fun _ _ => ⟨rfl, rfl⟩⟩

theorem Stamped.trans {s s' s'' : LS α} {R R' R'' : List (List ℕ)} (h : Stamped s R s' R')
    (h' : Stamped s' R' s'' R'') : Stamped s R s'' R'' := by
  refine ⟨h.count.trans h'.count, fun r hr => ?_⟩
  obtain ⟨e1, e2⟩ := h'.kept r (hr.trans h.count)
  rw [e2] at hr
  obtain ⟨e3, e4⟩ := h.kept r hr
  exact ⟨e1.trans e3, e2.trans e4⟩

/-- One `update_route` makes the data of its route up to date. -/
theorem ReprOn.update {ctx : Ctx α} {D : ℕ → Prop} {s : LS α} {R : List (List ℕ)}
    (h : ReprOn ctx D s R) {r : ℕ} (hr : r < R.length)
    (hlt : ∀ u, (s.inserts r u).lastCalculated < s.moveCount) :
    ∃ s', updateRoute ctx r s = some s' ∧ ReprOn ctx (fun k => D k ∨ k = r) s' R ∧
      SameFrame s s' ∧ s'.moveCount = s.moveCount ∧ s'.inserts = s.inserts ∧
      (s'.route r).lastModified = s.moveCount ∧ ∀ k ≠ r, s'.route k = s.route k := by
  have hl : R[r]? = some R[r] := List.getElem?_eq_getElem hr
  obtain ⟨s', hs', hheap, hdata, hso⟩ := updateRoute_spec ctx s r R[r] (h.enc.chain hl) (h.enc.nodup hl)
    (h.enc.succ0 r hr) (fun c hc => (part_pos h.part hl c hc).1) (part_length h.part hl) (h.cums r hr)
  rw [clearEnds_eq (h.enc.succ0 r hr) (h.enc.pred0 r hr)] at hheap
  have hmc : s'.moveCount = s.moveCount := hso.rest.2.2.2.2.2.1
  have hins : s'.inserts = s.inserts := hso.rest.2.2.2.2.1
  refine ⟨s', hs', ?_, hso.frame, hmc, hins, hso.stamp, hso.route⟩
  constructor
  · rw [hheap]; exact h.enc
  · rw [hso.frame.numRoutes]; exact h.len
  · exact h.part
  · intro k hk
    have hk' : R[k]? = some R[k] := List.getElem?_eq_getElem hk
    rw [hso.cumD _ (by simp), hso.cumL _ (by simp)]
    exact h.cums k hk
  · intro k l hD hk
    by_cases e : k = r
    · subst e
      rw [hl] at hk
      cases hk
      exact hdata
    · exact hso.data e (h.enc.disjoint hk hl e) (h.data k l (hD.resolve_right e) hk)
  · intro k hD
    rw [hso.empty k]
    by_cases e : k = r
    · subst e; rw [if_pos rfl, hl]; simp
    · rw [if_neg e]; exact h.empty k (hD.resolve_right e)
  · intro k hk
    rw [hmc]
    by_cases e : k = r
    · subst e; rw [hso.stamp]
    · rw [hso.route k e]; exact h.stamps k hk
  · rw [hmc, hins]; exact h.cacheLe
  · intro k l u hD hk
    rw [hins]
    by_cases e : k = r
    · subst e
      rw [hso.stamp]
      intro hle
      have := hlt u
      omega
    · rw [hso.route k e]
      exact h.cache k l u (hD.resolve_right e) hk
  · intro k hk hD
    rw [hmc, hins]
    exact h.cacheLt k hk (fun hd => hD (.inl hd))

/-- The state after the links changed the routes `r1` and `r2`. -/
theorem Repr.relink {ctx : Ctx α} {s : LS α} {R R' : List (List ℕ)} (h : Repr ctx s R) {h' : Heap}
    (he : Encodes h' R') (hlen : R'.length = R.length) (hpart : IsPartition ctx.n R') (r1 r2 : ℕ)
    (hsame : ∀ r, r ≠ r1 → r ≠ r2 → R'[r]? = R[r]?) :
    ReprOn ctx (fun r => r ≠ r1 ∧ r ≠ r2)
      { s with heap := h', moveCount := s.moveCount + 1 } R' := by
  have hc := h.cacheLe
  constructor
  · exact he
  · rw [hlen]; exact h.len
  · exact hpart
  · rw [hlen]; exact h.cums
  · intro r l hD hr
    rw [hsame r hD.1 hD.2] at hr
    exact (h.data r l trivial hr).congr (fun _ _ => rfl) (fun _ _ => rfl) (fun _ _ => rfl)
      (fun _ _ => rfl) rfl rfl rfl rfl rfl rfl rfl rfl
  · intro r hD
    rw [hsame r hD.1 hD.2]
    exact h.empty r trivial
  · intro r hr
    have := h.stamps r (hlen ▸ hr)
    simp only; omega
  · intro r hr u
    have := hc r (hlen ▸ hr) u
    simp only; omega
  · intro r l u hD hr
    rw [hsame r hD.1 hD.2] at hr
    exact h.cache r l u trivial hr
  · intro r hr _ u
    have := hc r (hlen ▸ hr) u
    simp only; omega

theorem ReprOn.mono {ctx : Ctx α} {D D' : ℕ → Prop} {s : LS α} {R : List (List ℕ)}
    (h : ReprOn ctx D s R) (hD : ∀ k, D k ↔ D' k) : ReprOn ctx D' s R := by
  have : D = D' := funext fun k => propext (hD k)
  exact this ▸ h

/-- Updating both routes after a change of links. -/
theorem Repr.updateBoth {ctx : Ctx α} {s : LS α} {R R' : List (List ℕ)} (h : Repr ctx s R) {h' : Heap}
    (he : Encodes h' R') (hlen : R'.length = R.length) (hpart : IsPartition ctx.n R') {r1 r2 : ℕ}
    (hr1 : r1 < R.length) (hr2 : r2 < R.length) (hne : r1 ≠ r2)
    (hsame : ∀ r, r ≠ r1 → r ≠ r2 → R'[r]? = R[r]?) :
    ∃ s', LS.updateBoth ctx r1 r2 { s with heap := h', moveCount := s.moveCount + 1 } = some s' ∧
      Repr ctx s' R' ∧ SameFrame s s' ∧ Stamped s R s' R' := by
  have h0 := h.relink he hlen hpart r1 r2 hsame
  obtain ⟨s1, e1, h1, f1, m1, i1, st1, ot1⟩ := h0.update (r := r1) (by omega)
    (h0.cacheLt r1 (by omega) (by simp))
  obtain ⟨s2, e2, h2, f2, m2, i2, st2, ot2⟩ := h1.update (r := r2) (by omega)
    (h1.cacheLt r2 (by omega) (by simp [Ne.symm hne]))
  refine ⟨s2, by rw [LS.updateBoth, e1, Option.bind_some, e2], h2.mono ?_, ?_, ?_⟩
  · intro k
    by_cases a : k = r1 <;> by_cases b : k = r2 <;> simp [a, b]
  · exact SameFrame.trans ⟨⟨f1.1.1, f1.1.2, f1.1.3, f1.1.4, f1.1.5, f1.1.6, f1.1.7, f1.1.8⟩, f1.2⟩ f2
  · simp only at m1 st1 ot1
    refine ⟨by omega, fun k hk => ?_⟩
    by_cases b : k = r2
    · subst b; omega
    · rw [ot2 k b] at hk ⊢
      by_cases a : k = r1
      · subst a; omega
      · rw [ot1 k a]
        exact ⟨hsame k a b, rfl⟩

theorem Repr.updateOne {ctx : Ctx α} {s : LS α} {R R' : List (List ℕ)} (h : Repr ctx s R) {h' : Heap}
    (he : Encodes h' R') (hlen : R'.length = R.length) (hpart : IsPartition ctx.n R') {r1 : ℕ}
    (hr1 : r1 < R.length) (hsame : ∀ r, r ≠ r1 → R'[r]? = R[r]?) :
    ∃ s', updateRoute ctx r1 { s with heap := h', moveCount := s.moveCount + 1 } = some s' ∧
      Repr ctx s' R' ∧ SameFrame s s' ∧ Stamped s R s' R' := by
  have h0 := h.relink he hlen hpart r1 r1 (fun r hr _ => hsame r hr)
  obtain ⟨s1, e1, h1, f1, m1, i1, st1, ot1⟩ := h0.update (r := r1) (by omega)
    (h0.cacheLt r1 (by omega) (by simp))
  refine ⟨s1, e1, h1.mono ?_, ⟨⟨f1.1.1, f1.1.2, f1.1.3, f1.1.4, f1.1.5, f1.1.6, f1.1.7, f1.1.8⟩, f1.2⟩, ?_⟩
  · intro k
    by_cases a : k = r1 <;> simp [a]
  · simp only at m1 st1 ot1
    refine ⟨by omega, fun k hk => ?_⟩
    by_cases a : k = r1
    · subst a; omega
    · rw [ot1 k a]
      exact ⟨hsame k a, rfl⟩

/-- `updateRoutes` after a move between two different routes. -/
theorem Repr.updateRoutes_ne {ctx : Ctx α} {s : LS α} {R R' : List (List ℕ)} (h : Repr ctx s R)
    {h' : Heap} (he : Encodes h' R') (hlen : R'.length = R.length) (hpart : IsPartition ctx.n R')
    {r1 r2 : ℕ} (hr1 : r1 < R.length) (hr2 : r2 < R.length) (hne : r1 ≠ r2)
    (hsame : ∀ r, r ≠ r1 → r ≠ r2 → R'[r]? = R[r]?) :
    ∃ s', updateRoutes ctx r1 r2 { s with heap := h', moveCount := s.moveCount + 1 } = some s' ∧
      Repr ctx s' R' ∧ SameFrame s s' ∧ Stamped s R s' R' := by
  obtain ⟨s', e, hh⟩ := h.updateBoth he hlen hpart hr1 hr2 hne hsame
  refine ⟨s', ?_, hh⟩
  rw [← e, updateRoutes, LS.updateBoth]
  simp [hne]

/-- `updateRoutes` after a move inside one route. -/
theorem Repr.updateRoutes_eq {ctx : Ctx α} {s : LS α} {R R' : List (List ℕ)} (h : Repr ctx s R)
    {h' : Heap} (he : Encodes h' R') (hlen : R'.length = R.length) (hpart : IsPartition ctx.n R')
    {r1 : ℕ} (hr1 : r1 < R.length) (hsame : ∀ r, r ≠ r1 → R'[r]? = R[r]?) :
    ∃ s', updateRoutes ctx r1 r1 { s with heap := h', moveCount := s.moveCount + 1 } = some s' ∧
      Repr ctx s' R' ∧ SameFrame s s' ∧ Stamped s R s' R' := by
  obtain ⟨s', e, hh⟩ := h.updateOne he hlen hpart hr1 hsame
  refine ⟨s', ?_, hh⟩
  rw [← e, updateRoutes]
  simp

end Verif
