import Verif.SpecSearch
import Verif.Lemmas.MoveCost

/-!
# What a move does depends on the two routes involved only
-/

namespace Verif
open Spec

section
variable {R R' : List (List ℕ)} {u c : ℕ} {m : MoveKind}

/-- A move for `u` and `c` changes the route of `u` and the route of `c` only, and the same move with the
same change of cost exists wherever the two routes occur. -/
def Local (d : ℕ → ℕ → ℚ) (q : ℕ → ℚ) (cap pen : ℚ) (R : List (List ℕ)) (u c : ℕ) (m : MoveKind)
    (R' : List (List ℕ)) : Prop :=
  ∃ (r1 r2 : ℕ) (l1 l2 : List ℕ), R[r1]? = some l1 ∧ u ∈ l1 ∧ R[r2]? = some l2 ∧ c ∈ l2 ∧
    (∀ r : ℕ, r ≠ r1 → r ≠ r2 → R'[r]? = R[r]?) ∧
    ∀ (T : List (List ℕ)) (t1 t2 : ℕ), T[t1]? = some l1 → T[t2]? = some l2 → (t1 = t2 ↔ r1 = r2) →
      ∃ T', MoveEffect T u (.cust c) m T' ∧
        solCost d q cap pen T' - solCost d q cap pen T = solCost d q cap pen R' - solCost d q cap pen R

theorem local_two {d : ℕ → ℕ → ℚ} {q : ℕ → ℚ} {cap pen : ℚ} {r1 r2 : ℕ} {l1 l2 l1' l2' : List ℕ}
    (hne : r1 ≠ r2) (h1 : R[r1]? = some l1) (h2 : R[r2]? = some l2) (hu : u ∈ l1) (hc : c ∈ l2)
    (hm : ∀ (T : List (List ℕ)) (t1 t2 : ℕ), t1 ≠ t2 → T[t1]? = some l1 → T[t2]? = some l2 →
      MoveEffect T u (.cust c) m ((T.set t1 l1').set t2 l2')) :
    Local d q cap pen R u c m ((R.set r1 l1').set r2 l2') := by
  refine ⟨r1, r2, l1, l2, h1, hu, h2, hc, fun r a b => ?_, fun T t1 t2 g1 g2 he => ?_⟩
  · rw [List.getElem?_set_ne (Ne.symm b), List.getElem?_set_ne (Ne.symm a)]
  · have hne' : t1 ≠ t2 := fun e => hne (he.mp e)
    exact ⟨_, hm T t1 t2 hne' g1 g2, by rw [solCost_set_two hne' g1 g2, solCost_set_two hne h1 h2]⟩

theorem local_one {d : ℕ → ℕ → ℚ} {q : ℕ → ℚ} {cap pen : ℚ} {r1 : ℕ} {l1 l1' : List ℕ}
    (h1 : R[r1]? = some l1) (hu : u ∈ l1) (hc : c ∈ l1)
    (hm : ∀ (T : List (List ℕ)) (t1 : ℕ), T[t1]? = some l1 → MoveEffect T u (.cust c) m (T.set t1 l1')) :
    Local d q cap pen R u c m (R.set r1 l1') := by
  refine ⟨r1, r1, l1, l1, h1, hu, h1, hc, fun r a _ => ?_, fun T t1 t2 g1 g2 he => ?_⟩
  · rw [List.getElem?_set_ne (Ne.symm a)]
  · exact ⟨_, hm T t1 g1, by rw [solCost_set_one g1, solCost_set_one h1]⟩

theorem lastRef_cust {r t : ℕ} {p : List ℕ} (h : Ref.cust c = lastRef r p) :
    c ∈ p ∧ Ref.cust c = lastRef t p := by
  unfold lastRef at h ⊢
  cases e : p.getLast? with
  | none => rw [e] at h; simp at h
  | some a =>
    rw [e] at h
    simp only [Option.map_some, Option.getD_some, Ref.cust.injEq] at h ⊢
    exact ⟨h ▸ List.mem_of_getLast? e, h⟩

theorem Relocated.local {d : ℕ → ℕ → ℚ} {q : ℕ → ℚ} {cap pen : ℚ} {S S' : List ℕ} (hS : u ∈ S)
    (hm : ∀ T T', Relocated T S S' (.cust c) T' → MoveEffect T u (.cust c) m T')
    (h : Relocated R S S' (.cust c) R') : Local d q cap pen R u c m R' := by
  cases h with
  | inter r1 r2 p q p2 q2 hne h1 h2 hv =>
    exact local_two hne h1 h2 (by simp [hS]) (by simp [(lastRef_cust (t := 0) hv).1])
      fun T t1 t2 hne' g1 g2 => hm _ _ (.inter t1 t2 p q p2 q2 hne' g1 g2 (lastRef_cust hv).2)
  | after r p m q hn h1 hv =>
    exact local_one h1 (by simp [hS]) (by simp [(lastRef_cust (t := 0) hv).1])
      fun T t1 g1 => hm _ _ (.after t1 p m q hn g1 (lastRef_cust hv).2)
  | before r p m q hn h1 hv =>
    exact local_one h1 (by simp [hS]) (by simp [(lastRef_cust (t := 0) hv).1])
      fun T t1 g1 => hm _ _ (.before t1 p m q hn g1 (lastRef_cust hv).2)

theorem Swapped.local {d : ℕ → ℕ → ℚ} {q : ℕ → ℚ} {cap pen : ℚ} {S S' : List ℕ} (hS : u ∈ S)
    (hS' : c ∈ S') (hm : ∀ T T', Swapped T S S' T' → MoveEffect T u (.cust c) m T')
    (h : Swapped R S S' R') : Local d q cap pen R u c m R' := by
  cases h with
  | inter r1 r2 p q p2 q2 hne h1 h2 =>
    exact local_two hne h1 h2 (by simp [hS]) (by simp [hS'])
      fun T t1 t2 hne' g1 g2 => hm _ _ (.inter t1 t2 p q p2 q2 hne' g1 g2)
  | fwd r p m q hn h1 =>
    exact local_one h1 (by simp [hS]) (by simp [hS']) fun T t1 g1 => hm _ _ (.fwd t1 p m q hn g1)
  | bwd r p m q hn h1 =>
    exact local_one h1 (by simp [hS]) (by simp [hS']) fun T t1 g1 => hm _ _ (.bwd t1 p m q hn g1)

theorem MoveEffect.local (d : ℕ → ℕ → ℚ) (q : ℕ → ℚ) (cap pen : ℚ)
    (h : MoveEffect R u (.cust c) m R') : Local d q cap pen R u c m R' := by
  cases h with
  | relocateSingle h => exact h.local (by simp) fun _ _ => .relocateSingle
  | relocateDouble x h => exact h.local (by simp) fun _ _ => .relocateDouble x
  | relocateDoubleReverse x h => exact h.local (by simp) fun _ _ => .relocateDoubleReverse x
  | swapOneWithOne c' hv h =>
    cases hv
    exact h.local (by simp) (by simp) fun _ _ => .swapOneWithOne c rfl
  | swapTwoWithOne c' x hv h =>
    cases hv
    exact h.local (by simp) (by simp) fun _ _ => .swapTwoWithOne c x rfl
  | swapTwoWithTwo c' x y hv h =>
    cases hv
    exact h.local (by simp) (by simp) fun _ _ => .swapTwoWithTwo c x y rfl
  | twoOptIntraReverse c' r p m q hv hm h1 =>
    cases hv
    exact local_one h1 (by simp) (by simp) fun T t1 g1 => .twoOptIntraReverse c t1 p m q rfl hm g1
  | twoOptInterReverse c' r1 r2 p q p2 q2 hv hne h1 h2 =>
    cases hv
    exact local_two hne h1 h2 (by simp) (by simp)
      fun T t1 t2 hne' g1 g2 => .twoOptInterReverse c t1 t2 p q p2 q2 rfl hne' g1 g2
  | twoOptInter r1 r2 p q p2 q2 hne h1 h2 hv =>
    exact local_two hne h1 h2 (by simp) (by simp [(lastRef_cust (t := 0) hv).1])
      fun T t1 t2 hne' g1 g2 => .twoOptInter t1 t2 p q p2 q2 hne' g1 g2 (lastRef_cust hv).2

end

/-- In a partition a customer is in one route only. -/
theorem route_unique {n : ℕ} {R : List (List ℕ)} (hp : IsPartition n R) {r r' c : ℕ} {l l' : List ℕ}
    (h : R[r]? = some l) (h' : R[r']? = some l') (hc : c ∈ l) (hc' : c ∈ l') : r = r' := by
  by_contra hne
  have hnd : R.flatten.Nodup := hp.nodup_iff.mpr (by unfold customers; exact List.nodup_range')
  have hp := (List.nodup_flatten.mp hnd).2
  rw [List.pairwise_iff_getElem] at hp
  obtain ⟨h1, e1⟩ := List.getElem?_eq_some_iff.mp h
  obtain ⟨h2, e2⟩ := List.getElem?_eq_some_iff.mp h'
  rcases Nat.lt_or_gt_of_ne hne with hlt | hlt
  · have := hp r r' h1 h2 hlt
    rw [e1, e2] at this
    exact this hc hc'
  · have := hp r' r h2 h1 hlt
    rw [e1, e2] at this
    exact this hc' hc

/-- Moves without gain stay without gain while the two routes stay. -/
theorem NoGainBy.transfer {t : ℚ} {ctx : Ctx ℚ} {pen : ℚ} {ms : List MoveKind} {R T : List (List ℕ)} {u c : ℕ}
    {r1 r2 t1 t2 : ℕ} {l1 l2 : List ℕ} (hT : IsPartition ctx.n T)
    (h : NoGainBy t ctx pen R ms u (.cust c)) (h1 : R[r1]? = some l1) (h2 : R[r2]? = some l2)
    (g1 : T[t1]? = some l1) (g2 : T[t2]? = some l2) (he : r1 = r2 ↔ t1 = t2) (hu : u ∈ l1) (hc : c ∈ l2) :
    NoGainBy t ctx pen T ms u (.cust c) := by
  intro m hm T' heff
  obtain ⟨s1, s2, k1, k2, e1, hu', e2, hc', -, hall⟩ := heff.local ctx.dist ctx.demand ctx.cap pen
  have a1 := route_unique hT e1 g1 hu' hu
  have a2 := route_unique hT e2 g2 hc' hc
  subst a1
  subst a2
  rw [g1] at e1
  rw [g2] at e2
  cases e1
  cases e2
  obtain ⟨R', hR', hcost⟩ := hall R r1 r2 h1 h2 he
  have := h m hm R' hR'
  linarith

/-- Moves without gain in one order of the routes are without gain in any other. -/
theorem NoGainBy.perm {t : ℚ} {ctx : Ctx ℚ} {pen : ℚ} {ms : List MoveKind} {R T : List (List ℕ)} {u c : ℕ}
    (hR : IsPartition ctx.n R) (hp : T.Perm R) (h : NoGainBy t ctx pen R ms u (.cust c)) :
    NoGainBy t ctx pen T ms u (.cust c) := by
  intro m hm T' heff
  have hT : IsPartition ctx.n T := hp.flatten.trans hR
  obtain ⟨s1, s2, k1, k2, e1, hu, e2, hc, -, -⟩ := heff.local ctx.dist ctx.demand ctx.cap pen
  obtain ⟨r1, h1⟩ := List.getElem?_of_mem (hp.mem_iff.mp (List.mem_of_getElem? e1))
  obtain ⟨r2, h2⟩ := List.getElem?_of_mem (hp.mem_iff.mp (List.mem_of_getElem? e2))
  refine NoGainBy.transfer hT h h1 h2 e1 e2 ?_ hu hc m hm T' heff
  constructor
  · rintro rfl
    rw [h1] at h2
    cases h2
    exact route_unique hT e1 e2 hu hu
  · rintro rfl
    rw [e1] at e2
    cases e2
    exact route_unique hR h1 h2 hu hu

theorem NoGain.transfer {ctx : Ctx ℚ} {pen : ℚ} {ms : List MoveKind} {R T : List (List ℕ)} {u c : ℕ}
    {r1 r2 t1 t2 : ℕ} {l1 l2 : List ℕ} (hT : IsPartition ctx.n T)
    (h : NoGain ctx pen R ms u (.cust c)) (h1 : R[r1]? = some l1) (h2 : R[r2]? = some l2)
    (g1 : T[t1]? = some l1) (g2 : T[t2]? = some l2) (he : r1 = r2 ↔ t1 = t2) (hu : u ∈ l1) (hc : c ∈ l2) :
    NoGain ctx pen T ms u (.cust c) :=
  NoGainBy.transfer (t := 1 / 1000000) hT h h1 h2 g1 g2 he hu hc

theorem NoGain.perm {ctx : Ctx ℚ} {pen : ℚ} {ms : List MoveKind} {R T : List (List ℕ)} {u c : ℕ}
    (hR : IsPartition ctx.n R) (hp : T.Perm R) (h : NoGain ctx pen R ms u (.cust c)) :
    NoGain ctx pen T ms u (.cust c) :=
  NoGainBy.perm (t := 1 / 1000000) hR hp h

theorem lastRef_start {r t : ℕ} {p : List ℕ} (h : Ref.start t = lastRef r p) : p = [] ∧ t = r := by
  unfold lastRef at h
  cases e : p.getLast? with
  | none =>
    rw [e] at h
    rw [List.getLast?_eq_none_iff] at e
    simp at h
    exact ⟨e, h⟩
  | some a => rw [e] at h; simp at h

/-- A move into an empty route can be made with any empty route, in any order of the routes, at the same
cost. -/
theorem MoveEffect.empty {ctx : Ctx ℚ} {pen : ℚ} {m : MoveKind} {T T' R : List (List ℕ)} {u t r : ℕ}
    (hp : T.Perm R) (ht : T[t]? = some [])
    (hr : R[r]? = some []) (h : MoveEffect T u (.start t) m T') :
    ∃ R', MoveEffect R u (.start r) m R' ∧
      solCost ctx.dist ctx.demand ctx.cap pen R' = solCost ctx.dist ctx.demand ctx.cap pen T' := by
  have hcost := Spec.solCost_perm ctx.dist ctx.demand ctx.cap pen hp
  have get : ∀ {k : ℕ} {l : List ℕ}, T[k]? = some l → u ∈ l → ∃ k', R[k']? = some l ∧ k' ≠ r := by
    intro k l hk hu
    obtain ⟨k', hk'⟩ := List.getElem?_of_mem (hp.mem_iff.mp (List.mem_of_getElem? hk))
    refine ⟨k', hk', ?_⟩
    rintro rfl
    rw [hr] at hk'
    cases hk'
    simp at hu
  have reloc : ∀ {S S' : List ℕ}, u ∈ S → Relocated T S S' (.start t) T' →
      ∃ R', Relocated R S S' (.start r) R' ∧
        solCost ctx.dist ctx.demand ctx.cap pen R' = solCost ctx.dist ctx.demand ctx.cap pen T' := by
    intro S S' hS h
    cases h with
    | inter r1 r2 p q p2 q2 hne h1 h2 hv =>
      obtain ⟨rfl, rfl⟩ := lastRef_start hv
      rw [ht] at h2
      simp only [List.nil_append, Option.some.injEq] at h2
      subst h2
      obtain ⟨k, hk, hkr⟩ := get h1 (by simp [hS])
      refine ⟨_, .inter k r p q [] [] hkr hk hr rfl, ?_⟩
      have a := solCost_set_two (d := ctx.dist) (q := ctx.demand) (cap := ctx.cap) (pen := pen)
        (l1' := p ++ q) (l2' := [] ++ S' ++ []) hkr hk hr
      have b := solCost_set_two (d := ctx.dist) (q := ctx.demand) (cap := ctx.cap) (pen := pen)
        (l1' := p ++ q) (l2' := [] ++ S' ++ []) hne h1 ht
      linarith
    | after r0 p m q hn h1 hv => exact absurd (lastRef_start hv).1 hn
    | before r0 p m q hn h1 hv =>
      obtain ⟨rfl, rfl⟩ := lastRef_start hv
      rw [ht] at h1
      simp at h1
      exact absurd h1.1 hn
  cases h with
  | relocateSingle h =>
    obtain ⟨R', h1, h2⟩ := reloc (by simp) h
    exact ⟨R', .relocateSingle h1, h2⟩
  | relocateDouble x h =>
    obtain ⟨R', h1, h2⟩ := reloc (by simp) h
    exact ⟨R', .relocateDouble x h1, h2⟩
  | relocateDoubleReverse x h =>
    obtain ⟨R', h1, h2⟩ := reloc (by simp) h
    exact ⟨R', .relocateDoubleReverse x h1, h2⟩
  | swapOneWithOne c' hv h => cases hv
  | swapTwoWithOne c' x hv h => cases hv
  | swapTwoWithTwo c' x y hv h => cases hv
  | twoOptIntraReverse c' r p m q hv hm h1 => cases hv
  | twoOptInterReverse c' r1 r2 p q p2 q2 hv hne h1 h2 => cases hv
  | twoOptInter r1 r2 p q p2 q2 hne h1 h2 hv =>
    obtain ⟨rfl, rfl⟩ := lastRef_start hv
    rw [ht] at h2
    simp only [List.nil_append, Option.some.injEq] at h2
    subst h2
    obtain ⟨k, hk, hkr⟩ := get h1 (by simp)
    refine ⟨_, .twoOptInter k r p q [] [] hkr hk hr rfl, ?_⟩
    have a := solCost_set_two (d := ctx.dist) (q := ctx.demand) (cap := ctx.cap) (pen := pen)
      (l1' := p ++ [u] ++ []) (l2' := [] ++ q) hkr hk hr
    have b := solCost_set_two (d := ctx.dist) (q := ctx.demand) (cap := ctx.cap) (pen := pen)
      (l1' := p ++ [u] ++ []) (l2' := [] ++ q) hne h1 ht
    linarith

end Verif
