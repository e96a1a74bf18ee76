import Verif.Props.Population

/-!
# Order of a subpopulation (C29)

The claim that a subpopulation stays sorted up to the comparison tolerance is false
(`C29_sorted_refuted`); it is sorted exactly when the costs are equal or at least the tolerance apart, in
particular the feasible subpopulation of an instance with integral data.
-/

namespace Verif
open F64 SubPop

/-- Contract of the std sort: a rearrangement, in ascending order if the order is consistent on the
list. -/
structure SortOK (sort : List (Individual ℚ) → Option (List (Individual ℚ))) : Prop where
  perm : Population.SortPerm sort
  sorted : ∀ l l', sort l = some l' → (∀ x ∈ l, ∀ y ∈ l, x.cmp y = some (compare x.cost y.cost)) →
    (l'.map (·.cost)).Pairwise (· ≤ ·)

/-- A sort meeting the contract: the stable sort by cost. -/
def costSort (l : List (Individual ℚ)) : Option (List (Individual ℚ)) :=
  some (stableSort (fun a b => decide (a.cost ≤ b.cost)) l)

theorem costSort_ok : SortOK costSort where
  perm := by
    intro l l' h
    simp only [costSort, Option.some.injEq] at h
    subst h
    exact stableSort_perm _ _
  sorted := by
    intro l l' h _
    simp only [costSort, Option.some.injEq] at h
    subst h
    rw [List.pairwise_map]
    have := pairwise_stableSort (le := fun a b : Individual ℚ => decide (a.cost ≤ b.cost))
      (by intro a b c h1 h2; simp only [decide_eq_true_eq] at *; exact h1.trans h2)
      (by intro a b; simp only [Bool.or_eq_true, decide_eq_true_eq]; exact le_total _ _) l
    exact this.imp (by intro a b h; simpa using h)

theorem cmp_spaced {K : ℚ → Prop} (hK : Spec.Spaced K) {x y : Individual ℚ} (hx : K x.cost)
    (hy : K y.cost) : x.cmp y = some (compare x.cost y.cost) := by
  unfold Individual.cmp
  simp only [rat_approxEq, decide_eq_true_eq, rat_lt, rat_le]
  rcases hK _ _ hx hy with h | h
  · rw [h]; simp
  · rw [if_neg (not_lt.mpr h)]
    have hne : x.cost ≠ y.cost := by
      intro e
      rw [e] at h
      simp at h
      norm_num at h
    rcases lt_or_gt_of_ne hne with hlt | hlt
    · rw [if_pos hlt, compare_lt_iff_lt.mpr hlt]
    · rw [if_neg (not_lt.mpr hlt.le), if_pos hlt, compare_gt_iff_gt.mpr hlt]

theorem costs_strip {P Q : List (Individual ℚ)} (h : P.map strip = Q.map strip) :
    P.map (·.cost) = Q.map (·.cost) := by
  have e : ∀ L : List (Individual ℚ), L.map (·.cost) = (L.map strip).map (·.cost) := by
    intro L
    simp [Function.comp_def, strip, Individual.cost]
  rw [e P, e Q, h]

theorem insert_ascending {K : ℚ → Prop} (hK : Spec.Spaced K) {bs : BSearch} (hbs : BSearchOK bs)
    {x : Individual ℚ} {l : List (Individual ℚ)} {os : List Ordering} (hos : compareAll x l = some os)
    (hx : K x.cost) (hl : ∀ y ∈ l, K y.cost) (hs : l.Pairwise fun a b => a.cost ≤ b.cost) :
    (l.insertIdx (bs os) x).Pairwise fun a b => a.cost ≤ b.cost := by
  obtain ⟨hlen, hget⟩ := compareAll_some hos
  obtain ⟨h1, h2⟩ := hbs os
  rw [hlen] at h1 h2
  have hle : ∀ (j k : ℕ) (a b : Individual ℚ), j ≤ k → l[j]? = some a → l[k]? = some b →
      a.cost ≤ b.cost := by
    intro j k a b hjk ha hb
    rcases Nat.lt_or_eq_of_le hjk with h | rfl
    · obtain ⟨ja, rfl⟩ := List.getElem?_eq_some_iff.mp ha
      obtain ⟨ka, rfl⟩ := List.getElem?_eq_some_iff.mp hb
      exact List.pairwise_iff_getElem.mp hs j k ja ka h
    · rw [ha, Option.some.injEq] at hb
      rw [hb]
  have hord : ∀ (i : ℕ) (o : Ordering), os[i]? = some o → ∃ y, l[i]? = some y ∧
      compare y.cost x.cost = o := by
    intro i o ho
    have hi : i < l.length := hlen ▸ (List.getElem?_eq_some_iff.mp ho).1
    obtain ⟨o', ho', hc⟩ := hget i l[i] (List.getElem?_eq_getElem hi)
    rw [ho, Option.some.injEq] at ho'
    subst ho'
    rw [cmp_spaced hK (hl _ (List.getElem_mem hi)) hx, Option.some.injEq] at hc
    exact ⟨l[i], List.getElem?_eq_getElem hi, hc⟩
  refine pairwise_insert (f := Individual.cost) h1 hs ?_ ?_
  · intro j e hj he
    rcases h2 with h2 | ⟨h2, -⟩
    · obtain ⟨y, hy, hc⟩ := hord _ _ h2
      rw [compare_eq_iff_eq] at hc
      exact hc ▸ hle j _ e y hj.le he hy
    · rcases h2 with h2 | h2
      · omega
      · obtain ⟨y, hy, hc⟩ := hord _ _ h2
        rw [compare_lt_iff_lt] at hc
        exact (hle j _ e y (by omega) he hy).trans hc.le
  · intro j e hj he
    rcases h2 with h2 | ⟨-, h2⟩
    · obtain ⟨y, hy, hc⟩ := hord _ _ h2
      rw [compare_eq_iff_eq] at hc
      exact hc ▸ hle _ j y e hj hy he
    · rcases h2 with h2 | h2
      · have := (List.getElem?_eq_some_iff.mp he).1
        omega
      · obtain ⟨y, hy, hc⟩ := hord _ _ h2
        rw [compare_gt_iff_gt] at hc
        exact hc.le.trans (hle _ j y e hj hy he)

/-- One insertion keeps the order. -/
theorem add_ascending {ctx : Ctx ℚ} {cfg : PopCfg} {f : Bool} {K : ℚ → Prop} (hK : Spec.Spaced K)
    {bs : BSearch} (hbs : BSearchOK bs) {s s' : SubPop ℚ} {x : Individual ℚ}
    (hI : s.Inv ctx cfg x.number f) (hx : K x.cost) (hl : ∀ y ∈ s.pop, K y.cost)
    (hs : (s.pop.map (·.cost)).Pairwise (· ≤ ·)) (h : s.add cfg bs x = some s') :
    (s'.pop.map (·.cost)).Pairwise (· ≤ ·) := by
  obtain ⟨os, m, s2, hos, hle, -, -, h1, -, -, -, -, h5⟩ := add_some hbs h hI.table hI.fresh
  have h2 : (s2.pop.map (·.cost)).Pairwise (· ≤ ·) := by
    rcases h1 with ⟨-, -, h1⟩ | ⟨-, h1⟩
    · rw [costs_strip h1]; exact hs
    · rw [costs_strip h1, List.pairwise_map]
      rw [List.pairwise_map] at hs
      exact insert_ascending hK hbs hos hx hl hs
  rcases h5 with ⟨-, h5⟩ | ⟨-, rfl⟩
  · have h6 := (selectLoop_shrunk h5).1.sub.map (·.cost)
    have e : ∀ L : List (Individual ℚ), (L.map strip).map (·.cost) = L.map (·.cost) := by
      intro L
      simp [Function.comp_def, strip, Individual.cost]
    rw [e, e] at h6
    exact h2.sublist h6
  · exact h2

/-- Members after an insertion are the inserted individual or former members, as far as costs go. -/
theorem add_costs {ctx : Ctx ℚ} {cfg : PopCfg} {f : Bool} {K : ℚ → Prop} {bs : BSearch}
    (hbs : BSearchOK bs) {s s' : SubPop ℚ} {x : Individual ℚ} (hI : s.Inv ctx cfg x.number f)
    (hx : K x.cost) (hl : ∀ y ∈ s.pop, K y.cost) (h : s.add cfg bs x = some s') :
    ∀ y ∈ s'.pop, K y.cost := by
  intro y hy
  obtain ⟨-, -, -, h4, -⟩ := add_summary hbs h hI.table hI.fresh
  obtain ⟨z, hz, e⟩ := h4 y hy
  have : y.cost = z.cost :=
    congrArg (f := Individual.cost) (a₁ := strip y) (a₂ := strip z) e
  rw [this]
  rw [List.mem_cons] at hz
  rcases hz with rfl | hz
  · exact hx
  · exact hl z hz

/-- **C29, order (partial).** If all costs that ever occur are equal or at least the tolerance apart, both
subpopulations are in ascending order of cost after every history. Missing from the full claim: arbitrary
costs, for which it is false, see `C29_sorted_refuted`. -/
theorem C29_sorted_partial (ctx : Ctx ℚ) (cfg : PopCfg) (bs : BSearch) (hbs : BSearchOK bs)
    (sort : List (Individual ℚ) → Option (List (Individual ℚ))) (hsort : SortOK sort)
    (K : ℚ → Prop) (hK : Spec.Spaced K)
    (p : Population ℚ) (hs : List Bool) (h : p.Run ctx cfg bs sort (fun x => K x.cost) hs) :
    Spec.Ascending 0 (p.feasible.pop.map (·.cost)) ∧
      Spec.Ascending 0 (p.infeasible.pop.map (·.cost)) := by
  have key : ((p.feasible.pop.map (·.cost)).Pairwise (· ≤ ·) ∧ ∀ y ∈ p.feasible.pop, K y.cost) ∧
      ((p.infeasible.pop.map (·.cost)).Pairwise (· ≤ ·) ∧ ∀ y ∈ p.infeasible.pop, K y.cost) := by
    induction h with
    | new => simp [Population.new, SubPop.new]
    | @add p p' hs pen x upd r hx hok ha ih =>
      have hI := r.inv hbs hsort.perm
      unfold Population.add at ha
      dsimp only at ha
      split at ha
      · obtain ⟨s, hs', rfl⟩ := Option.map_eq_some_iff.mp ha
        exact ⟨⟨add_ascending hK hbs (x := { x with number := p.total }) hI.feasible hok ih.1.2 ih.1.1 hs',
          add_costs hbs (x := { x with number := p.total }) hI.feasible hok ih.1.2 hs'⟩, ih.2⟩
      · obtain ⟨s, hs', rfl⟩ := Option.map_eq_some_iff.mp ha
        exact ⟨ih.1, ⟨add_ascending hK hbs (x := { x with number := p.total }) hI.infeasible hok
          ih.2.2 ih.2.1 hs',
          add_costs hbs (x := { x with number := p.total }) hI.infeasible hok ih.2.2 hs'⟩⟩
    | @reprice p p' hs pen r hr hok ih =>
      have hI := r.inv hbs hsort.perm
      obtain ⟨-, -, hf, l, -, hl⟩ := hI.reprice hsort.perm hr
      refine ⟨hf ▸ ih.1, ?_, hok⟩
      refine hsort.sorted l _ hl ?_
      intro x hx y hy
      have hp := hsort.perm _ _ hl
      exact cmp_spaced hK (hok x (hp.mem_iff.mpr hx)) (hok y (hp.mem_iff.mpr hy))
  simpa [Spec.Ascending] using ⟨key.1.1, key.2.1⟩

/-- With integral data the cost of a feasible individual is an integer. -/
theorem feasible_cost_int {ctx : Ctx ℚ} {pen : ℚ} (hd : ∀ a b, ∃ k : ℤ, ctx.dist a b = k)
    (hq : ∀ a, ∃ k : ℤ, ctx.demand a = k) (hc : ∃ k : ℤ, ctx.cap = k) {x : Individual ℚ}
    (hx : x.Good (RR.ctxAt ctx pen)) (hf : x.isFeasible = true) : ∃ k : ℤ, x.cost = k := by
  rw [hx.cost]
  have hcap := hx.feasible.mp hf
  dsimp only [RR.ctxAt] at hcap ⊢
  generalize x.phenotype = R at hcap
  have hpath : ∀ l : List ℕ, ∃ k : ℤ, Spec.pathDist ctx.dist l = k := by
    intro l
    induction l with
    | nil => exact ⟨0, by simp⟩
    | cons a l ih =>
      cases l with
      | nil => exact ⟨0, by simp⟩
      | cons b l =>
        obtain ⟨k, hk⟩ := ih
        obtain ⟨j, hj⟩ := hd a b
        exact ⟨j + k, by rw [Spec.pathDist_cons_cons, hk, hj]; push_cast; rfl⟩
  have hload : ∀ l : List ℕ, ∃ k : ℤ, Spec.routeLoad ctx.demand l = k := by
    intro l
    induction l with
    | nil => exact ⟨0, by simp⟩
    | cons a l ih =>
      obtain ⟨k, hk⟩ := ih
      obtain ⟨j, hj⟩ := hq a
      exact ⟨j + k, by rw [Spec.routeLoad_cons, hk, hj]; push_cast; rfl⟩
  induction R with
  | nil => exact ⟨0, by simp⟩
  | cons r R ih =>
    obtain ⟨k, hk⟩ := ih fun r' hr' => hcap r' (by simp [hr'])
    obtain ⟨j, hj⟩ := hpath (0 :: (r ++ [0]))
    obtain ⟨m, hm⟩ := hload r
    obtain ⟨c, hcc⟩ := hc
    have h1 := hcap r (by simp)
    rw [hm, hcc] at h1
    have h2 : m ≤ c := by
      by_contra hlt
      have h3 : c + 1 ≤ m := by omega
      have h4 : (c : ℚ) + 1 ≤ m := by exact_mod_cast h3
      norm_num at h1
      linarith
    have h3 : (m : ℚ) - c ≤ 0 := by
      have : (m : ℚ) ≤ c := by exact_mod_cast h2
      linarith
    refine ⟨j + k, ?_⟩
    rw [Spec.solCost_cons, hk]
    unfold Spec.routeCost Spec.routeDist
    rw [hj, hm, hcc, max_eq_left h3]
    push_cast
    ring

/-- **C29, order of the feasible subpopulation.** With integral distances, demands and capacity the
feasible subpopulation is in ascending order of cost after every history, whatever the penalties. -/
theorem C29_feasible_sorted (ctx : Ctx ℚ) (cfg : PopCfg) (bs : BSearch) (hbs : BSearchOK bs)
    (sort : List (Individual ℚ) → Option (List (Individual ℚ))) (hsort : Population.SortPerm sort)
    (hd : ∀ a b, ∃ k : ℤ, ctx.dist a b = k) (hq : ∀ a, ∃ k : ℤ, ctx.demand a = k)
    (hc : ∃ k : ℤ, ctx.cap = k)
    (p : Population ℚ) (hs : List Bool) (h : p.Run ctx cfg bs sort (fun _ => True) hs) :
    Spec.Ascending 0 (p.feasible.pop.map (·.cost)) := by
  have key : (p.feasible.pop.map (·.cost)).Pairwise (· ≤ ·) := by
    induction h with
    | new => simp [Population.new, SubPop.new]
    | @add p p' hs pen x upd r hx hok ha ih =>
      have hI := r.inv hbs hsort
      unfold Population.add at ha
      dsimp only at ha
      split at ha
      · rename_i hfx
        obtain ⟨s, hs', rfl⟩ := Option.map_eq_some_iff.mp ha
        refine add_ascending Spec.spaced_int hbs (x := { x with number := p.total }) hI.feasible
          (feasible_cost_int hd hq hc (Individual.good_number _ hx) hfx) ?_ ih hs'
        intro y hy
        obtain ⟨q, hyg⟩ := hI.feasible.good y hy
        exact feasible_cost_int hd hq hc hyg (hI.feasible.class_ y hy)
      · obtain ⟨s, hs', rfl⟩ := Option.map_eq_some_iff.mp ha
        exact ih
    | @reprice p p' hs pen r hr hok ih =>
      have hI := r.inv hbs hsort
      obtain ⟨-, -, hf, -⟩ := hI.reprice hsort hr
      exact hf ▸ ih
  simpa [Spec.Ascending] using key

/-! ### The counterexample -/

namespace PopEx

/-- Three customers; the three tours through them cost `1800000` plus `0`, `0.9`, `-0.9` millionths. -/
def ctx : Ctx ℚ where
  n := 4
  dist a b :=
    if a = b then 0 else if a = 0 ∨ b = 0 then 1
    else if (a = 1 ∧ b = 2) ∨ (a = 2 ∧ b = 1) then 1 + 18 / 10000000
    else if (a = 2 ∧ b = 3) ∨ (a = 3 ∧ b = 2) then 1 else 1 + 9 / 10000000
  demand _ := 1
  cap := 10
  pen := 1
  lng _ := 0
  lat _ := 0

def cfg : PopCfg := ⟨25, 40, 1, 5, 2⟩

/-- An individual with one route of three stops. -/
def tour (a b c : ℕ) (cost : ℚ) (preds succs : List ℕ) : Individual ℚ :=
  ⟨0, [a, b, c], [[a, b, c]], 0, ⟨cost, true, [⟨cost, -7, cost⟩], preds, succs⟩⟩

/-- Costs `4 + 1.8e-6`, `4 + 2.7e-6` and `4 + 0.9e-6`. -/
def x1 : Individual ℚ := tour 1 2 3 (4 + 18 / 10000000) [0, 0, 1, 2] [1, 2, 3, 0]
def x2 : Individual ℚ := tour 2 1 3 (4 + 27 / 10000000) [0, 2, 0, 1] [2, 3, 1, 0]
def x3 : Individual ℚ := tour 1 3 2 (4 + 9 / 10000000) [0, 0, 3, 1] [1, 3, 0, 2]

deriving instance DecidableEq for RouteEval
deriving instance DecidableEq for SolEval

theorem good1 : x1.Good (RR.ctxAt ctx 1) :=
  ⟨by unfold Spec.IsPartition; decide, rfl, SolEval.new, by decide +kernel⟩
theorem good2 : x2.Good (RR.ctxAt ctx 1) :=
  ⟨by unfold Spec.IsPartition; decide, rfl, SolEval.new, by decide +kernel⟩
theorem good3 : x3.Good (RR.ctxAt ctx 1) :=
  ⟨by unfold Spec.IsPartition; decide, rfl, SolEval.new, by decide +kernel⟩

theorem cmp_rat (x y : Individual ℚ) : (x.cmp y).isSome := by
  unfold Individual.cmp
  simp only [rat_approxEq, decide_eq_true_eq, rat_lt, rat_le]
  split
  · rfl
  · split
    · rfl
    · split
      · rfl
      · rename_i h1 h2
        rw [if_pos (not_lt.mp h2)]
        rfl

theorem compareAll_strip (x : Individual ℚ) : ∀ P : List (Individual ℚ),
    compareAll x P = compareAll (strip x) (P.map strip)
  | [] => rfl
  | y :: P => by
    unfold compareAll
    rw [List.map_cons, compareAll_strip x P]
    rfl

/-- Inserting a feasible individual that is no clone of any member, far from the size limit. -/
theorem add_plain {bs : BSearch} (hbs : BSearchOK bs) {p p' : Population ℚ} (hI : p.Inv ctx cfg)
    {x : Individual ℚ} (hx : x.Good (RR.ctxAt ctx 1)) (hf : x.isFeasible = true)
    (hlen : p.feasible.pop.length + 1 < 65)
    (hb : ∀ y ∈ p.feasible.pop.map strip, (strip y).brokenPairs x ≠ some 0)
    (h : p.add cfg bs x true = some p') :
    p'.total = p.total + 1 ∧ ∃ os, compareAll (strip { x with number := p.total })
        (p.feasible.pop.map strip) = some os ∧
      p'.feasible.pop.map strip =
        (p.feasible.pop.map strip).insertIdx (bs os) (strip { x with number := p.total }) ∧
      ∃ s₁ : SubPop ℚ, s₁.updateFitness cfg = some p'.feasible := by
  unfold Population.add at h
  dsimp only at h
  have hf' : ({ x with number := p.total } : Individual ℚ).isFeasible = true := hf
  rw [if_pos hf'] at h
  obtain ⟨s, hs, rfl⟩ := Option.map_eq_some_iff.mp h
  refine ⟨rfl, ?_⟩
  obtain ⟨os, m, s2, hos, hle, hm, hT, h1, -, h3, -, hup, h5⟩ :=
    add_some hbs hs hI.feasible.table hI.feasible.fresh
  refine ⟨os, by rw [← compareAll_strip]; exact hos, ?_⟩
  have h2 : s2.pop.map strip = (p.feasible.pop.insertIdx (bs os) { x with number := p.total }).map strip := by
    rcases h1 with ⟨-, ⟨d, v, hv, hd⟩, -⟩ | ⟨-, h1⟩
    · exfalso
      have w := addDivs_written hbs hm hI.feasible.fresh hI.feasible.table.nodup
        hI.feasible.table.sorted
      obtain ⟨E, -, E2, E3⟩ := w.own
      have hvm : vec m p.total = d :: v := by unfold vec; rw [hv]; rfl
      have hv0 : vec p.feasible.div p.total = [] := by
        unfold vec; rw [hI.feasible.table.keys _ hI.feasible.fresh]; rfl
      have hdE : d ∈ E := by
        have := E3.mem_iff (a := d)
        dsimp only at this
        rw [hvm, hv0] at this
        simpa using this.mp
      obtain ⟨o, ho, -, hbo⟩ := E2 d hdE
      rw [hd] at hbo
      have hgo := hI.feasible.good o ho
      obtain ⟨q, hgo⟩ := hgo
      have e1 := Individual.brokenPairs_congr
        (Individual.Good.nbrEq (ctx := RR.ctxAt ctx q) (ctx' := RR.ctxAt ctx q) rfl hgo
          (Individual.good_strip (x := o) (y := strip (strip o)) rfl hgo) rfl)
        (Individual.Good.nbrEq (ctx := RR.ctxAt ctx 1) (ctx' := RR.ctxAt ctx 1) rfl
          (Individual.good_number p.total hx) hx rfl)
      rw [e1] at hbo
      exact hb (strip o) (List.mem_map_of_mem ho) hbo
    · exact h1
  have el : s2.pop.length = p.feasible.pop.length + 1 := by
    have := congrArg List.length h2
    rw [List.length_map, List.length_map, List.length_insertIdx, if_pos hle] at this
    exact this
  rw [List.map_insertIdx] at h2
  rcases h5 with ⟨h5, -⟩ | ⟨-, rfl⟩
  · rw [h3, hI.feasible.maxInd, el] at h5
    simp only [cfg] at h5
    omega
  · exact ⟨h2, hup⟩

/-- Adding the three individuals one after the other. -/
theorem three (bs : BSearch) (h : bs = bsearchNew ∨ bs = bsearchOld) :
    ∃ p hs, Population.Run ctx cfg bs costSort (fun _ => True) p hs ∧
      p.feasible.pop.map strip =
        [strip { x2 with number := 1 }, strip { x3 with number := 2 }, strip { x1 with number := 0 }] ∧
      ∃ s₁ : SubPop ℚ, s₁.updateFitness cfg = some p.feasible := by
  have hbs : BSearchOK bs := by
    rcases h with rfl | rfl
    · exact bsearchNew_ok
    · exact bsearchOld_ok
  have tot : ∀ (p : Population ℚ) (x : Individual ℚ), p.Inv ctx cfg → x.Good (RR.ctxAt ctx 1) →
      ∃ p', p.add cfg bs x true = some p' := fun p x hI hx =>
    Population.add_total hbs avgOK_rat (by decide) (by decide) hI hx (fun y _ => cmp_rat y x) true
  have r0 : Population.Run ctx cfg bs costSort (fun _ => True) (Population.new cfg) [] := .new
  have i0 := r0.inv hbs costSort_ok.perm
  obtain ⟨p1, a1⟩ := tot _ x1 i0 good1
  have r1 := r0.add good1 trivial a1
  have i1 := r1.inv hbs costSort_ok.perm
  obtain ⟨t1, os1, c1, e1, -⟩ := add_plain hbs i0 good1 rfl (by decide) (by decide) a1
  have e1' : p1.feasible.pop.map strip = [strip { x1 with number := 0 }] := by
    rw [e1]
    have c1' : compareAll (strip { x1 with number := 0 }) [] = some os1 := c1
    simp only [compareAll, Option.some.injEq] at c1'
    subst c1'
    rcases h with rfl | rfl <;> rfl
  have l1 : p1.feasible.pop.length = 1 := by simpa using congrArg List.length e1'
  obtain ⟨p2, a2⟩ := tot _ x2 i1 good2
  have r2 := r1.add good2 trivial a2
  have i2 := r2.inv hbs costSort_ok.perm
  obtain ⟨t2, os2, c2, e2, -⟩ := add_plain hbs i1 good2 rfl (by omega) (by rw [e1']; decide) a2
  have t1' : p1.total = 1 := t1
  rw [e1', t1'] at c2 e2
  have o2 : os2 = [.eq] := by
    have : compareAll (strip { x2 with number := 1 }) [strip { x1 with number := 0 }]
        = some [.eq] := by decide +kernel
    rw [this, Option.some.injEq] at c2
    exact c2.symm
  have e2' : p2.feasible.pop.map strip =
      [strip { x2 with number := 1 }, strip { x1 with number := 0 }] := by
    rw [e2, o2]
    rcases h with rfl | rfl <;> rfl
  have l2 : p2.feasible.pop.length = 2 := by simpa using congrArg List.length e2'
  obtain ⟨p3, a3⟩ := tot _ x3 i2 good3
  have r3 := r2.add good3 trivial a3
  obtain ⟨-, os3, c3, e3, u3⟩ := add_plain hbs i2 good3 rfl (by omega) (by rw [e2']; decide) a3
  have t2' : p2.total = 2 := by rw [t2, t1']
  rw [e2', t2'] at c3 e3
  have o3 : os3 = [.gt, .eq] := by
    have : compareAll (strip { x3 with number := 2 })
        [strip { x2 with number := 1 }, strip { x1 with number := 0 }]
        = some [.gt, .eq] := by decide +kernel
    rw [this, Option.some.injEq] at c3
    exact c3.symm
  have e3' : p3.feasible.pop.map strip =
      [strip { x2 with number := 1 }, strip { x3 with number := 2 }, strip { x1 with number := 0 }] := by
    rw [e3, o3]
    rcases h with rfl | rfl <;> rfl
  exact ⟨p3, _, r3, e3', u3⟩

/-- **C29 is false of the code.** With either binary search of the standard library, three complete
feasible individuals (costs `4 + 1.8e-6`, `4 + 2.7e-6`, `4 + 0.9e-6`) added one after the other end up in
the order `2.7, 0.9, 1.8`: not ascending up to the tolerance `1e-6`. -/
theorem C29_sorted_refuted (bs : BSearch) (h : bs = bsearchNew ∨ bs = bsearchOld) :
    ∃ p hs, Population.Run ctx cfg bs costSort (fun _ => True) p hs ∧
      ¬ Spec.Ascending (1 / 1000000) (p.feasible.pop.map (·.cost)) := by
  obtain ⟨p3, hs, r3, e3', -⟩ := three bs h
  refine ⟨p3, _, r3, ?_⟩
  have ec : p3.feasible.pop.map (·.cost) =
      [4 + 27 / 10000000, 4 + 9 / 10000000, 4 + 18 / 10000000] := by
    have : p3.feasible.pop.map (·.cost) = (p3.feasible.pop.map strip).map (·.cost) := by
      simp [Function.comp_def, strip, Individual.cost]
    rw [this, e3']
    rfl
  rw [ec]
  intro hc
  have := (List.pairwise_cons.mp hc).1 (4 + 9 / 10000000) (by simp)
  norm_num at this

/-- The hypotheses of `C31_elites_survive` (and of C30, C32, C35, C36) are met by these three
individuals: none is a clone, there is one elite, and selection succeeds. -/
theorem elites_example : ∃ (s₀ s s' : SubPop ℚ), s.focus = false ∧ s₀.updateFitness cfg = some s ∧
    s.pop.length = 3 ∧ cfg.numElites < s.pop.length ∧ (∀ x ∈ s.pop, s.isClone x = some false) ∧
    s.naturalSelection cfg = some s' := by
  obtain ⟨p, hs, r, e, s₀, hu⟩ := three bsearchNew (Or.inl rfl)
  have hI := (r.inv bsearchNew_ok costSort_ok.perm).feasible
  have hl : p.feasible.pop.length = 3 := by simpa using congrArg List.length e
  obtain ⟨s', hs'⟩ := naturalSelection_total (cfg := cfg) avgOK_rat hI.table (by decide) (by omega)
  refine ⟨s₀, p.feasible, s', hI.focus, hu, hl, by rw [hl]; decide, ?_, hs'⟩
  intro x hx
  obtain ⟨c, hc⟩ := isClone_total hI.table (by omega) hx
  rw [hc]
  unfold isClone at hc
  split at hc
  · simp at hc
  · rename_i v hv
    obtain ⟨d, hd, rfl⟩ := Option.map_eq_some_iff.mp hc
    have hdv : d ∈ vec p.feasible.div x.number := by
      unfold vec; rw [hv]; exact List.mem_of_getElem? hd
    obtain ⟨y, hy, hyn, hval⟩ := hI.table.value x hx d hdv
    have ht := hI.table.targets x.number (List.mem_map_of_mem hx)
    have hne : y.number ≠ x.number := by
      have h1 : d.target ∈ (nums p.feasible.pop).erase x.number :=
        ht.mem_iff.mp (List.mem_map_of_mem hdv)
      rw [hyn]
      exact (hI.table.nodup.mem_erase_iff.mp h1).1
    have hb : ∀ a ∈ [strip { x2 with number := 1 }, strip { x3 with number := 2 },
        strip { x1 with number := 0 }], ∀ b ∈ [strip { x2 with number := 1 },
        strip { x3 with number := 2 }, strip { x1 with number := 0 }], a.number ≠ b.number →
        a.brokenPairs b ≠ some 0 := by decide
    rw [← e] at hb
    have h1 := hb _ (List.mem_map_of_mem hx) _ (List.mem_map_of_mem hy) hne.symm
    have h2 := hb _ (List.mem_map_of_mem hy) _ (List.mem_map_of_mem hx) hne
    obtain ⟨q, hq⟩ := hI.good x hx
    obtain ⟨q', hq'⟩ := hI.good y hy
    have n1 := Individual.Good.nbrEq (ctx := RR.ctxAt ctx q) (ctx' := RR.ctxAt ctx q) rfl
      (Individual.good_strip (x := x) (y := strip x) rfl hq) hq rfl
    have n2 := Individual.Good.nbrEq (ctx := RR.ctxAt ctx q') (ctx' := RR.ctxAt ctx q') rfl
      (Individual.good_strip (x := y) (y := strip y) rfl hq') hq' rfl
    rw [Individual.brokenPairs_congr n1 n2] at h1
    rw [Individual.brokenPairs_congr n2 n1] at h2
    have : d.distance ≠ 0 := by
      intro h0
      rw [h0] at hval
      exact hval.elim h1 h2
    simp [this]

/-- `C33_duplicates_rejected` is not vacuous: a second copy of the first individual. -/
example : ∃ (p : Population ℚ) (hs : List Bool) (y : Individual ℚ),
    Population.Run ctx cfg bsearchNew costSort (fun _ => True) p hs ∧ y ∈ p.feasible.pop ∧
      x1.phenotype = y.phenotype ∧ ∃ p', p.add cfg bsearchNew x1 true = some p' := by
  obtain ⟨p, hs, r, e, -⟩ := three bsearchNew (Or.inl rfl)
  have hI := r.inv bsearchNew_ok costSort_ok.perm
  have h1 : strip { x1 with number := 0 } ∈ p.feasible.pop.map strip := by rw [e]; simp
  obtain ⟨y, hy, ey⟩ := List.mem_map.mp h1
  refine ⟨p, hs, y, r, hy, ?_, Population.add_total bsearchNew_ok avgOK_rat (by decide) (by decide) hI good1
    (fun y _ => cmp_rat y x1) true⟩
  exact (congrArg (f := Individual.phenotype) (a₁ := strip y)
    (a₂ := strip { x1 with number := 0 }) ey).symm

end PopEx
end Verif
