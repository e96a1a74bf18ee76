import Verif.Lemmas.Population
import Verif.Lemmas.Nbrs

/-! # Reachable populations: invariant and absence of panics -/

namespace Verif
open F64

variable {α : Type} [F64 α]

namespace SubPop

/-! ### No panics -/

/-- Averages of at most `K` distances can be compared (no NaN arises). -/
structure AvgOK (α : Type) [F64 α] (K : ℕ) : Prop where
  zero : ((lit 0 : α) ≤. lit 0) = true
  avg : ∀ a k : ℕ, 1 ≤ k → k ≤ K → ((lit a /. lit k : α) ≤. (lit a /. lit k)) = true

theorem avgOK_rat {K : ℕ} : AvgOK ℚ K := ⟨by simp, by simp⟩

theorem Table.vec_length {P : List (Individual α)} {m : ℕ → Option (List Diversity)} (h : Table P m)
    {k : ℕ} (hk : k ∈ nums P) : (vec m k).length = P.length - 1 := by
  have := (h.targets k hk).length_eq
  rw [List.length_map, List.length_erase_of_mem hk] at this
  simpa [nums] using this

theorem averages_total {s : SubPop α} {num : ℕ} (ha : AvgOK α num) (ht : Table s.pop s.div) (hn : 1 ≤ num)
    (h2 : 2 ≤ s.pop.length) :
    ∀ (xs : List (Individual α)) (i : ℕ), (∀ x ∈ xs, x ∈ s.pop) →
      ∃ l, s.averages num xs i = some l ∧ l.map (·.2) = List.range' i xs.length ∧
        ∀ a ∈ l, (a.1 ≤. a.1) = true
  | [], _, _ => ⟨[], rfl, rfl, by simp⟩
  | x :: xs, i, h => by
    obtain ⟨l, h3, h4, h5⟩ := averages_total ha ht hn h2 xs (i + 1) fun y hy => h y (by simp [hy])
    have hk : x.number ∈ nums s.pop := List.mem_map_of_mem (h x (by simp))
    have hl := ht.vec_length hk
    have hav : ∃ a, s.average x num = some a ∧ (a ≤. a) = true := by
      unfold average
      unfold vec at hl
      cases hv : s.div x.number with
      | none => exact ⟨_, rfl, ha.zero⟩
      | some v =>
        rw [hv] at hl
        dsimp only [Option.getD_some] at hl ⊢
        have hmin : Nat.min num (s.pop.length - 1) ≤ v.length := by
          rw [hl]; exact Nat.min_le_right _ _
        have hmin' : 1 ≤ Nat.min num (s.pop.length - 1) := Nat.le_min.mpr ⟨hn, by omega⟩
        rw [if_pos hmin]
        exact ⟨_, rfl, ha.avg _ _ hmin' (Nat.min_le_left _ _)⟩
    obtain ⟨a, ha1, ha2⟩ := hav
    refine ⟨(a, i) :: l, ?_, ?_, ?_⟩
    · unfold averages
      rw [ha1, h3]
      rfl
    · simp [h4, List.range'_succ]
    · intro b hb
      rw [List.mem_cons] at hb
      rcases hb with rfl | hb
      · exact ha2
      · exact h5 b hb

theorem updateFitness_total {s : SubPop α} {cfg : PopCfg} (ha : AvgOK α cfg.numClosest) (ht : Table s.pop s.div)
    (hn : 1 ≤ cfg.numClosest) : ∃ s', s.updateFitness cfg = some s' := by
  unfold updateFitness
  by_cases h1 : s.pop.length = 1
  · rw [if_pos h1]; exact ⟨_, rfl⟩
  · rw [if_neg h1]
    by_cases h0 : s.pop.length = 0
    · have : s.pop = [] := List.length_eq_zero_iff.mp h0
      rw [this]
      simp [averages]
    · obtain ⟨l, h3, -, h5⟩ := averages_total ha ht hn (by omega) s.pop 0 fun _ h => h
      rw [h3]
      dsimp only
      rw [if_neg]
      · exact ⟨_, rfl⟩
      · rintro ⟨-, h⟩
        rw [List.any_eq_true] at h
        obtain ⟨a, ha, h⟩ := h
        rw [h5 a ha] at h
        simp at h

theorem remove_total {s : SubPop α} {cfg : PopCfg} (ha : AvgOK α cfg.numClosest) (ht : Table s.pop s.div)
    (hn : 1 ≤ cfg.numClosest) {i : ℕ} (hi : i < s.pop.length) : ∃ s', s.remove cfg i = some s' := by
  unfold SubPop.remove
  have hx : s.pop[i]? = some s.pop[i] := List.getElem?_eq_getElem hi
  rw [hx]
  exact updateFitness_total ha ((ht.perm (eraseIdx_perm hx).symm).remove) hn

theorem isClone_total {s : SubPop α} (ht : Table s.pop s.div) (h2 : 2 ≤ s.pop.length)
    {x : Individual α} (hx : x ∈ s.pop) : ∃ c, s.isClone x = some c := by
  have hk : x.number ∈ nums s.pop := List.mem_map_of_mem hx
  have hl := ht.vec_length hk
  obtain ⟨v, hv⟩ := Option.isSome_iff_exists.mp (ht.present h2 _ hk)
  unfold vec at hl
  unfold isClone
  rw [hv] at hl ⊢
  dsimp only [Option.getD_some] at hl ⊢
  cases v with
  | nil => simp at hl; omega
  | cons d v => exact ⟨_, rfl⟩

theorem scan_total {s : SubPop α} (ht : Table s.pop s.div) (h2 : 2 ≤ s.pop.length) :
    ∀ (xs : List (Individual α)) (i : ℕ) (w : Worst α), (∀ x ∈ xs, x ∈ s.pop) →
      ∃ w', s.scanWorst xs i w = some w'
  | [], _, w, _ => ⟨w, rfl⟩
  | x :: xs, i, w, h => by
    obtain ⟨c, hc⟩ := isClone_total ht h2 (h x (by simp))
    unfold scanWorst
    rw [hc]
    dsimp only
    split
    · exact scan_total ht h2 xs _ _ fun y hy => h y (by simp [hy])
    · exact scan_total ht h2 xs _ _ fun y hy => h y (by simp [hy])

theorem naturalSelection_total {s : SubPop α} {cfg : PopCfg} (ha : AvgOK α cfg.numClosest) (ht : Table s.pop s.div)
    (hn : 1 ≤ cfg.numClosest) (h2 : 2 ≤ s.pop.length) : ∃ s', s.naturalSelection cfg = some s' := by
  unfold naturalSelection
  obtain ⟨w, hw⟩ := scan_total ht h2 (s.pop.drop 1) 1 ⟨1, false, lit (-1)⟩
    fun x hx => List.mem_of_mem_drop hx
  rw [hw]
  have := scan_index s _ _ _ _ hw
  rw [List.length_drop] at this
  exact remove_total ha ht hn (by dsimp only at this; omega)

theorem selectLoop_total {cfg : PopCfg} (ha : AvgOK α cfg.numClosest) (hn : 1 ≤ cfg.numClosest)
    (hm : 1 ≤ cfg.minSize) : ∀ {k : ℕ} {s : SubPop α}, s.pop.length < k → Table s.pop s.div →
      ∃ s', selectLoop cfg k s = some s'
  | 0, _, h, _ => by omega
  | k + 1, s, h, ht => by
    unfold selectLoop
    split
    · obtain ⟨s1, h1⟩ := naturalSelection_total ha ht hn (by omega)
      obtain ⟨a, b⟩ := naturalSelection_shrunk h1
      rw [h1]
      exact selectLoop_total ha hn hm (by omega) (a.table ht)
    · exact ⟨_, rfl⟩

theorem compareAll_total (x : Individual α) : ∀ (l : List (Individual α)),
    (∀ y ∈ l, (y.cmp x).isSome) → ∃ os, compareAll x l = some os ∧ os.length = l.length
  | [], _ => ⟨[], rfl, rfl⟩
  | y :: ys, h => by
    obtain ⟨o, ho⟩ := Option.isSome_iff_exists.mp (h y (by simp))
    obtain ⟨os, h1, h2⟩ := compareAll_total x ys fun z hz => h z (by simp [hz])
    refine ⟨o :: os, ?_, by simp [h2]⟩
    unfold compareAll
    rw [ho, h1]
    rfl

theorem compareAll_some {x : Individual α} : ∀ {l : List (Individual α)} {os : List Ordering},
    compareAll x l = some os → os.length = l.length ∧ ∀ (i : ℕ) (y : Individual α), l[i]? = some y →
      ∃ o, os[i]? = some o ∧ y.cmp x = some o
  | [], os, h => by
    simp only [compareAll, Option.some.injEq] at h
    subst h
    simp
  | y :: ys, os, h => by
    unfold compareAll at h
    split at h
    · simp at h
    · rename_i o ho
      obtain ⟨os', h1, rfl⟩ := Option.map_eq_some_iff.mp h
      obtain ⟨h2, h3⟩ := compareAll_some h1
      refine ⟨by simp [h2], ?_⟩
      intro i z hz
      cases i with
      | zero =>
        simp only [List.getElem?_cons_zero, Option.some.injEq] at hz
        subst hz
        exact ⟨o, rfl, ho⟩
      | succ i =>
        simp only [List.getElem?_cons_succ] at hz ⊢
        exact h3 i z hz

theorem addDivs_total {bs : BSearch} {x : Individual α} : ∀ (os : List (Individual α))
    (m : ℕ → Option (List Diversity)), (∀ o ∈ os, (o.brokenPairs x).isSome) →
      ∃ m', addDivs bs x os m = some m'
  | [], m, _ => ⟨m, rfl⟩
  | o :: os, m, h => by
    obtain ⟨d, hd⟩ := Option.isSome_iff_exists.mp (h o (by simp))
    unfold addDivs
    rw [hd]
    exact addDivs_total os _ fun z hz => h z (by simp [hz])

/-- Inserting never panics. -/
theorem add_total {cfg : PopCfg} {bs : BSearch} (hbs : BSearchOK bs) (ha : AvgOK α cfg.numClosest)
    (hn : 1 ≤ cfg.numClosest) (hm : 1 ≤ cfg.minSize) {s : SubPop α} (ht : Table s.pop s.div)
    {x : Individual α} (hx : x.number ∉ nums s.pop) (hc : ∀ y ∈ s.pop, (y.cmp x).isSome)
    (hb : ∀ y ∈ s.pop, (y.brokenPairs x).isSome) : ∃ s', s.add cfg bs x = some s' := by
  obtain ⟨os, hos, hlen⟩ := compareAll_total x s.pop hc
  have hle : bs os ≤ s.pop.length := hlen ▸ (hbs os).1
  obtain ⟨q1, q2⟩ := eraseIdx_insertIdx (x := x) hle
  obtain ⟨m, hmm⟩ := addDivs_total (bs := bs) s.pop s.div hb
  have hT : Table (s.pop.insertIdx (bs os) x) m :=
    (ht.insert hbs hx hmm).perm (List.perm_insertIdx _ _ hle)
  unfold add
  rw [hos, Option.bind_some]
  unfold insertAt
  rw [if_pos hle, Option.bind_some]
  unfold updateDiversity
  dsimp only
  rw [q1, q2]
  dsimp only
  rw [hmm, Option.map_some, Option.bind_some]
  dsimp only
  have hcl : ∃ c, (if 1 < (s.pop.insertIdx (bs os) x).length then
      ((s.pop.insertIdx (bs os) x)[bs os]?).bind
        (isClone ⟨s.pop.insertIdx (bs os) x, m, s.focus, s.maxInd⟩) else some false) = some c := by
    split
    · rename_i h1
      rw [q2, Option.bind_some]
      exact isClone_total (s := ⟨s.pop.insertIdx (bs os) x, m, s.focus, s.maxInd⟩) hT h1
        (List.mem_iff_getElem?.mpr ⟨_, q2⟩)
    · exact ⟨_, rfl⟩
  obtain ⟨c, hcl⟩ := hcl
  rw [hcl, Option.bind_some]
  have hs2 : ∃ s2 : SubPop α, (if c = true then
      SubPop.remove cfg (bs os) ⟨s.pop.insertIdx (bs os) x, m, s.focus, s.maxInd⟩
      else updateFitness cfg ⟨s.pop.insertIdx (bs os) x, m, s.focus, s.maxInd⟩) = some s2 ∧
      Table s2.pop s2.div := by
    split
    · obtain ⟨s2, h2⟩ := remove_total (s := ⟨s.pop.insertIdx (bs os) x, m, s.focus, s.maxInd⟩) ha hT hn
        (i := bs os) (List.getElem?_eq_some_iff.mp q2).1
      exact ⟨s2, h2, remove_table h2 hT⟩
    · obtain ⟨s2, h2⟩ := updateFitness_total
        (s := ⟨s.pop.insertIdx (bs os) x, m, s.focus, s.maxInd⟩) ha hT hn
      obtain ⟨e1, e2, -⟩ := updateFitness_strip h2
      exact ⟨s2, h2, e2 ▸ hT.congr e1⟩
  obtain ⟨s2, hs2, hT2⟩ := hs2
  rw [hs2, Option.bind_some]
  split
  · exact selectLoop_total ha hn hm (by omega) hT2
  · exact ⟨_, rfl⟩

/-- Re-evaluated members. -/
theorem Table.rel {n : ℕ} {P Q : List (Individual α)} {m : ℕ → Option (List Diversity)} (h : Table P m)
    (hr : List.Forall₂ (fun x y => y.number = x.number ∧ Individual.NbrEq n x y) P Q) : Table Q m := by
  have en : nums Q = nums P := by
    clear h
    induction hr with
    | nil => rfl
    | cons h _ ih => simp only [nums, List.map_cons] at ih ⊢; rw [h.1, ih]
  have el : Q.length = P.length := hr.length_eq.symm
  refine ⟨en ▸ h.nodup, en ▸ h.keys, el ▸ en ▸ h.present, en ▸ h.targets, h.sorted, h.symm, ?_⟩
  have left : ∀ x ∈ P, ∃ y ∈ Q, y.number = x.number ∧ Individual.NbrEq n x y := by
    clear h en el
    induction hr with
    | nil => simp
    | cons h _ ih =>
      intro x hx
      rw [List.mem_cons] at hx
      rcases hx with rfl | hx
      · exact ⟨_, by simp, h⟩
      · obtain ⟨y, hy, r⟩ := ih x hx
        exact ⟨y, by simp [hy], r⟩
  have right : ∀ y ∈ Q, ∃ x ∈ P, y.number = x.number ∧ Individual.NbrEq n x y := by
    clear h en el left
    induction hr with
    | nil => simp
    | cons h _ ih =>
      intro x hx
      rw [List.mem_cons] at hx
      rcases hx with rfl | hx
      · exact ⟨_, by simp, h⟩
      · obtain ⟨y, hy, r⟩ := ih x hx
        exact ⟨y, by simp [hy], r⟩
  intro x hx d hd
  obtain ⟨x0, hx0, e0, r0⟩ := right x hx
  obtain ⟨y0, hy0, e1, hv⟩ := h.value x0 hx0 d (e0 ▸ hd)
  obtain ⟨y, hy, e2, r2⟩ := left y0 hy0
  refine ⟨y, hy, e2.trans e1, ?_⟩
  rw [← Individual.brokenPairs_congr r0 r2, ← Individual.brokenPairs_congr r2 r0]
  exact hv

end SubPop

/-! ### Feasibility does not depend on the penalty -/

theorem evalNodes_pen (ctx : Ctx α) (pen : α) : ∀ (l : List ℕ) (a : EvalAcc α),
    evalNodes (RR.ctxAt ctx pen) l a = evalNodes ctx l a
  | [], _ => rfl
  | x :: xs, a => by
    unfold evalNodes
    split
    · exact evalNodes_pen ctx pen xs _
    · rfl

theorem evalRoutes_feasible (ctx : Ctx α) (pen : α) : ∀ (sol : List (List ℕ)) (i : ℕ)
    (e f e' f' : SolEval α), evalRoutes (RR.ctxAt ctx pen) sol i e = some e' →
      evalRoutes ctx sol i f = some f' → e.preds.length = f.preds.length →
      e.succs.length = f.succs.length → e.feasible = f.feasible → e'.feasible = f'.feasible
  | [], i, e, f, e', f', h1, h2, _, _, h => by
    simp only [evalRoutes, Option.some.injEq] at h1 h2
    rw [← h1, ← h2, h]
  | r :: rs, i, e, f, e', f', h1, h2, hp, hs, h => by
    unfold evalRoutes at h1 h2
    rw [evalNodes_pen] at h1
    have key : ∀ (l : List ℕ) (a b a' b' : EvalAcc α), evalNodes ctx l a = some a' →
        evalNodes ctx l b = some b' → a.last = b.last → a.load = b.load →
        a.preds.length = b.preds.length → a.succs.length = b.succs.length →
        a'.load = b'.load ∧ a'.preds.length = b'.preds.length ∧ a'.succs.length = b'.succs.length := by
      intro l
      induction l with
      | nil =>
        intro a b a' b' h1 h2 _ hl hp hs
        simp only [evalNodes, Option.some.injEq] at h1 h2
        subst h1 h2
        exact ⟨hl, hp, hs⟩
      | cons x xs ih =>
        intro a b a' b' h1 h2 hla hl hp hs
        unfold evalNodes at h1 h2
        split at h1
        · rename_i p1 s1 e1 e2
          split at h2
          · rename_i p2 s2 e3 e4
            obtain ⟨-, rfl⟩ := setIdx_eq_some e1
            obtain ⟨-, rfl⟩ := setIdx_eq_some e2
            obtain ⟨-, rfl⟩ := setIdx_eq_some e3
            obtain ⟨-, rfl⟩ := setIdx_eq_some e4
            exact ih _ _ _ _ h1 h2 rfl (by simp [hl]) (by simpa using hp) (by simpa using hs)
          · simp at h2
        · simp at h1
    split at h1
    · simp at h1
    · rename_i a ha
      split at h2
      · simp at h2
      · rename_i b hb
        obtain ⟨k1, k2, k3⟩ := key r _ _ _ _ ha hb rfl rfl hp hs
        split at h1
        · simp at h1
        · rename_i s1 es1
          dsimp only at h1
          split at h1
          · simp at h1
          · split at h2
            · simp at h2
            · rename_i s2 es2
              dsimp only at h2
              split at h2
              · simp at h2
              · obtain ⟨-, rfl⟩ := setIdx_eq_some es1
                obtain ⟨-, rfl⟩ := setIdx_eq_some es2
                refine evalRoutes_feasible ctx pen rs _ _ _ _ _ h1 h2 k2 ?_ ?_
                · dsimp only
                  rw [List.length_set, List.length_set]
                  exact k3
                · dsimp only [RR.ctxAt]
                  rw [k1, h]
                  rfl

theorem evaluate_feasible {ctx : Ctx α} {pen pen' : α} {sol : List (List ℕ)} {e f e' f' : SolEval α}
    (h1 : evaluate (RR.ctxAt ctx pen) e sol = some e') (h2 : evaluate (RR.ctxAt ctx pen') f sol = some f') :
    e'.feasible = f'.feasible := by
  have : RR.ctxAt ctx pen = RR.ctxAt (RR.ctxAt ctx pen') pen := rfl
  rw [this] at h1
  exact evalRoutes_feasible (RR.ctxAt ctx pen') pen sol 0 _ _ _ _ h1 h2
    (by simp [SolEval.reset, resize_length, RR.ctxAt]) (by simp [SolEval.reset, resize_length, RR.ctxAt])
    rfl

/-! ### Histories of a population -/

/-- Everything that can happen to a population: complete individuals, evaluated under the penalty of the
moment, are added, and the infeasible subpopulation is re-evaluated and sorted after a change of the
penalty. The list collects the outcomes the feasibility history was updated with; `ok` restricts the
individuals (`fun _ => True` for no restriction). -/
inductive Population.Run (ctx : Ctx α) (cfg : PopCfg) (bs : BSearch)
    (sort : List (Individual α) → Option (List (Individual α))) (ok : Individual α → Prop) :
    Population α → List Bool → Prop
  | new : Run ctx cfg bs sort ok (Population.new cfg) []
  | add {p p' : Population α} {hs : List Bool} {pen : α} {x : Individual α} {upd : Bool}
      (r : Run ctx cfg bs sort ok p hs) (hx : x.Good (RR.ctxAt ctx pen)) (hok : ok x)
      (h : p.add cfg bs x upd = some p') :
      Run ctx cfg bs sort ok p' (if upd then hs ++ [x.isFeasible] else hs)
  | reprice {p p' : Population α} {hs : List Bool} {pen : α} (r : Run ctx cfg bs sort ok p hs)
      (h : p.reprice sort (RR.ctxAt ctx pen) = some p') (hok : ∀ x ∈ p'.infeasible.pop, ok x) :
      Run ctx cfg bs sort ok p' hs

/-- The invariant of one subpopulation; `good` is the class of its members. -/
structure SubPop.Inv (ctx : Ctx α) (cfg : PopCfg) (total : ℕ) (feasible : Bool) (s : SubPop α) :
    Prop where
  table : SubPop.Table s.pop s.div
  good : ∀ x ∈ s.pop, ∃ pen, x.Good (RR.ctxAt ctx pen)
  class_ : ∀ x ∈ s.pop, x.isFeasible = feasible
  low : ∀ x ∈ s.pop, x.number < total
  maxInd : s.maxInd = cfg.minSize + cfg.lambda
  focus : s.focus = false
  size : s.pop.length < cfg.minSize + cfg.lambda ∨ s.pop.length ≤ cfg.minSize

theorem Individual.good_strip {ctx : Ctx α} {x y : Individual α} (e : SubPop.strip y = SubPop.strip x)
    (h : x.Good ctx) : y.Good ctx := by
  have h1 : y.genotype = x.genotype := congrArg (f := Individual.genotype) (a₁ := SubPop.strip y) (a₂ := SubPop.strip x) e
  have h2 : y.phenotype = x.phenotype := congrArg (f := Individual.phenotype) (a₁ := SubPop.strip y) (a₂ := SubPop.strip x) e
  have h3 : y.evaluation = x.evaluation := congrArg (f := Individual.evaluation) (a₁ := SubPop.strip y) (a₂ := SubPop.strip x) e
  exact ⟨h2 ▸ h.part, by rw [h1, h2]; exact h.geno, by rw [h2, h3]; exact h.eval⟩

theorem Individual.good_number {ctx : Ctx α} {x : Individual α} (k : ℕ) (h : x.Good ctx) :
    ({ x with number := k } : Individual α).Good ctx := ⟨h.part, h.geno, h.eval⟩

namespace SubPop

theorem Inv.new {ctx : Ctx α} {cfg : PopCfg} {f : Bool} : Inv ctx cfg 0 f (SubPop.new cfg) :=
  ⟨Table.new, by simp [SubPop.new], by simp [SubPop.new], by simp [SubPop.new], rfl, rfl,
    Or.inr (by simp [SubPop.new])⟩

theorem Inv.mono {ctx : Ctx α} {cfg : PopCfg} {f : Bool} {t : ℕ} {s : SubPop α} (h : Inv ctx cfg t f s) :
    Inv ctx cfg (t + 1) f s :=
  { h with low := fun x hx => Nat.lt_succ_of_lt (h.low x hx) }

theorem Inv.fresh {ctx : Ctx α} {cfg : PopCfg} {f : Bool} {t : ℕ} {s : SubPop α} (h : Inv ctx cfg t f s) :
    t ∉ nums s.pop := by
  intro hc
  obtain ⟨x, hx, e⟩ := List.mem_map.mp hc
  have := h.low x hx
  omega

theorem Inv.add {ctx : Ctx α} {cfg : PopCfg} {f : Bool} {t : ℕ} {s s' : SubPop α} {bs : BSearch}
    (hbs : BSearchOK bs) (h : Inv ctx cfg t f s) {x : Individual α} {pen : α}
    (hx : x.Good (RR.ctxAt ctx pen)) (hf : x.isFeasible = f) (hn : x.number = t)
    (ha : s.add cfg bs x = some s') : Inv ctx cfg (t + 1) f s' := by
  obtain ⟨h1, h2, h3, h4, h5⟩ := add_summary hbs ha h.table (hn ▸ h.fresh)
  refine ⟨h1, ?_, ?_, ?_, h2.trans h.maxInd, h3.trans h.focus, ?_⟩
  · intro y hy
    obtain ⟨z, hz, e⟩ := h4 y hy
    rw [List.mem_cons] at hz
    rcases hz with rfl | hz
    · exact ⟨pen, Individual.good_strip e hx⟩
    · obtain ⟨p, hp⟩ := h.good z hz
      exact ⟨p, Individual.good_strip e hp⟩
  · intro y hy
    obtain ⟨z, hz, e⟩ := h4 y hy
    have : y.isFeasible = z.isFeasible := congrArg (fun x => x.evaluation.feasible) e
    rw [this]
    rw [List.mem_cons] at hz
    rcases hz with rfl | hz
    · exact hf
    · exact h.class_ z hz
  · intro y hy
    obtain ⟨z, hz, e⟩ := h4 y hy
    have : y.number = z.number :=
      congrArg (f := Individual.number) (a₁ := strip y) (a₂ := strip z) e
    rw [this]
    rw [List.mem_cons] at hz
    rcases hz with rfl | hz
    · omega
    · exact Nat.lt_succ_of_lt (h.low z hz)
  · rw [h2, h.maxInd] at h5
    exact h5

end SubPop

namespace Population

/-- The invariant of a population. -/
structure Inv (ctx : Ctx α) (cfg : PopCfg) (p : Population α) : Prop where
  feasible : SubPop.Inv ctx cfg p.total true p.feasible
  infeasible : SubPop.Inv ctx cfg p.total false p.infeasible

/-- The std sort returns a rearrangement (if it does not panic). -/
def SortPerm (sort : List (Individual α) → Option (List (Individual α))) : Prop :=
  ∀ l l', sort l = some l' → l'.Perm l

theorem evaluateAll_some {ctx : Ctx α} : ∀ {l l' : List (Individual α)}, evaluateAll ctx l = some l' →
    List.Forall₂ (fun x y => x.evaluate ctx = some y) l l'
  | [], l', h => by
    simp only [evaluateAll, Option.some.injEq] at h
    subst h
    exact .nil
  | x :: xs, l', h => by
    unfold evaluateAll at h
    obtain ⟨y, hy, h⟩ := Option.bind_eq_some_iff.mp h
    obtain ⟨ys, hys, rfl⟩ := Option.map_eq_some_iff.mp h
    exact .cons hy (evaluateAll_some hys)

theorem evaluateAll_total {ctx : Ctx α} : ∀ (l : List (Individual α)),
    (∀ x ∈ l, ∃ y, x.evaluate ctx = some y) → ∃ l', evaluateAll ctx l = some l'
  | [], _ => ⟨[], rfl⟩
  | x :: xs, h => by
    obtain ⟨y, hy⟩ := h x (by simp)
    obtain ⟨l', hl⟩ := evaluateAll_total xs fun z hz => h z (by simp [hz])
    unfold evaluateAll
    rw [hy, Option.bind_some, hl]
    exact ⟨_, rfl⟩

theorem evaluate_good {ctx : Ctx α} {pen pen' : α} {x y : Individual α} (hx : x.Good (RR.ctxAt ctx pen))
    (h : x.evaluate (RR.ctxAt ctx pen') = some y) :
    y.Good (RR.ctxAt ctx pen') ∧ y.number = x.number ∧ Individual.NbrEq ctx.n x y ∧
      y.isFeasible = x.isFeasible ∧ y.phenotype = x.phenotype := by
  unfold Individual.evaluate at h
  obtain ⟨e, he, rfl⟩ := Option.map_eq_some_iff.mp h
  have hg : ({ x with evaluation := e } : Individual α).Good (RR.ctxAt ctx pen') :=
    ⟨hx.part, hx.geno, _, he⟩
  refine ⟨hg, rfl, Individual.Good.nbrEq (ctx := RR.ctxAt ctx pen) (ctx' := RR.ctxAt ctx pen') rfl hx hg rfl, ?_, rfl⟩
  obtain ⟨e0, h0⟩ := hx.eval
  exact (evaluate_feasible he h0)

theorem Inv.reprice {ctx : Ctx α} {cfg : PopCfg} {p p' : Population α} {pen : α}
    {sort : List (Individual α) → Option (List (Individual α))} (hs : SortPerm sort)
    (h : Inv ctx cfg p) (hr : p.reprice sort (RR.ctxAt ctx pen) = some p') :
    Inv ctx cfg p' ∧ p'.history = p.history ∧ p'.feasible = p.feasible ∧
      ∃ l, List.Forall₂ (fun x y => x.evaluate (RR.ctxAt ctx pen) = some y) p.infeasible.pop l ∧
        sort l = some p'.infeasible.pop := by
  unfold Population.reprice at hr
  obtain ⟨l, hl, hr⟩ := Option.bind_eq_some_iff.mp hr
  obtain ⟨l', hl', rfl⟩ := Option.map_eq_some_iff.mp hr
  have hp := hs l l' hl'
  have hf := evaluateAll_some hl
  have hrel : ∀ y ∈ l, ∃ x ∈ p.infeasible.pop, x.evaluate (RR.ctxAt ctx pen) = some y := by
    clear hl hl' hp hr
    generalize p.infeasible.pop = q at hf
    induction hf with
    | nil => simp
    | cons h _ ih =>
      intro y hy
      rw [List.mem_cons] at hy
      rcases hy with rfl | hy
      · exact ⟨_, by simp, h⟩
      · obtain ⟨x, hx, r⟩ := ih y hy
        exact ⟨x, by simp [hx], r⟩
  have hI := h.infeasible
  have hall : ∀ y ∈ l', ∃ x ∈ p.infeasible.pop, y.Good (RR.ctxAt ctx pen) ∧ y.number = x.number ∧
      y.isFeasible = x.isFeasible := by
    intro y hy
    obtain ⟨x, hx, he⟩ := hrel y (hp.mem_iff.mp hy)
    obtain ⟨q, hq⟩ := hI.good x hx
    obtain ⟨a, b, -, c, -⟩ := evaluate_good hq he
    exact ⟨x, hx, a, b, c⟩
  refine ⟨⟨h.feasible, ?_⟩, rfl, rfl, l, hf, hl'⟩
  refine ⟨?_, ?_, ?_, ?_, hI.maxInd, hI.focus, ?_⟩
  · refine SubPop.Table.perm ?_ hp
    refine hI.table.rel (n := ctx.n) ?_
    have hg := hI.good
    clear hl hl' hp hr hrel hall
    generalize p.infeasible.pop = q at hf hg
    induction hf with
    | nil => exact .nil
    | cons h _ ih =>
      obtain ⟨r, hr⟩ := hg _ List.mem_cons_self
      obtain ⟨-, b, c, -⟩ := evaluate_good hr h
      exact .cons ⟨b, c⟩ (ih fun x hx => hg x (by simp [hx]))
  · intro y hy
    obtain ⟨x, hx, a, b, c⟩ := hall y hy
    exact ⟨pen, a⟩
  · intro y hy
    obtain ⟨x, hx, a, b, c⟩ := hall y hy
    exact c.trans (hI.class_ x hx)
  · intro y hy
    obtain ⟨x, hx, a, b, c⟩ := hall y hy
    exact b ▸ hI.low x hx
  · dsimp only
    rw [hp.length_eq, ← hf.length_eq]
    exact hI.size

theorem Inv.add {ctx : Ctx α} {cfg : PopCfg} {bs : BSearch} (hbs : BSearchOK bs) {p p' : Population α}
    (h : Inv ctx cfg p) {x : Individual α} {pen : α} (hx : x.Good (RR.ctxAt ctx pen)) {upd : Bool}
    (ha : p.add cfg bs x upd = some p') : Inv ctx cfg p' := by
  unfold Population.add at ha
  dsimp only at ha
  have hx' := Individual.good_number p.total hx
  split at ha
  · rename_i hf
    obtain ⟨s, hs, rfl⟩ := Option.map_eq_some_iff.mp ha
    exact ⟨h.feasible.add hbs hx' hf rfl hs, h.infeasible.mono⟩
  · rename_i hf
    obtain ⟨s, hs, rfl⟩ := Option.map_eq_some_iff.mp ha
    exact ⟨h.feasible.mono, h.infeasible.add hbs hx' (by simpa using hf) rfl hs⟩

theorem Run.inv {ctx : Ctx α} {cfg : PopCfg} {bs : BSearch}
    {sort : List (Individual α) → Option (List (Individual α))} (hbs : BSearchOK bs)
    (hsort : SortPerm sort) {ok : Individual α → Prop} {p : Population α} {hs : List Bool}
    (h : Run ctx cfg bs sort ok p hs) :
    Inv ctx cfg p := by
  induction h with
  | new => exact ⟨SubPop.Inv.new, SubPop.Inv.new⟩
  | add _ hx _ ha ih => exact ih.add hbs hx ha
  | reprice _ hr _ ih => exact (ih.reprice hsort hr).1

theorem add_total {ctx : Ctx α} {cfg : PopCfg} {bs : BSearch} (hbs : BSearchOK bs)
    (ha : SubPop.AvgOK α cfg.numClosest) (hn : 1 ≤ cfg.numClosest) (hm : 1 ≤ cfg.minSize) {p : Population α}
    (h : Inv ctx cfg p) {x : Individual α} {pen : α} (hx : x.Good (RR.ctxAt ctx pen))
    (hc : ∀ y ∈ p.feasible.pop ++ p.infeasible.pop, (y.cmp x).isSome) (upd : Bool) :
    ∃ p', p.add cfg bs x upd = some p' := by
  have hx' := Individual.good_number p.total hx
  have hb : ∀ f t (s : SubPop α), SubPop.Inv ctx cfg t f s → ∀ y ∈ s.pop,
      (y.brokenPairs { x with number := p.total }).isSome := by
    intro f t s hs y hy
    obtain ⟨q, hq⟩ := hs.good y hy
    obtain ⟨d, hd⟩ := Individual.brokenPairs_total
      (Individual.Good.nbrEq (ctx := RR.ctxAt ctx q) rfl hq hq rfl)
      (Individual.Good.nbrEq (ctx := RR.ctxAt ctx pen) rfl hx' hx' rfl)
    rw [hd]
    rfl
  unfold Population.add
  dsimp only
  split
  · obtain ⟨s, hs⟩ := SubPop.add_total (cfg := cfg) hbs ha hn hm h.feasible.table
      (x := { x with number := p.total }) h.feasible.fresh
      (fun y hy => hc y (by simp [hy])) (hb _ _ _ h.feasible)
    rw [hs]
    exact ⟨_, rfl⟩
  · obtain ⟨s, hs⟩ := SubPop.add_total (cfg := cfg) hbs ha hn hm h.infeasible.table
      (x := { x with number := p.total }) h.infeasible.fresh
      (fun y hy => hc y (by simp [hy])) (hb _ _ _ h.infeasible)
    rw [hs]
    exact ⟨_, rfl⟩

end Population
end Verif
