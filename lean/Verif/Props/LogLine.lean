import Verif.Model.Log
import Verif.Props.FitnessRank
import Verif.Props.Elites
import Verif.Props.PenaltyTimes

/-!
# C90: what the log line says

Sizes, costs, diversities, the fraction of feasible individuals and the penalty printed in the log.
-/

namespace Verif
open F64

namespace Spec

/-- The mean of a list of numbers. -/
def mean (l : List ℚ) : ℚ := l.sum / l.length

/-- The mean, over the first `k` members, of the mean distance to the nearest others (as many as `k`, or all). -/
def spread (k : ℕ) (pop : List (Individual ℚ)) (dist : ℕ → ℕ → ℕ) : ℚ :=
  mean ((pop.take k).map fun y => meanSmallest (min k (pop.length - 1))
    (((pop.map (·.number)).erase y.number).map (dist y.number)))

theorem mean_le {l : List ℚ} {b : ℚ} (hl : l ≠ []) (h : ∀ x ∈ l, x ≤ b) : mean l ≤ b := by
  have h0 : (0 : ℚ) < l.length := by exact_mod_cast List.length_pos_iff.mpr hl
  unfold mean
  rw [div_le_iff₀ h0]
  have := List.sum_le_card_nsmul l b h
  rw [nsmul_eq_mul] at this
  linarith

theorem le_mean {l : List ℚ} {b : ℚ} (hl : l ≠ []) (h : ∀ x ∈ l, b ≤ x) : b ≤ mean l := by
  have h0 : (0 : ℚ) < l.length := by exact_mod_cast List.length_pos_iff.mpr hl
  unfold mean
  rw [le_div_iff₀ h0]
  have := List.card_nsmul_le_sum l b h
  rw [nsmul_eq_mul] at this
  linarith

theorem meanSmallest_bounds {k : ℕ} {ds : List ℕ} {a b : ℕ} (h0 : 0 < k) (hk : k ≤ ds.length)
    (h : ∀ d ∈ ds, a ≤ d ∧ d ≤ b) : (a : ℚ) ≤ meanSmallest k ds ∧ meanSmallest k ds ≤ b := by
  have hl : ((ds.mergeSort fun a b => a ≤ b).take k).length = k := by
    rw [List.length_take, List.length_mergeSort]; omega
  have hm : ∀ d ∈ (ds.mergeSort fun a b => a ≤ b).take k, a ≤ d ∧ d ≤ b := fun d hd =>
    h d ((List.mergeSort_perm _ _).subset (List.mem_of_mem_take hd))
  have h1 := List.card_nsmul_le_sum _ a fun d hd => (hm d hd).1
  have h2 := List.sum_le_card_nsmul _ b fun d hd => (hm d hd).2
  rw [hl, smul_eq_mul] at h1 h2
  have hq : (0 : ℚ) < k := by exact_mod_cast h0
  unfold meanSmallest
  rw [le_div_iff₀ hq, div_le_iff₀ hq]
  constructor
  · rw [mul_comm]; exact_mod_cast h1
  · rw [mul_comm (b : ℚ)]; exact_mod_cast h2

end Spec

/-! ### Distances -/

/-- The broken pairs distance of two plans is less than twice the number of customers. -/
theorem brokenPairs_lt {α : Type} [F64 α] {ctx ctx' : Ctx α} (hn : ctx'.n = ctx.n) (h2 : 2 ≤ ctx.n)
    {x y : Individual α} (hx : x.Good ctx) (hy : y.Good ctx') {d : ℕ} (h : x.brokenPairs y = some d) :
    d < 2 * (ctx.n - 1) := by
  obtain ⟨c, hc, hsum⟩ := Individual.brokenPairsLoop_sum _ _ _ h
  have hgl := hx.geno_length
  have hc2 : ∀ i ∈ List.range' 1 x.genotype.length, c i ≤ 2 := by
    intro i hi
    have := hc i hi
    unfold Individual.brokenPairsAt at this
    split at this
    · rw [Option.some.injEq] at this
      rw [← this]
      split_ifs <;> omega
    · simp at this
  -- the first customer of a route of `y` counts at most once
  have hflat : y.phenotype.flatten ≠ [] := by
    intro e
    have := hy.part.length
    rw [e] at this
    simp at this
    omega
  obtain ⟨r, hr, hrne⟩ : ∃ r ∈ y.phenotype, r ≠ [] := by
    by_contra hcon
    refine hflat (List.flatten_eq_nil_iff.mpr fun l hl => ?_)
    by_contra hne
    exact hcon ⟨l, hl, hne⟩
  obtain ⟨v, r', rfl⟩ := List.exists_cons_of_ne_nil hrne
  have hv := hy.part.mem_iff.mp (List.mem_flatten.mpr ⟨_, hr, List.mem_cons_self⟩)
  rw [hn] at hv
  have hvm : v ∈ List.range' 1 x.genotype.length := by
    rw [List.mem_range'_1, hgl]; omega
  have hv1 : c v ≤ 1 := by
    have e := hc v hvm
    have hp : y.predecessor v = some 0 := (hy.nbrs (u := 0) (v := v)
      ⟨_, hr, [], r' ++ [0], rfl⟩).1 (by omega)
    unfold Individual.brokenPairsAt at e
    rw [hp] at e
    split at e
    · rename_i yp _ _ _ _ _ e3 _ _
      rw [Option.some.injEq] at e e3
      rw [← e]
      subst e3
      simp only [ne_eq, not_true_eq_false, false_and, and_false, if_false, Nat.add_zero]
      split_ifs <;> omega
    · simp at e
  have key : ∀ l : List ℕ, (∀ i ∈ l, c i ≤ 2) → (l.map c).sum ≤ 2 * l.length ∧
      (v ∈ l → (l.map c).sum + 1 ≤ 2 * l.length) := by
    intro l
    induction l with
    | nil => simp
    | cons a l ih =>
      intro hl
      have := ih fun i hi => hl i (by simp [hi])
      have ha := hl a (by simp)
      simp only [List.map_cons, List.sum_cons, List.length_cons, List.mem_cons]
      refine ⟨by omega, ?_⟩
      rintro (rfl | h)
      · omega
      · have := this.2 h; omega
  have := (key _ hc2).2 hvm
  rw [List.length_range'] at this
  omega

namespace SubPop

/-- The members of a subpopulation are at distances from one to less than twice the number of customers. -/
theorem recorded_bounds {ctx : Ctx ℚ} {cfg : PopCfg} {t : ℕ} {f : Bool} {s : SubPop ℚ} (hn : 2 ≤ ctx.n)
    (hI : s.Inv ctx cfg t f) (hcl : ∀ x ∈ s.pop, s.isClone x = some false) {x : Individual ℚ} (hx : x ∈ s.pop)
    {k : ℕ} (hk : k ∈ (nums s.pop).erase x.number) :
    1 ≤ recorded s.div x.number k ∧ recorded s.div x.number k ≤ 2 * (ctx.n - 1) - 1 := by
  have kx : x.number ∈ nums s.pop := List.mem_map_of_mem hx
  have : k ∈ (vec s.div x.number).map (·.target) := (hI.table.targets _ kx).mem_iff.mpr hk
  obtain ⟨d, hd, e⟩ := List.mem_map.mp this
  have e1 := recorded_eq hI.table kx hd
  rw [e] at e1
  rw [e1]
  constructor
  · have hc := hcl x hx
    have hso := hI.table.sorted x.number
    unfold isClone at hc
    unfold vec at hd hso
    cases hv : s.div x.number with
    | none => rw [hv] at hc; simp at hc
    | some v =>
      rw [hv] at hc hd hso
      dsimp only [Option.getD_some] at hc hd hso
      cases v with
      | nil => simp at hd
      | cons a v =>
        simp only [List.getElem?_cons_zero, Option.map_some, Option.some.injEq, beq_eq_false_iff_ne, ne_eq] at hc
        rcases List.mem_cons.mp hd with rfl | hd
        · omega
        · have := (List.pairwise_cons.mp hso).1 d hd
          omega
  · obtain ⟨y, hy, -, hv⟩ := hI.table.value x hx d hd
    obtain ⟨p, gx⟩ := hI.good x hx
    obtain ⟨q, gy⟩ := hI.good y hy
    rcases hv with hv | hv
    · have := brokenPairs_lt (ctx := RR.ctxAt ctx p) (ctx' := RR.ctxAt ctx q) rfl hn gx gy hv
      change d.distance < 2 * (ctx.n - 1) at this
      omega
    · have := brokenPairs_lt (ctx := RR.ctxAt ctx q) (ctx' := RR.ctxAt ctx p) rfl hn gy gx hv
      change d.distance < 2 * (ctx.n - 1) at this
      omega

theorem getDiversity_spread {cfg : PopCfg} {s : SubPop ℚ} (ht : Table s.pop s.div) (h1 : 1 ≤ cfg.minSize)
    (h2 : 2 ≤ s.pop.length) :
    s.getDiversity cfg = some (Spec.spread (min s.pop.length cfg.minSize) s.pop (recorded s.div)) := by
  have hmin : Nat.min s.pop.length cfg.minSize = min s.pop.length cfg.minSize := rfl
  unfold getDiversity
  dsimp only
  rw [hmin]
  generalize hk : min s.pop.length cfg.minSize = k
  have hk0 : 0 < k := by omega
  have hkl : k ≤ s.pop.length := by omega
  have key : ∀ (l : List (Individual ℚ)) (t : ℚ), (∀ x ∈ l, x ∈ s.pop) →
      l.foldlM (fun t x => (s.average x k).map fun a => t +. a) t = some (t + (l.map fun y =>
        Spec.meanSmallest (min k (s.pop.length - 1)) (((nums s.pop).erase y.number).map (recorded s.div y.number))).sum) := by
    intro l
    induction l with
    | nil => intro t _; simp
    | cons x l ih =>
      intro t hl
      rw [List.foldlM_cons, recorded_mean ht h2 k (hl x (by simp)), Option.map_some]
      refine (ih _ fun y hy => hl y (by simp [hy])).trans ?_
      rw [rat_add, List.map_cons, List.sum_cons, add_assoc]
  rw [key _ _ fun x hx => List.mem_of_mem_take hx, Option.map_some, if_pos hk0]
  unfold Spec.spread Spec.mean
  rw [List.length_map, List.length_take, min_eq_left hkl]
  simp only [rat_div, rat_lit, zero_add]
  rfl

theorem averageCost_mean {cfg : PopCfg} {s : SubPop ℚ} (h1 : 1 ≤ cfg.minSize) (h2 : s.pop ≠ []) :
    s.averageCost cfg = Spec.mean ((s.pop.map (·.cost)).take cfg.minSize) := by
  have hl := List.length_pos_iff.mpr h2
  have hmin : Nat.min s.pop.length cfg.minSize = min s.pop.length cfg.minSize := rfl
  unfold averageCost
  dsimp only
  rw [hmin, if_pos (by omega)]
  have key : ∀ (l : List (Individual ℚ)) (t : ℚ), l.foldl (fun t x => t +. x.cost) t = t + (l.map (·.cost)).sum := by
    intro l
    induction l with
    | nil => intro t; simp
    | cons x l ih =>
      intro t
      rw [List.foldl_cons, ih, rat_add, List.map_cons, List.sum_cons, add_assoc]
  rw [key]
  unfold Spec.mean
  have e : s.pop.take (min s.pop.length cfg.minSize) = s.pop.take cfg.minSize := by
    rw [List.take_eq_take_iff]
    omega
  rw [e, ← List.map_take, List.length_map, List.length_take, min_comm cfg.minSize]
  simp only [rat_div, rat_lit, zero_add]

end SubPop

/-! ### The theorems -/

namespace Spec

/-- What one of the two subpopulations contributes to the log line: its size; the cost of its first member (zero if
there is none); the mean cost of its first `minSize` members (minus one if there is none); and from two members on the
mean distance to the nearest others among them, divided by the number of customers. -/
structure SubLog (cfg : PopCfg) (n : ℕ) (pop : List (Individual ℚ)) (size : ℕ) (best average diversity : ℚ) :
    Prop where
  size : size = pop.length
  none : pop = [] → best = 0 ∧ average = -1 ∧ diversity = -1 / (n - 1 : ℕ)
  best : ∀ x rest, pop = x :: rest → best = x.cost
  average : pop ≠ [] → average = mean ((pop.map (·.cost)).take cfg.minSize)
  diversity : 2 ≤ pop.length → ∃ dist, Distances pop dist ∧
    diversity = spread (min pop.length cfg.minSize) pop dist / (n - 1 : ℕ) ∧
    1 / (n - 1 : ℕ) ≤ diversity ∧ diversity < 2

/-- The line describes the population; the fraction of feasible individuals refers to the latest 100. -/
structure LogOK (cfg : PopCfg) (n : ℕ) (p : Population ℚ) (l : LogLine ℚ) : Prop where
  feasible : SubLog cfg n p.feasible.pop l.feasSize l.feasBest l.feasAverage l.feasDiversity
  infeasible : SubLog cfg n p.infeasible.pop l.infSize l.infBest l.infAverage l.infDiversity
  fraction : l.fraction = p.history.count true / 100 ∧ 0 ≤ l.fraction ∧ l.fraction ≤ 1

end Spec

open SubPop in
theorem subLog {ctx : Ctx ℚ} {cfg : PopCfg} {t : ℕ} {f : Bool} {s : SubPop ℚ} (hn : 2 ≤ ctx.n)
    (h1 : 1 ≤ cfg.minSize) (hI : s.Inv ctx cfg t f)
    (hcl : 2 ≤ s.pop.length → ∀ x ∈ s.pop, s.isClone x = some false) {d : ℚ} (hd : s.getDiversity cfg = some d) :
    Spec.SubLog cfg ctx.n s.pop s.pop.length s.bestCost (s.averageCost cfg) (d / (ctx.n - 1 : ℕ)) where
  size := rfl
  none h := by
    refine ⟨?_, ?_, ?_⟩
    · unfold bestCost; rw [h]; simp
    · unfold averageCost; rw [h]; simp
    · unfold getDiversity at hd
      rw [h] at hd
      simp at hd
      rw [← hd]
  best x rest h := by unfold bestCost; rw [h]; rfl
  average h := averageCost_mean h1 h
  diversity h2 := by
    rw [getDiversity_spread hI.table h1 h2, Option.some.injEq] at hd
    have hq : (0 : ℚ) < (ctx.n - 1 : ℕ) := by exact_mod_cast (by omega : 0 < ctx.n - 1)
    refine ⟨recorded s.div, fun x hx y hy hne => recorded_pair hI.table hx hy hne, by rw [hd], ?_⟩
    have hb : ∀ v ∈ (s.pop.take (min s.pop.length cfg.minSize)).map (fun y =>
        Spec.meanSmallest (min (min s.pop.length cfg.minSize) (s.pop.length - 1))
          (((s.pop.map (·.number)).erase y.number).map (recorded s.div y.number))),
        (1 : ℚ) ≤ v ∧ v ≤ (2 * (ctx.n - 1) - 1 : ℕ) := by
      intro v hv
      obtain ⟨y, hy, rfl⟩ := List.mem_map.mp hv
      have hy' := List.mem_of_mem_take hy
      have := Spec.meanSmallest_bounds (a := 1) (b := 2 * (ctx.n - 1) - 1)
        (k := min (min s.pop.length cfg.minSize) (s.pop.length - 1))
        (ds := ((s.pop.map (·.number)).erase y.number).map (recorded s.div y.number)) (by omega)
        (by
          rw [List.length_map, List.length_erase_of_mem (List.mem_map_of_mem hy'), List.length_map]
          omega)
        (by
          intro d hd
          obtain ⟨k, hk, rfl⟩ := List.mem_map.mp hd
          exact recorded_bounds hn hI (hcl h2) hy' hk)
      exact ⟨by exact_mod_cast this.1, this.2⟩
    have hne : (s.pop.take (min s.pop.length cfg.minSize)).map (fun y =>
        Spec.meanSmallest (min (min s.pop.length cfg.minSize) (s.pop.length - 1))
          (((s.pop.map (·.number)).erase y.number).map (recorded s.div y.number))) ≠ [] := by
      intro e
      have := congrArg List.length e
      rw [List.length_map, List.length_take, List.length_nil] at this
      omega
    have e1 : (1 : ℚ) ≤ d := by rw [← hd]; exact Spec.le_mean hne fun v hv => (hb v hv).1
    have e2 : d ≤ (2 * (ctx.n - 1) - 1 : ℕ) := by rw [← hd]; exact Spec.mean_le hne fun v hv => (hb v hv).2
    have e3 : ((2 * (ctx.n - 1) - 1 : ℕ) : ℚ) < 2 * (ctx.n - 1 : ℕ) := by
      exact_mod_cast (by omega : 2 * (ctx.n - 1) - 1 < 2 * (ctx.n - 1))
    rw [div_le_div_iff_of_pos_right hq, div_lt_iff₀ hq]
    exact ⟨e1, by linarith⟩

/-- What is logged in a state whose population has a history. -/
theorem GA.logLine_ok {env : GAEnv ℚ} {ctx : Ctx ℚ} (hn : 2 ≤ ctx.n) (hbs : BSearchOK env.bs)
    (hsort : Population.SortPerm env.sort) (h1 : 1 ≤ env.pop.minSize) {g : GA ℚ} {hs : List Bool}
    (hr : g.pop.Run ctx env.pop env.bs env.sort (fun _ => True) hs) (hk : g.bestIteration ≤ g.iterations) :
    ∃ l, GA.logLine env ctx g = some l ∧ Spec.LogOK env.pop ctx.n g.pop l ∧ l.iterations = g.iterations ∧
      l.sinceBest = g.iterations - g.bestIteration ∧ l.pen = g.rr.pen := by
  have hI := hr.inv hbs hsort
  obtain ⟨a, ha⟩ := SubPop.getDiversity_total hI.feasible.table env.pop
  obtain ⟨b, hb⟩ := SubPop.getDiversity_total hI.infeasible.table env.pop
  have hnc := C87_no_clones ctx env.pop env.bs hbs env.sort hsort g.pop hs hr
  have hcl : ∀ s ∈ [g.pop.feasible, g.pop.infeasible], 2 ≤ s.pop.length → ∀ x ∈ s.pop, s.isClone x = some false := by
    intro s hs h2 x hx
    obtain ⟨i, hi⟩ := List.mem_iff_getElem?.mp hx
    have hil := (List.getElem?_eq_some_iff.mp hi).1
    obtain ⟨j, hj, hij⟩ : ∃ j, j < s.pop.length ∧ i ≠ j := by
      by_cases h0 : i = 0
      · exact ⟨1, by omega, by omega⟩
      · exact ⟨0, by omega, h0⟩
    exact (hnc s hs i j x _ hi (List.getElem?_eq_getElem hj) hij).2.2
  have hlen := (C36_classes ctx env.pop env.bs hbs env.sort hsort g.pop hs hr).2.2.2.2.2.1
  unfold logLine
  rw [if_pos hk, ha, Option.bind_some, hb]
  refine ⟨_, rfl, ⟨?_, ?_, ?_⟩, rfl, rfl, rfl⟩
  · have := subLog hn h1 hI.feasible (hcl _ (by simp)) ha
    simpa only [rat_div, rat_lit] using this
  · have := subLog hn h1 hI.infeasible (hcl _ (by simp)) hb
    simpa only [rat_div, rat_lit] using this
  · have hc : g.pop.history.count true ≤ 100 := hlen ▸ List.count_le_length
    dsimp only
    simp only [rat_div, rat_lit, hlen]
    have hc' : ((g.pop.history.count true : ℕ) : ℚ) ≤ 100 := by exact_mod_cast hc
    have h0 : (0 : ℚ) ≤ (g.pop.history.count true : ℕ) := Nat.cast_nonneg _
    norm_num
    constructor
    · positivity
    · rw [div_le_one (by norm_num)]
      exact hc'

/-- **C90 (partial).** In every reachable state the log line can be written and describes the population. Missing
from the full claim: that the diversities are fractions between 0 and 1; they can be larger, see
`C90_diversity_above_one_refuted`, and with fewer than two members they are meaningless, see
`C90_diversity_nan_refuted`. -/
theorem C90_log_partial (env : GAEnv ℚ) (ctx : Ctx ℚ) (hv : GA.Valid env ctx) (h1 : 1 ≤ env.pop.minSize)
    (g : GA ℚ) (h : GA.Reach env ctx GA.ChOK g) :
    ∃ l, GA.logLine env ctx g = some l ∧ Spec.LogOK env.pop ctx.n g.pop l ∧ l.iterations = g.iterations ∧
      l.sinceBest + g.bestIteration = g.iterations ∧ l.pen = g.rr.pen := by
  obtain ⟨hi, -, -⟩ := h.inv hv
  obtain ⟨hs, hr⟩ := hi.base.pop
  have hk := C55_best_iteration env ctx _ g h
  obtain ⟨l, e1, e2, e3, e4, e5⟩ := GA.logLine_ok hv.n hv.bs hv.sort h1 hr hk
  exact ⟨l, e1, e2, e3, by omega, e5⟩

/-- **C90, the lines of a run (partial).** The line that a step in the state `Cycle` logs describes the population with
the child in it; unless the step ends in a restart, that is the population that the step leaves behind. The penalty in
the line is the one just updated, between `0.0001` and `10000000`. -/
theorem C90_cycle_partial (env : GAEnv ℚ) (ctx : Ctx ℚ) (hv : GA.Valid env ctx) (h1 : 1 ≤ env.pop.minSize)
    (g : GA ℚ) (h : GA.Reach env ctx GA.ChOK g) (hs : g.state = .cycle) (ch : GAChoice ℚ) (hch : GA.ChOK ch)
    (g' : GA ℚ) (hg : GA.stepCycle env ctx ch g = some g') :
    ∃ line, GA.cycleLog env ctx ch g = some line ∧ (line.isSome ↔ g.nextLog ≤ g.iterations) ∧
      ∀ l, line = some l → l.iterations = g.iterations ∧ 1 / 10000 ≤ l.pen ∧ l.pen ≤ 10000000 ∧
        l.pen = g'.rr.pen ∧
        ∃ p : Population ℚ, Spec.LogOK env.pop ctx.n p l ∧
          (g'.state = .cycle → p = g'.pop ∧ l.sinceBest + g'.bestIteration = g.iterations) := by
  obtain ⟨hi, -, -⟩ := h.inv hv
  have hm := hi.mu (Or.inr (Or.inr hs))
  unfold GA.stepCycle at hg
  obtain ⟨g1, e1, hg⟩ := Option.bind_eq_some_iff.mp hg
  obtain ⟨g2, e2, hg⟩ := Option.bind_eq_some_iff.mp hg
  obtain ⟨i1, -⟩ := GA.breed_edu hv hch (g := { g with ctxIteration := g.ctxIteration + 1 })
    ⟨hi.base.pop, hi.base.len, hi.base.ready, hi.base.nbr, hi.base.lsLen, hi.base.split⟩ hm e1
  obtain ⟨i2, -⟩ := GA.addToPop_edu hv i1 i1.child.good i1.child.len e2
  have f := (GA.breed_frame e1).trans (GA.addToPop_frame e2)
  have fs : g2.state = .cycle := f.state.trans hs
  have fi : g2.iterations = g.iterations := f.iterations
  have fl : g2.nextLog = g.nextLog := f.nextLog
  unfold GA.finishCycle at hg
  obtain ⟨g3, e3, hg⟩ := Option.bind_eq_some_iff.mp hg
  obtain ⟨g4, e4, hg⟩ := Option.bind_eq_some_iff.mp hg
  have k3 : GA.Base env ctx g3 ∧ GA.Mut env ctx 10000000 g3.rr ∧ g3.iterations = g.iterations ∧
      g3.nextLog = g.nextLog ∧ g3.state = .cycle := by
    have e3 := e3
    split at e3
    · obtain ⟨a, b, -⟩ := GA.updatePenalty_base hv i2.base i2.mu e3
      unfold GA.updatePenalty at e3
      obtain ⟨p, -, rfl⟩ := Option.map_eq_some_iff.mp e3
      exact ⟨a, b, fi, fl, fs⟩
    · rw [Option.some.injEq] at e3
      subst e3
      exact ⟨i2.base, i2.mu, fi, fl, fs⟩
  obtain ⟨b3, m3, it3, nl3, st3⟩ := k3
  have k4 : g4.pop = g3.pop ∧ g4.rr = g3.rr ∧ g4.iterations = g3.iterations ∧ g4.bestIteration = g3.bestIteration ∧
      g4.state = .cycle := by
    split at e4
    · obtain ⟨-, rfl⟩ := GA.log_some e4
      exact ⟨rfl, rfl, rfl, rfl, st3⟩
    · rw [Option.some.injEq] at e4
      subst e4
      exact ⟨rfl, rfl, rfl, rfl, st3⟩
  obtain ⟨p4, r4, it4, bi4, st4⟩ := k4
  split at hg
  · rename_i hk
    rw [Option.some.injEq] at hg
    obtain ⟨hs3, hr3⟩ := b3.pop
    obtain ⟨l, l1, l2, l3, l4, l5⟩ := GA.logLine_ok hv.n hv.bs hv.sort h1 hr3 (by rw [← it4, ← bi4]; exact hk)
    unfold GA.cycleLog
    rw [e1, Option.bind_some, e2, Option.bind_some, e3, Option.bind_some]
    have hpen : g'.rr.pen = g3.rr.pen := by
      rw [← hg, ← r4]
      dsimp only
      split <;> rfl
    by_cases hl : g3.nextLog ≤ g3.iterations
    · rw [if_pos hl, l1]
      refine ⟨_, rfl, ?_, ?_⟩
      · rw [← nl3, ← it3]
        simp [hl]
      · intro l' e
        simp only [Option.some.injEq] at e
        subst e
        refine ⟨l3.trans it3, l5 ▸ m3.pen.1, l5 ▸ m3.pen.2, l5.trans hpen.symm, g3.pop, l2, ?_⟩
        intro hst
        rw [← hg] at hst ⊢
        dsimp only at hst ⊢
        split at hst
        · simp [GA.reset] at hst
        · rename_i hc
          rw [if_neg hc]
          rw [bi4, p4]
          refine ⟨rfl, ?_⟩
          rw [l4, ← it3]
          rw [bi4, it4] at hk
          omega
    · rw [if_neg hl]
      refine ⟨_, rfl, ?_, fun l' e => by simp at e⟩
      rw [← nl3, ← it3]
      simp [hl]
  · simp at hg

/-- What is logged at the end of elite education. -/
theorem GA.eliteLog_eq {env : GAEnv ℚ} {ctx : Ctx ℚ} {ch : GAChoice ℚ} {g g' : GA ℚ}
    (h : GA.stepElite env ctx ch g = some g') :
    GA.eliteLog env ctx g = if g.rr.acceptance.completed then (GA.logLine env ctx g').map some else some none := by
  unfold GA.stepElite at h
  unfold GA.eliteLog
  by_cases hc : g.rr.acceptance.completed = true
  · rw [if_pos hc] at h
    rw [if_pos hc, if_pos hc]
    obtain ⟨x, h1, h⟩ := Option.bind_eq_some_iff.mp h
    obtain ⟨g2, h2, h⟩ := Option.bind_eq_some_iff.mp h
    obtain ⟨-, rfl⟩ := GA.log_some h
    rw [h1, Option.bind_some, h2, Option.bind_some]
    rfl
  · rw [if_neg hc, if_neg hc]

/-- **C90, one call (partial).** If a call of `iterate` succeeds, so does what it logs; a line describes the
population with the new individual in it, which is the one left behind unless the call ends in a restart. -/
theorem C90_call_partial (env : GAEnv ℚ) (ctx : Ctx ℚ) (hv : GA.Valid env ctx) (h1 : 1 ≤ env.pop.minSize)
    (g : GA ℚ) (h : GA.Reach env ctx GA.ChOK g) (ch : GAChoice ℚ) (hch : GA.ChOK ch)
    (g' : GA ℚ) (hg : GA.iterate env ctx ch g = some g') :
    ∃ line, GA.stepLog env ctx ch g = some line ∧
      ∀ l, line = some l → l.iterations = g.iterations ∧ 1 / 10000 ≤ l.pen ∧ l.pen ≤ 10000000 ∧
        l.pen = g'.rr.pen ∧
        ∃ p : Population ℚ, Spec.LogOK env.pop ctx.n p l ∧
          (g'.state ≠ .created → p = g'.pop ∧ l.sinceBest + g'.bestIteration = g.iterations) := by
  have h' := h.step hch hg
  obtain ⟨l0, a1, a2, a3, a4, a5⟩ := C90_log_partial env ctx hv h1 g' h'
  have hi' := (h'.inv hv).1
  unfold GA.stepLog
  unfold GA.iterate at hg
  split
  · exact ⟨_, rfl, fun l e => by simp at e⟩
  · rename_i ht
    rw [if_neg ht] at hg
    cases hs : g.state with
    | created => exact ⟨_, rfl, fun l e => by simp at e⟩
    | init => exact ⟨_, rfl, fun l e => by simp at e⟩
    | terminated => exact ⟨_, rfl, fun l e => by simp at e⟩
    | elite =>
      rw [hs] at hg
      dsimp only at hg ⊢
      rw [GA.eliteLog_eq hg]
      split
      · rename_i hc
        rw [a1]
        refine ⟨_, rfl, ?_⟩
        intro l e
        simp only [Option.some.injEq] at e
        subst e
        unfold GA.stepElite at hg
        rw [if_pos hc] at hg
        obtain ⟨x, e1, hg⟩ := Option.bind_eq_some_iff.mp hg
        obtain ⟨g2, e2, hg⟩ := Option.bind_eq_some_iff.mp hg
        obtain ⟨-, rfl⟩ := GA.log_some hg
        have f := (GA.updateBest_frame { g with state := .init, child := x }).trans (GA.addToPop_frame e2)
        have hm := hi'.mu (Or.inr (Or.inl f.state))
        have fi : g2.iterations = g.iterations := f.iterations
        exact ⟨a3.trans fi, a5 ▸ hm.pen.1, a5 ▸ hm.pen.2, a5, _, a2, fun _ => ⟨rfl, a4.trans fi⟩⟩
      · exact ⟨_, rfl, fun l e => by simp at e⟩
    | cycle =>
      rw [hs] at hg
      dsimp only at hg ⊢
      obtain ⟨line, b1, -, b2⟩ := C90_cycle_partial env ctx hv h1 g h hs ch hch g' hg
      refine ⟨line, b1, fun l e => ?_⟩
      obtain ⟨c1, c2, c3, c4, p, c5, c6⟩ := b2 l e
      refine ⟨c1, c2, c3, c4, p, c5, fun hne => c6 ?_⟩
      obtain ⟨_, _, -, -, -, -, -, -, -, -, d⟩ := C55_restart env ctx ch g g' hs hg
      exact (d hne).1

/-- **C90, whole runs (partial).** Every line of a run describes a population; the iterations in the lines never
decrease. Missing, as above: diversities between 0 and 1. -/
theorem C90_lines_partial (env : GAEnv ℚ) (ctx : Ctx ℚ) (hv : GA.Valid env ctx) (h1 : 1 ≤ env.pop.minSize) :
    ∀ (chs : List (GAChoice ℚ)) (g g' : GA ℚ), (∀ ch ∈ chs, GA.ChOK ch) → GA.Reach env ctx GA.ChOK g →
      GA.steps env ctx chs g = some g' →
      ∃ ls, GA.lines env ctx chs g = some ls ∧
        (∀ l ∈ ls, g.iterations ≤ l.iterations ∧ 1 / 10000 ≤ l.pen ∧ l.pen ≤ 10000000 ∧
          ∃ p, Spec.LogOK env.pop ctx.n p l) ∧
        ls.Pairwise fun a b => a.iterations ≤ b.iterations := by
  intro chs
  induction chs with
  | nil => exact fun g g' _ _ _ => ⟨[], rfl, by simp, by simp⟩
  | cons ch chs ih =>
    intro g g' hch h hst
    unfold GA.lines
    unfold GA.steps at hst
    split at hst
    · rename_i ht
      rw [if_pos ht]
      exact ⟨[], rfl, by simp, by simp⟩
    · rename_i ht
      rw [if_neg ht]
      obtain ⟨g1, e1, hst⟩ := Option.bind_eq_some_iff.mp hst
      have hc := hch ch (by simp)
      obtain ⟨line, b1, b2⟩ := C90_call_partial env ctx hv h1 g h ch hc g1 e1
      obtain ⟨ls, c1, c2, c3⟩ := ih g1 g' (fun c m => hch c (by simp [m])) (h.step hc e1) hst
      rw [b1, Option.bind_some, e1, Option.bind_some, c1]
      refine ⟨_, rfl, ?_⟩
      have hle : g.iterations ≤ g1.iterations := by
        by_cases hcy : g.state = .cycle ∧ g1.state ≠ .terminated
        · have := (GA.iterate_cycle_next e1 hcy.1 hcy.2).1
          omega
        · have := (GA.iterate_other e1 (by tauto)).1
          omega
      have hline : ∀ l ∈ line.toList, l.iterations = g.iterations ∧ 1 / 10000 ≤ l.pen ∧ l.pen ≤ 10000000 ∧
          ∃ p, Spec.LogOK env.pop ctx.n p l := by
        intro l hl
        obtain ⟨d1, d2, d3, -, p, d4, -⟩ := b2 l (by simpa using hl)
        exact ⟨d1, d2, d3, p, d4⟩
      constructor
      · intro l hl
        rcases List.mem_append.mp hl with hl | hl
        · obtain ⟨d1, d2⟩ := hline l hl
          exact ⟨d1.ge, d2⟩
        · obtain ⟨d1, d2⟩ := c2 l hl
          exact ⟨hle.trans d1, d2⟩
      · rw [List.pairwise_append]
        refine ⟨?_, c3, ?_⟩
        · cases line <;> simp
        · intro a ha b hb
          have := (hline a ha).1
          have := (c2 b hb).1
          omega

/-- **C90, costs.** With whole distances, demands and capacity the feasible cost in the line is the least one of all
feasible members and no more than the average beside it. -/
theorem C90_best_cost (env : GAEnv ℚ) (ctx : Ctx ℚ) (hv : GA.Valid env ctx) (h1 : 1 ≤ env.pop.minSize)
    (hd : ∀ a b, ∃ k : ℤ, ctx.dist a b = k) (hq : ∀ a, ∃ k : ℤ, ctx.demand a = k) (hc : ∃ k : ℤ, ctx.cap = k)
    (g : GA ℚ) (h : GA.Reach env ctx GA.ChOK g) (l : LogLine ℚ) (hl : GA.logLine env ctx g = some l)
    (hne : g.pop.feasible.pop ≠ []) :
    (∃ x ∈ g.pop.feasible.pop, x.cost = l.feasBest) ∧ (∀ x ∈ g.pop.feasible.pop, l.feasBest ≤ x.cost) ∧
      l.feasBest ≤ l.feasAverage := by
  obtain ⟨l', e1, e2, -⟩ := C90_log_partial env ctx hv h1 g h
  rw [hl, Option.some.injEq] at e1
  subst e1
  obtain ⟨hi, -, -⟩ := h.inv hv
  obtain ⟨hs, hr⟩ := hi.base.pop
  have hasc := C29_feasible_sorted ctx env.pop env.bs hv.bs env.sort hv.sort hd hq hc g.pop hs hr
  obtain ⟨x, rest, e⟩ := List.exists_cons_of_ne_nil hne
  have hb := e2.feasible.best x rest e
  have hle : ∀ y ∈ g.pop.feasible.pop, l.feasBest ≤ y.cost := by
    intro y hy
    rw [e] at hy hasc
    rw [hb]
    rcases List.mem_cons.mp hy with rfl | hy
    · exact le_refl _
    · have := (List.pairwise_cons.mp hasc).1 y.cost (List.mem_map_of_mem hy)
      linarith
  refine ⟨⟨x, by rw [e]; simp, hb.symm⟩, hle, ?_⟩
  rw [e2.feasible.average hne]
  refine Spec.le_mean ?_ ?_
  · intro e0
    have := congrArg List.length e0
    simp [e] at this
    omega
  · intro v hv
    obtain ⟨y, hy, rfl⟩ := List.mem_map.mp (List.mem_of_mem_take hv)
    exact hle y hy

end Verif
