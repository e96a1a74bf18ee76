import Verif.Props.BestKeptDouble
import Verif.Props.Elites
import Verif.Model.Log

/-!
# C92: the feasible subpopulation is in order of length, in double precision

Whole demands and distances; `ρ` is any monotone rounding.
-/

namespace Verif
open F64 Dbl SubPop

/-- Inserting at the place of the binary search keeps the order of `f`, if the comparisons are those of `f`. -/
theorem insert_by {α γ : Type} [F64 α] [LinearOrder γ] (f : Individual α → γ) {bs : BSearch} (hbs : BSearchOK bs)
    {x : Individual α} {l : List (Individual α)} {os : List Ordering} (hos : compareAll x l = some os)
    (hc : ∀ y ∈ l, ∀ o, y.cmp x = some o → compare (f y) (f x) = o) (hs : l.Pairwise fun a b => f a ≤ f b) :
    (l.insertIdx (bs os) x).Pairwise fun a b => f a ≤ f b := by
  obtain ⟨hlen, hget⟩ := compareAll_some hos
  obtain ⟨h1, h2⟩ := hbs os
  rw [hlen] at h1 h2
  have hle : ∀ (j k : ℕ) (a b : Individual α), j ≤ k → l[j]? = some a → l[k]? = some b → f a ≤ f b := by
    intro j k a b hjk ha hb
    rcases Nat.lt_or_eq_of_le hjk with h | rfl
    · obtain ⟨ja, rfl⟩ := List.getElem?_eq_some_iff.mp ha
      obtain ⟨ka, rfl⟩ := List.getElem?_eq_some_iff.mp hb
      exact List.pairwise_iff_getElem.mp hs j k ja ka h
    · rw [ha, Option.some.injEq] at hb
      rw [hb]
  have hord : ∀ (i : ℕ) (o : Ordering), os[i]? = some o → ∃ y, l[i]? = some y ∧ compare (f y) (f x) = o := by
    intro i o ho
    have hi : i < l.length := hlen ▸ (List.getElem?_eq_some_iff.mp ho).1
    obtain ⟨o', ho', hc'⟩ := hget i l[i] (List.getElem?_eq_getElem hi)
    rw [ho, Option.some.injEq] at ho'
    subst ho'
    exact ⟨l[i], List.getElem?_eq_getElem hi, hc _ (List.getElem_mem hi) _ hc'⟩
  refine pairwise_insert (f := f) h1 hs ?_ ?_
  · intro j e hj he
    rcases h2 with h2 | ⟨h2, -⟩
    · obtain ⟨y, hy, hc⟩ := hord _ _ h2
      rw [compare_eq_iff_eq] at hc
      exact hc ▸ hle j _ e y hj.le he hy
    · rcases h2 with h2 | h2
      · omega
      · obtain ⟨y, hy, hc⟩ := hord _ _ h2
        rw [compare_lt_iff_lt] at hc
        exact (hle j _ e y (by omega) he hy).trans hc.le
  · intro j e hj he
    rcases h2 with h2 | ⟨-, h2⟩
    · obtain ⟨y, hy, hc⟩ := hord _ _ h2
      rw [compare_eq_iff_eq] at hc
      exact hc ▸ hle _ j y e hj hy he
    · rcases h2 with h2 | h2
      · have := (List.getElem?_eq_some_iff.mp he).1
        omega
      · obtain ⟨y, hy, hc⟩ := hord _ _ h2
        rw [compare_gt_iff_gt] at hc
        exact hc.le.trans (hle _ j y e hj hy he)

/-- One insertion into a subpopulation keeps the order of any `f` of the routes that the comparisons agree with. -/
theorem add_by {α γ : Type} [F64 α] [LinearOrder γ] (f : List (List ℕ) → γ) {ctx : Ctx α} {cfg : PopCfg} {b : Bool}
    {bs : BSearch} (hbs : BSearchOK bs) {s s' : SubPop α} {x : Individual α} (hI : s.Inv ctx cfg x.number b)
    (hc : ∀ y ∈ s.pop, ∀ o, y.cmp x = some o → compare (f y.phenotype) (f x.phenotype) = o)
    (hs : (s.pop.map fun x => f x.phenotype).Pairwise (· ≤ ·)) (h : s.add cfg bs x = some s') :
    (s'.pop.map fun x => f x.phenotype).Pairwise (· ≤ ·) := by
  have e : ∀ L : List (Individual α), (L.map strip).map (fun x => f x.phenotype) = L.map fun x => f x.phenotype := by
    intro L
    simp [Function.comp_def, strip]
  obtain ⟨os, m, s2, hos, hle, -, -, h1, -, -, -, -, h5⟩ := add_some hbs h hI.table hI.fresh
  have h2 : (s2.pop.map fun x => f x.phenotype).Pairwise (· ≤ ·) := by
    rcases h1 with ⟨-, -, h1⟩ | ⟨-, h1⟩
    · rw [← e, h1, e]; exact hs
    · rw [← e, h1, e, List.pairwise_map]
      rw [List.pairwise_map] at hs
      exact insert_by (fun x => f x.phenotype) hbs hos hc hs
  rcases h5 with ⟨-, h5⟩ | ⟨-, rfl⟩
  · have h6 := (selectLoop_shrunk h5).1.sub.map (fun x => f x.phenotype)
    rw [e, e] at h6
    exact h2.sublist h6
  · exact h2

variable {ρ : Rounding}

theorem approxEq_int {a b : ℤ} (ha : |a| ≤ 2 ^ 52) (hb : |b| ≤ 2 ^ 52) :
    approxEq (ofInt a : Dbl ρ) (ofInt b) = decide (a = b) := by
  obtain ⟨e, he, e0, e1⟩ := eps_small (ρ := ρ)
  obtain ⟨a1, a2⟩ := abs_le.mp ha
  obtain ⟨b1, b2⟩ := abs_le.mp hb
  unfold approxEq
  rw [ofInt_sub (by rw [abs_le]; constructor <;> omega), he, ofInt, abs_fin, lt_fin]
  by_cases h : a = b
  · subst h
    simp [e0]
  · have h1 : (1 : ℤ) ≤ |a - b| := Int.one_le_abs (sub_ne_zero.mpr h)
    have h2 : (1 : ℚ) ≤ |((a - b : ℤ) : ℚ)| := by exact_mod_cast h1
    simp only [h, decide_false, decide_eq_false_iff_not, not_lt]
    linarith

/-- Whole costs are compared exactly. -/
theorem cmp_int {x y : Individual (Dbl ρ)} {a b : ℤ} (hx : x.cost = ofInt a) (hy : y.cost = ofInt b)
    (ha : |a| ≤ 2 ^ 52) (hb : |b| ≤ 2 ^ 52) : x.cmp y = some (compare a b) := by
  unfold Individual.cmp
  rw [hx, hy, approxEq_int ha hb]
  have hlt : ∀ a b : ℤ, ((ofInt a : Dbl ρ) <. ofInt b) = decide (a < b) := by
    intro a b
    rw [ofInt, ofInt, lt_fin]
    exact decide_eq_decide.mpr Int.cast_lt
  rw [hlt, hlt]
  rcases lt_trichotomy a b with h | h | h
  · rw [if_neg (by simp [h.ne]), if_pos (by simp [h]), compare_lt_iff_lt.mpr h]
  · subst h
    simp
  · rw [if_neg (by simp [h.ne']), if_neg (by simp [h.le]), if_pos (by simp [h]), compare_gt_iff_gt.mpr h]

/-- A cost that is not a number cannot be compared. -/
theorem cmp_nan {x y : Individual (Dbl ρ)} (h : x.cost = nan ∨ y.cost = nan) : x.cmp y = none := by
  unfold Individual.cmp approxEq
  rcases h with h | h
  · rw [h]
    rcases y.cost with _ | q | s <;> rfl
  · rw [h]
    rcases x.cost with _ | q | s <;> rfl

/-- **C92**. In double precision with whole demands and distances: after every history of insertions and changes of the
penalty that does not panic, whatever the penalties, the members of the feasible subpopulation are within the capacity
and in ascending order of their lengths. -/
theorem C92_sorted {ctx : Ctx (Dbl ρ)} {q : ℕ → ℤ} {Q D M : ℤ} {d : ℕ → ℕ → ℤ} (hw : Whole ctx q Q D)
    (hd : WholeDist ctx d M) (cfg : PopCfg) (bs : BSearch) (hbs : BSearchOK bs)
    (sort : List (Individual (Dbl ρ)) → Option (List (Individual (Dbl ρ)))) (hsort : Population.SortPerm sort)
    (p : Population (Dbl ρ)) (hs : List Bool) (h : p.Run ctx cfg bs sort (fun _ => True) hs) :
    (∀ x ∈ p.feasible.pop, ∀ r ∈ x.phenotype, Spec.routeLoad (fun a => (q a : ℚ)) r ≤ Q) ∧
    (p.feasible.pop.map fun x => (x.phenotype.map (Spec.routeDist fun a b => (d a b : ℚ))).sum).Pairwise (· ≤ ·) := by
  constructor
  · intro x hx r hr
    obtain ⟨pen, hg⟩ := (h.inv hbs hsort).feasible.good x hx
    have := (feasible_cost hw hd hg ((h.inv hbs hsort).feasible.class_ x hx)).1 r hr
    rw [loadZ_cast]
    exact_mod_cast this
  · induction h with
    | new => simp [Population.new, SubPop.new]
    | @add p p' hs pen x upd r hx hok ha ih =>
      have hI := r.inv hbs hsort
      unfold Population.add at ha
      dsimp only at ha
      split at ha
      · rename_i hfx
        obtain ⟨s, hs', rfl⟩ := Option.map_eq_some_iff.mp ha
        refine add_by (fun R => (R.map (Spec.routeDist fun a b => (d a b : ℚ))).sum) hbs
          (x := { x with number := p.total }) hI.feasible ?_ ih hs'
        intro y hy o ho
        obtain ⟨q', hyg⟩ := hI.feasible.good y hy
        have ky := (feasible_cost hw hd hyg (hI.feasible.class_ y hy)).2
        have kx := (feasible_cost hw hd (Individual.good_number p.total hx) hfx).2
        rcases ky with ky | ⟨ky, y0, y1⟩
        · rw [cmp_nan (Or.inl ky)] at ho
          cases ho
        rcases kx with kx | ⟨kx, x0, x1⟩
        · rw [cmp_nan (Or.inr kx)] at ho
          cases ho
        rw [cmp_int ky kx (by rw [abs_of_nonneg y0]; exact y1) (by rw [abs_of_nonneg x0]; exact x1),
          Option.some.injEq] at ho
        rw [← ho]
        have e3 : ∀ L : List (List ℕ), (L.map (Spec.routeDist fun a b => (d a b : ℚ))).sum =
            ((L.map (tripZ d)).sum : ℤ) := by
          intro L
          induction L with
          | nil => simp
          | cons r L ih => simp only [List.map_cons, List.sum_cons, ih, Int.cast_add]; rw [← tripZ_cast]
        dsimp only
        rw [e3, e3]
        rcases lt_trichotomy (y.phenotype.map (tripZ d)).sum (x.phenotype.map (tripZ d)).sum with h | h | h
        · rw [compare_lt_iff_lt.mpr h, compare_lt_iff_lt.mpr (Int.cast_lt.mpr h)]
        · rw [h, compare_eq_iff_eq.mpr rfl, compare_eq_iff_eq.mpr rfl]
        · rw [compare_gt_iff_gt.mpr h, compare_gt_iff_gt.mpr (Int.cast_lt.mpr h)]
      · obtain ⟨s, hs', rfl⟩ := Option.map_eq_some_iff.mp ha
        exact ih
    | @reprice p p' hs pen r hr hok ih =>
      have hI := r.inv hbs hsort
      obtain ⟨-, -, hf, -⟩ := hI.reprice hsort hr
      exact hf ▸ ih

/-- **C92, the best cost in the log.** The cost `get_best_cost` returns, and the log prints, is the length of a shortest
feasible member, exactly, if the costs are numbers. -/
theorem C92_best_cost {ctx : Ctx (Dbl ρ)} {q : ℕ → ℤ} {Q D M : ℤ} {d : ℕ → ℕ → ℤ} (hw : Whole ctx q Q D)
    (hd : WholeDist ctx d M) (cfg : PopCfg) (bs : BSearch) (hbs : BSearchOK bs)
    (sort : List (Individual (Dbl ρ)) → Option (List (Individual (Dbl ρ)))) (hsort : Population.SortPerm sort)
    (p : Population (Dbl ρ)) (hs : List Bool) (h : p.Run ctx cfg bs sort (fun _ => True) hs)
    (hn : ∀ y ∈ p.feasible.pop, y.cost ≠ nan) (x : Individual (Dbl ρ)) (hx : x ∈ p.feasible.pop) :
    ∃ y ∈ p.feasible.pop,
      p.feasible.bestCost = fin (y.phenotype.map (Spec.routeDist fun a b => (d a b : ℚ))).sum ∧
      (y.phenotype.map (Spec.routeDist fun a b => (d a b : ℚ))).sum ≤
        (x.phenotype.map (Spec.routeDist fun a b => (d a b : ℚ))).sum := by
  have hsorted := (C92_sorted hw hd cfg bs hbs sort hsort p hs h).2
  have hI := (h.inv hbs hsort).feasible
  unfold SubPop.bestCost
  cases hp : p.feasible.pop with
  | nil =>
    rw [hp] at hx
    simp at hx
  | cons y l =>
    have hy : y ∈ p.feasible.pop := by simp [hp]
    refine ⟨y, by simp, ?_, ?_⟩
    · obtain ⟨pen, hg⟩ := hI.good y hy
      obtain ⟨c1, -⟩ := (feasible_cost hw hd hg (hI.class_ y hy)).2.resolve_left (hn y hy)
      have e3 : ∀ L : List (List ℕ), (L.map (Spec.routeDist fun a b => (d a b : ℚ))).sum =
          ((L.map (tripZ d)).sum : ℤ) := by
        intro L
        induction L with
        | nil => simp
        | cons r L ih => simp only [List.map_cons, List.sum_cons, ih, Int.cast_add]; rw [← tripZ_cast]
      rw [e3]
      exact c1
    · rw [hp] at hx hsorted
      rw [List.map_cons, List.pairwise_cons] at hsorted
      rcases List.mem_cons.mp hx with rfl | hx
      · exact le_refl _
      · exact hsorted.1 _ (List.mem_map.mpr ⟨x, hx, rfl⟩)

namespace Program

variable {lib : Lib (Dbl ρ)} {cfg : Settings (Dbl ρ)} {nodes : List (ℚ × ℚ × ℚ)} {cap : ℚ}
  {m : Option (List (List (Dbl ρ)))} {text : List Char} {ω : Oracle} {chs : List (GAChoice (Dbl ρ))}
  {dchs : List (DGAChoice (Dbl ρ))} {xs : List (Individual (Dbl ρ))}

/-- C92 for distances given as whole numbers. -/
theorem held_sorted (hr : DblRun lib cfg nodes.length chs dchs) (hd : DblLoads nodes cap)
    {dz : ℕ → ℕ → ℤ} {M : ℤ} (hz : ∀ a < nodes.length, ∀ b < nodes.length, 0 ≤ dz a b ∧ dz a b ≤ M)
    (h00 : dz 0 0 = 0) (h43 : M ≤ 2 ^ 43) (hM : 4 * (nodes.length * M) ≤ 2 ^ 53)
    (hp : parseInstance lib.num text = some (parsed (dblNodes ρ nodes) (fin cap) m))
    (hb : ∃ d, buildDist lib.sqrt (locations (parsed (dblNodes ρ nodes) (fin cap) m))
      (decide ((parsed (dblNodes ρ nodes) (fin cap) m).nodes.length - 1 < cfg.precomputeLimit)) cfg.rounded m = some d ∧
      Built lib nodes.length (fun a b => fin (dz a b : ℚ)) d)
    (hh : held lib cfg text ω chs = some xs) :
    (∀ x ∈ xs, Spec.IsPartition nodes.length x.phenotype ∧
      Spec.CapFeasible (Spec.nodeDemand nodes) cap 0 x.phenotype) ∧
    (xs.map fun x => (x.phenotype.map (Spec.routeDist fun a b => (dz a b : ℚ))).sum).Pairwise (· ≤ ·) := by
  obtain ⟨d, e, hb⟩ := hb
  have hmat : ∃ c, buildCorr lib.sqrt lib.corrSort d = some c ∧
      matrices lib cfg (parsed (dblNodes ρ nodes) (fin cap) m) = some (d, c) := by
    unfold held at hh
    rw [hp, Option.bind_some] at hh
    obtain ⟨mm, h1, -⟩ := Option.bind_eq_some_iff.mp hh
    have h1' := h1
    unfold matrices at h1
    split at h1
    · cases h1
    · rw [show (parsed (dblNodes ρ nodes) (fin cap) m).matrix = m from rfl, e, Option.bind_some] at h1
      obtain ⟨c, h5, rfl⟩ := Option.map_eq_some_iff.mp h1
      exact ⟨c, h5, h1'⟩
  obtain ⟨c, h1, h2⟩ := hmat
  obtain ⟨g, hg, rfl⟩ := held_parts hp h2 hh
  obtain ⟨Q, D, hQ, hw⟩ := dbl_whole (lib := lib) (m := m) (d := d) (ρ := ρ) hd
  have hn : 3 ≤ nodes.length := by have := hr.settings.gran; omega
  have hxd : DblDist nodes.length fun a b => (dz a b : ℚ) := by
    intro a ha b hb
    obtain ⟨x, y⟩ := hz a ha b hb
    have y' : dz a b ≤ 2 ^ 43 := y.trans h43
    constructor
    · show (0 : ℚ) ≤ (dz a b : ℚ)
      exact_mod_cast x
    · show (dz a b : ℚ) ≤ 2 ^ 43
      exact_mod_cast y'
  obtain ⟨dz', hdef, hwd⟩ := exact_dist (m := m) (cap := cap) (by omega) hz h00 hM hb
  have hE := (loadExact_laws hw).and (distExact_laws hwd)
  have hv := dbl_gaLaws (m := m) hr.lib hr.settings hd hxd hb h1 hE
  have i1 := GA.steps_any hv chs hr.choices (GA.new_any hv ω) hg
  obtain ⟨hs, hrun⟩ := i1.base.pop
  have hI := (hrun.inv hv.bs hv.sort).feasible
  obtain ⟨k1, k2⟩ := C92_sorted hw hwd _ _ hv.bs _ hv.sort _ _ hrun
  refine ⟨fun x hx => ?_, ?_⟩
  · obtain ⟨p, hgood⟩ := hI.good x hx
    constructor
    · have : (RR.ctxAt (context lib (parsed (dblNodes ρ nodes) (fin cap) m) d) p).n = nodes.length :=
        dbl_n (lib := lib) (cap := cap) (d := d) (m := m)
      rw [← this]
      exact hgood.part
    · intro r hr
      have := k1 x hx r hr
      have e : Spec.nodeDemand nodes = fun a => (demandZ nodes a : ℚ) := funext (demandZ_cast hd)
      rw [e, hQ, add_zero]
      exact this
  · have e4 : g.pop.feasible.pop.map (fun x => (x.phenotype.map (Spec.routeDist fun a b => (dz a b : ℚ))).sum) =
        g.pop.feasible.pop.map (fun x => (x.phenotype.map (Spec.routeDist fun a b => (dz' a b : ℚ))).sum) := by
      refine List.map_congr_left fun x hx => ?_
      obtain ⟨p, hgood⟩ := hI.good x hx
      rw [exact_length (by omega) hdef hgood, exact_length (dz := dz') (dz' := dz') (by omega) (fun _ _ _ _ => rfl) hgood]
    rw [e4]
    exact k2

end Program

open Program Spec

variable {lib : Lib (Dbl ρ)} {cfg : Settings (Dbl ρ)} {nodes : List (ℚ × ℚ × ℚ)} {cap : ℚ}
  {text : List Char} {raw : List (List Char)} {lines pre : List (List (List Char))} {blocks : List Block}
  {rows : List (List ℚ)} {ω : Oracle} {chs : List (GAChoice (Dbl ρ))} {dchs : List (DGAChoice (Dbl ρ))}
  {xs : List (Individual (Dbl ρ))}

/-- **C92**, whole coordinates and rounded distances: the feasible subpopulation after any number of calls, restarts
among them, holds complete plans within the capacity in ascending order of length; so the first is a shortest. -/
theorem C92_held_plane (hroot : SqrtOK lib.sqrt) (ht : TextOf text raw)
    (hl : List.Forall₂ LaidOut raw lines) (hf : BlockFile lines pre blocks)
    (hd : Describes (fun w x => lib.num w = some x) (fun w n => parseUsize w = some n) blocks (fin cap)
      (dblNodes ρ nodes))
    (he : Euclidean blocks) (hr : DblRun lib cfg nodes.length chs dchs) (hload : DblLoads nodes cap)
    (hrd : cfg.rounded = true) (hco : WholeCoords nodes) (hn27 : nodes.length ≤ 2 ^ 27)
    (hh : Program.held lib cfg text ω chs = some xs) :
    (∀ x ∈ xs, IsPartition nodes.length x.phenotype ∧ CapFeasible (nodeDemand nodes) cap 0 x.phenotype) ∧
    (xs.map fun x => (x.phenotype.map (routeDist (nearestDist nodes))).sum).Pairwise (· ≤ ·) := by
  obtain ⟨h00, hb⟩ := exactPlane_data (lib := lib) (cap := cap) hroot (by have := hr.settings.gran; omega) hrd hco
  refine held_sorted (dz := fun a b => ⌊realDist nodes a b + 1 / 2⌋) (M := 2 ^ 24) hr hload
    (fun a ha b hb => (plane_nearest hroot hco ha hb).2) h00 (by norm_num) ?_
    (C51_parse_euclidean lib.num ht hl hf hd he) hb hh
  have : (nodes.length : ℤ) ≤ 2 ^ 27 := by exact_mod_cast hn27
  linarith

/-- **C92**, an explicit matrix of whole numbers, or of any numbers that are rounded. -/
theorem C92_held_explicit (ht : TextOf text raw)
    (hl : List.Forall₂ LaidOut raw lines) (hf : BlockFile lines pre blocks)
    (hd : Describes (fun w x => lib.num w = some x) (fun w n => parseUsize w = some n) blocks (fin cap)
      (dblNodes ρ nodes))
    (he : ExplicitRows (fun w x => lib.num w = some x) blocks (dblRows ρ rows)) (hlen : rows.length + 1 = nodes.length)
    (hrow : ∀ (i : ℕ) (row : List ℚ), rows[i]? = some row → row.length = i + 1) {M : ℤ}
    (hnn : ∀ row ∈ rows, ∀ x ∈ row, 0 ≤ x ∧ x ≤ M ∧ (cfg.rounded = true ∨ ∃ k : ℤ, x = k)) (h43 : M ≤ 2 ^ 43)
    (hM : 4 * (nodes.length * M) ≤ 2 ^ 53) (hr : DblRun lib cfg nodes.length chs dchs)
    (hload : DblLoads nodes cap) (hh : Program.held lib cfg text ω chs = some xs) :
    (∀ x ∈ xs, IsPartition nodes.length x.phenotype ∧ CapFeasible (nodeDemand nodes) cap 0 x.phenotype) ∧
    (xs.map fun x => (x.phenotype.map (routeDist (lowerRowDist cfg.rounded rows))).sum).Pairwise (· ≤ ·) := by
  obtain ⟨dz, e, hz, h00, hb⟩ := exactExplicit_data (lib := lib) (cap := cap) hlen
    (by have := hr.settings.gran; omega) hrow hnn
  rw [e]
  exact held_sorted (M := M) hr hload hz h00 h43 hM
    (C51_parse_explicit lib.num ht hl hf hd he (by rw [dblNodes_length]; simpa [dblRows] using hlen)) hb hh

end Verif
