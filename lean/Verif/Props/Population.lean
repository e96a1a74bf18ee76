import Verif.Lemmas.Fitness
import Verif.Model.BinarySearch

/-!
# Population

C29 (sizes and order), C30, C31, C32, C33, C35, C36.
-/

namespace Verif
open F64 SubPop

variable {α : Type} [F64 α]

namespace Spec

/-- A list of costs in ascending order up to a tolerance. -/
def Ascending (tol : ℚ) (l : List ℚ) : Prop := l.Pairwise fun a b => a ≤ b + tol

/-- Costs that are equal or further apart than the comparison tolerance. -/
def Spaced (K : ℚ → Prop) : Prop := ∀ a b, K a → K b → a = b ∨ 1 / 1000000 ≤ |a - b|

theorem spaced_int : Spaced fun a => ∃ k : ℤ, a = k := by
  rintro _ _ ⟨k, rfl⟩ ⟨l, rfl⟩
  by_cases h : k = l
  · exact Or.inl (by rw [h])
  · right
    have h1 : (1 : ℤ) ≤ |k - l| := Int.one_le_abs (sub_ne_zero.mpr h)
    have h2 : (1 : ℚ) ≤ |(k : ℚ) - l| := by exact_mod_cast h1
    linarith

end Spec

/-! ### C32: the diversity table -/

/-- **C32.** After every history, in both subpopulations: only members have diversity vectors; from two
members on every member has one; it holds exactly one entry for every other member, in ascending order;
two members record the same distance for each other, the broken-pairs distance of the two; and the clone
test of a member never panics. -/
theorem C32_diversity_table (ctx : Ctx α) (cfg : PopCfg) (bs : BSearch) (hbs : BSearchOK bs)
    (sort : List (Individual α) → Option (List (Individual α))) (hsort : Population.SortPerm sort)
    (p : Population α) (hs : List Bool) (h : p.Run ctx cfg bs sort (fun _ => True) hs) :
    ∀ s ∈ [p.feasible, p.infeasible],
      (∀ k v, s.div k = some v → ∃ x ∈ s.pop, x.number = k) ∧
      (2 ≤ s.pop.length → ∀ x ∈ s.pop, ∃ v, s.div x.number = some v ∧ (s.isClone x).isSome = true ∧
        (v.map (·.target)).Perm ((s.pop.map (·.number)).erase x.number) ∧
        v.Pairwise (fun a b => a.distance ≤ b.distance) ∧
        ∀ y ∈ s.pop, y.number ≠ x.number → ∃ d w, (⟨d, y.number⟩ : Diversity) ∈ v ∧
          s.div y.number = some w ∧ (⟨d, x.number⟩ : Diversity) ∈ w ∧
          (x.brokenPairs y = some d ∨ y.brokenPairs x = some d)) := by
  have hI := h.inv hbs hsort
  have key : ∀ f t (s : SubPop α), s.Inv ctx cfg t f →
      (∀ k v, s.div k = some v → ∃ x ∈ s.pop, x.number = k) ∧
      (2 ≤ s.pop.length → ∀ x ∈ s.pop, ∃ v, s.div x.number = some v ∧ (s.isClone x).isSome = true ∧
        (v.map (·.target)).Perm ((s.pop.map (·.number)).erase x.number) ∧
        v.Pairwise (fun a b => a.distance ≤ b.distance) ∧
        ∀ y ∈ s.pop, y.number ≠ x.number → ∃ d w, (⟨d, y.number⟩ : Diversity) ∈ v ∧
          s.div y.number = some w ∧ (⟨d, x.number⟩ : Diversity) ∈ w ∧
          (x.brokenPairs y = some d ∨ y.brokenPairs x = some d)) := by
    intro f t s hI
    have ht := hI.table
    refine ⟨?_, ?_⟩
    · intro k v hv
      by_contra hc
      have : k ∉ nums s.pop := fun hk => hc (by
        obtain ⟨x, hx, e⟩ := List.mem_map.mp hk
        exact ⟨x, hx, e⟩)
      rw [ht.keys k this] at hv
      simp at hv
    · intro h2 x hx
      have hk : x.number ∈ nums s.pop := List.mem_map_of_mem hx
      obtain ⟨v, hv⟩ := Option.isSome_iff_exists.mp (ht.present h2 _ hk)
      have ev : vec s.div x.number = v := by unfold vec; rw [hv]; rfl
      refine ⟨v, hv, ?_, ev ▸ ht.targets _ hk, ev ▸ ht.sorted _, ?_⟩
      · obtain ⟨c, hc⟩ := isClone_total ht h2 hx
        rw [hc]; rfl
      · intro y hy hne
        have hky : y.number ∈ nums s.pop := List.mem_map_of_mem hy
        have hm : y.number ∈ (vec s.div x.number).map (·.target) := by
          refine (ht.targets _ hk).mem_iff.mpr ?_
          exact (List.mem_erase_of_ne hne).mpr hky
        obtain ⟨d, hd, hdt⟩ := List.mem_map.mp hm
        obtain ⟨w, hw⟩ := Option.isSome_iff_exists.mp (ht.present h2 _ hky)
        have ew : vec s.div y.number = w := by unfold vec; rw [hw]; rfl
        have hsym := ht.symm _ d hd
        rw [hdt, ew] at hsym
        obtain ⟨z, hz, hzn, hval⟩ := ht.value x hx d hd
        have hzy : z = y := by
          have hnd := ht.nodup
          unfold nums at hnd
          exact List.inj_on_of_nodup_map hnd hz hy (hzn.trans hdt)
        subst hzy
        refine ⟨d.distance, w, ?_, hw, hsym, hval⟩
        rw [← hdt, ← ev]
        exact hd
  intro s hs
  simp only [List.mem_cons, List.not_mem_nil, or_false] at hs
  rcases hs with rfl | rfl
  · exact key _ _ _ hI.feasible
  · exact key _ _ _ hI.infeasible

/-! ### C29: sizes -/

/-- **C29, sizes.** After every history each subpopulation holds fewer than `min + λ` individuals, or at
most `min` (the latter only matters if `λ` is zero). -/
theorem C29_sizes (ctx : Ctx α) (cfg : PopCfg) (bs : BSearch) (hbs : BSearchOK bs)
    (sort : List (Individual α) → Option (List (Individual α))) (hsort : Population.SortPerm sort)
    (p : Population α) (hs : List Bool) (h : p.Run ctx cfg bs sort (fun _ => True) hs) :
    (1 ≤ cfg.lambda → p.feasible.pop.length < cfg.minSize + cfg.lambda ∧
      p.infeasible.pop.length < cfg.minSize + cfg.lambda) ∧
    (cfg.lambda = 0 → p.feasible.pop.length ≤ cfg.minSize ∧ p.infeasible.pop.length ≤ cfg.minSize) := by
  have hI := h.inv hbs hsort
  have h1 := hI.feasible.size
  have h2 := hI.infeasible.size
  omega

/-! ### C30: natural selection -/

/-- **C30.** In every reachable state with at least two members survivor selection does not panic, removes
exactly one member and keeps the first one. -/
theorem C30_best_survives (ctx : Ctx α) (cfg : PopCfg) (hn : 1 ≤ cfg.numClosest) (ha : AvgOK α cfg.numClosest)
    (bs : BSearch) (hbs : BSearchOK bs)
    (sort : List (Individual α) → Option (List (Individual α))) (hsort : Population.SortPerm sort)
    (p : Population α) (hs : List Bool) (h : p.Run ctx cfg bs sort (fun _ => True) hs) :
    ∀ s ∈ [p.feasible, p.infeasible], 2 ≤ s.pop.length →
      ∃ s' i, s.naturalSelection cfg = some s' ∧ 1 ≤ i ∧ i < s.pop.length ∧
        s'.pop.map strip = (s.pop.eraseIdx i).map strip ∧
        (s'.pop.map strip)[0]? = (s.pop.map strip)[0]? := by
  have hI := h.inv hbs hsort
  have key : ∀ f t (s : SubPop α), s.Inv ctx cfg t f → 2 ≤ s.pop.length →
      ∃ s' i, s.naturalSelection cfg = some s' ∧ 1 ≤ i ∧ i < s.pop.length ∧
        s'.pop.map strip = (s.pop.eraseIdx i).map strip ∧
        (s'.pop.map strip)[0]? = (s.pop.map strip)[0]? := by
    intro f t s hI h2
    obtain ⟨s', hs'⟩ := naturalSelection_total ha hI.table hn h2
    obtain ⟨i, h1, h3, h4⟩ := naturalSelection_some hs'
    obtain ⟨x, -, h5, -⟩ := remove_some h4
    have := (naturalSelection_shrunk hs').1.head
    refine ⟨s', i, hs', h1, h3, h5, ?_⟩
    rw [← List.head?_eq_getElem?, ← List.head?_eq_getElem?]
    exact this
  intro s hs
  simp only [List.mem_cons, List.not_mem_nil, or_false] at hs
  rcases hs with rfl | rfl
  · exact key _ _ _ hI.feasible
  · exact key _ _ _ hI.infeasible

/-- **C30, insertions.** No insertion into a reachable population panics, and the cheapest member is never
lost by survivor selection: after an insertion the first member is the inserted individual or the former
first member. -/
theorem C30_insertion_keeps_best (ctx : Ctx α) (cfg : PopCfg) (hn : 1 ≤ cfg.numClosest)
    (hm : 1 ≤ cfg.minSize) (ha : AvgOK α cfg.numClosest) (bs : BSearch) (hbs : BSearchOK bs)
    (sort : List (Individual α) → Option (List (Individual α))) (hsort : Population.SortPerm sort)
    (p : Population α) (hs : List Bool) (h : p.Run ctx cfg bs sort (fun _ => True) hs) (pen : α)
    (x : Individual α) (hx : x.Good (RR.ctxAt ctx pen)) (upd : Bool)
    (hc : ∀ y ∈ p.feasible.pop ++ p.infeasible.pop, (y.cmp x).isSome) :
    ∃ p', p.add cfg bs x upd = some p' ∧
      ((p'.feasible.pop.map strip)[0]? = (p.feasible.pop.map strip)[0]? ∨
        (p'.feasible.pop.map strip)[0]? = some (strip { x with number := p.total })) ∧
      ((p'.infeasible.pop.map strip)[0]? = (p.infeasible.pop.map strip)[0]? ∨
        (p'.infeasible.pop.map strip)[0]? = some (strip { x with number := p.total })) := by
  have hI := h.inv hbs hsort
  obtain ⟨p', hp'⟩ := Population.add_total hbs ha hn hm hI hx hc upd
  refine ⟨p', hp', ?_⟩
  have key : ∀ f (s s' : SubPop α), s.Inv ctx cfg p.total f →
      s.add cfg bs { x with number := p.total } = some s' →
      ((s'.pop.map strip)[0]? = (s.pop.map strip)[0]? ∨
        (s'.pop.map strip)[0]? = some (strip { x with number := p.total })) := by
    intro f s s' hI ha
    obtain ⟨os, m, s2, -, hle, -, -, h1, -, -, -, -, h5⟩ := add_some hbs ha hI.table hI.fresh
    have h2 : (s2.pop.map strip)[0]? = (s.pop.map strip)[0]? ∨
        (s2.pop.map strip)[0]? = some (strip { x with number := p.total }) := by
      rcases h1 with ⟨-, -, h1⟩ | ⟨-, h1⟩
      · rw [h1]; exact Or.inl rfl
      · rw [h1]
        cases hb : bs os with
        | zero => right; simp
        | succ k =>
          left
          rw [hb] at hle
          cases hp : s.pop with
          | nil => rw [hp] at hle; simp at hle
          | cons a l => simp
    rcases h5 with ⟨-, h5⟩ | ⟨-, rfl⟩
    · have := (selectLoop_shrunk h5).1.head
      rw [List.head?_eq_getElem?, List.head?_eq_getElem?] at this
      rw [this]
      exact h2
    · exact h2
  unfold Population.add at hp'
  dsimp only at hp'
  split at hp'
  · obtain ⟨s, hs', rfl⟩ := Option.map_eq_some_iff.mp hp'
    exact ⟨key _ _ _ hI.feasible hs', Or.inl rfl⟩
  · obtain ⟨s, hs', rfl⟩ := Option.map_eq_some_iff.mp hp'
    exact ⟨Or.inl rfl, key _ _ _ hI.infeasible hs'⟩

/-! ### C31: elites -/

/-- **C31.** With more members than elites, none of them a clone, and the fitness values up to date,
survivor selection removes a member behind the `numElites` first ones. -/
theorem C31_elites_survive (cfg : PopCfg) (s₀ s s' : SubPop ℚ) (hf : s.focus = false)
    (hup : s₀.updateFitness cfg = some s) (h2 : 2 ≤ s.pop.length) (hE : cfg.numElites < s.pop.length)
    (hc : ∀ x ∈ s.pop, s.isClone x = some false) (h : s.naturalSelection cfg = some s') :
    (∃ i, cfg.numElites ≤ i ∧ s'.pop.map strip = (s.pop.eraseIdx i).map strip) ∧
    (s'.pop.map strip).take cfg.numElites = (s.pop.map strip).take cfg.numElites := by
  obtain ⟨e1, -, -, -⟩ := updateFitness_strip hup
  have el : s.pop.length = s₀.pop.length := by simpa using congrArg List.length e1
  unfold naturalSelection at h
  split at h
  · simp at h
  · rename_i w hw
    obtain ⟨a, b, c⟩ := scan_max s _ _ _ _ hw (fun x hx => hc x (List.mem_of_mem_drop hx)) rfl
    obtain ⟨y, -, hrem, -⟩ := remove_some h
    have hlast : s.pop[s.pop.length - 1]? = some s.pop[s.pop.length - 1] :=
      List.getElem?_eq_getElem (by omega)
    obtain ⟨k, hk, hfit⟩ := updateFitness_rank hup (by omega) hlast
    rw [hf] at hfit
    have h1 := biased_last (k := k) hE h2
    have hb : s.pop[s.pop.length - 1].fitness ≤ w.fitness := by
      refine b _ (List.mem_iff_getElem?.mpr ⟨s.pop.length - 2, ?_⟩)
      rw [List.getElem?_drop, ← hlast]
      congr 1
      omega
    have hw1 : 1 ≤ w.fitness := by
      rw [hfit] at hb
      exact h1.trans hb
    have hidx : cfg.numElites ≤ w.index := by
      rcases c with rfl | ⟨j, x, hj, hji, hjf⟩
      · simp only [rat_lit] at hw1
        norm_num at hw1
      · by_contra hlt
        rw [List.getElem?_drop, ← hji] at hj
        obtain ⟨k', hk', hfit'⟩ := updateFitness_rank hup (by omega) hj
        rw [hf] at hfit'
        have := biased_elite hE h2 hk' (not_le.mp hlt)
        rw [hjf, hfit'] at hw1
        linarith
    refine ⟨⟨w.index, hidx, hrem⟩, ?_⟩
    rw [hrem, ← List.map_take, ← List.map_take]
    congr 1
    have hlen : ∀ (l : List (Individual ℚ)) (i k : ℕ), k ≤ i → (l.eraseIdx i).take k = l.take k := by
      intro l
      induction l with
      | nil => intro i k _; simp
      | cons a l ih =>
        intro i k hki
        cases k with
        | zero => simp
        | succ k =>
          obtain ⟨i, rfl⟩ : ∃ j, i = j + 1 := ⟨i - 1, by omega⟩
          simp [ih i k (by omega)]
    exact hlen _ _ _ hidx

/-- **C31, up-to-date fitness.** Whenever an insertion performs survivor selection, the fitness values are
those just computed, and diversity focus is off. -/
theorem C31_fitness_up_to_date (ctx : Ctx α) (cfg : PopCfg) (bs : BSearch) (hbs : BSearchOK bs) (f : Bool)
    (s s' : SubPop α) (x : Individual α) (hI : s.Inv ctx cfg x.number f)
    (h : s.add cfg bs x = some s') :
    ∃ s₁ s₂ : SubPop α, s₁.updateFitness cfg = some s₂ ∧ s₂.focus = false ∧
      (s' = s₂ ∨ selectLoop cfg (s₂.pop.length + 1) s₂ = some s') := by
  obtain ⟨os, m, s2, -, -, -, -, -, -, -, h4, ⟨s1, h6⟩, h5⟩ := add_some hbs h hI.table hI.fresh
  refine ⟨s1, s2, h6, h4.trans hI.focus, ?_⟩
  rcases h5 with ⟨-, h5⟩ | ⟨-, h5⟩
  · exact Or.inr h5
  · exact Or.inl h5

/-! ### C33: duplicates -/

/-- **C33.** Adding an individual with the routes of a member leaves the members of both subpopulations
unchanged (their fitness values are recomputed). -/
theorem C33_duplicates_rejected (ctx : Ctx α) (cfg : PopCfg) (bs : BSearch) (hbs : BSearchOK bs)
    (sort : List (Individual α) → Option (List (Individual α))) (hsort : Population.SortPerm sort)
    (p p' : Population α) (hs : List Bool) (h : p.Run ctx cfg bs sort (fun _ => True) hs) (pen : α)
    (x : Individual α) (hx : x.Good (RR.ctxAt ctx pen)) (upd : Bool) (y : Individual α)
    (hy : y ∈ p.feasible.pop ∨ y ∈ p.infeasible.pop) (hxy : x.phenotype = y.phenotype)
    (ha : p.add cfg bs x upd = some p') :
    p'.feasible.pop.map strip = p.feasible.pop.map strip ∧
      p'.infeasible.pop.map strip = p.infeasible.pop.map strip := by
  have hI := h.inv hbs hsort
  have key : ∀ f (s s' : SubPop α), s.Inv ctx cfg p.total f → y ∈ s.pop →
      s.add cfg bs { x with number := p.total } = some s' → s'.pop.map strip = s.pop.map strip := by
    intro f s s' hI hy ha
    obtain ⟨os, m, s2, -, hle, hm, hT, h1, -, h3, -, -, h5⟩ := add_some hbs ha hI.table hI.fresh
    obtain ⟨q, hq⟩ := hI.good y hy
    have hbp : y.brokenPairs { x with number := p.total } = some 0 :=
      Individual.brokenPairs_self (Individual.Good.nbrEq (ctx := RR.ctxAt ctx q)
        (ctx' := RR.ctxAt ctx pen) rfl hq (Individual.good_number _ hx) hxy.symm)
    have w := addDivs_written hbs hm hI.fresh hI.table.nodup hI.table.sorted
    obtain ⟨-, d, hd, -, hmem⟩ := w.each y hy
    rw [hbp, Option.some.injEq] at hd
    subst hd
    have h2 : s2.pop.map strip = s.pop.map strip := by
      rcases h1 with ⟨-, -, h1⟩ | ⟨hcl, -⟩
      · exact h1
      · exfalso
        rcases hcl with hcl | ⟨d, v, hv, hd⟩
        · rw [hcl] at hy; simp at hy
        · have hs := w.sorted p.total
          unfold vec at hmem hs
          dsimp only at hmem hv
          rw [hv] at hmem hs
          dsimp only [Option.getD_some] at hmem hs
          rw [List.mem_cons] at hmem
          rcases hmem with hmem | hmem
          · rw [← hmem] at hd; exact hd rfl
          · have := (List.pairwise_cons.mp hs).1 _ hmem
            dsimp only at this
            omega
    have el : s2.pop.length = s.pop.length := by simpa using congrArg List.length h2
    rcases h5 with ⟨hmax, h5⟩ | ⟨-, rfl⟩
    · have hsize := hI.size
      rw [h3, hI.maxInd, el] at hmax
      unfold selectLoop at h5
      rw [if_neg (by omega), Option.some.injEq] at h5
      rw [← h5]
      exact h2
    · exact h2
  have hfe : ∀ q, y.Good (RR.ctxAt ctx q) → x.isFeasible = y.isFeasible := by
    intro q hq
    obtain ⟨e1, he1⟩ := hx.eval
    obtain ⟨e2, he2⟩ := hq.eval
    rw [hxy] at he1
    exact evaluate_feasible he1 he2
  unfold Population.add at ha
  dsimp only at ha
  split at ha
  · rename_i hfx
    obtain ⟨s, hs', rfl⟩ := Option.map_eq_some_iff.mp ha
    refine ⟨key _ _ _ hI.feasible ?_ hs', rfl⟩
    rcases hy with hy | hy
    · exact hy
    · exfalso
      obtain ⟨q, hq⟩ := hI.infeasible.good y hy
      have h1 := hfe q hq
      rw [hI.infeasible.class_ y hy] at h1
      have h2 : x.isFeasible = true := hfx
      rw [h1] at h2
      simp at h2
  · rename_i hfx
    obtain ⟨s, hs', rfl⟩ := Option.map_eq_some_iff.mp ha
    refine ⟨rfl, key _ _ _ hI.infeasible ?_ hs'⟩
    rcases hy with hy | hy
    · exfalso
      obtain ⟨q, hq⟩ := hI.feasible.good y hy
      have h1 := hfe q hq
      rw [hI.feasible.class_ y hy] at h1
      exact hfx h1
    · exact hy

/-! ### C35: tournament -/

theorem Population.draws_some (p : Population α) (ω : Oracle) (hp : 0 < p.size) : ∀ k,
    ∃ l, p.draws ω k = some l ∧ l = ((List.range k).map fun j => ω j % p.size).reverse
  | 0 => ⟨[], rfl, rfl⟩
  | k + 1 => by
    obtain ⟨l, h1, rfl⟩ := draws_some p ω hp k
    refine ⟨_, ?_, rfl⟩
    unfold draws
    have : rangeUsize (ω k) 0 p.size = some (ω k % p.size) := by
      unfold rangeUsize
      rw [if_pos hp]
      simp
    rw [this, Option.bind_some, h1, Option.map_some, List.range_succ]
    simp

theorem Population.member_get (p : Population α) (i : ℕ) :
    p.member i = (p.feasible.pop ++ p.infeasible.pop)[i]? := by
  unfold member
  split
  · rw [List.getElem?_append_left (by assumption)]
  · rw [List.getElem?_append_right (by omega)]

theorem Population.contest_some (p : Population ℚ) : ∀ (l : List ℕ) (w : Option (Individual ℚ)),
    (∀ i ∈ l, i < p.size) → (l ≠ [] ∨ w ≠ none) →
    ∃ x, p.contest l w = some (some x) ∧
      ((∃ i ∈ l, (p.feasible.pop ++ p.infeasible.pop)[i]? = some x) ∨ w = some x) ∧
      (∀ i ∈ l, ∀ y, (p.feasible.pop ++ p.infeasible.pop)[i]? = some y → x.fitness ≤ y.fitness) ∧
      (∀ y, w = some y → x.fitness ≤ y.fitness)
  | [], none, _, h => by simp at h
  | [], some y, _, _ => ⟨y, rfl, Or.inr rfl, by simp, by simp⟩
  | i :: l, w, hl, _ => by
    have hi : i < (p.feasible.pop ++ p.infeasible.pop).length := by
      rw [List.length_append]; exact hl i (by simp)
    obtain ⟨x, hx⟩ : ∃ x, (p.feasible.pop ++ p.infeasible.pop)[i]? = some x :=
      ⟨_, List.getElem?_eq_getElem hi⟩
    unfold contest
    rw [member_get, hx]
    dsimp only
    cases w with
    | none =>
      obtain ⟨z, h1, h2, h3, h4⟩ := contest_some p l (some x) (fun j hj => hl j (by simp [hj])) (by simp)
      refine ⟨z, h1, Or.inl ?_, ?_, by simp⟩
      · rcases h2 with ⟨j, hj, h2⟩ | h2
        · exact ⟨j, by simp [hj], h2⟩
        · exact ⟨i, by simp, hx.trans h2⟩
      · intro j hj y hy
        rw [List.mem_cons] at hj
        rcases hj with rfl | hj
        · rw [hx, Option.some.injEq] at hy
          exact h4 y (by rw [hy])
        · exact h3 j hj y hy
    | some y =>
      dsimp only
      simp only [rat_lt, decide_eq_true_eq]
      by_cases hlt : x.fitness < y.fitness
      · rw [if_pos hlt]
        obtain ⟨z, h1, h2, h3, h4⟩ := contest_some p l (some x) (fun j hj => hl j (by simp [hj])) (by simp)
        refine ⟨z, h1, Or.inl ?_, ?_, ?_⟩
        · rcases h2 with ⟨j, hj, h2⟩ | h2
          · exact ⟨j, by simp [hj], h2⟩
          · exact ⟨i, by simp, hx.trans h2⟩
        · intro j hj y' hy'
          rw [List.mem_cons] at hj
          rcases hj with rfl | hj
          · rw [hx, Option.some.injEq] at hy'
            exact h4 y' (by rw [hy'])
          · exact h3 j hj y' hy'
        · intro y' hy'
          rw [Option.some.injEq] at hy'
          have := h4 x rfl
          rw [← hy']
          linarith
      · rw [if_neg hlt]
        obtain ⟨z, h1, h2, h3, h4⟩ := contest_some p l (some y) (fun j hj => hl j (by simp [hj])) (by simp)
        refine ⟨z, h1, ?_, ?_, ?_⟩
        · rcases h2 with ⟨j, hj, h2⟩ | h2
          · exact Or.inl ⟨j, by simp [hj], h2⟩
          · exact Or.inr h2
        · intro j hj y' hy'
          rw [List.mem_cons] at hj
          rcases hj with rfl | hj
          · rw [hx, Option.some.injEq] at hy'
            have := h4 y rfl
            rw [← hy']
            linarith
          · exact h3 j hj y' hy'
        · exact h4

/-- **C35.** A tournament of at least one contestant in a non-empty population never indexes out of range
and returns a member, drawn as a contestant, of lowest fitness among the contestants; contestant `j` is
the member number `ω j mod size`, counting the feasible members first. -/
theorem C35_tournament (cfg : PopCfg) (p : Population ℚ) (ω : Oracle)
    (hp : p.feasible.pop ≠ [] ∨ p.infeasible.pop ≠ []) (hk : 1 ≤ cfg.tournamentSize) :
    ∃ x, p.parent cfg ω = some x ∧
      (∃ j < cfg.tournamentSize,
        (p.feasible.pop ++ p.infeasible.pop)[ω j % (p.feasible.pop ++ p.infeasible.pop).length]?
          = some x) ∧
      ∀ j < cfg.tournamentSize, ∀ y,
        (p.feasible.pop ++ p.infeasible.pop)[ω j % (p.feasible.pop ++ p.infeasible.pop).length]?
          = some y → x.fitness ≤ y.fitness := by
  have hs : 0 < p.size := by
    unfold Population.size
    rcases hp with hp | hp
    · have := List.length_pos_iff.mpr hp; omega
    · have := List.length_pos_iff.mpr hp; omega
  have es : (p.feasible.pop ++ p.infeasible.pop).length = p.size := by
    rw [List.length_append]; rfl
  obtain ⟨l, h1, hl⟩ := p.draws_some ω hs cfg.tournamentSize
  have hlt : ∀ i ∈ l, i < p.size := by
    intro i hi
    rw [hl, List.mem_reverse, List.mem_map] at hi
    obtain ⟨j, -, rfl⟩ := hi
    exact Nat.mod_lt _ hs
  have hne : l ≠ [] := by
    rw [hl]
    simp
    omega
  obtain ⟨x, h2, h3, h4, -⟩ := p.contest_some l none hlt (Or.inl hne)
  refine ⟨x, ?_, ?_, ?_⟩
  · unfold Population.parent
    rw [h1, Option.bind_some, h2]
    rfl
  · rcases h3 with ⟨i, hi, h3⟩ | h3
    · rw [hl, List.mem_reverse, List.mem_map] at hi
      obtain ⟨j, hj, rfl⟩ := hi
      exact ⟨j, List.mem_range.mp hj, es ▸ h3⟩
    · simp at h3
  · intro j hj y hy
    refine h4 (ω j % p.size) ?_ y (es ▸ hy)
    rw [hl, List.mem_reverse, List.mem_map]
    exact ⟨j, List.mem_range.mpr hj, rfl⟩

/-! ### C36: classes, numbers and history -/

/-- **C36.** After every history: members of the feasible subpopulation are feasible and those of the
infeasible one are not; all numbers in a subpopulation are distinct and smaller than the number the next
individual gets; the feasibility history consists of the latest 100 entries (100 initial `true` entries
followed by the recorded outcomes). -/
theorem C36_classes (ctx : Ctx α) (cfg : PopCfg) (bs : BSearch) (hbs : BSearchOK bs)
    (sort : List (Individual α) → Option (List (Individual α))) (hsort : Population.SortPerm sort)
    (p : Population α) (hs : List Bool) (h : p.Run ctx cfg bs sort (fun _ => True) hs) :
    (∀ x ∈ p.feasible.pop, x.isFeasible = true) ∧ (∀ x ∈ p.infeasible.pop, x.isFeasible = false) ∧
    (p.feasible.pop.map (·.number)).Nodup ∧ (p.infeasible.pop.map (·.number)).Nodup ∧
    (∀ x ∈ p.feasible.pop ++ p.infeasible.pop, x.number < p.total) ∧
    p.history.length = 100 ∧ p.history = (List.replicate 100 true ++ hs).drop hs.length := by
  have hI := h.inv hbs hsort
  refine ⟨hI.feasible.class_, hI.infeasible.class_, hI.feasible.table.nodup,
    hI.infeasible.table.nodup, ?_, ?_⟩
  · intro x hx
    rw [List.mem_append] at hx
    rcases hx with hx | hx
    · exact hI.feasible.low x hx
    · exact hI.infeasible.low x hx
  · have key : p.history = (List.replicate 100 true ++ hs).drop hs.length := by
      clear hI
      induction h with
      | new => rfl
      | @add p p' hs pen x upd _ hx _ ha ih =>
        have e : p'.history = if upd then (p.history ++ [x.isFeasible]).drop 1 else p.history := by
          unfold Population.add at ha
          dsimp only at ha
          split at ha
          · obtain ⟨s, -, rfl⟩ := Option.map_eq_some_iff.mp ha
            rfl
          · obtain ⟨s, -, rfl⟩ := Option.map_eq_some_iff.mp ha
            rfl
        rw [e]
        cases upd with
        | false => simpa using ih
        | true =>
          simp only [if_true, ih, List.length_append, List.length_cons, List.length_nil]
          rw [← List.append_assoc, List.drop_append_of_le_length (l₁ := List.replicate 100 true ++ hs)
            (by rw [List.length_append, List.length_replicate]; omega)]
          rw [List.drop_append_of_le_length
            (by rw [List.length_drop, List.length_append, List.length_replicate]; omega), List.drop_drop]
      | @reprice p p' hs pen _ hr _ ih =>
        unfold Population.reprice at hr
        obtain ⟨l, -, hr⟩ := Option.bind_eq_some_iff.mp hr
        obtain ⟨l', -, rfl⟩ := Option.map_eq_some_iff.mp hr
        exact ih
    refine ⟨?_, key⟩
    rw [key, List.length_drop, List.length_append, List.length_replicate]
    omega

end Verif
