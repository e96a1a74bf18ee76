import Verif.Lemmas.Fitness

/-! # No clones in a population, and elites through survivor selection (any arithmetic) -/

namespace Verif
open F64

variable {α : Type} [F64 α]

namespace SubPop

/-! ### No clones -/

/-- No recorded distance is zero. -/
def Apart (s : SubPop α) : Prop := ∀ k, ∀ d ∈ vec s.div k, d.distance ≠ 0

theorem Apart.new {cfg : PopCfg} : Apart (SubPop.new cfg : SubPop α) := by
  intro k d hd
  simp [SubPop.new, vec] at hd

/-- The steps of `add_individual`, with the diversity table in between. -/
theorem add_steps {cfg : PopCfg} {bs : BSearch} (hbs : BSearchOK bs) {x : Individual α}
    {s s' : SubPop α} (h : s.add cfg bs x = some s') (ht : Table s.pop s.div)
    (hx : x.number ∉ nums s.pop) :
    ∃ os m s2, compareAll x s.pop = some os ∧ bs os ≤ s.pop.length ∧ addDivs bs x s.pop s.div = some m ∧
      Table (x :: s.pop) m ∧
      ((s2.div = removeDiv x.number m ∧ s2.pop.map strip = s.pop.map strip) ∨
        (s2.div = m ∧ s2.pop.map strip = (s.pop.insertIdx (bs os) x).map strip ∧
          (s.pop ≠ [] → ∃ d v, m x.number = some (d :: v) ∧ d.distance ≠ 0))) ∧
      Table s2.pop s2.div ∧ s2.maxInd = s.maxInd ∧ s2.focus = s.focus ∧
      (∃ s1 : SubPop α, s1.updateFitness cfg = some s2) ∧
      ((s2.maxInd ≤ s2.pop.length ∧ selectLoop cfg (s2.pop.length + 1) s2 = some s') ∨
        (s2.pop.length < s2.maxInd ∧ s' = s2)) := by
  unfold add at h
  obtain ⟨os, hos, g1⟩ := Option.bind_eq_some_iff.mp h
  obtain ⟨pop, hpop, g2⟩ := Option.bind_eq_some_iff.mp g1
  obtain ⟨s1, hs1, g3⟩ := Option.bind_eq_some_iff.mp g2
  obtain ⟨c, hc, g4⟩ := Option.bind_eq_some_iff.mp g3
  obtain ⟨s2, hs2, g5⟩ := Option.bind_eq_some_iff.mp g4
  clear h g1 g2 g3 g4
  unfold insertAt at hpop
  split at hpop
  swap
  · simp at hpop
  rename_i hle
  simp only [Option.some.injEq] at hpop
  subst hpop
  obtain ⟨q1, q2⟩ := eraseIdx_insertIdx (x := x) hle
  unfold updateDiversity at hs1
  dsimp only at hs1
  rw [q1, q2] at hs1
  obtain ⟨m, hm, rfl⟩ := Option.map_eq_some_iff.mp hs1
  dsimp only at hc hs2
  rw [q2] at hc
  have hT := ht.insert hbs hx hm
  have hT' : Table (s.pop.insertIdx (bs os) x) m := hT.perm (List.perm_insertIdx _ _ hle)
  refine ⟨os, m, s2, hos, hle, hm, hT, ?_⟩
  have hlast : (s2.maxInd ≤ s2.pop.length ∧ selectLoop cfg (s2.pop.length + 1) s2 = some s') ∨
        (s2.pop.length < s2.maxInd ∧ s' = s2) := by
    split at g5
    · exact Or.inl ⟨by assumption, g5⟩
    · simp only [Option.some.injEq] at g5
      exact Or.inr ⟨by omega, g5.symm⟩
  cases c with
  | true =>
    rw [if_pos rfl] at hs2
    obtain ⟨x', hx', e1, e2, e3, e4⟩ := remove_some hs2
    dsimp only at hx' e1 e2 e3 e4
    rw [q2, Option.some.injEq] at hx'
    subst hx'
    rw [q1] at e1
    refine ⟨Or.inl ⟨e2, e1⟩, remove_table hs2 hT', e3, e4, ?_, hlast⟩
    unfold SubPop.remove at hs2
    dsimp only at hs2
    rw [q2] at hs2
    exact ⟨_, hs2⟩
  | false =>
    rw [if_neg (by simp)] at hs2
    obtain ⟨e1, e2, e3, e4⟩ := updateFitness_strip hs2
    dsimp only at e1 e2 e3 e4
    refine ⟨Or.inr ⟨e2, e1, fun hp => ?_⟩, e2 ▸ hT'.congr e1, e3, e4, ⟨_, hs2⟩, hlast⟩
    have hlen : (s.pop.insertIdx (bs os) x).length = s.pop.length + 1 := by
      rw [List.length_insertIdx, if_pos hle]
    have : 1 < s.pop.length + 1 := by
      have := List.length_pos_iff.mpr hp
      omega
    rw [hlen, if_pos this] at hc
    unfold isClone at hc
    dsimp only [Option.bind_some] at hc
    split at hc
    · simp at hc
    · rename_i v hv
      cases v with
      | nil => simp at hc
      | cons d v => exact ⟨d, v, hv, by simpa using hc⟩

theorem Apart.removeDiv {s : SubPop α} (h : Apart s) (n : ℕ) : ∀ k, ∀ d ∈ vec (removeDiv n s.div) k,
    d.distance ≠ 0 := by
  intro k d hd
  rw [vec_removeDiv] at hd
  split at hd
  · simp at hd
  · exact h k d ((dropEntry_sub n _).subset hd)

theorem naturalSelection_apart {cfg : PopCfg} {s s' : SubPop α} (h : s.naturalSelection cfg = some s')
    (ha : Apart s) : Apart s' := by
  obtain ⟨i, -, -, h3⟩ := naturalSelection_some h
  obtain ⟨x, -, -, e2, -, -⟩ := remove_some h3
  intro k d hd
  rw [e2] at hd
  exact ha.removeDiv _ k d hd

theorem selectLoop_apart {cfg : PopCfg} : ∀ {k : ℕ} {s s' : SubPop α}, selectLoop cfg k s = some s' →
    Apart s → Apart s'
  | 0, s, s', h, _ => by simp [selectLoop] at h
  | k + 1, s, s', h, ha => by
    unfold selectLoop at h
    split at h
    · obtain ⟨s1, h1, h2⟩ := Option.bind_eq_some_iff.mp h
      exact selectLoop_apart h2 (naturalSelection_apart h1 ha)
    · simp only [Option.some.injEq] at h
      exact h ▸ ha

/-- Before survivor selection no two members are clones. -/
theorem inserted_apart {bs : BSearch} (hbs : BSearchOK bs) {x : Individual α} {s s2 : SubPop α} {i : ℕ}
    {m : ℕ → Option (List Diversity)} (ht : Table s.pop s.div) (hx : x.number ∉ nums s.pop) (ha : Apart s)
    (hm : addDivs bs x s.pop s.div = some m) (hT : Table s2.pop s2.div)
    (h : (s2.div = SubPop.removeDiv x.number m ∧ s2.pop.map strip = s.pop.map strip) ∨
        (s2.div = m ∧ s2.pop.map strip = (s.pop.insertIdx i x).map strip ∧
          (s.pop ≠ [] → ∃ d v, m x.number = some (d :: v) ∧ d.distance ≠ 0))) : Apart s2 := by
  have w := addDivs_written hbs hm hx ht.nodup ht.sorted
  -- entries of others are the old ones or the new one
  have old : ∀ k ∈ nums s.pop, ∀ d ∈ vec m k, d.target = x.number ∨ d ∈ vec s.div k := by
    intro k hk d hd
    obtain ⟨o, ho, rfl⟩ := List.mem_map.mp hk
    obtain ⟨-, e, -, hp, -⟩ := w.each o ho
    have := hp.mem_iff.mp hd
    rw [List.mem_cons] at this
    rcases this with rfl | h
    · exact Or.inl rfl
    · exact Or.inr h
  rcases h with ⟨e, ep⟩ | ⟨e, -, hc⟩
  · have en : nums s2.pop = nums s.pop := by rw [← nums_strip, ep, nums_strip]
    intro k d hd
    have hk : k ∈ nums s2.pop := by
      by_contra hk
      unfold vec at hd
      rw [hT.keys k hk] at hd
      simp at hd
    have ht2 : d.target ∈ nums s2.pop :=
      List.mem_of_mem_erase ((hT.targets k hk).mem_iff.mp (List.mem_map_of_mem hd))
    have hd' : d ∈ vec m k := by
      rw [e, vec_removeDiv] at hd
      split at hd
      · simp at hd
      · exact (dropEntry_sub _ _).subset hd
    rcases old k (en ▸ hk) d hd' with h | h
    · rw [en, h] at ht2
      exact absurd ht2 hx
    · exact ha k d h
  · have own : s.pop ≠ [] → ∀ d ∈ vec m x.number, d.distance ≠ 0 := by
      intro hp d hd
      obtain ⟨d0, v, hv, h0⟩ := hc hp
      have hs := w.sorted x.number
      unfold vec at hd hs
      rw [hv] at hd hs
      dsimp only [Option.getD_some] at hd hs
      rw [List.mem_cons] at hd
      rcases hd with rfl | hd
      · exact h0
      · have := (List.pairwise_cons.mp hs).1 d hd
        omega
    intro k d hd
    rw [e] at hd
    by_cases hk : k ∈ nums s.pop
    · have hp : s.pop ≠ [] := by
        rintro h0
        rw [h0] at hk
        simp [nums] at hk
      obtain ⟨o, ho, rfl⟩ := List.mem_map.mp hk
      obtain ⟨-, c, -, hperm, hmem⟩ := w.each o ho
      have := hperm.mem_iff.mp hd
      rw [List.mem_cons] at this
      rcases this with rfl | h
      · exact own hp ⟨c, o.number⟩ hmem
      · exact ha _ d h
    · by_cases hkx : k = x.number
      · subst hkx
        by_cases hp : s.pop = []
        · rw [w.same hp] at hd
          exact ha _ d hd
        · exact own hp d hd
      · unfold vec at hd
        rw [w.others k hkx hk] at hd
        exact ha k d hd

theorem add_apart {cfg : PopCfg} {bs : BSearch} (hbs : BSearchOK bs) {x : Individual α} {s s' : SubPop α}
    (ht : Table s.pop s.div) (hx : x.number ∉ nums s.pop) (ha : Apart s) (h : s.add cfg bs x = some s') :
    Apart s' := by
  obtain ⟨os, m, s2, -, -, hm, -, h1, hT, -, -, -, h5⟩ := add_steps hbs h ht hx
  have := inserted_apart hbs ht hx ha hm hT h1
  rcases h5 with ⟨-, h5⟩ | ⟨-, rfl⟩
  · exact selectLoop_apart h5 this
  · exact this

/-- Then no member counts as a clone. -/
theorem Apart.notClone {s : SubPop α} (h : Apart s) (ht : Table s.pop s.div) (h2 : 2 ≤ s.pop.length)
    {x : Individual α} (hx : x ∈ s.pop) : s.isClone x = some false := by
  obtain ⟨c, hc⟩ := isClone_total ht h2 hx
  rw [hc]
  unfold isClone at hc
  split at hc
  · simp at hc
  · rename_i v hv
    obtain ⟨d, hd, rfl⟩ := Option.map_eq_some_iff.mp hc
    have := h x.number d (by unfold vec; rw [hv]; exact List.mem_of_getElem? hd)
    simp [this]

/-! ### Survivor selection -/

/-- A set of numbers on which `<=` is a total preorder. -/
structure Ordered (α : Type) [F64 α] (V : α → Prop) : Prop where
  total : ∀ a b, V a → V b → (a ≤. b) = false → (b ≤. a) = true
  trans : ∀ a b c, V a → V b → V c → (a ≤. b) = true → (b ≤. c) = true → (a ≤. c) = true

theorem Ordered.refl {V : α → Prop} (h : Ordered α V) {a : α} (ha : V a) : (a ≤. a) = true := by
  cases e : (a ≤. a) with
  | true => rfl
  | false => exact e ▸ h.total a a ha ha e

/-- The biased fitness with `E` elites among `N` members: it lies in `V`, that of an elite is below that of the
last member, whose fitness is above the value the scan starts with. -/
structure RankOK (α : Type) [F64 α] (V : α → Prop) (E N : ℕ) : Prop where
  start : V (lit (-1))
  valid : ∀ k i, k < N → i < N → V (biasedFitness false N E k i)
  elite : ∀ k k' i, k < N → k' < N → E < N → i < E →
    (biasedFitness (α := α) false N E k (N - 1) ≤. biasedFitness false N E k' i) = false
  last : ∀ k, k < N → E < N → (biasedFitness (α := α) false N E k (N - 1) ≤. lit (-1)) = false

/-- Without clones the scan finds a member of largest fitness. -/
theorem scan_top {V : α → Prop} (hV : Ordered α V) (s : SubPop α) : ∀ (xs : List (Individual α)) (i : ℕ)
    (w w' : Worst α), s.scanWorst xs i w = some w' → (∀ x ∈ xs, s.isClone x = some false) → w.clone = false →
    V w.fitness → (∀ x ∈ xs, V x.fitness) →
    V w'.fitness ∧ (w.fitness ≤. w'.fitness) = true ∧ (∀ x ∈ xs, (x.fitness ≤. w'.fitness) = true) ∧
      (w' = w ∨ ∃ j x, xs[j]? = some x ∧ w'.index = i + j ∧ w'.fitness = x.fitness)
  | [], i, w, w', h, _, _, v, _ => by
    simp only [scanWorst, Option.some.injEq] at h
    subst h
    exact ⟨v, hV.refl v, by simp, Or.inl rfl⟩
  | x :: xs, i, w, w', h, hc, hw, v, hv => by
    unfold scanWorst at h
    rw [hc x (by simp)] at h
    simp only [hw, Bool.not_false, Bool.and_true, BEq.rfl, Bool.true_and, Bool.false_or] at h
    have vx := hv x (by simp)
    split at h
    · rename_i hle
      obtain ⟨v', a, b, c⟩ := scan_top hV s xs _ _ _ h (fun y hy => hc y (by simp [hy])) rfl vx
        fun y hy => hv y (by simp [hy])
      dsimp only at a
      refine ⟨v', hV.trans _ _ _ v vx v' hle a, ?_, Or.inr ?_⟩
      · intro y hy
        rw [List.mem_cons] at hy
        rcases hy with rfl | hy
        · exact a
        · exact b y hy
      · rcases c with rfl | ⟨j, y, h1, h2, h3⟩
        · exact ⟨0, x, rfl, by simp, rfl⟩
        · exact ⟨j + 1, y, by simpa using h1, by omega, h3⟩
    · rename_i hle
      obtain ⟨v', a, b, c⟩ := scan_top hV s xs _ _ _ h (fun y hy => hc y (by simp [hy])) hw v
        fun y hy => hv y (by simp [hy])
      refine ⟨v', a, ?_, ?_⟩
      · intro y hy
        rw [List.mem_cons] at hy
        rcases hy with rfl | hy
        · exact hV.trans _ _ _ vx v v' (hV.total _ _ v vx (by simpa using hle)) a
        · exact b y hy
      · rcases c with rfl | ⟨j, y, h1, h2, h3⟩
        · exact Or.inl rfl
        · exact Or.inr ⟨j + 1, y, by simpa using h1, by omega, h3⟩

theorem take_eraseIdx {β : Type} : ∀ (l : List β) (i k : ℕ), k ≤ i → (l.eraseIdx i).take k = l.take k
  | [], _, _, _ => by simp
  | a :: l, i, 0, _ => by simp
  | a :: l, 0, k + 1, h => by omega
  | a :: l, i + 1, k + 1, h => by simp [take_eraseIdx l i k (by omega)]

/-- Survivor selection with up-to-date fitness and without clones removes a member behind the elites. -/
theorem naturalSelection_elites {V : α → Prop} (hV : Ordered α V) {cfg : PopCfg} {s₀ s s' : SubPop α}
    (hR : RankOK α V cfg.numElites s.pop.length) (hf : s.focus = false)
    (hup : s₀.updateFitness cfg = some s) (h2 : 2 ≤ s.pop.length) (hE : cfg.numElites < s.pop.length)
    (hc : ∀ x ∈ s.pop, s.isClone x = some false) (h : s.naturalSelection cfg = some s') :
    (s'.pop.map strip).take cfg.numElites = (s.pop.map strip).take cfg.numElites := by
  obtain ⟨e1, -, -, -⟩ := updateFitness_strip hup
  have el : s.pop.length = s₀.pop.length := by simpa using congrArg List.length e1
  unfold naturalSelection at h
  split at h
  · simp at h
  · rename_i w hw
    have vall : ∀ x ∈ s.pop, V x.fitness := by
      intro x hx
      obtain ⟨i, hi⟩ := List.mem_iff_getElem?.mp hx
      obtain ⟨k, hk, hfit⟩ := updateFitness_rank hup (by omega) hi
      rw [hfit, hf]
      exact hR.valid k i hk (List.getElem?_eq_some_iff.mp hi).1
    obtain ⟨vw, a, b, c⟩ := scan_top hV s _ _ _ _ hw (fun x hx => hc x (List.mem_of_mem_drop hx)) rfl hR.start
      fun x hx => vall x (List.mem_of_mem_drop hx)
    obtain ⟨y, -, hrem, -⟩ := remove_some h
    have hlast : s.pop[s.pop.length - 1]? = some s.pop[s.pop.length - 1] :=
      List.getElem?_eq_getElem (by omega)
    obtain ⟨k, hk, hfit⟩ := updateFitness_rank hup (by omega) hlast
    rw [hf] at hfit
    have hb : (s.pop[s.pop.length - 1].fitness ≤. w.fitness) = true := by
      refine b _ (List.mem_iff_getElem?.mpr ⟨s.pop.length - 2, ?_⟩)
      rw [List.getElem?_drop, ← hlast]
      congr 1
      omega
    have hidx : cfg.numElites ≤ w.index := by
      rcases c with rfl | ⟨j, x, hj, hji, hjf⟩
      · rw [hfit, hR.last k hk hE] at hb
        simp at hb
      · by_contra hlt
        rw [List.getElem?_drop, ← hji] at hj
        obtain ⟨k', hk', hfit'⟩ := updateFitness_rank hup (by omega) hj
        rw [hf] at hfit'
        rw [hfit, hjf, hfit', hR.elite k k' _ hk hk' hE (not_le.mp hlt)] at hb
        simp at hb
    rw [hrem, ← List.map_take, ← List.map_take, take_eraseIdx _ _ _ hidx]

theorem naturalSelection_updated {cfg : PopCfg} {s s' : SubPop α} (h : s.naturalSelection cfg = some s') :
    ∃ s₀ : SubPop α, s₀.updateFitness cfg = some s' := by
  unfold naturalSelection at h
  split at h
  · simp at h
  · unfold remove at h
    split at h
    · simp at h
    · exact ⟨_, h⟩

/-- All rounds of survivor selection keep the elites. -/
theorem selectLoop_elites {V : α → Prop} (hV : Ordered α V) {cfg : PopCfg} {M : ℕ}
    (hR : ∀ N, 2 ≤ N → N ≤ M → RankOK α V cfg.numElites N) (hm : 1 ≤ cfg.minSize) (hE : cfg.numElites ≤ cfg.minSize) :
    ∀ {k : ℕ} {s s' : SubPop α}, selectLoop cfg k s = some s' → s.pop.length ≤ M →
      (∃ s₀ : SubPop α, s₀.updateFitness cfg = some s) → s.focus = false → Table s.pop s.div → Apart s →
      (s'.pop.map strip).take cfg.numElites = (s.pop.map strip).take cfg.numElites
  | 0, s, s', h, _, _, _, _, _ => by simp [selectLoop] at h
  | k + 1, s, s', h, hM, ⟨s₀, hs₀⟩, hf, ht, ha => by
    unfold selectLoop at h
    split at h
    · rename_i hlt
      obtain ⟨s1, h1, h2⟩ := Option.bind_eq_some_iff.mp h
      obtain ⟨a1, a2⟩ := naturalSelection_shrunk h1
      rw [selectLoop_elites hV hR hm hE h2 (by omega) (naturalSelection_updated h1) (a1.focus.trans hf)
        (a1.table ht) (naturalSelection_apart h1 ha)]
      exact naturalSelection_elites hV (hR _ (by omega) hM) hf hs₀ (by omega) (by omega)
        (fun x hx => ha.notClone ht (by omega) hx) h1
    · simp only [Option.some.injEq] at h
      rw [h]

/-- One insertion: the individual is put in some place or rejected, and the first members then are kept. -/
theorem add_elites {V : α → Prop} (hV : Ordered α V) {cfg : PopCfg} {bs : BSearch} (hbs : BSearchOK bs) {M : ℕ}
    (hR : ∀ N, 2 ≤ N → N ≤ M → RankOK α V cfg.numElites N) (hm : 1 ≤ cfg.minSize) (hE : cfg.numElites ≤ cfg.minSize)
    {x : Individual α} {s s' : SubPop α} (ht : Table s.pop s.div) (hx : x.number ∉ nums s.pop) (ha : Apart s)
    (hf : s.focus = false) (hM : s.pop.length + 1 ≤ M) (h : s.add cfg bs x = some s') :
    ∃ L : List (Individual α), (L = s.pop ∨ ∃ i ≤ s.pop.length, L = s.pop.insertIdx i x) ∧
      (s'.pop.map strip).Sublist (L.map strip) ∧
      (s'.pop.map strip).take cfg.numElites = (L.map strip).take cfg.numElites := by
  obtain ⟨os, m, s2, -, hle, hm2, -, h1, hT, h3, h4, h6, h5⟩ := add_steps hbs h ht hx
  have hap := inserted_apart hbs ht hx ha hm2 hT h1
  obtain ⟨L, hL, eL, lL⟩ : ∃ L : List (Individual α), (L = s.pop ∨ ∃ i ≤ s.pop.length, L = s.pop.insertIdx i x) ∧
      s2.pop.map strip = L.map strip ∧ L.length ≤ s.pop.length + 1 := by
    rcases h1 with ⟨-, e⟩ | ⟨-, e, -⟩
    · exact ⟨s.pop, Or.inl rfl, e, by omega⟩
    · exact ⟨_, Or.inr ⟨_, hle, rfl⟩, e, by rw [List.length_insertIdx, if_pos hle]⟩
  have l2 : s2.pop.length = L.length := by simpa using congrArg List.length eL
  refine ⟨L, hL, ?_⟩
  rw [← eL]
  rcases h5 with ⟨-, h5⟩ | ⟨-, rfl⟩
  · exact ⟨(selectLoop_shrunk h5).1.sub, selectLoop_elites hV hR hm hE h5 (by omega) h6 (h4.trans hf) hT hap⟩
  · exact ⟨List.Sublist.refl _, rfl⟩

/-! ### The fitness of all members -/

/-- The fitness of every member lies in `V`. -/
def Rated (V : α → Prop) (s : SubPop α) : Prop := ∀ x ∈ s.pop, V x.fitness

theorem updateFitness_rated {V : α → Prop} {cfg : PopCfg} {s s' : SubPop α} {M : ℕ} (h0 : V (lit 0))
    (hR : ∀ N, 2 ≤ N → N ≤ M → RankOK α V cfg.numElites N) (hf : s'.focus = false) (hM : s'.pop.length ≤ M)
    (h : s.updateFitness cfg = some s') : Rated V s' := by
  obtain ⟨e1, -, -, -⟩ := updateFitness_strip h
  have el : s'.pop.length = s.pop.length := by simpa using congrArg List.length e1
  intro x hx
  obtain ⟨i, hi⟩ := List.mem_iff_getElem?.mp hx
  have hi' := (List.getElem?_eq_some_iff.mp hi).1
  by_cases h1 : s.pop.length = 1
  · unfold updateFitness at h
    rw [if_pos h1, Option.some.injEq] at h
    subst h
    dsimp only at hi hi'
    rw [List.length_modify] at hi'
    have : i = 0 := by omega
    subst this
    rw [List.getElem?_modify] at hi
    simp only [if_true] at hi
    obtain ⟨y, -, rfl⟩ := Option.map_eq_some_iff.mp hi
    exact h0
  · obtain ⟨k, hk, hfit⟩ := updateFitness_rank h h1 hi
    rw [hfit, hf]
    exact (hR _ (by omega) hM).valid k i hk hi'

theorem add_rated {V : α → Prop} {cfg : PopCfg} {bs : BSearch} (hbs : BSearchOK bs) {M : ℕ} (h0 : V (lit 0))
    (hR : ∀ N, 2 ≤ N → N ≤ M → RankOK α V cfg.numElites N) {x : Individual α} {s s' : SubPop α}
    (ht : Table s.pop s.div) (hx : x.number ∉ nums s.pop) (hf : s.focus = false) (hM : s.pop.length + 1 ≤ M)
    (h : s.add cfg bs x = some s') : Rated V s' := by
  obtain ⟨os, m, s2, -, hle, -, -, h1, -, -, h4, ⟨s1, h6⟩, h5⟩ := add_some hbs h ht hx
  have l2 : s2.pop.length ≤ s.pop.length + 1 := by
    rcases h1 with ⟨-, -, e⟩ | ⟨-, e⟩
    · have := congrArg List.length e
      simp only [List.length_map] at this
      omega
    · have := congrArg List.length e
      simp only [List.length_map, List.length_insertIdx, if_pos hle] at this
      omega
  have loop : ∀ (k : ℕ) (s s' : SubPop α), selectLoop cfg k s = some s' → s.pop.length ≤ M → s.focus = false →
      Rated V s → Rated V s' := by
    intro k
    induction k with
    | zero => intro s s' h; simp [selectLoop] at h
    | succ k ih =>
      intro s s' h hM hf hs
      unfold selectLoop at h
      split at h
      · obtain ⟨t, h1, h2⟩ := Option.bind_eq_some_iff.mp h
        obtain ⟨a1, a2⟩ := naturalSelection_shrunk h1
        obtain ⟨t0, h3⟩ := naturalSelection_updated h1
        exact ih t s' h2 (by omega) (a1.focus.trans hf) (updateFitness_rated h0 hR (a1.focus.trans hf) (by omega) h3)
      · simp only [Option.some.injEq] at h
        exact h ▸ hs
  have r2 := updateFitness_rated h0 hR (h4.trans hf) (by omega) h6
  rcases h5 with ⟨-, h5⟩ | ⟨-, rfl⟩
  · exact loop _ _ _ h5 (by omega) (h4.trans hf) r2
  · exact r2

end SubPop

namespace Population

open SubPop

/-- After every history no recorded distance is zero. -/
theorem Run.apart {ctx : Ctx α} {cfg : PopCfg} {bs : BSearch} (hbs : BSearchOK bs)
    {sort : List (Individual α) → Option (List (Individual α))} (hsort : SortPerm sort)
    {ok : Individual α → Prop} {p : Population α} {hs : List Bool} (h : p.Run ctx cfg bs sort ok hs) :
    Apart p.feasible ∧ Apart p.infeasible := by
  induction h with
  | new => exact ⟨Apart.new, Apart.new⟩
  | @add p p' hs pen x upd r hx _ ha ih =>
    have hI := r.inv hbs hsort
    unfold Population.add at ha
    dsimp only at ha
    split at ha
    · obtain ⟨s, hs', rfl⟩ := Option.map_eq_some_iff.mp ha
      exact ⟨add_apart hbs hI.feasible.table hI.feasible.fresh ih.1 hs', ih.2⟩
    · obtain ⟨s, hs', rfl⟩ := Option.map_eq_some_iff.mp ha
      exact ⟨ih.1, add_apart hbs hI.infeasible.table hI.infeasible.fresh ih.2 hs'⟩
  | reprice _ hr _ ih =>
    unfold Population.reprice at hr
    obtain ⟨l, -, hr⟩ := Option.bind_eq_some_iff.mp hr
    obtain ⟨l', -, rfl⟩ := Option.map_eq_some_iff.mp hr
    exact ih

/-- After every history the fitness of all members lies in `V`. -/
theorem Run.rated {ctx : Ctx α} {cfg : PopCfg} {bs : BSearch} (hbs : BSearchOK bs)
    {sort : List (Individual α) → Option (List (Individual α))} (hsort : SortPerm sort) {V : α → Prop}
    (h0 : V (lit 0)) (hR : ∀ N, 2 ≤ N → N ≤ cfg.minSize + cfg.lambda + 1 → RankOK α V cfg.numElites N)
    {ok : Individual α → Prop} {p : Population α} {hs : List Bool} (h : p.Run ctx cfg bs sort ok hs) :
    Rated V p.feasible ∧ Rated V p.infeasible := by
  induction h with
  | new => constructor <;> intro x hx <;> simp [Population.new, SubPop.new] at hx
  | @add p p' hs pen x upd r hx _ ha ih =>
    have hI := r.inv hbs hsort
    unfold Population.add at ha
    dsimp only at ha
    split at ha
    · obtain ⟨s, hs', rfl⟩ := Option.map_eq_some_iff.mp ha
      have := hI.feasible.size
      exact ⟨add_rated hbs h0 hR hI.feasible.table hI.feasible.fresh hI.feasible.focus (by omega) hs', ih.2⟩
    · obtain ⟨s, hs', rfl⟩ := Option.map_eq_some_iff.mp ha
      have := hI.infeasible.size
      exact ⟨ih.1, add_rated hbs h0 hR hI.infeasible.table hI.infeasible.fresh hI.infeasible.focus (by omega) hs'⟩
  | reprice _ hr _ ih =>
    unfold Population.reprice at hr
    obtain ⟨l, hl, hr⟩ := Option.bind_eq_some_iff.mp hr
    obtain ⟨l', hl', rfl⟩ := Option.map_eq_some_iff.mp hr
    refine ⟨ih.1, fun x hx => ?_⟩
    have hx := (hsort _ _ hl').subset hx
    obtain ⟨i, hi⟩ := List.mem_iff_getElem?.mp hx
    have f := evaluateAll_some hl
    have hi' := (List.getElem?_eq_some_iff.mp hi).1
    rw [List.forall₂_iff_get] at f
    have := f.2 i (by rw [f.1]; exact hi') hi'
    unfold Individual.evaluate at this
    obtain ⟨e, -, he⟩ := Option.map_eq_some_iff.mp this
    have hxe : x = l.get ⟨i, hi'⟩ := by
      rw [List.getElem?_eq_getElem hi', Option.some.injEq] at hi
      exact hi.symm
    have hold := ih.2 _ (List.get_mem _ ⟨i, by rw [f.1]; exact hi'⟩)
    rw [hxe, ← he]
    exact hold

/-- The contest returns a contestant of lowest fitness. -/
theorem contest_top {V : α → Prop} (hV : Ordered α V) (hlt : ∀ a b, V a → V b → (a <. b) = !(b ≤. a))
    (p : Population α) (hp : ∀ x ∈ p.feasible.pop ++ p.infeasible.pop, V x.fitness) :
    ∀ (l : List ℕ) (w : Option (Individual α)), (∀ i ∈ l, i < p.size) → (l ≠ [] ∨ w ≠ none) →
    (∀ y, w = some y → V y.fitness) →
    ∃ x, p.contest l w = some (some x) ∧
      ((∃ i ∈ l, (p.feasible.pop ++ p.infeasible.pop)[i]? = some x) ∨ w = some x) ∧
      (∀ i ∈ l, ∀ y, (p.feasible.pop ++ p.infeasible.pop)[i]? = some y → (x.fitness ≤. y.fitness) = true) ∧
      (∀ y, w = some y → (x.fitness ≤. y.fitness) = true) ∧ V x.fitness
  | [], none, _, h, _ => by simp at h
  | [], some y, _, _, hv => ⟨y, rfl, Or.inr rfl, by simp, fun z hz => by
      rw [Option.some.injEq] at hz
      rw [hz]
      exact hV.refl (hz ▸ hv y rfl), hv y rfl⟩
  | i :: l, w, hl, _, hv => by
    have hi : i < (p.feasible.pop ++ p.infeasible.pop).length := by
      rw [List.length_append]; exact hl i (by simp)
    obtain ⟨x, hx⟩ : ∃ x, (p.feasible.pop ++ p.infeasible.pop)[i]? = some x :=
      ⟨_, List.getElem?_eq_getElem hi⟩
    have vx := hp x (List.mem_of_getElem? hx)
    have hm : p.member i = some x := by
      unfold member
      split
      · rw [List.getElem?_append_left (by assumption)] at hx
        exact hx
      · rw [List.getElem?_append_right (by omega)] at hx
        exact hx
    unfold contest
    rw [hm]
    dsimp only
    have tail : ∀ {z y0 : Individual α},
        ((∃ j ∈ l, (p.feasible.pop ++ p.infeasible.pop)[j]? = some z) ∨ some y0 = some z) →
        (y0 = x ∨ w = some y0) →
        (∃ j ∈ i :: l, (p.feasible.pop ++ p.infeasible.pop)[j]? = some z) ∨ w = some z := by
      intro z y0 h1 h2
      rcases h1 with ⟨j, hj, h1⟩ | h1
      · exact Or.inl ⟨j, by simp [hj], h1⟩
      · rw [Option.some.injEq] at h1
        subst h1
        rcases h2 with rfl | h2
        · exact Or.inl ⟨i, by simp, hx⟩
        · exact Or.inr h2
    cases w with
    | none =>
      obtain ⟨z, h1, h2, h3, h4, h5⟩ := contest_top hV hlt p hp l (some x) (fun j hj => hl j (by simp [hj]))
        (by simp) (fun y hy => by rw [Option.some.injEq] at hy; exact hy ▸ vx)
      refine ⟨z, h1, tail h2 (Or.inl rfl), ?_, by simp, h5⟩
      intro j hj y hy
      rw [List.mem_cons] at hj
      rcases hj with rfl | hj
      · rw [hx] at hy
        exact h4 y hy
      · exact h3 j hj y hy
    | some y =>
      have vy := hv y rfl
      dsimp only
      rw [hlt _ _ vx vy]
      cases hle : (y.fitness ≤. x.fitness) with
      | false =>
        simp only [Bool.not_false, if_true]
        obtain ⟨z, h1, h2, h3, h4, h5⟩ := contest_top hV hlt p hp l (some x) (fun j hj => hl j (by simp [hj]))
          (by simp) (fun y hy => by rw [Option.some.injEq] at hy; exact hy ▸ vx)
        refine ⟨z, h1, tail h2 (Or.inl rfl), ?_, ?_, h5⟩
        · intro j hj y' hy'
          rw [List.mem_cons] at hj
          rcases hj with rfl | hj
          · rw [hx] at hy'
            exact h4 y' hy'
          · exact h3 j hj y' hy'
        · intro y' hy'
          rw [Option.some.injEq] at hy'
          subst hy'
          exact hV.trans _ _ _ h5 vx vy (h4 x rfl) (hV.total _ _ vy vx hle)
      | true =>
        simp only [Bool.not_true, Bool.false_eq_true, if_false]
        obtain ⟨z, h1, h2, h3, h4, h5⟩ := contest_top hV hlt p hp l (some y) (fun j hj => hl j (by simp [hj]))
          (by simp) (fun y hy => by rw [Option.some.injEq] at hy; exact hy ▸ vy)
        refine ⟨z, h1, tail h2 (Or.inr rfl), ?_, h4, h5⟩
        intro j hj y' hy'
        rw [List.mem_cons] at hj
        rcases hj with rfl | hj
        · rw [hx, Option.some.injEq] at hy'
          subst hy'
          exact hV.trans _ _ _ h5 vy vx (h4 y rfl) hle
        · exact h3 j hj y' hy'

end Population
end Verif
