import Verif.Model.Population
import Mathlib.Data.List.Basic
import Mathlib.Data.List.Perm.Subperm

/-! # Diversity table and fitness of a subpopulation -/

namespace Verif
open F64

variable {α : Type} [F64 α]

/-- What `Vec::binary_search` guarantees even when the comparisons are not consistent with any order: the
index is in range, and either the element there compared equal, or the element before it (if any)
compared less and the element at it (if any) compared greater. -/
def BSearchOK (bs : BSearch) : Prop :=
  ∀ os : List Ordering, bs os ≤ os.length ∧
    (os[bs os]? = some .eq ∨
      ((bs os = 0 ∨ os[bs os - 1]? = some .lt) ∧ (bs os = os.length ∨ os[bs os]? = some .gt)))

namespace SubPop

/-- The diversity vector of a number, empty if there is none. -/
def vec (m : ℕ → Option (List Diversity)) (k : ℕ) : List Diversity := (m k).getD []

/-- Ascending distances. -/
def Sorted (v : List Diversity) : Prop := v.Pairwise fun a b => a.distance ≤ b.distance

/-- Numbers of the members. -/
def nums (P : List (Individual α)) : List ℕ := P.map (·.number)

/-- An individual without its fitness. -/
def strip (x : Individual α) : Individual α := { x with fitness := lit 0 }

theorem strip_number (x : Individual α) : (strip x).number = x.number := rfl

theorem nums_strip (P : List (Individual α)) : nums (P.map strip) = nums P := by
  simp [nums, Function.comp_def, strip]

/-- A list that is sorted up to one insertion. -/
theorem pairwise_insert {β γ : Type} [Preorder γ] {f : β → γ} {v : List β} {i : ℕ} {d : β} (hi : i ≤ v.length)
    (hs : v.Pairwise fun a b => f a ≤ f b)
    (hl : ∀ (j : ℕ) (e : β), j < i → v[j]? = some e → f e ≤ f d)
    (hr : ∀ (j : ℕ) (e : β), i ≤ j → v[j]? = some e → f d ≤ f e) :
    (v.insertIdx i d).Pairwise fun a b => f a ≤ f b := by
  have e : v.insertIdx i d = v.take i ++ d :: v.drop i := by
    clear hs hl hr
    induction v generalizing i with
    | nil => obtain rfl : i = 0 := by simpa using hi
             rfl
    | cons a v ih =>
      cases i with
      | zero => rfl
      | succ i => simp [ih (i := i) (by simpa using hi)]
  rw [e, List.pairwise_append]
  refine ⟨hs.sublist (List.take_sublist _ _), ?_, ?_⟩
  · rw [List.pairwise_cons]
    refine ⟨?_, hs.sublist (List.drop_sublist _ _)⟩
    intro b hb
    obtain ⟨j, hj⟩ := List.mem_iff_getElem?.mp hb
    rw [List.getElem?_drop] at hj
    exact hr _ b (by omega) hj
  · intro a ha b hb
    obtain ⟨j, hj⟩ := List.mem_iff_getElem?.mp ha
    rw [List.getElem?_take] at hj
    split at hj
    · rename_i hji
      have h1 := hl j a hji hj
      rw [List.mem_cons] at hb
      rcases hb with rfl | hb
      · exact h1
      · obtain ⟨j', hj'⟩ := List.mem_iff_getElem?.mp hb
        rw [List.getElem?_drop] at hj'
        exact h1.trans (hr _ b (by omega) hj')
    · simp at hj

theorem insert_sorted {bs : BSearch} (hbs : BSearchOK bs) {v : List Diversity} (hv : Sorted v)
    (d : Diversity) :
    Sorted (v.insertIdx (bs (v.map fun e => compare e.distance d.distance)) d) ∧
    (v.insertIdx (bs (v.map fun e => compare e.distance d.distance)) d).Perm (d :: v) := by
  obtain ⟨h1, h2⟩ := hbs (v.map fun e => compare e.distance d.distance)
  generalize bs (v.map fun e => compare e.distance d.distance) = i at *
  rw [List.length_map] at h1 h2
  refine ⟨?_, List.perm_insertIdx _ _ h1⟩
  have hle : ∀ (j k : ℕ) (a b : Diversity), j ≤ k → v[j]? = some a → v[k]? = some b →
      a.distance ≤ b.distance := by
    intro j k a b hjk ha hb
    rcases Nat.lt_or_eq_of_le hjk with h | rfl
    · obtain ⟨ja, rfl⟩ := List.getElem?_eq_some_iff.mp ha
      obtain ⟨ka, rfl⟩ := List.getElem?_eq_some_iff.mp hb
      exact List.pairwise_iff_getElem.mp hv j k ja ka h
    · rw [ha, Option.some.injEq] at hb
      rw [hb]
  simp only [List.getElem?_map, Option.map_eq_some_iff, compare_lt_iff_lt, compare_gt_iff_gt,
    compare_eq_iff_eq] at h2
  refine pairwise_insert (f := Diversity.distance) h1 hv ?_ ?_
  · intro j e hj he
    rcases h2 with ⟨b, hb, hbd⟩ | ⟨h2, -⟩
    · have := hle j i e b hj.le he hb
      omega
    · rcases h2 with h2 | ⟨b, hb, hbd⟩
      · omega
      · have := hle j (i - 1) e b (by omega) he hb
        omega
  · intro j e hj he
    rcases h2 with ⟨b, hb, hbd⟩ | ⟨-, h2⟩
    · have := hle i j b e hj hb he
      omega
    · rcases h2 with h2 | ⟨b, hb, hbd⟩
      · have := (List.getElem?_eq_some_iff.mp he).1
        omega
      · have := hle i j b e hj hb he
        omega

theorem addDiv_vec {bs : BSearch} (hbs : BSearchOK bs) (key : ℕ) (d : Diversity)
    (m : ℕ → Option (List Diversity)) :
    (∀ k, k ≠ key → addDiv bs key d m k = m k) ∧
    (∃ v, addDiv bs key d m key = some v) ∧
    (Sorted (vec m key) → Sorted (vec (addDiv bs key d m) key)) ∧
    (Sorted (vec m key) → (vec (addDiv bs key d m) key).Perm (d :: vec m key)) := by
  refine ⟨fun k hk => by simp [addDiv, hk], ?_, ?_, ?_⟩
  · unfold addDiv
    rw [if_pos rfl]
    split <;> exact ⟨_, rfl⟩
  · unfold vec addDiv
    rw [if_pos rfl]
    cases h : m key with
    | none => intro _; simp [Sorted]
    | some v => intro hs; exact (insert_sorted hbs hs d).1
  · unfold vec addDiv
    rw [if_pos rfl]
    cases h : m key with
    | none => intro _; simp
    | some v => intro hs; exact (insert_sorted hbs hs d).2

/-- What `update_diversity` writes. -/
structure Written (x : Individual α) (os : List (Individual α)) (m m' : ℕ → Option (List Diversity)) :
    Prop where
  others : ∀ k, k ≠ x.number → k ∉ nums os → m' k = m k
  sorted : ∀ k, Sorted (vec m' k)
  same : os = [] → m' = m
  present : os ≠ [] → (m' x.number).isSome
  own : ∃ E : List Diversity, E.map (·.target) = nums os ∧
    (∀ e ∈ E, ∃ o ∈ os, o.number = e.target ∧ o.brokenPairs x = some e.distance) ∧
    (vec m' x.number).Perm (E ++ vec m x.number)
  each : ∀ o ∈ os, (m' o.number).isSome ∧ ∃ d, o.brokenPairs x = some d ∧
    (vec m' o.number).Perm (⟨d, x.number⟩ :: vec m o.number) ∧ ⟨d, o.number⟩ ∈ vec m' x.number

theorem addDivs_written {bs : BSearch} (hbs : BSearchOK bs) {x : Individual α} :
    ∀ {os : List (Individual α)} {m m' : ℕ → Option (List Diversity)},
      addDivs bs x os m = some m' → x.number ∉ nums os → (nums os).Nodup →
      (∀ k, Sorted (vec m k)) → Written x os m m'
  | [], m, m', h, _, _, hs => by
    simp only [addDivs, Option.some.injEq] at h
    subst h
    exact ⟨fun _ _ _ => rfl, hs, fun _ => rfl, fun h => absurd rfl h, ⟨[], rfl, by simp, by simp⟩,
      by simp⟩
  | o :: os, m, m', h, hx, hnd, hs => by
    unfold addDivs at h
    cases hd : o.brokenPairs x with
    | none => rw [hd] at h; simp at h
    | some d =>
      rw [hd] at h
      dsimp only at h
      have hxo : x.number ≠ o.number := fun e => hx (by simp [nums, e])
      have hx' : x.number ∉ nums os := fun e => hx (by simp only [nums, List.map_cons, List.mem_cons] at e ⊢; exact Or.inr e)
      have hnd' : o.number ∉ nums os ∧ (nums os).Nodup := by simpa [nums] using hnd
      obtain ⟨a1, a2, a3, a4⟩ := addDiv_vec hbs o.number ⟨d, x.number⟩ m
      obtain ⟨b1, b2, b3, b4⟩ := addDiv_vec hbs x.number ⟨d, o.number⟩ (addDiv bs o.number ⟨d, x.number⟩ m)
      generalize addDiv bs o.number ⟨d, x.number⟩ m = m1 at *
      generalize addDiv bs x.number ⟨d, o.number⟩ m1 = m2 at *
      have e1 : vec m1 x.number = vec m x.number := by unfold vec; rw [a1 _ hxo]
      have e2 : vec m2 o.number = vec m1 o.number := by unfold vec; rw [b1 _ hxo.symm]
      have s1 : ∀ k, Sorted (vec m1 k) := by
        intro k
        by_cases hk : k = o.number
        · subst hk; exact a3 (hs _)
        · unfold vec; rw [a1 k hk]; exact hs k
      have s2 : ∀ k, Sorted (vec m2 k) := by
        intro k
        by_cases hk : k = x.number
        · subst hk; exact b3 (s1 _)
        · unfold vec; rw [b1 k hk]; exact s1 k
      have ih := addDivs_written hbs h hx' hnd'.2 s2
      obtain ⟨E, E1, E2, E3⟩ := ih.own
      have px : (vec m2 x.number).Perm (⟨d, o.number⟩ :: vec m x.number) := by
        rw [← e1]; exact b4 (s1 _)
      have po : (vec m' o.number).Perm (⟨d, x.number⟩ :: vec m o.number) := by
        have : vec m' o.number = vec m2 o.number := by
          unfold vec; rw [ih.others o.number hxo.symm hnd'.1]
        rw [this, e2]
        exact a4 (hs _)
      refine ⟨?_, ih.sorted, by simp, ?_, ⟨⟨d, o.number⟩ :: E, by simp [E1, nums], ?_, ?_⟩, ?_⟩
      · intro k hk hk'
        simp only [nums, List.map_cons, List.mem_cons, not_or] at hk'
        rw [ih.others k hk hk'.2, b1 k hk, a1 k hk'.1]
      · intro _
        by_cases ho : os = []
        · rw [ih.same ho]
          obtain ⟨v, hv⟩ := b2
          rw [hv]; rfl
        · exact ih.present ho
      · intro e he
        rw [List.mem_cons] at he
        rcases he with rfl | he
        · exact ⟨o, by simp, rfl, hd⟩
        · obtain ⟨o', h1, h2⟩ := E2 e he
          exact ⟨o', by simp [h1], h2⟩
      · refine E3.trans ?_
        refine (px.append_left E).trans ?_
        exact List.perm_middle
      · intro o' ho'
        rw [List.mem_cons] at ho'
        rcases ho' with rfl | ho'
        · refine ⟨?_, d, hd, po, ?_⟩
          · rw [ih.others o'.number hxo.symm hnd'.1, b1 _ hxo.symm]
            obtain ⟨v, hv⟩ := a2
            rw [hv]; rfl
          · refine E3.mem_iff.mpr (List.mem_append_right _ (px.mem_iff.mpr (by simp)))
        · obtain ⟨w0, d', w1, w2, w3⟩ := ih.each o' ho'
          have ne1 : o'.number ≠ o.number := fun e => hnd'.1 (by
            rw [← e]; exact List.mem_map_of_mem ho')
          have ne2 : o'.number ≠ x.number := fun e => hx' (by
            rw [← e]; exact List.mem_map_of_mem ho')
          refine ⟨w0, d', w1, ?_, w3⟩
          have : vec m2 o'.number = vec m o'.number := by
            unfold vec; rw [b1 _ ne2, a1 _ ne1]
          rw [this] at w2
          exact w2

/-- **The diversity table is right** for the members `P`: numbers are distinct; only members have a
vector, and all of them from two members on; each vector has exactly one entry per other member, in
ascending order; the entries of two members for each other carry the same distance, which is the
broken-pairs distance of the two (in one of the two directions). -/
structure Table (P : List (Individual α)) (m : ℕ → Option (List Diversity)) : Prop where
  nodup : (nums P).Nodup
  keys : ∀ k, k ∉ nums P → m k = none
  present : 2 ≤ P.length → ∀ k ∈ nums P, (m k).isSome
  targets : ∀ k ∈ nums P, ((vec m k).map (·.target)).Perm ((nums P).erase k)
  sorted : ∀ k, Sorted (vec m k)
  symm : ∀ k, ∀ d ∈ vec m k, ⟨d.distance, k⟩ ∈ vec m d.target
  value : ∀ x ∈ P, ∀ d ∈ vec m x.number, ∃ y ∈ P, y.number = d.target ∧
    (x.brokenPairs y = some d.distance ∨ y.brokenPairs x = some d.distance)

theorem Table.new : Table ([] : List (Individual α)) (fun _ => none) :=
  ⟨by simp [nums], fun _ _ => rfl, by simp, by simp [nums], by simp [vec, Sorted], by simp [vec],
    by simp⟩

theorem Table.congr {P Q : List (Individual α)} {m : ℕ → Option (List Diversity)}
    (h : Table P m) (e : Q.map strip = P.map strip) : Table Q m := by
  have en : nums Q = nums P := by rw [← nums_strip Q, e, nums_strip]
  have el : Q.length = P.length := by simpa using congrArg List.length e
  refine ⟨en ▸ h.nodup, en ▸ h.keys, el ▸ en ▸ h.present, en ▸ h.targets, h.sorted, h.symm, ?_⟩
  intro x hx d hd
  have hx' : strip x ∈ P.map strip := e ▸ List.mem_map_of_mem hx
  obtain ⟨x0, hx0, ex⟩ := List.mem_map.mp hx'
  have e0 : x0.number = x.number := by rw [← strip_number, ex, strip_number]
  obtain ⟨y0, hy0, hn, hv⟩ := h.value x0 hx0 d (by rw [e0]; exact hd)
  have hy' : strip y0 ∈ Q.map strip := e ▸ List.mem_map_of_mem hy0
  obtain ⟨y, hy, ey⟩ := List.mem_map.mp hy'
  have bp : ∀ a b a' b' : Individual α, strip a = strip a' → strip b = strip b' →
      a.brokenPairs b = a'.brokenPairs b' := by
    intro a b a' b' h1 h2
    have h3 : (strip a).brokenPairs (strip b) = (strip a').brokenPairs (strip b') := by rw [h1, h2]
    have g : ∀ (a b : Individual α) (l : List ℕ) (k : ℕ), (strip a).brokenPairsLoop (strip b) l k
        = a.brokenPairsLoop b l k := by
      intro a b l
      induction l with
      | nil => intro k; rfl
      | cons i l ih =>
        intro k
        unfold Individual.brokenPairsLoop
        have : (strip a).brokenPairsAt (strip b) i = a.brokenPairsAt b i := rfl
        rw [this]
        split
        · rfl
        · exact ih _
    unfold Individual.brokenPairs at h3 ⊢
    rw [g, g] at h3
    exact h3
  refine ⟨y, hy, ?_, ?_⟩
  · rw [← strip_number, ey, strip_number]; exact hn
  · rw [bp x y x0 y0 ex.symm ey, bp y x y0 x0 ey ex.symm]
    exact hv

theorem Table.perm {P Q : List (Individual α)} {m : ℕ → Option (List Diversity)}
    (h : Table P m) (e : Q.Perm P) : Table Q m := by
  have en : (nums Q).Perm (nums P) := e.map _
  refine ⟨en.nodup_iff.mpr h.nodup, fun k hk => h.keys k fun c => hk (en.mem_iff.mpr c),
    fun hl k hk => h.present (e.length_eq ▸ hl) k (en.mem_iff.mp hk),
    fun k hk => (h.targets k (en.mem_iff.mp hk)).trans (en.symm.erase k), h.sorted, h.symm, ?_⟩
  intro x hx d hd
  obtain ⟨y, hy, r⟩ := h.value x (e.mem_iff.mp hx) d hd
  exact ⟨y, e.mem_iff.mpr hy, r⟩

/-- Adding a member with a new number. -/
theorem Table.insert {bs : BSearch} (hbs : BSearchOK bs) {P : List (Individual α)}
    {m m' : ℕ → Option (List Diversity)} (h : Table P m) {x : Individual α}
    (hx : x.number ∉ nums P) (hm : addDivs bs x P m = some m') : Table (x :: P) m' := by
  have w := addDivs_written hbs hm hx h.nodup h.sorted
  obtain ⟨E, E1, E2, E3⟩ := w.own
  have hvx : vec m x.number = [] := by unfold vec; rw [h.keys _ hx]; rfl
  rw [hvx, List.append_nil] at E3
  have hne : ∀ k ∈ nums P, k ≠ x.number := fun k hk e => hx (e ▸ hk)
  refine ⟨?_, ?_, ?_, ?_, w.sorted, ?_, ?_⟩
  · simp only [nums, List.map_cons, List.nodup_cons]
    exact ⟨hx, h.nodup⟩
  · intro k hk
    simp only [nums, List.map_cons, List.mem_cons, not_or] at hk
    rw [w.others k hk.1 hk.2]
    exact h.keys k hk.2
  · intro hl k hk
    have hP : P ≠ [] := by intro e; subst e; simp at hl
    simp only [nums, List.map_cons, List.mem_cons] at hk
    rcases hk with rfl | hk
    · exact w.present hP
    · obtain ⟨o, ho, rfl⟩ := List.mem_map.mp hk
      exact (w.each o ho).1
  · intro k hk
    simp only [nums, List.map_cons, List.mem_cons] at hk
    rcases hk with rfl | hk
    · have := E3.map (·.target)
      rw [E1] at this
      simpa [nums] using this
    · obtain ⟨o, ho, rfl⟩ := List.mem_map.mp hk
      obtain ⟨-, d, -, w2, -⟩ := w.each o ho
      have := w2.map (·.target)
      refine this.trans ?_
      simp only [List.map_cons, nums]
      rw [List.erase_cons_tail (by simpa using (hne _ hk).symm)]
      exact (h.targets _ hk).cons _
  · intro k d hd
    by_cases hk : k = x.number
    · subst hk
      obtain ⟨o, ho, h1, h2⟩ := E2 d (E3.mem_iff.mp hd)
      obtain ⟨-, d', w1, w2, -⟩ := w.each o ho
      rw [h2, Option.some.injEq] at w1
      subst w1
      rw [← h1]
      exact w2.mem_iff.mpr (by simp)
    · by_cases hk' : k ∈ nums P
      · obtain ⟨o, ho, rfl⟩ := List.mem_map.mp hk'
        obtain ⟨-, d', w1, w2, w3⟩ := w.each o ho
        have := w2.mem_iff.mp hd
        rw [List.mem_cons] at this
        rcases this with rfl | hd'
        · exact w3
        · have h1 := h.symm _ d hd'
          by_cases ht : d.target = x.number
          · rw [ht, hvx] at h1
            simp at h1
          · by_cases ht' : d.target ∈ nums P
            · obtain ⟨o', ho', e'⟩ := List.mem_map.mp ht'
              obtain ⟨-, d'', -, w2', -⟩ := w.each o' ho'
              rw [← e'] at h1 ⊢
              exact w2'.mem_iff.mpr (by simp [h1])
            · unfold vec at h1 ⊢
              rw [w.others _ ht ht']
              exact h1
      · have : vec m' k = [] := by
          unfold vec; rw [w.others k hk hk', h.keys k hk']; rfl
        rw [this] at hd
        simp at hd
  · intro y hy d hd
    rw [List.mem_cons] at hy
    rcases hy with rfl | hy
    · obtain ⟨o, ho, h1, h2⟩ := E2 d (E3.mem_iff.mp hd)
      exact ⟨o, by simp [ho], h1, Or.inr h2⟩
    · obtain ⟨-, d', w1, w2, -⟩ := w.each y hy
      have := w2.mem_iff.mp hd
      rw [List.mem_cons] at this
      rcases this with rfl | hd'
      · exact ⟨x, by simp, rfl, Or.inl w1⟩
      · obtain ⟨z, hz, r⟩ := h.value y hy d hd'
        exact ⟨z, by simp [hz], r⟩

theorem dropEntry_map (n : ℕ) (v : List Diversity) :
    (dropEntry n v).map (·.target) = (v.map (·.target)).erase n := by
  unfold dropEntry
  induction v with
  | nil => rfl
  | cons d v ih =>
    rw [List.eraseP_cons, List.map_cons, List.erase_cons]
    by_cases h : d.target = n
    · simp [h]
    · have hb : (d.target == n) = false := by simpa using h
      simp only [hb, cond_false, List.map_cons, ih, Bool.false_eq_true, if_false]

theorem dropEntry_sub (n : ℕ) (v : List Diversity) : (dropEntry n v).Sublist v := List.eraseP_sublist

theorem mem_dropEntry {n : ℕ} {v : List Diversity} {d : Diversity} (h : d ∈ v) (hn : d.target ≠ n) :
    d ∈ dropEntry n v := (List.mem_eraseP_of_neg (by simpa using hn)).mpr h

theorem vec_removeDiv (n k : ℕ) (m : ℕ → Option (List Diversity)) :
    vec (removeDiv n m) k = if k = n then [] else dropEntry n (vec m k) := by
  unfold vec removeDiv
  split
  · rfl
  · cases m k <;> rfl

/-- Removing a member. -/
theorem Table.remove {P : List (Individual α)} {m : ℕ → Option (List Diversity)} {x : Individual α}
    (h : Table (x :: P) m) : Table P (removeDiv x.number m) := by
  have hnd : x.number ∉ nums P ∧ (nums P).Nodup := by simpa [nums] using h.nodup
  have hne : ∀ k ∈ nums P, k ≠ x.number := fun k hk e => hnd.1 (e ▸ hk)
  have hmem : ∀ k ∈ nums P, k ∈ nums (x :: P) := fun k hk => by
    simp only [nums, List.map_cons, List.mem_cons] at hk ⊢; exact Or.inr hk
  have htgt : ∀ k, ∀ d ∈ vec m k, k ∈ nums (x :: P) := by
    intro k d hd
    by_contra hk
    unfold vec at hd
    rw [h.keys k hk] at hd
    simp at hd
  have hdrop : ∀ k ∈ nums P, ∀ d ∈ dropEntry x.number (vec m k), d.target ≠ x.number := by
    intro k hk d hd e
    have h1 : d.target ∈ (dropEntry x.number (vec m k)).map (·.target) := List.mem_map_of_mem hd
    rw [dropEntry_map, e] at h1
    have h2 := (h.targets k (hmem k hk))
    have h3 : ((vec m k).map (·.target)).Nodup := h2.nodup_iff.mpr (h.nodup.erase k)
    exact absurd h1 (by rw [h3.mem_erase_iff]; simp)
  refine ⟨hnd.2, ?_, ?_, ?_, ?_, ?_, ?_⟩
  · intro k hk
    unfold removeDiv
    split
    · rfl
    · rename_i hkx
      rw [h.keys k (by simp only [nums, List.map_cons, List.mem_cons, not_or]; exact ⟨hkx, hk⟩)]
      rfl
  · intro hl k hk
    have := h.present (by simp; omega) k (hmem k hk)
    unfold removeDiv
    rw [if_neg (hne k hk), Option.isSome_map]
    exact this
  · intro k hk
    rw [vec_removeDiv, if_neg (hne k hk), dropEntry_map]
    have h1 := (h.targets k (hmem k hk)).erase x.number
    refine h1.trans ?_
    simp only [nums, List.map_cons]
    rw [List.erase_cons_tail (by simpa using (hne k hk).symm), List.erase_cons_head]
  · intro k
    rw [vec_removeDiv]
    split
    · simp [Sorted]
    · exact (h.sorted k).sublist (dropEntry_sub _ _)
  · intro k d hd
    rw [vec_removeDiv] at hd
    split at hd
    · simp at hd
    · rename_i hk
      have hdk := (dropEntry_sub _ _).subset hd
      have hkP : k ∈ nums P := by
        have := htgt k d hdk
        simp only [nums, List.map_cons, List.mem_cons] at this
        exact this.resolve_left hk
      rw [vec_removeDiv, if_neg (hdrop k hkP d hd)]
      exact mem_dropEntry (h.symm k d hdk) hk
  · intro y hy d hd
    have hyk : y.number ∈ nums P := List.mem_map_of_mem hy
    rw [vec_removeDiv, if_neg (hne _ hyk)] at hd
    obtain ⟨z, hz, hzn, r⟩ := h.value y (by simp [hy]) d ((dropEntry_sub _ _).subset hd)
    rw [List.mem_cons] at hz
    rcases hz with rfl | hz
    · exact absurd hzn.symm (hdrop _ hyk d hd)
    · exact ⟨z, hz, hzn, r⟩

/-! ### Fitness -/

theorem modify_strip (P : List (Individual α)) (i : ℕ) (f : α) :
    (P.modify i fun x => { x with fitness := f }).map strip = P.map strip := by
  apply List.ext_getElem?
  intro j
  rw [List.getElem?_map, List.getElem?_modify, List.getElem?_map]
  cases P[j]? with
  | none => rfl
  | some x =>
    by_cases h : i = j <;> simp [h, strip]

theorem writeFitness_strip (focus : Bool) (len e : ℕ) : ∀ (l : List (α × ℕ)) (k : ℕ)
    (P : List (Individual α)), (writeFitness focus len e l k P).map strip = P.map strip
  | [], _, _ => rfl
  | (_, i) :: l, k, P => by
    unfold writeFitness
    rw [writeFitness_strip focus len e l]
    exact modify_strip P i _

theorem updateFitness_strip {cfg : PopCfg} {s s' : SubPop α} (h : s.updateFitness cfg = some s') :
    s'.pop.map strip = s.pop.map strip ∧ s'.div = s.div ∧ s'.maxInd = s.maxInd ∧
      s'.focus = s.focus := by
  unfold updateFitness at h
  split at h
  · simp only [Option.some.injEq] at h
    subst h
    exact ⟨modify_strip _ _ _, rfl, rfl, rfl⟩
  · split at h
    · simp at h
    · split at h
      · simp at h
      · simp only [Option.some.injEq] at h
        subst h
        exact ⟨writeFitness_strip _ _ _ _ _ _, rfl, rfl, rfl⟩

/-! ### The operations -/

theorem eraseIdx_perm {β : Type} {l : List β} {i : ℕ} {x : β} (h : l[i]? = some x) :
    l.Perm (x :: l.eraseIdx i) := by
  obtain ⟨hi, rfl⟩ := List.getElem?_eq_some_iff.mp h
  exact (List.getElem_cons_eraseIdx_perm hi).symm

theorem remove_some {cfg : PopCfg} {s s' : SubPop α} {i : ℕ} (h : s.remove cfg i = some s') :
    ∃ x, s.pop[i]? = some x ∧ s'.pop.map strip = (s.pop.eraseIdx i).map strip ∧
      s'.div = removeDiv x.number s.div ∧ s'.maxInd = s.maxInd ∧ s'.focus = s.focus := by
  unfold SubPop.remove at h
  cases hx : s.pop[i]? with
  | none => rw [hx] at h; simp at h
  | some x =>
    rw [hx] at h
    obtain ⟨h1, h2, h3, h4⟩ := updateFitness_strip h
    exact ⟨x, rfl, h1, h2, h3, h4⟩

theorem remove_table {cfg : PopCfg} {s s' : SubPop α} {i : ℕ} (h : s.remove cfg i = some s')
    (ht : Table s.pop s.div) : Table s'.pop s'.div := by
  obtain ⟨x, hx, h1, h2, -⟩ := remove_some h
  rw [h2]
  refine Table.congr (P := s.pop.eraseIdx i) ?_ h1
  exact (ht.perm (eraseIdx_perm hx).symm).remove

theorem scan_index (s : SubPop α) : ∀ (xs : List (Individual α)) (i : ℕ) (w w' : Worst α),
    s.scanWorst xs i w = some w' → w'.index = w.index ∨ (i ≤ w'.index ∧ w'.index < i + xs.length)
  | [], i, w, w', h => by
    simp only [scanWorst, Option.some.injEq] at h
    exact Or.inl (by rw [h])
  | x :: xs, i, w, w', h => by
    unfold scanWorst at h
    split at h
    · simp at h
    · rw [List.length_cons]
      split at h
      · rcases scan_index s xs _ _ _ h with h1 | h1
        · right; dsimp only at h1; omega
        · right; omega
      · rcases scan_index s xs _ _ _ h with h1 | h1
        · exact Or.inl h1
        · right; omega

theorem naturalSelection_some {cfg : PopCfg} {s s' : SubPop α} (h : s.naturalSelection cfg = some s') :
    ∃ i, 1 ≤ i ∧ i < s.pop.length ∧ s.remove cfg i = some s' := by
  unfold naturalSelection at h
  split at h
  · simp at h
  · rename_i w hw
    obtain ⟨x, hx, -⟩ := remove_some h
    refine ⟨w.index, ?_, (List.getElem?_eq_some_iff.mp hx).1, h⟩
    rcases scan_index s _ _ _ _ hw with h1 | h1
    · rw [h1]
    · exact h1.1

/-- What survivor selection may do to a subpopulation: some members after the first go. -/
structure Shrunk (s s' : SubPop α) : Prop where
  sub : (s'.pop.map strip).Sublist (s.pop.map strip)
  head : (s'.pop.map strip).head? = (s.pop.map strip).head?
  maxInd : s'.maxInd = s.maxInd
  focus : s'.focus = s.focus
  table : Table s.pop s.div → Table s'.pop s'.div

theorem Shrunk.refl (s : SubPop α) : Shrunk s s := ⟨List.Sublist.refl _, rfl, rfl, rfl, id⟩

theorem Shrunk.trans {s s' s'' : SubPop α} (a : Shrunk s s') (b : Shrunk s' s'') : Shrunk s s'' :=
  ⟨b.sub.trans a.sub, b.head.trans a.head, b.maxInd.trans a.maxInd, b.focus.trans a.focus,
    fun h => b.table (a.table h)⟩

theorem naturalSelection_shrunk {cfg : PopCfg} {s s' : SubPop α}
    (h : s.naturalSelection cfg = some s') : Shrunk s s' ∧ s'.pop.length + 1 = s.pop.length := by
  obtain ⟨i, h1, h2, h3⟩ := naturalSelection_some h
  obtain ⟨x, hx, e1, e2, e3, e4⟩ := remove_some h3
  refine ⟨⟨?_, ?_, e3, e4, remove_table h3⟩, ?_⟩
  · rw [e1]; exact (List.eraseIdx_sublist _ _).map _
  · rw [e1]
    cases hp : s.pop with
    | nil => simp
    | cons a l =>
      obtain ⟨j, rfl⟩ : ∃ j, i = j + 1 := ⟨i - 1, by omega⟩
      simp
  · have := congrArg List.length e1
    simp only [List.length_map, List.length_eraseIdx, if_pos h2] at this
    omega

theorem selectLoop_shrunk {cfg : PopCfg} : ∀ {k : ℕ} {s s' : SubPop α},
    selectLoop cfg k s = some s' → Shrunk s s' ∧ s'.pop.length ≤ cfg.minSize ∧
      (cfg.minSize ≤ s.pop.length → s'.pop.length = cfg.minSize)
  | 0, s, s', h => by simp [selectLoop] at h
  | k + 1, s, s', h => by
    unfold selectLoop at h
    split at h
    · rename_i hlt
      obtain ⟨s1, h1, h2⟩ := Option.bind_eq_some_iff.mp h
      obtain ⟨a1, a2⟩ := naturalSelection_shrunk h1
      obtain ⟨b1, b2, b3⟩ := selectLoop_shrunk h2
      exact ⟨a1.trans b1, b2, fun _ => b3 (by omega)⟩
    · simp only [Option.some.injEq] at h
      subst h
      exact ⟨Shrunk.refl _, by omega, fun _ => by omega⟩

theorem eraseIdx_insertIdx {β : Type} : ∀ {l : List β} {i : ℕ} {x : β}, i ≤ l.length →
    (l.insertIdx i x).eraseIdx i = l ∧ (l.insertIdx i x)[i]? = some x
  | _, 0, _, _ => by simp
  | [], i + 1, _, h => by simp at h
  | a :: l, i + 1, x, h => by
    have := eraseIdx_insertIdx (l := l) (i := i) (x := x) (by simpa using h)
    simpa using this

/-- The steps of `add_individual`. -/
theorem add_some {cfg : PopCfg} {bs : BSearch} (hbs : BSearchOK bs) {x : Individual α}
    {s s' : SubPop α} (h : s.add cfg bs x = some s') (ht : Table s.pop s.div)
    (hx : x.number ∉ nums s.pop) :
    ∃ os m s2, compareAll x s.pop = some os ∧ bs os ≤ s.pop.length ∧
      addDivs bs x s.pop s.div = some m ∧ Table (x :: s.pop) m ∧
      ((s.pop ≠ [] ∧ (∃ d v, m x.number = some (d :: v) ∧ d.distance = 0) ∧
          s2.pop.map strip = s.pop.map strip) ∨
        ((s.pop = [] ∨ ∃ d v, m x.number = some (d :: v) ∧ d.distance ≠ 0) ∧
          s2.pop.map strip = (s.pop.insertIdx (bs os) x).map strip)) ∧
      Table s2.pop s2.div ∧ s2.maxInd = s.maxInd ∧ s2.focus = s.focus ∧
      (∃ s1 : SubPop α, s1.updateFitness cfg = some s2) ∧
      ((s2.maxInd ≤ s2.pop.length ∧ selectLoop cfg (s2.pop.length + 1) s2 = some s') ∨
        (s2.pop.length < s2.maxInd ∧ s' = s2)) := by
  unfold add at h
  obtain ⟨os, hos, g1⟩ := Option.bind_eq_some_iff.mp h
  obtain ⟨pop, hpop, g2⟩ := Option.bind_eq_some_iff.mp g1
  obtain ⟨s1, hs1, g3⟩ := Option.bind_eq_some_iff.mp g2
  obtain ⟨c, hc, g4⟩ := Option.bind_eq_some_iff.mp g3
  obtain ⟨s2, hs2, g5⟩ := Option.bind_eq_some_iff.mp g4
  clear h g1 g2 g3 g4
  unfold insertAt at hpop
  split at hpop
  swap
  · simp at hpop
  rename_i hle
  simp only [Option.some.injEq] at hpop
  subst hpop
  obtain ⟨q1, q2⟩ := eraseIdx_insertIdx (x := x) hle
  unfold updateDiversity at hs1
  dsimp only at hs1
  rw [q1, q2] at hs1
  obtain ⟨m, hm, rfl⟩ := Option.map_eq_some_iff.mp hs1
  dsimp only at hc hs2
  rw [q2] at hc
  have hT := ht.insert hbs hx hm
  have hlen : (s.pop.insertIdx (bs os) x).length = s.pop.length + 1 := by
    rw [List.length_insertIdx, if_pos hle]
  have hT' : Table (s.pop.insertIdx (bs os) x) m := hT.perm (List.perm_insertIdx _ _ hle)
  rw [hlen] at hc
  refine ⟨os, m, s2, hos, hle, hm, hT, ?_⟩
  have hlast : (s2.maxInd ≤ s2.pop.length ∧ selectLoop cfg (s2.pop.length + 1) s2 = some s') ∨
        (s2.pop.length < s2.maxInd ∧ s' = s2) := by
    split at g5
    · exact Or.inl ⟨by assumption, g5⟩
    · simp only [Option.some.injEq] at g5
      exact Or.inr ⟨by omega, g5.symm⟩
  have hclone : s.pop ≠ [] → ∃ d v, m x.number = some (d :: v) ∧ (d.distance = 0 ↔ c = true) := by
    intro hp
    have : 1 < s.pop.length + 1 := by
      have := List.length_pos_iff.mpr hp
      omega
    rw [if_pos this] at hc
    unfold isClone at hc
    dsimp only [Option.bind_some] at hc
    split at hc
    · simp at hc
    · rename_i v hv
      cases v with
      | nil => simp at hc
      | cons d v =>
        refine ⟨d, v, hv, ?_⟩
        simp only [List.getElem?_cons_zero, Option.map_some, Option.some.injEq] at hc
        rw [← hc]
        simp
  cases c with
  | true =>
    have hp : s.pop ≠ [] := by
      intro hp
      rw [hp] at hc
      simp at hc
    obtain ⟨d, v, h1, h2⟩ := hclone hp
    rw [if_pos rfl] at hs2
    obtain ⟨x', hx', e1, e2, e3, e4⟩ := remove_some hs2
    dsimp only at hx' e1 e2 e3 e4
    rw [q1] at e1
    refine ⟨Or.inl ⟨hp, ⟨d, v, h1, h2.mpr rfl⟩, e1⟩, remove_table hs2 hT', e3, e4, ?_, hlast⟩
    unfold SubPop.remove at hs2
    dsimp only at hs2
    rw [q2] at hs2
    exact ⟨_, hs2⟩
  | false =>
    rw [if_neg (by simp)] at hs2
    obtain ⟨e1, e2, e3, e4⟩ := updateFitness_strip hs2
    dsimp only at e1 e2 e3 e4
    refine ⟨Or.inr ⟨?_, e1⟩, e2 ▸ hT'.congr e1, e3, e4, ⟨_, hs2⟩, hlast⟩
    by_cases hp : s.pop = []
    · exact Or.inl hp
    · obtain ⟨d, v, h1, h2⟩ := hclone hp
      exact Or.inr ⟨d, v, h1, fun e => by simpa using h2.mp e⟩

/-- The summary of one insertion. -/
theorem add_summary {cfg : PopCfg} {bs : BSearch} (hbs : BSearchOK bs) {x : Individual α}
    {s s' : SubPop α} (h : s.add cfg bs x = some s') (ht : Table s.pop s.div)
    (hx : x.number ∉ nums s.pop) :
    Table s'.pop s'.div ∧ s'.maxInd = s.maxInd ∧ s'.focus = s.focus ∧
      (∀ y ∈ s'.pop, ∃ z ∈ x :: s.pop, strip y = strip z) ∧
      (s'.pop.length < s'.maxInd ∨ s'.pop.length ≤ cfg.minSize) := by
  obtain ⟨os, m, s2, hos, hle, -, -, h1, h2, h3, h4, -, h5⟩ := add_some hbs h ht hx
  have hmem : ∀ y ∈ s2.pop, ∃ z ∈ x :: s.pop, strip y = strip z := by
    intro y hy
    have hy' : strip y ∈ s2.pop.map strip := List.mem_map_of_mem hy
    rcases h1 with ⟨-, -, h1⟩ | ⟨-, h1⟩
    · rw [h1] at hy'
      obtain ⟨z, hz, e⟩ := List.mem_map.mp hy'
      exact ⟨z, by simp [hz], e.symm⟩
    · rw [h1] at hy'
      obtain ⟨z, hz, e⟩ := List.mem_map.mp hy'
      exact ⟨z, (List.perm_insertIdx _ _ hle).mem_iff.mp hz, e.symm⟩
  rcases h5 with ⟨-, h5⟩ | ⟨h5, rfl⟩
  · obtain ⟨a, b, -⟩ := selectLoop_shrunk h5
    refine ⟨a.table h2, a.maxInd.trans h3, a.focus.trans h4, ?_, Or.inr b⟩
    intro y hy
    have hy' : strip y ∈ s2.pop.map strip := a.sub.subset (List.mem_map_of_mem hy)
    obtain ⟨z, hz, e⟩ := List.mem_map.mp hy'
    obtain ⟨w, hw, e'⟩ := hmem z hz
    exact ⟨w, hw, by rw [← e, e']⟩
  · exact ⟨h2, h3, h4, hmem, Or.inl h5⟩

end SubPop
end Verif
