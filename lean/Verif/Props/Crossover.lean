import Verif.Model.Crossover
import Verif.Lemmas.Evaluate
import Mathlib.Data.List.Rotate
import Mathlib.Data.Nat.ModEq

/-! # C07, C43: ordered crossover -/

namespace Verif

theorem wrapIndex_succ {i n : ℕ} (h : i < n) : wrapIndex (i + 1) n = (i + 1) % n := by
  unfold wrapIndex
  split
  · rename_i h'; rw [h', Nat.mod_self]
  · rw [Nat.mod_eq_of_lt (by omega)]

theorem set_rotate (g : List ℕ) (s k x : ℕ) (hk : k < g.length) :
    (g.set ((s + k) % g.length) x).rotate s = (g.rotate s).set k x := by
  apply List.ext_getElem
  · simp
  · intro i h1 h2
    simp only [List.length_rotate, List.length_set] at h1 h2
    rw [List.getElem_rotate, List.getElem_set, List.getElem_set, List.getElem_rotate]
    simp only [List.length_set]
    have : ((s + k) % g.length = (i + s) % g.length) ↔ k = i := by
      constructor
      · intro h
        have h' : (k + s) % g.length = (i + s) % g.length := by rw [Nat.add_comm k s]; exact h
        have : Nat.ModEq g.length k i := Nat.ModEq.add_right_cancel' s h'
        exact Nat.ModEq.eq_of_lt_of_lt this hk h1
      · rintro rfl; rw [Nat.add_comm]
    simp [this]

/-- Number of steps from `start` to `stop` around a circle of `n` positions. -/
private theorem oxZone_spec (g : List ℕ) (start m : ℕ) (hm : m < g.length) :
    ∀ (t fuel : ℕ) (added : List ℕ), t ≤ m → m - t < fuel →
      added.reverse = (g.rotate start).take t →
      ∃ added', oxZone g ((start + m) % g.length) fuel ((start + t) % g.length) added
        = some ((start + m + 1) % g.length, added') ∧
        added'.reverse = (g.rotate start).take (m + 1) := by
  intro t fuel
  induction fuel generalizing t with
  | zero => intro added _ h; omega
  | succ fuel ih =>
    intro added ht hf hadd
    have hn : 0 < g.length := by omega
    have hidx : (start + t) % g.length < g.length := Nat.mod_lt _ hn
    unfold oxZone
    rw [List.getElem?_eq_getElem hidx]
    simp only []
    have hgene : g[(start + t) % g.length] = (g.rotate start)[t]'(by simp; omega) := by
      rw [List.getElem_rotate]; congr 1; rw [Nat.add_comm]
    have hadd' : (g[(start + t) % g.length] :: added).reverse = (g.rotate start).take (t + 1) := by
      rw [List.reverse_cons, hadd, hgene, ← List.take_succ_eq_append_getElem]
    have hw : wrapIndex ((start + t) % g.length + 1) g.length = (start + t + 1) % g.length := by
      rw [wrapIndex_succ hidx]; simp
    by_cases h : t = m
    · subst h
      rw [if_pos rfl, hw]
      exact ⟨_, rfl, hadd'⟩
    · rw [if_neg, hw]
      · exact ih (t + 1) _ (by omega) (by omega) hadd'
      · intro hc
        have : Nat.ModEq g.length (start + t) (start + m) := hc
        have := Nat.ModEq.add_left_cancel' start this
        exact h (Nat.ModEq.eq_of_lt_of_lt this (by omega) hm)

private theorem oxFill_spec (start : ℕ) :
    ∀ (p2 g : List ℕ) (k : ℕ) (added : List ℕ), p2.Nodup →
      k + (p2.filter (· ∉ added)).length ≤ g.length →
      ∃ g', oxFill p2 g ((start + k) % g.length) added = some g' ∧ g'.length = g.length ∧
        g'.rotate start = (g.rotate start).take k ++ p2.filter (· ∉ added) ++
          (g.rotate start).drop (k + (p2.filter (· ∉ added)).length) := by
  intro p2
  induction p2 with
  | nil => intro g k added _ _; exact ⟨g, rfl, rfl, by simp⟩
  | cons x p2 ih =>
    intro g k added hnd hk
    have hx : x ∉ p2 := (List.nodup_cons.mp hnd).1
    unfold oxFill
    by_cases hm : x ∈ added
    · rw [if_pos hm]
      have hf : (x :: p2).filter (· ∉ added) = p2.filter (· ∉ added) := by simp [hm]
      rw [hf] at hk ⊢
      exact ih g k added (List.nodup_cons.mp hnd).2 hk
    · rw [if_neg hm]
      have hf : (x :: p2).filter (· ∉ added) = x :: p2.filter (· ∉ x :: added) := by
        rw [List.filter_cons_of_pos (by simpa using hm)]
        congr 1
        apply List.filter_congr
        intro y hy
        have : y ≠ x := fun hc => hx (hc ▸ hy)
        simp [this]
      rw [hf] at hk ⊢
      simp only [List.length_cons] at hk
      have hlt : (start + k) % g.length < g.length := Nat.mod_lt _ (by omega)
      rw [setIdx_of_lt _ hlt]
      simp only []
      have hw : wrapIndex ((start + k) % g.length + 1) g.length
          = (start + (k + 1)) % (g.set ((start + k) % g.length) x).length := by
        rw [wrapIndex_succ hlt]; simp [Nat.add_assoc]
      rw [hw]
      obtain ⟨g', h1, h2, h3⟩ := ih (g.set ((start + k) % g.length) x) (k + 1) (x :: added)
        (List.nodup_cons.mp hnd).2 (by simp only [List.length_set]; omega)
      refine ⟨g', h1, by simpa using h2, ?_⟩
      rw [h3, set_rotate g start k x (by omega)]
      have hkl : k < (g.rotate start).length := by simp; omega
      rw [List.take_set, List.take_succ_eq_append_getElem hkl,
        List.set_append_right _ _ (by simp), List.drop_set_of_lt (by omega)]
      have hmin : min k g.length = k := by omega
      have harith : k + 1 + (List.filter (fun y => decide (y ∉ x :: added)) p2).length
          = k + (x :: List.filter (fun y => decide (y ∉ x :: added)) p2).length := by
        simp; omega
      rw [harith]
      simp [hmin]

/-- **C07.** For two parents that are permutations of the same genes (no gene twice) and any start and
end position, ordered crossover terminates without an index panic. Read cyclically from `start`, the
child consists of parent one's genes in the zone `start … stop`, at their old positions, followed by
all other genes in the order in which they occur in parent two. In particular the child is a
permutation of the parents' genes. -/
theorem C07_crossover_ox (p1 p2 : List ℕ) (hnd : p1.Nodup) (hperm : p2.Perm p1) (start stop : ℕ)
    (hstart : start < p1.length) (hstop : stop < p1.length) :
    ∃ child, crossoverOx p1 p2 start stop = some child ∧ child.Perm p1 ∧
      child.rotate start =
        (p1.rotate start).take ((stop + p1.length - start) % p1.length + 1) ++
          p2.filter (· ∉ (p1.rotate start).take ((stop + p1.length - start) % p1.length + 1)) := by
  set m := (stop + p1.length - start) % p1.length with hmdef
  have hn : 0 < p1.length := by omega
  have hm : m < p1.length := Nat.mod_lt _ hn
  have hstopeq : (start + m) % p1.length = stop := by
    rw [hmdef, Nat.add_mod_mod, show start + (stop + p1.length - start) = stop + p1.length by omega,
      Nat.add_mod_right, Nat.mod_eq_of_lt hstop]
  obtain ⟨added, hz, hadd⟩ := oxZone_spec p1 start m hm 0 p1.length [] (by omega) (by omega) (by simp)
  rw [hstopeq, Nat.add_zero, Nat.mod_eq_of_lt hstart] at hz
  set zone := (p1.rotate start).take (m + 1) with hzone
  have hmem : ∀ x, x ∈ added ↔ x ∈ zone := by
    intro x; rw [← hadd, List.mem_reverse]
  have hfilter : p2.filter (· ∉ added) = p2.filter (· ∉ zone) := by
    apply List.filter_congr; intro x _; simp [hmem]
  have hzlen : zone.length = m + 1 := by simp [hzone]; omega
  have hrotnd : (p1.rotate start).Nodup := List.nodup_rotate.mpr hnd
  have hznd : zone.Nodup := hrotnd.sublist (List.take_sublist _ _)
  have hpz : ((p1.rotate start).filter (· ∉ zone)) = (p1.rotate start).drop (m + 1) := by
    have h0 := List.take_append_drop (m + 1) (p1.rotate start)
    have hnd2 := hrotnd
    rw [← h0] at hnd2
    conv_lhs => rw [← h0]
    rw [List.filter_append]
    have e1 : (List.take (m + 1) (p1.rotate start)).filter (· ∉ zone) = [] := by
      rw [List.filter_eq_nil_iff]; intro x hx; simp [hzone]; exact hx
    have e2 : (List.drop (m + 1) (p1.rotate start)).filter (· ∉ zone)
        = List.drop (m + 1) (p1.rotate start) := by
      rw [List.filter_eq_self]; intro x hx
      have hdis := (List.nodup_append.mp hnd2).2.2
      simp only [decide_eq_true_eq]
      intro hc
      exact hdis x hc x hx rfl
    rw [e1, e2, List.nil_append]
  have hpf : (p2.filter (· ∉ zone)).Perm ((p1.rotate start).drop (m + 1)) := by
    rw [← hpz]
    exact ((hperm.trans (List.rotate_perm p1 start).symm).filter _)
  have hflen : (p2.filter (· ∉ zone)).length = p1.length - (m + 1) := by
    rw [hpf.length_eq]; simp
  obtain ⟨child, hc, hclen, hrot⟩ := oxFill_spec start p2 p1 (m + 1) added
    ((hperm.nodup_iff).mpr hnd) (by rw [hfilter, hflen]; omega)
  refine ⟨child, ?_, ?_, ?_⟩
  · unfold crossoverOx
    rw [hz]
    simpa [Nat.add_assoc] using hc
  · have h1 : (child.rotate start).Perm (p1.rotate start) := by
      rw [hrot, hfilter, List.drop_of_length_le (by rw [List.length_rotate, hflen]; omega), List.append_nil]
      calc (zone ++ p2.filter (· ∉ zone)).Perm (zone ++ (p1.rotate start).drop (m + 1)) :=
            hpf.append_left _
        _ = p1.rotate start := by rw [hzone, List.take_append_drop]
    exact (List.rotate_perm child start).symm.trans (h1.trans (List.rotate_perm p1 start))
  · rw [hrot, hfilter, List.drop_of_length_le (by rw [List.length_rotate, hflen]; omega), List.append_nil]

/-- Two parents over four customers with a zone that wraps around the end. -/
example : (∃ child, crossoverOx [1, 2, 3, 4] [3, 1, 4, 2] 3 0 = some child) ∧
    [1, 2, 3, 4].Nodup ∧ [3, 1, 4, 2].Perm [1, 2, 3, 4] := by
  refine ⟨⟨[1, 3, 2, 4], by decide⟩, by decide, by decide⟩

/-- **C43.** With at least two genes the choice of the crossover zone terminates as soon as the random
source produces a draw that hits a position different from the start; the whole crossover then succeeds
and yields a permutation of the parents' genes. -/
theorem C43_crossover_terminates (ω : Oracle) (p1 p2 : List ℕ) (hnd : p1.Nodup) (hperm : p2.Perm p1)
    (hlen : 2 ≤ p1.length) (k : ℕ) (hk : 1 ≤ k)
    (hdraw : ω k % p1.length ≠ ω 0 % p1.length) :
    ∃ child, crossover ω k p1 p2 = some child ∧ child.Perm p1 := by
  have hloop : ∀ (f j : ℕ), j + f = k + 1 → 0 < f →
      ∃ e, drawEnd ω p1.length (ω 0 % p1.length) f j = some e ∧ e < p1.length := by
    intro f
    induction f with
    | zero => intro j _ h; omega
    | succ f ih =>
      intro j hj _
      unfold drawEnd
      have hr : rangeUsize (ω j) 0 p1.length = some (ω j % p1.length) := by
        simp [rangeUsize, show 0 < p1.length by omega]
      rw [hr]
      simp only []
      by_cases he : ω 0 % p1.length = ω j % p1.length
      · rw [if_pos he]
        have : j ≠ k := fun hc => hdraw (by rw [← hc, he])
        exact ih (j + 1) (by omega) (by omega)
      · rw [if_neg he]
        exact ⟨_, rfl, Nat.mod_lt _ (by omega)⟩
  obtain ⟨e, he, helt⟩ := hloop k 1 (by omega) (by omega)
  obtain ⟨child, hc, hp, -⟩ := C07_crossover_ox p1 p2 hnd hperm (ω 0 % p1.length) e
    (Nat.mod_lt _ (by omega)) helt
  refine ⟨child, ?_, hp⟩
  unfold crossover
  have hr : rangeUsize (ω 0) 0 p1.length = some (ω 0 % p1.length) := by
    simp [rangeUsize, show 0 < p1.length by omega]
  rw [hr]; simp only []; rw [he]; exact hc

/-- A stream whose third draw differs from the first. -/
example : ∃ child, crossover (fun k => if k < 2 then 4 else 8) 2 [1, 2, 3] [3, 1, 2] = some child :=
  ⟨[1, 2, 3], by decide⟩

/-- With a single customer no number of draws suffices: the loop of the code never ends. -/
theorem C43_one_customer_never_terminates (ω : Oracle) (g : ℕ) (p2 : List ℕ) :
    ∀ fuel, crossover ω fuel [g] p2 = none := by
  intro fuel
  have : ∀ f j, drawEnd ω 1 0 f j = none := by
    intro f
    induction f with
    | zero => intro j; rfl
    | succ f ih =>
      intro j
      unfold drawEnd
      have : rangeUsize (ω j) 0 1 = some 0 := by simp [rangeUsize, Nat.mod_one]
      rw [this]
      simp [ih]
  unfold crossover
  have h0 : rangeUsize (ω 0) 0 [g].length = some 0 := by simp [rangeUsize, Nat.mod_one]
  rw [h0]
  simp [this]

end Verif
