import Verif.Lemmas.PopInv
import Mathlib.Tactic.Linarith
import Mathlib.Tactic.FieldSimp
import Mathlib.Tactic.Ring
import Mathlib.Algebra.Order.Field.Basic

/-! # Biased fitness and survivor selection -/

namespace Verif
open F64

variable {α : Type} [F64 α]

namespace SubPop

theorem averages_idx (s : SubPop α) (num : ℕ) : ∀ (xs : List (Individual α)) (i : ℕ) (l : List (α × ℕ)),
    s.averages num xs i = some l → l.map (·.2) = List.range' i xs.length
  | [], _, l, h => by
    simp only [averages, Option.some.injEq] at h
    subst h; rfl
  | x :: xs, i, l, h => by
    unfold averages at h
    split at h
    · simp at h
    · obtain ⟨l', h1, rfl⟩ := Option.map_eq_some_iff.mp h
      simp [averages_idx s num xs _ _ h1, List.range'_succ]

theorem writeFitness_keep (focus : Bool) (len e : ℕ) : ∀ (l : List (α × ℕ)) (k : ℕ)
    (P : List (Individual α)) (i : ℕ), i ∉ l.map (·.2) → (writeFitness focus len e l k P)[i]? = P[i]?
  | [], _, _, _, _ => rfl
  | (a, j) :: l, k, P, i, h => by
    simp only [List.map_cons, List.mem_cons, not_or] at h
    unfold writeFitness
    rw [writeFitness_keep focus len e l _ _ i h.2, List.getElem?_modify]
    simp [Ne.symm h.1]

theorem writeFitness_get (focus : Bool) (len e : ℕ) : ∀ (l : List (α × ℕ)) (k : ℕ)
    (P : List (Individual α)) (j : ℕ) (a : α) (i : ℕ), (l.map (·.2)).Nodup → l[j]? = some (a, i) →
    (writeFitness focus len e l k P)[i]? =
      P[i]?.map fun x => { x with fitness := biasedFitness focus len e (k + j) i }
  | [], _, _, j, _, _, _, h => by simp at h
  | (b, i') :: l, k, P, 0, a, i, hn, h => by
    simp only [List.getElem?_cons_zero, Option.some.injEq, Prod.mk.injEq] at h
    obtain ⟨rfl, rfl⟩ := h
    simp only [List.map_cons, List.nodup_cons] at hn
    unfold writeFitness
    rw [writeFitness_keep focus len e l _ _ _ hn.1, List.getElem?_modify]
    simp
  | (b, i') :: l, k, P, j + 1, a, i, hn, h => by
    simp only [List.map_cons, List.nodup_cons] at hn
    simp only [List.getElem?_cons_succ] at h
    unfold writeFitness
    rw [writeFitness_get focus len e l _ _ j a i hn.2 h, List.getElem?_modify]
    have : i' ≠ i := by
      intro c
      exact hn.1 (List.mem_map.mpr ⟨(a, i), List.mem_of_getElem? h, c.symm⟩)
    rw [show k + 1 + j = k + (j + 1) by omega]
    cases P[i]? <;> simp [this]

/-- After `update_fitness` the fitness of the member at index `i` is the biased fitness of its cost rank
`i` and some diversity rank. -/
theorem updateFitness_rank {cfg : PopCfg} {s s' : SubPop α} (h : s.updateFitness cfg = some s')
    (h2 : s.pop.length ≠ 1) {i : ℕ} {x : Individual α} (hx : s'.pop[i]? = some x) :
    ∃ k, k < s'.pop.length ∧ x.fitness = biasedFitness s'.focus s'.pop.length cfg.numElites k i := by
  obtain ⟨e1, -, -, e4⟩ := updateFitness_strip h
  have el : s'.pop.length = s.pop.length := by simpa using congrArg List.length e1
  unfold updateFitness at h
  rw [if_neg h2] at h
  split at h
  · simp at h
  · rename_i l hl
    split at h
    · simp at h
    · simp only [Option.some.injEq] at h
      have hidx := averages_idx s _ _ _ _ hl
      have hperm := stableSort_perm (divLe (α := α)) l
      have hi : i < s'.pop.length := (List.getElem?_eq_some_iff.mp hx).1
      have hmem : i ∈ (stableSort divLe l).map (·.2) := by
        refine (hperm.map (·.2)).mem_iff.mpr ?_
        rw [hidx, List.mem_range'_1]
        omega
      have hnd : ((stableSort divLe l).map (·.2)).Nodup := by
        refine (hperm.map (·.2)).nodup_iff.mpr ?_
        rw [hidx]
        exact List.nodup_range'
      obtain ⟨⟨a, i'⟩, hai, rfl⟩ := List.mem_map.mp hmem
      obtain ⟨j, hj⟩ := List.mem_iff_getElem?.mp hai
      have hjl : j < s.pop.length := by
        have h1 := (List.getElem?_eq_some_iff.mp hj).1
        rw [hperm.length_eq] at h1
        have := congrArg List.length hidx
        simp at this
        omega
      have := writeFitness_get s.focus s.pop.length cfg.numElites _ 0 s.pop j a i' hnd hj
      refine ⟨j, el ▸ hjl, ?_⟩
      rw [← h] at hx
      dsimp only at hx
      rw [this] at hx
      obtain ⟨y, -, rfl⟩ := Option.map_eq_some_iff.mp hx
      rw [el, e4]
      simp

/-- Without clones the scan finds a member of largest fitness. -/
theorem scan_max (s : SubPop ℚ) : ∀ (xs : List (Individual ℚ)) (i : ℕ) (w w' : Worst ℚ),
    s.scanWorst xs i w = some w' → (∀ x ∈ xs, s.isClone x = some false) → w.clone = false →
    w.fitness ≤ w'.fitness ∧ (∀ x ∈ xs, x.fitness ≤ w'.fitness) ∧
      (w' = w ∨ ∃ j x, xs[j]? = some x ∧ w'.index = i + j ∧ w'.fitness = x.fitness)
  | [], i, w, w', h, _, _ => by
    simp only [scanWorst, Option.some.injEq] at h
    subst h
    exact ⟨le_rfl, by simp, Or.inl rfl⟩
  | x :: xs, i, w, w', h, hc, hw => by
    unfold scanWorst at h
    rw [hc x (by simp)] at h
    simp only [hw, Bool.not_false, Bool.and_true, BEq.rfl, Bool.true_and, Bool.false_or, rat_le,
      decide_eq_true_eq] at h
    split at h
    · rename_i hle
      obtain ⟨a, b, c⟩ := scan_max s xs _ _ _ h (fun y hy => hc y (by simp [hy])) rfl
      dsimp only at a
      refine ⟨hle.trans a, ?_, Or.inr ?_⟩
      · intro y hy
        rw [List.mem_cons] at hy
        rcases hy with rfl | hy
        · exact a
        · exact b y hy
      · rcases c with rfl | ⟨j, y, h1, h2, h3⟩
        · exact ⟨0, x, rfl, by simp, rfl⟩
        · exact ⟨j + 1, y, by simpa using h1, by omega, h3⟩
    · rename_i hle
      obtain ⟨a, b, c⟩ := scan_max s xs _ _ _ h (fun y hy => hc y (by simp [hy])) hw
      refine ⟨a, ?_, ?_⟩
      · intro y hy
        rw [List.mem_cons] at hy
        rcases hy with rfl | hy
        · exact (not_le.mp hle).le.trans a
        · exact b y hy
      · rcases c with rfl | ⟨j, y, h1, h2, h3⟩
        · exact Or.inl rfl
        · exact Or.inr ⟨j + 1, y, by simpa using h1, by omega, h3⟩

theorem biased_elite {N E k i : ℕ} (hE : E < N) (h2 : 2 ≤ N) (hk : k < N) (hi : i < E) :
    biasedFitness (α := ℚ) false N E k i < 1 := by
  have hN : (2 : ℚ) ≤ N := by exact_mod_cast h2
  have hE' : (E : ℚ) + 1 ≤ N := by exact_mod_cast hE
  have hk' : (k : ℚ) + 1 ≤ N := by exact_mod_cast hk
  have hi' : (i : ℚ) + 1 ≤ E := by exact_mod_cast hi
  have hi0 : (0 : ℚ) ≤ i := by positivity
  simp only [biasedFitness, Bool.false_eq_true, if_false, rat_lit, rat_div, rat_add, rat_mul, rat_sub]
  rw [if_neg (by omega)]
  have p1 : (0 : ℚ) < N - 1 := by linarith
  have p2 : (0 : ℚ) < N := by linarith
  have a1 : (i : ℚ) / (N - 1) ≤ (E - 1) / (N - 1) := by
    apply div_le_div_of_nonneg_right _ p1.le
    linarith
  have a2 : (k : ℚ) / (N - 1) ≤ 1 := by
    rw [div_le_one p1]; linarith
  have a3 : (0 : ℚ) ≤ 1 - E / N := by
    rw [sub_nonneg, div_le_one p2]; linarith
  have a4 : (1 - (E : ℚ) / N) * (k / (N - 1)) ≤ (1 - E / N) * 1 := mul_le_mul_of_nonneg_left a2 a3
  have a5 : ((E : ℚ) - 1) / (N - 1) < E / N := by
    rw [div_lt_div_iff₀ p1 p2]
    nlinarith
  linarith

theorem biased_last {N E k : ℕ} (hE : E < N) (h2 : 2 ≤ N) :
    1 ≤ biasedFitness (α := ℚ) false N E k (N - 1) := by
  have hN : (2 : ℚ) ≤ N := by exact_mod_cast h2
  have hE' : (E : ℚ) + 1 ≤ N := by exact_mod_cast hE
  simp only [biasedFitness, Bool.false_eq_true, if_false, rat_lit, rat_div, rat_add, rat_mul, rat_sub]
  rw [if_neg (by omega), Nat.cast_sub (by omega)]
  have p1 : (0 : ℚ) < N - 1 := by linarith
  have p2 : (0 : ℚ) < N := by linarith
  have a3 : (0 : ℚ) ≤ 1 - E / N := by
    rw [sub_nonneg, div_le_one p2]; linarith
  have a4 : 0 ≤ (1 - (E : ℚ) / N) * (k / (N - 1)) := by positivity
  have a1 : ((N : ℚ) - (1 : ℕ)) / (N - 1) = 1 := by
    rw [Nat.cast_one]; exact div_self p1.ne'
  linarith

end SubPop
end Verif
