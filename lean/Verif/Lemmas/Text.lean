import Verif.SpecText
import Verif.Model.Output
import Mathlib.Tactic.IntervalCases

/-! Facts about splitting and decimal numbers. -/

namespace Verif

open Spec

theorem splitOn_ne_nil (sep : Char) (l : List Char) : splitOn sep l ≠ [] := by
  cases l with
  | nil => simp [splitOn]
  | cons c l =>
    simp only [splitOn]
    split
    · simp
    · split <;> simp

theorem splitOn_none {sep : Char} {w : List Char} (h : sep ∉ w) : splitOn sep w = [w] := by
  induction w with
  | nil => rfl
  | cons c w ih =>
    simp only [List.mem_cons, not_or] at h
    simp [splitOn, Ne.symm h.1, ih h.2]

theorem splitOn_append {sep : Char} {w rest : List Char} (h : sep ∉ w) :
    splitOn sep (w ++ sep :: rest) = w :: splitOn sep rest := by
  induction w with
  | nil => simp [splitOn]
  | cons c w ih =>
    simp only [List.mem_cons, not_or] at h
    simp [splitOn, Ne.symm h.1, ih h.2]

theorem digitChar_spec {d : ℕ} (h : d < 10) :
    (digitChar d).isDigit = true ∧ (digitChar d).toNat - 48 = d := by
  interval_cases d <;> decide

theorem decimal_spec (n : ℕ) :
    decimal n ≠ [] ∧ (∀ c ∈ decimal n, c.isDigit = true) ∧
      (decimal n).foldl (fun n c => 10 * n + (c.toNat - 48)) 0 = n := by
  induction n using Nat.strongRecOn with
  | ind n ih =>
    rw [decimal]
    by_cases h : n < 10
    · simp only [h, if_true]
      have := digitChar_spec h
      simp [this.1, this.2]
    · simp only [h, if_false]
      obtain ⟨_, h2, h3⟩ := ih (n / 10) (by omega)
      have hd := digitChar_spec (d := n % 10) (by omega)
      refine ⟨by simp, ?_, ?_⟩
      · intro c hc
        simp only [List.mem_append, List.mem_singleton] at hc
        rcases hc with hc | rfl
        · exact h2 c hc
        · exact hd.1
      · rw [List.foldl_append, h3]
        simp only [List.foldl_cons, List.foldl_nil, hd.2]
        omega

theorem readNat_decimal (n : ℕ) : readNat (decimal n) = some n := by
  obtain ⟨h1, h2, h3⟩ := decimal_spec n
  unfold readNat
  rw [if_pos ⟨h1, by simpa using h2⟩, h3]

theorem decimal_not_mem {c : Char} (hc : c.isDigit = false) (n : ℕ) : c ∉ decimal n := by
  intro h
  have := (decimal_spec n).2.1 c h
  simp [this] at hc

end Verif
