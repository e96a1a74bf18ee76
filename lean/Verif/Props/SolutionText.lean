import Verif.Lemmas.Text

/-!
# C41: the solution file can be read back
-/

namespace Verif

open Spec

theorem routeLine_eq (k : ℕ) (route : List ℕ) :
    routeLine k route =
      ("Route #".toList ++ decimal k) ++ ':' :: (route.map fun s => ' ' :: decimal s).flatten := by
  unfold routeLine
  generalize "Route #".toList ++ decimal k = p
  rw [show p ++ ':' :: (route.map fun s => ' ' :: decimal s).flatten =
    (p ++ [':']) ++ (route.map fun s => ' ' :: decimal s).flatten by simp]
  generalize p ++ [':'] = p
  induction route generalizing p with
  | nil => simp
  | cons s route ih => rw [List.foldl_cons, ih]; simp

theorem splitOn_words (s : ℕ) (route : List ℕ) :
    splitOn ' ' (((s :: route).map fun s => ' ' :: decimal s).flatten) =
      [] :: (s :: route).map decimal := by
  induction route generalizing s with
  | nil => simp [splitOn, splitOn_none (decimal_not_mem (c := ' ') (by decide) s)]
  | cons t route ih =>
    have h1 := ih t
    have hns : ' ' ∉ decimal s := decimal_not_mem (c := ' ') (by decide) s
    rw [List.map_cons, List.flatten_cons, List.cons_append]
    simp only [splitOn, if_true]
    have h2 : ∃ rest, ((t :: route).map fun s => ' ' :: decimal s).flatten = ' ' :: rest := by simp
    obtain ⟨rest, h2⟩ := h2
    rw [h2] at h1 ⊢
    simp only [splitOn, if_true, List.cons.injEq, true_and] at h1
    rw [splitOn_append hns, h1]; rfl

theorem mapM_readNat (l : List ℕ) : (l.map decimal).mapM readNat = some l := by
  induction l with
  | nil => rfl
  | cons a l ih => simp [List.mapM_cons, readNat_decimal, ih]

theorem readRoute_routeLine (k s : ℕ) (route : List ℕ) :
    readRoute k (routeLine k (s :: route)) = some (s :: route) := by
  have hns : ':' ∉ "Route #".toList ++ decimal k := by
    simp only [List.mem_append, not_or]
    exact ⟨by decide, decimal_not_mem (by decide) k⟩
  have hns2 : ':' ∉ (((s :: route).map fun s => ' ' :: decimal s).flatten) := by
    simp only [List.mem_flatten, List.mem_map, not_exists, not_and]
    rintro l ⟨x, -, rfl⟩ h
    rcases List.mem_cons.1 h with h | h
    · exact absurd h (by decide)
    · exact decimal_not_mem (by decide) x h
  have h7 : ("Route #".toList ++ decimal k).take 7 = "Route #".toList := by
    rw [List.take_append_of_le_length (by decide)]; decide
  have h8 : ("Route #".toList ++ decimal k).drop 7 = decimal k := by
    rw [List.drop_append_of_le_length (by decide)]; simp
  unfold readRoute
  rw [routeLine_eq, splitOn_append hns, splitOn_none hns2]
  simp only [h7, h8, readNat_decimal, true_and, if_true, splitOn_words]
  simp only [List.map_cons]
  exact mapM_readNat (s :: route)

theorem newline_not_mem_routeLine (k : ℕ) (route : List ℕ) : '\n' ∉ routeLine k route := by
  rw [routeLine_eq]
  simp only [List.mem_append, List.mem_cons, List.mem_flatten, List.mem_map, not_or]
  refine ⟨⟨by decide, decimal_not_mem (by decide) k⟩, by decide, ?_⟩
  rintro ⟨l, ⟨x, -, rfl⟩, h⟩
  rcases List.mem_cons.1 h with h | h
  · exact absurd h (by decide)
  · exact decimal_not_mem (by decide) x h

theorem readLines_render (k : ℕ) (routes : List (List ℕ)) (c : ℕ) :
    readLines k (splitOn '\n' (routeLines k routes ++ ("Cost ".toList ++ decimal c ++ ['\n']))) =
      some (routes.filter (fun r => r ≠ []), c) := by
  induction routes generalizing k with
  | nil =>
    have hns : '\n' ∉ "Cost ".toList ++ decimal c := by
      simp only [List.mem_append, not_or]
      exact ⟨by decide, decimal_not_mem (by decide) c⟩
    have h1 : ("Cost ".toList ++ decimal c).take 5 = "Cost ".toList := by
      rw [List.take_append_of_le_length (by decide)]; decide
    have h2 : ("Cost ".toList ++ decimal c).drop 5 = decimal c := by
      rw [List.drop_append_of_le_length (by decide)]; simp
    simp only [routeLines, List.nil_append]
    rw [splitOn_append hns]
    simp only [splitOn, readLines, and_self, if_true, h1, h2, readNat_decimal, Option.map_some,
      List.filter_nil]
  | cons r routes ih =>
    cases r with
    | nil => simpa [routeLines] using ih k
    | cons s r =>
      have hns := newline_not_mem_routeLine k (s :: r)
      have h1 := ih (k + 1)
      simp only [routeLines, List.length_cons, gt_iff_lt, Nat.zero_lt_succ, if_true,
        List.append_assoc, List.singleton_append, List.cons_append, List.nil_append]
      rw [splitOn_append hns]
      simp only [List.append_assoc] at h1
      generalize hS : splitOn '\n' (routeLines (k + 1) routes ++ ("Cost ".toList ++ (decimal c ++ ['\n']))) = S at h1 ⊢
      match S, h1 with
      | [], h1 => simp [readLines] at h1
      | [x], h1 => simp [readLines] at h1
      | x :: y :: z, h1 =>
        rw [readLines.eq_def]
        simp only [reduceCtorEq, and_false, if_false, readRoute_routeLine, h1]
        simp

/-- C41. For all routes and every cost: the file written for the recorded solution is read back as
exactly the non-empty routes in their order and the cost rounded to an integer. In particular the
lines are numbered consecutively from 1 (`Spec.readRoute` insists on the number). -/
theorem C41_solution_text_round_trip {α : Type} [F64 α] (routes : List (List ℕ)) (cost : α) :
    ∃ text, solutionFile true (some (routes, cost)) = some text ∧
      readSolution text = some (routes.filter (fun r => r ≠ []), F64.toNat (F64.round cost)) := by
  refine ⟨_, rfl, ?_⟩
  have := readLines_render 1 routes (F64.toNat (F64.round cost))
  simpa [renderSolution, readSolution] using this

/-- C41, cost: on exact numbers the printed cost is the nearest integer to a non-negative cost. -/
theorem C41_cost_nearest (cost : ℚ) (h : 0 ≤ cost) :
    |(F64.toNat (F64.round cost) : ℚ) - cost| ≤ 1 / 2 := by
  have h1 : 0 ≤ ⌊cost + 1 / 2⌋ := Int.floor_nonneg.2 (by linarith)
  have h2 := Int.floor_le (cost + 1 / 2)
  have h3 := Int.lt_floor_add_one (cost + 1 / 2)
  have h4 : (F64.toNat (F64.round cost) : ℤ) = ⌊cost + 1 / 2⌋ := by
    simp only [F64.rat_toNat, F64.rat_round, F64.ratRound, if_pos h, Int.floor_intCast]
    exact Int.toNat_of_nonneg h1
  have h5 : (F64.toNat (F64.round cost) : ℚ) = (⌊cost + 1 / 2⌋ : ℚ) := by exact_mod_cast h4
  rw [h5, abs_le]
  constructor <;> linarith

/-- C41: without a recorded solution the file is left empty, without a path nothing is written. -/
theorem C41_no_solution {α : Type} [F64 α] (last : Option (List (List ℕ) × α)) :
    solutionFile true (none : Option (List (List ℕ) × α)) = some [] ∧ solutionFile false last = none :=
  ⟨rfl, rfl⟩

/-- A case of C41: an empty route is skipped, the rest is numbered 1, 2. -/
example : readSolution "Route #1: 2 13\nRoute #2: 5\nCost 120\n".toList = some ([[2, 13], [5]], 120) ∧
    readSolution "Route #1: 2 13\nRoute #3: 5\nCost 120\n".toList = none := by decide

end Verif
