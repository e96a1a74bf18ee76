import Verif.Lemmas.DblCalm
import Mathlib.Data.Set.Finite.List
import Mathlib.Data.Fintype.EquivFin
import Mathlib.Combinatorics.Pigeonhole

/-! # A local search returns unless accepted moves go round in a circle -/

namespace Verif
open F64 LS Spec

variable {α : Type} [F64 α] {ctx : Ctx α} {fl : MoveFlags}

/-- The plans of `m` routes over the customers below `n` are finitely many. -/
theorem plans_finite (n m : ℕ) : {R : List (List ℕ) | IsPartition n R ∧ R.length = m}.Finite := by
  have h1 : {l : List ℕ | l.length ≤ n ∧ ∀ c ∈ l, c < n}.Finite := by
    refine ((List.finite_length_le (Fin n) n).image (List.map Fin.val)).subset ?_
    rintro l ⟨h1, h2⟩
    refine ⟨l.attach.map fun c => ⟨c.1, h2 c.1 c.2⟩, by simpa using h1, ?_⟩
    rw [List.map_map]
    exact List.attach_map_subtype_val l
  have h2 : Finite {l : List ℕ | l.length ≤ n ∧ ∀ c ∈ l, c < n} := h1
  refine ((List.finite_length_eq {l : List ℕ | l.length ≤ n ∧ ∀ c ∈ l, c < n} m).image
    (List.map Subtype.val)).subset ?_
  rintro R ⟨h3, h4⟩
  have h5 : ∀ l ∈ R, l ∈ {l : List ℕ | l.length ≤ n ∧ ∀ c ∈ l, c < n} := by
    intro l hl
    refine ⟨?_, fun c hc => ((part_mem h3).mp (List.mem_flatten.mpr ⟨l, hl, hc⟩)).2⟩
    have a := (List.sublist_flatten_of_mem hl).length_le
    have b := List.Perm.length_eq h3
    simp only [Spec.customers, List.length_map, List.length_range, List.length_range'] at b
    omega
  refine ⟨R.attach.map fun l => ⟨l.1, h5 l.1 l.2⟩, (by rw [List.length_map, List.length_attach]; exact h4 : List.length _ = m), ?_⟩
  rw [List.map_map]
  exact List.attach_map_subtype_val R

/-- The plans a sequence of accepted moves passes through. -/
theorem Steps.trail {pen : α} {k : ℕ} {R R' : List (List ℕ)} (h : Steps ctx fl pen k R R') :
    ∃ σ : ℕ → List (List ℕ), σ 0 = R ∧ σ k = R' ∧ ∀ i < k, Accepted ctx fl pen (σ i) (σ (i + 1)) := by
  induction h with
  | zero R => exact ⟨fun _ => R, rfl, rfl, by simp⟩
  | @succ k R R' R'' _ ha ih =>
    obtain ⟨σ, h0, h1, h2⟩ := ih
    refine ⟨fun i => if i ≤ k then σ i else R'', by simp [h0], by simp, fun i hi => ?_⟩
    rcases Nat.lt_or_ge i k with hik | hik
    · simpa [show i ≤ k by omega, show i + 1 ≤ k by omega] using h2 i hik
    · obtain rfl : i = k := by omega
      simpa [h1] using ha

theorem steps_of_trail {pen : α} {σ : ℕ → List (List ℕ)} {k : ℕ}
    (h : ∀ i < k, Accepted ctx fl pen (σ i) (σ (i + 1))) (i : ℕ) : ∀ j, i + j ≤ k →
    Steps ctx fl pen j (σ i) (σ (i + j))
  | 0, _ => .zero _
  | j + 1, hj => .succ (steps_of_trail h i j (by omega)) (h _ (by omega))

/-- Accepted moves that lead back to the plan they started from. -/
def Circle (ctx : Ctx α) (fl : MoveFlags) (pen : α) (m : ℕ) : Prop :=
  ∃ k R, 0 < k ∧ IsPartition ctx.n R ∧ R.length = m ∧ Steps ctx fl pen k R R

/-- Without a circle only boundedly many moves can be accepted in a row. -/
theorem steps_bounded {pen : α} {m : ℕ} (h : ¬ Circle ctx fl pen m) : ∃ B, ∀ k R R', IsPartition ctx.n R →
    R.length = m → Steps ctx fl pen k R R' → k ≤ B := by
  refine ⟨(plans_finite ctx.n m).toFinset.card, fun k R R' hR hm hs => ?_⟩
  by_contra hk
  push Not at hk
  obtain ⟨σ, h0, -, h2⟩ := hs.trail
  have hpl : ∀ i ≤ k, IsPartition ctx.n (σ i) ∧ (σ i).length = m := by
    intro i hi
    have := (steps_of_trail h2 0 i (by omega)).perm
    rw [Nat.zero_add, h0] at this
    exact ⟨this.1.trans hR, this.2.trans hm⟩
  obtain ⟨i, hi, j, hj, hne, he⟩ := Finset.exists_ne_map_eq_of_card_lt_of_maps_to
    (s := Finset.range (k + 1)) (t := (plans_finite ctx.n m).toFinset) (f := σ) (by
      rw [Finset.card_range]; omega) (by
      intro i hi
      have hi : i < k + 1 := by simpa using hi
      simpa using hpl i (by omega))
  rw [Finset.mem_range] at hi hj
  have key : ∀ i j, i < j → j < k + 1 → σ i = σ j → False := by
    intro i j hij hj he
    refine h ⟨j - i, σ i, by omega, (hpl i (by omega)).1, (hpl i (by omega)).2, ?_⟩
    have := steps_of_trail h2 i (j - i) (by omega)
    rwa [show i + (j - i) = j by omega, ← he] at this
  rcases Nat.lt_or_ge i j with hij | hij
  · exact key i j hij hj he
  · exact key j i (by omega) hi he.symm

/-- If accepted moves never go round in a circle, the local search returns, whatever the arithmetic. -/
theorem run_ends_of_no_circle (A : Arith ctx) {atan2 : α → α → α} (ω : Oracle) {factor : α} {s : LS α}
    {x : Individual α} (hn0 : 0 < ctx.n) (hs : Ready s) (hn : NbrOK ctx s) (hp : IsPartition ctx.n x.phenotype)
    (hlen : x.phenotype.length = s.numRoutes)
    (hang : ∀ r : List ℕ, r.length < ctx.n → (Individual.routeAngle atan2 ctx r ≤. Individual.routeAngle atan2 ctx r) = true)
    (hc : ¬ Circle ctx fl (ctx.pen *. factor) s.numRoutes) :
    ∃ r, EndsIn (fun f => LS.run atan2 ctx fl ω f factor s x) r := by
  obtain ⟨B, hB⟩ := steps_bounded hc
  obtain ⟨s1, e1, r1, n1, p1, num1, -⟩ := load_run hs hn factor hp hlen
  obtain ⟨s2, R2, k, e2, r2, -, -, num2, -⟩ := searchLoop_ends A (f := fl) (ω := ω) B (B + 1) 0 0 s1 x.phenotype r1 n1
    (by omega) fun k R' hk => hB k _ R' hp hlen (p1 ▸ hk)
  obtain ⟨y, e3⟩ := write_total_any r2 atan2 (x := x) hn0 (by rw [hlen, num2, num1]) fun r hr => by
    refine hang r ?_
    have a := (List.sublist_flatten_of_mem hr).length_le
    have b := List.Perm.length_eq r2.part
    simp only [Spec.customers, List.length_map, List.length_range, List.length_range'] at b
    omega
  have hrun : LS.run atan2 ctx fl ω (B + 1) factor s x = some (s2, y) := by
    unfold LS.run search
    rw [e1, Option.bind_some, e2, Option.bind_some, e3]
    rfl
  exact ⟨_, B + 1, fun f hf => run_mono hrun hf⟩

end Verif
