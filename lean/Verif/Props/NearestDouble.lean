import Verif.Lemmas.DblSqrt
import Verif.Props.Correlation
import Verif.Props.Context
import Verif.Props.ProgramDoubleExamples

/-!
# C17 and the largest demand of C37 in double precision

Neither the neighbour lists nor the largest demand take rounding: they only compare.
-/

namespace Verif
open F64 Dbl

section

variable {ρ : Rounding}

/-- **C17** end to end for Euclidean instances in double precision, with a precomputed or lazy distance matrix: as
`C17_euclidean`, the distances being those the program computed. Where a distance is not finite the order says
nothing about it. -/
theorem C17_double {sqrt : Dbl ρ → Dbl ρ} (hroot : SqrtOK sqrt) (locs : List (Coord (Dbl ρ)))
    (hc : ∀ p ∈ locs, (∃ q, p.lng = fin q) ∧ ∃ q, p.lat = fin q) (precompute rounded : Bool)
    (hn : 2 ≤ locs.length) (sort : List (Dbl ρ × ℕ) → List (Dbl ρ × ℕ)) (hperm : ∀ L, (sort L).Perm L)
    (hsort : ∀ L, (sort L).Pairwise fun a b => (b.1 <. a.1) = false) :
    ∃ d c, buildDist sqrt locs precompute rounded none = some d ∧ buildCorr sqrt sort d = some c ∧
      ∀ i < locs.length, ∃ l, c.get i = some l ∧ l.length = min 200 (locs.length - 2) ∧ l.Nodup ∧
        (∀ v ∈ l, 0 < v ∧ v < locs.length ∧ v ≠ i) ∧
        (l.Pairwise fun v w => ∀ x y, d.get sqrt i v = some (fin x) → d.get sqrt i w = some (fin y) → x ≤ y) ∧
        (∀ v ∈ l, ∀ w, w ∉ l → 0 < w → w < locs.length → w ≠ i → ∀ x y,
          d.get sqrt i v = some (fin x) → d.get sqrt i w = some (fin y) → x ≤ y) := by
  obtain ⟨d, D, ed, hl, hD⟩ := euclid_rows sqrt (squareLaws_dbl hroot) locs hc precompute rounded
  obtain ⟨c, ec, -, -, -, h⟩ := C17_nearest sqrt sort d (by rw [hl]; exact hn) D
    (fun i hi => by rw [hl] at hi ⊢; exact ⟨(hD i hi).1, (hD i hi).2.1⟩) hperm hsort
  rw [hl] at h
  refine ⟨d, c, ed, ec, fun i hi => ?_⟩
  obtain ⟨l, a1, a2, a3, a4, a5, a6, -⟩ := h i hi
  have hg := (hD i hi).2.2
  refine ⟨l, a1, a2, a3, a4, ?_, ?_⟩
  · refine List.Pairwise.imp_of_mem ?_ a5
    intro v w hv hw hvw x y hx hy
    rw [← hg v (a4 v hv).2.1] at hx
    rw [← hg w (a4 w hw).2.1] at hy
    simpa [lt_fin] using hvw _ _ hx hy
  · intro v hv w hw hw0 hwn hwi x y hx hy
    rw [← hg v (a4 v hv).2.1] at hx
    rw [← hg w hwn] at hy
    simpa [lt_fin] using a6 v hv w hw hw0 hwn hwi _ _ hx hy

theorem foldMax_dbl : ∀ (l : List ℚ) (a : ℚ),
    ((l.map fin).foldl (fun a b : Dbl ρ => if b <. a then a else b) (fin a)) =
      fin (l.foldl (fun a b => if b <. a then a else b) a)
  | [], _ => rfl
  | b :: l, a => by
    rw [List.map_cons, List.foldl_cons, List.foldl_cons, lt_fin, rat_lt, ← foldMax_dbl l]
    split <;> rfl

/-- **C37**, start, in double precision: if the demands are finite, the value used for the first penalty is
finite, no node demands more, and some node demands exactly it. -/
theorem C37_double_max_demand (ctx : Ctx (Dbl ρ)) {q : ℕ → ℚ} (hq : ∀ i < ctx.n, ctx.demand i = fin (q i)) (hn : 0 < ctx.n) :
    ∃ m, maxDemand ctx = some (fin m) ∧ (∀ i < ctx.n, q i ≤ m) ∧ ∃ i < ctx.n, q i = m := by
  have e : (List.range ctx.n).map ctx.demand = ((List.range ctx.n).map q).map fin := by
    rw [List.map_map]
    exact List.map_congr_left fun i hi => hq i (List.mem_range.mp hi)
  obtain ⟨m, h1, h2, h3⟩ := (C37_max_demand ⟨ctx.n, fun _ _ => 0, q, 0, 0, fun _ => 0, fun _ => 0⟩).2 hn
  refine ⟨m, ?_, h2, h3⟩
  unfold maxDemand at h1 ⊢
  rw [e]
  dsimp only at h1
  cases hl : (List.range ctx.n).map q with
  | nil =>
    rw [hl] at h1
    simp at h1
  | cons x l =>
    rw [hl] at h1
    simp only [Option.some.injEq] at h1
    rw [List.map_cons]
    simp only [Option.some.injEq]
    rw [foldMax_dbl, h1]

end

namespace NearestDoubleEx

abbrev F := Dbl nearestEven

/-- Four points, sorted with the library of `DoubleEx`, distances rounded. -/
example := C17_double DoubleEx.root_ok [⟨fin 0, fin 0⟩, ⟨fin 3, fin 4⟩, ⟨fin 0, fin (15 / 2)⟩, ⟨fin 2, fin 0⟩] (by
    intro p hp
    simp only [List.mem_cons, List.not_mem_nil, or_false] at hp
    rcases hp with rfl | rfl | rfl | rfl <;> exact ⟨⟨_, rfl⟩, _, rfl⟩) true true (by decide) DoubleEx.lib.corrSort
  DoubleEx.lib_ok.perm DoubleEx.lib_ok.sorted

/-- The largest demand of three nodes. -/
example : ∃ m, maxDemand (⟨3, fun _ _ => fin 1, fun i => fin (i / 2 : ℚ), fin 9, fin 1, fun _ => fin 0, fun _ => fin 0⟩ : Ctx F) =
    some (fin m) ∧ (1 : ℚ) ≤ m := by
  obtain ⟨m, h1, h2, -⟩ := C37_double_max_demand
    (⟨3, fun _ _ => fin 1, fun i => fin (i / 2 : ℚ), fin 9, fin 1, fun _ => fin 0, fun _ => fin 0⟩ : Ctx F)
    (q := fun i => (i / 2 : ℚ)) (fun _ _ => rfl) (by decide)
  have := h2 2 (by decide)
  norm_num at this
  exact ⟨m, h1, this⟩

end NearestDoubleEx

end Verif
