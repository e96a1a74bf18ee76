import Verif.Lemmas.DblSqrt
import Verif.Props.Matrix
import Verif.Props.ComparisonDouble
import Verif.Props.ProgramDoubleExamples

/-!
# C20 in double precision

The builder keeps the first distance and replaces it by one that is greater by more than the rounded tolerance.
-/

namespace Verif
open F64 Dbl

namespace Spec

/-- `x` is the double with value `q`. -/
def Value {ρ : Rounding} (x : Dbl ρ) (q : ℚ) : Prop := x = fin q ∧ ρ.fl q = q ∧ |q| < limit

end Spec

section

variable {ρ : Rounding}

theorem approxGt_fin {a b : ℚ} (ha : |a| < limit) :
    approxGt (fin a : Dbl ρ) (fin b) = decide (ρ.fl (b + ρ.fl (1 / 1000000)) < a) := by
  have h : (eps : Dbl ρ) = fin (ρ.fl (1 / 1000000)) := by
    show (ofRat 0.000001 : Dbl ρ) = _
    rw [show (0.000001 : ℚ) = 1 / 1000000 by norm_num]
    exact ofRat_le (m := 0) (by norm_num) (by rw [abs_of_nonneg (by norm_num)]; norm_num)
  unfold approxGt
  rw [h, add_fin]
  exact ofRat_lt_fin ha

theorem eps_nonneg : 0 ≤ ρ.fl (1 / 1000000) := ρ.nonneg (by norm_num)

/-- Not greater than `x` by more than the tolerance. -/
def Within (ρ : Rounding) (q x : ℚ) : Prop := q ≤ ρ.fl (x + ρ.fl (1 / 1000000))

theorem maxStep_dbl {rounded : Bool} : ∀ (E : List (ℕ × ℕ × Dbl ρ)) (mx : Option (Dbl ρ)),
    (E ≠ [] ∨ mx ≠ none) → (∀ e ∈ E, ∃ q, Spec.Value (roundIf rounded e.2.2) q) →
    (∀ y, mx = some y → ∃ q, Spec.Value y q) →
    ∃ x, E.foldl (maxStep rounded) mx = some (fin x) ∧ ρ.fl x = x ∧
      (mx = some (fin x) ∨ ∃ e ∈ E, roundIf rounded e.2.2 = fin x) ∧ (∀ y, mx = some (fin y) → y ≤ x) ∧
      ∀ e ∈ E, ∀ q, roundIf rounded e.2.2 = fin q → Within ρ q x
  | [], mx, h, _, hv => by
    obtain ⟨x, rfl⟩ := Option.ne_none_iff_exists'.mp (h.resolve_left (by simp))
    obtain ⟨q, rfl, h1, -⟩ := hv x rfl
    exact ⟨q, rfl, h1, .inl rfl, fun y hy => by cases hy; exact le_refl _, by simp⟩
  | e :: E, mx, _, he, hv => by
    obtain ⟨q, hq, q1, q2⟩ := he e (by simp)
    have ge : ∀ y : ℚ, ρ.fl y = y → y ≤ ρ.fl (y + ρ.fl (1 / 1000000)) := fun y hy => by
      have := ρ.mono y (y + ρ.fl (1 / 1000000)) (by have := eps_nonneg (ρ := ρ); linarith)
      rwa [hy] at this
    obtain ⟨x0, hx0, r0, l0, h1, h2, h3⟩ : ∃ x0, maxStep rounded mx e = some (fin x0) ∧ ρ.fl x0 = x0 ∧ |x0| < limit ∧
        (mx = some (fin x0) ∨ roundIf rounded e.2.2 = fin x0) ∧ (∀ y, mx = some (fin y) → y ≤ x0) ∧ Within ρ q x0 := by
      cases mx with
      | none => exact ⟨q, by rw [← hq]; rfl, q1, q2, .inr hq, by simp, ge q q1⟩
      | some y =>
        obtain ⟨y, rfl, y1, y2⟩ := hv y rfl
        by_cases hgt : ρ.fl (y + ρ.fl (1 / 1000000)) < q
        · refine ⟨q, ?_, q1, q2, .inr hq, ?_, ge q q1⟩
          · simp only [maxStep]
            rw [hq, approxGt_fin q2, if_pos (by simpa using hgt)]
          · intro z hz
            cases hz
            have := ge y y1
            linarith
        · refine ⟨y, ?_, y1, y2, .inl rfl, ?_, not_lt.mp hgt⟩
          · simp only [maxStep]
            rw [hq, approxGt_fin q2, if_neg (by simpa using hgt)]
          · intro z hz
            cases hz
            exact le_refl _
    obtain ⟨x, hx, rx, i1, i2, i3⟩ := maxStep_dbl E (maxStep rounded mx e) (.inr (by rw [hx0]; simp))
      (fun e' h' => he e' (by simp [h'])) (fun y hy => by
        rw [hx0, Option.some.injEq] at hy
        exact ⟨x0, hy.symm, r0, l0⟩)
    have hle := i2 x0 hx0
    refine ⟨x, hx, rx, ?_, fun y hy => le_trans (h2 y hy) hle, ?_⟩
    · rcases i1 with i1 | ⟨e', he', i1⟩
      · rw [hx0, Option.some.injEq] at i1
        cases i1
        rcases h1 with h1 | h1
        · exact .inl h1
        · exact .inr ⟨e, by simp, h1⟩
      · exact .inr ⟨e', by simp [he'], i1⟩
    · intro e' he' z hz
      rcases List.mem_cons.mp he' with rfl | he'
      · rw [hq] at hz
        cases hz
        exact le_trans h3 (ρ.mono _ _ (by linarith))
      · exact i3 e' he' z hz

/-- **C20** (Euclidean), in double precision. With at least two nodes whose coordinates and distances are finite
doubles, the maximum the precomputing builder reports is the distance of some pair of different nodes, and no
distance is above the rounded sum of that maximum and the rounded `1e-6`. -/
theorem C20_double_euclidean {sqrt : Dbl ρ → Dbl ρ} (hroot : SqrtOK sqrt) (locs : List (Coord (Dbl ρ))) (rounded : Bool)
    (hn : 2 ≤ locs.length) (hc : ∀ p ∈ locs, (∃ q, p.lng = fin q) ∧ ∃ q, p.lat = fin q)
    (hv : ∀ p ∈ locs, ∀ p' ∈ locs, ∃ q, Spec.Value (roundIf rounded (euclid sqrt p p')) q) :
    ∃ d mx, buildDist sqrt locs true rounded none = some d ∧ d.maxDistance = some (fin mx) ∧
      (∃ i j, i ≠ j ∧ i < locs.length ∧ j < locs.length ∧ d.get sqrt i j = some (fin mx)) ∧
      ∀ i j x, i ≠ j → i < locs.length → j < locs.length → d.get sqrt i j = some (fin x) →
        x ≤ ρ.fl (mx + ρ.fl (1 / 1000000)) := by
  have L := squareLaws_dbl hroot
  obtain ⟨d, g, e, hl, hpre, hmax, hs, hg⟩ := euclid_shows L locs hc rounded
  have hlt : ∀ {i : ℕ} {p : Coord (Dbl ρ)}, locs[i]? = some p → i < locs.length :=
    fun h => (List.getElem?_eq_some_iff.mp h).1
  have hne : euclidEntries sqrt locs ≠ [] := by
    have : (0, 1, euclid sqrt locs[0] locs[1]) ∈ euclidEntries sqrt locs :=
      mem_euclidEntries.mpr ⟨locs[0], locs[1], by omega, List.getElem?_eq_getElem _,
        List.getElem?_eq_getElem _, rfl⟩
    intro h; rw [h] at this; simp at this
  obtain ⟨mx, hmx, -, h1, -, h3⟩ := maxStep_dbl (rounded := rounded) (euclidEntries sqrt locs) none (.inl hne)
    (fun e he => by
      obtain ⟨a, b, x⟩ := e
      obtain ⟨p, q, -, hp, hq, rfl⟩ := mem_euclidEntries.mp he
      exact hv p (List.mem_of_getElem? hp) q (List.mem_of_getElem? hq)) (by simp)
  have hget : ∀ i < locs.length, ∀ j < locs.length, d.get sqrt i j = some (g i j) := by
    intro i hi j hj
    rw [DistMatrix.get, if_pos hpre, hs.get hi hj]
  refine ⟨d, mx, e, by rw [hmax, hmx], ?_, ?_⟩
  · rcases h1 with h1 | ⟨⟨a, b, x⟩, he, h1⟩
    · simp at h1
    · obtain ⟨p, q, hab, hp, hq, rfl⟩ := mem_euclidEntries.mp he
      refine ⟨a, b, by omega, hlt hp, hlt hq, ?_⟩
      rw [hget a (hlt hp) b (hlt hq), hg a b p q hp hq, ← h1]
  · intro i j x hij hi hj hx
    rw [hget i hi j hj, Option.some.injEq] at hx
    have hp : locs[i]? = some locs[i] := List.getElem?_eq_getElem hi
    have hq : locs[j]? = some locs[j] := List.getElem?_eq_getElem hj
    rw [hg i j _ _ hp hq] at hx
    rcases Nat.lt_or_gt_of_ne hij with h | h
    · exact h3 (i, j, euclid sqrt locs[i] locs[j]) (mem_euclidEntries.mpr ⟨_, _, h, hp, hq, rfl⟩) x hx
    · rw [euclid_comm L (hc _ (List.getElem_mem _)) (hc _ (List.getElem_mem _))] at hx
      exact h3 (j, i, euclid sqrt locs[j] locs[i]) (mem_euclidEntries.mpr ⟨_, _, h, hq, hp, rfl⟩) x hx

/-- **C20** (explicit matrix), in double precision. -/
theorem C20_double_explicit (sqrt : Dbl ρ → Dbl ρ) (locs : List (Coord (Dbl ρ))) (precompute rounded : Bool)
    (input : List (List (Dbl ρ))) (hlen : input.length + 1 = locs.length) (hn : 2 ≤ locs.length)
    (hrow : ∀ (i : ℕ) (row : List (Dbl ρ)), input[i]? = some row → row.length = i + 1)
    (hv : ∀ row ∈ input, ∀ x ∈ row, ∃ q, Spec.Value (roundIf rounded x) q) :
    ∃ d mx, buildDist sqrt locs precompute rounded (some input) = some d ∧ d.maxDistance = some (fin mx) ∧
      (∃ i j, i ≠ j ∧ i < locs.length ∧ j < locs.length ∧ d.get sqrt i j = some (fin mx)) ∧
      ∀ i j x, i ≠ j → i < locs.length → j < locs.length → d.get sqrt i j = some (fin x) →
        x ≤ ρ.fl (mx + ρ.fl (1 / 1000000)) := by
  obtain ⟨d, e, hd, -⟩ := C19_explicit_lower_row sqrt locs precompute rounded input hlen hrow
  have hmax : d.maxDistance = (inputEntries input).foldl (maxStep rounded) none := by
    rw [buildDist, Option.map_eq_some_iff] at e
    obtain ⟨st, e1, rfl⟩ := e
    obtain ⟨m, g, e2, -⟩ := entries_shows (rounded := rounded) (inputEntries input)
      (RawMatrix.new (lit 0) locs.length locs.length) none _ (RawMatrix.new_shows _ _ _) (by
        rintro ⟨a, b, x⟩ he
        obtain ⟨i, row, rfl, h1, h2⟩ := mem_inputEntries.mp he
        have h3 := (List.getElem?_eq_some_iff.mp h2).1
        have h4 := (List.getElem?_eq_some_iff.mp h1).1
        rw [hrow i row h1] at h3
        dsimp only
        omega)
    rw [e1] at e2
    cases e2; rfl
  have hcell : ∀ i j, j < i + 1 → i < input.length → ∃ row x, input[i]? = some row ∧ row[j]? = some x := by
    intro i j hj hi
    have h1 : input[i]? = some input[i] := List.getElem?_eq_getElem hi
    exact ⟨_, _, h1, List.getElem?_eq_getElem (by rw [hrow i _ h1]; exact hj)⟩
  have hne : inputEntries input ≠ [] := by
    obtain ⟨row, x, h1, h2⟩ := hcell 0 0 (by omega) (by omega)
    have : (0 + 1, 0, x) ∈ inputEntries input := mem_inputEntries.mpr ⟨0, row, rfl, h1, h2⟩
    intro h; rw [h] at this; simp at this
  obtain ⟨mx, hmx, -, h1, -, h3⟩ := maxStep_dbl (rounded := rounded) (inputEntries input) none (.inl hne)
    (fun e he => by
      obtain ⟨a, b, x⟩ := e
      obtain ⟨i, row, -, h1, h2⟩ := mem_inputEntries.mp he
      exact hv row (List.mem_of_getElem? h1) x (List.mem_of_getElem? h2)) (by simp)
  refine ⟨d, mx, e, by rw [hmax, hmx], ?_, ?_⟩
  · rcases h1 with h1 | ⟨⟨a, b, x⟩, he, h1⟩
    · simp at h1
    · obtain ⟨i, row, rfl, hi, hb⟩ := mem_inputEntries.mp he
      have h5 := (List.getElem?_eq_some_iff.mp hb).1
      have h4 := (List.getElem?_eq_some_iff.mp hi).1
      rw [hrow i row hi] at h5
      refine ⟨i + 1, b, by omega, by omega, by omega, ?_⟩
      rw [(hd i b row x hi hb).1, ← h1]; rfl
  · intro i j x hij hi hj hx
    have key : ∀ i j, j < i + 1 → i < input.length → ∃ y, d.get sqrt (i + 1) j = some y ∧
        d.get sqrt j (i + 1) = some y ∧ ∀ q, y = fin q → Within ρ q mx := by
      intro i j h1 h2
      obtain ⟨row, y, h4, h5⟩ := hcell i j h1 h2
      obtain ⟨g1, g2⟩ := hd i j row y h4 h5
      have h6 := h3 (i + 1, j, y) (mem_inputEntries.mpr ⟨i, row, rfl, h4, h5⟩)
      exact ⟨_, g1, g2, h6⟩
    rcases Nat.lt_or_gt_of_ne hij with h | h
    · obtain ⟨y, h1, h2, h3⟩ := key (j - 1) i (by omega) (by omega)
      rw [show j - 1 + 1 = j by omega, hx] at h2
      cases h2; exact h3 x rfl
    · obtain ⟨y, h1, h2, h3⟩ := key (i - 1) j (by omega) (by omega)
      rw [show i - 1 + 1 = i by omega, hx] at h1
      cases h1; exact h3 x rfl

end

namespace MaxDoubleEx

abbrev F := Dbl nearestEven

/-- Three nodes with an explicit matrix that is not whole: the hypotheses of `C20_double_explicit`, and the maximum. -/
example : ∃ d mx, buildDist (fun x : F => x) [⟨fin 0, fin 0⟩, ⟨fin 0, fin 0⟩, ⟨fin 0, fin 0⟩] false false
    (some [[fin (3 / 2)], [fin 4, fin (17 / 4)]]) = some d ∧ d.maxDistance = some (fin mx) ∧ 17 / 4 ≤ mx + 1 / 500000 := by
  obtain ⟨d, mx, h1, h2, -, h4⟩ := C20_double_explicit (ρ := nearestEven) (fun x : F => x)
    [⟨fin 0, fin 0⟩, ⟨fin 0, fin 0⟩, ⟨fin 0, fin 0⟩] false false [[fin (3 / 2)], [fin 4, fin (17 / 4)]] rfl (by decide)
    (fun i row h => by
      match i with
      | 0 => cases h; rfl
      | 1 => cases h; rfl
      | n + 2 => simp at h)
    (by
      intro row hr x hx
      simp only [List.mem_cons, List.not_mem_nil, or_false] at hr
      rcases hr with rfl | rfl
      · simp only [List.mem_cons, List.not_mem_nil, or_false] at hx
        subst hx
        exact ⟨3 / 2, rfl, by decide +kernel, by decide +kernel⟩
      · simp only [List.mem_cons, List.not_mem_nil, or_false] at hx
        rcases hx with rfl | rfl
        · exact ⟨4, rfl, by decide +kernel, by decide +kernel⟩
        · exact ⟨17 / 4, rfl, by decide +kernel, by decide +kernel⟩)
  have e : (buildDist (fun x : F => x) [⟨fin 0, fin 0⟩, ⟨fin 0, fin 0⟩, ⟨fin 0, fin 0⟩] false false
    (some [[fin (3 / 2)], [fin 4, fin (17 / 4)]])).bind (·.maxDistance) = some (fin (17 / 4)) := by decide +kernel
  rw [h1, Option.bind_some, h2, Option.some.injEq, fin.injEq] at e
  exact ⟨d, mx, h1, h2, by rw [e]; norm_num⟩

/-- Three nodes in the plane. -/
def locs : List (Coord F) := [⟨fin 0, fin 0⟩, ⟨fin 3, fin 4⟩, ⟨fin 0, fin (15 / 2)⟩]

theorem values : ∀ p ∈ locs, ∀ p' ∈ locs, ∃ q, Spec.Value (roundIf true (euclid DoubleEx.root p p')) q := by
  have h : ∀ p ∈ locs, ∀ p' ∈ locs, ∃ q ∈ ([0, 5, 8] : List ℚ), roundIf true (euclid DoubleEx.root p p') = fin q := by
    decide +kernel
  intro p hp p' hp'
  obtain ⟨q, hq, e⟩ := h p hp p' hp'
  refine ⟨q, e, ?_⟩
  simp only [List.mem_cons, List.not_mem_nil, or_false] at hq
  rcases hq with rfl | rfl | rfl <;> exact ⟨by decide +kernel, by decide +kernel⟩

/-- The hypotheses of `C20_double_euclidean` with rounded distances. -/
example : ∃ d mx, buildDist DoubleEx.root locs true true none = some d ∧ d.maxDistance = some (fin mx) ∧
    ∀ i j x, i ≠ j → i < 3 → j < 3 → d.get DoubleEx.root i j = some (fin x) →
      x ≤ nearestEven.fl (mx + nearestEven.fl (1 / 1000000)) := by
  obtain ⟨d, mx, h1, h2, -, h4⟩ := C20_double_euclidean DoubleEx.root_ok locs true (by decide) (by
    intro p hp
    simp only [locs, List.mem_cons, List.not_mem_nil, or_false] at hp
    rcases hp with rfl | rfl | rfl <;> exact ⟨⟨_, rfl⟩, _, rfl⟩) values
  exact ⟨d, mx, h1, h2, h4⟩

end MaxDoubleEx

end Verif
