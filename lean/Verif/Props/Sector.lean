import Verif.Model.Sector
import Mathlib.Tactic.Common

/-!
# C48: circle sectors

An angle `x` (mod 65536) lies on the arc that starts at `lo` and runs counter-clockwise to `hi` when
walking `x - lo` steps from `lo` does not pass `hi`. This is stated on natural numbers of steps, without
the model's remainders.
-/

namespace Verif

/-- Specification: walking counter-clockwise from `lo`, the angle `x` is met not later than `hi` is
first met. -/
def OnArc (lo hi x : ℤ) : Prop :=
  ∃ i j : ℤ, 0 ≤ i ∧ i ≤ j ∧ j < 65536 ∧ (65536 : ℤ) ∣ (lo + i - x) ∧ (65536 : ℤ) ∣ (lo + j - hi)

theorem enc_iff (s : Sector) (x : ℤ) :
    s.isEnclosed x = true ↔ (x - s.lo) % 65536 ≤ (s.hi - s.lo) % 65536 := by
  unfold Sector.isEnclosed maxAngle
  exact decide_eq_true_iff

theorem extend_cases (s : Sector) (a : ℤ) (h : ¬ (s.lo = 0 ∧ s.hi = 0)) :
    (s.isEnclosed a = true ∧ s.extend a = s) ∨
    (¬ s.isEnclosed a = true ∧ (a - s.hi) % 65536 ≤ (s.lo - a) % 65536 ∧ s.extend a = ⟨s.lo, a⟩) ∨
    (¬ s.isEnclosed a = true ∧ ¬ (a - s.hi) % 65536 ≤ (s.lo - a) % 65536 ∧ s.extend a = ⟨a, s.hi⟩) := by
  rw [Sector.extend, if_neg h]
  by_cases h1 : s.isEnclosed a = true
  · exact .inl ⟨h1, by rw [if_pos h1]⟩
  · rw [if_neg h1]
    by_cases h2 : (a - s.hi) % 65536 ≤ (s.lo - a) % 65536
    · exact .inr (.inl ⟨h1, h2, if_pos h2⟩)
    · exact .inr (.inr ⟨h1, h2, if_neg h2⟩)

theorem isEnclosed_iff (s : Sector) (x : ℤ) : s.isEnclosed x = true ↔ OnArc s.lo s.hi x := by
  rw [enc_iff, OnArc]
  constructor
  · intro h
    exact ⟨(x - s.lo) % 65536, (s.hi - s.lo) % 65536, by omega, h, by omega, by omega, by omega⟩
  · rintro ⟨i, j, h1, h2, h3, ⟨k, h4⟩, ⟨k', h5⟩⟩
    have e1 : (x - s.lo) % 65536 = i := by omega
    have e2 : (s.hi - s.lo) % 65536 = j := by omega
    omega

theorem enclosed_extend {s : Sector} (h : ¬ (s.lo = 0 ∧ s.hi = 0)) (a x : ℤ)
    (hx : s.isEnclosed x = true) : (s.extend a).isEnclosed x = true := by
  rcases extend_cases s a h with ⟨h1, e⟩ | ⟨h1, h2, e⟩ | ⟨h1, h2, e⟩ <;> rw [e]
  · exact hx
  all_goals
    rw [enc_iff] at *
    dsimp only
    omega

theorem enclosed_self (s : Sector) (a : ℤ) : (s.extend a).isEnclosed a = true := by
  by_cases h : s.lo = 0 ∧ s.hi = 0
  · rw [Sector.extend, if_pos h, enc_iff]; simp [Sector.fromAngle]
  · rcases extend_cases s a h with ⟨h1, e⟩ | ⟨h1, h2, e⟩ | ⟨h1, h2, e⟩ <;> rw [e]
    · exact h1
    all_goals
      rw [enc_iff] at *
      dsimp only
      omega

/-- A sector that is not the empty one does not become it. -/
theorem extend_ne {s : Sector} {a : ℤ} (ha : 0 ≤ a ∧ a < 65536) (hs : 0 ≤ s.lo ∧ s.lo < 65536)
    (hs' : 0 ≤ s.hi ∧ s.hi < 65536) (h : ¬ (s.lo = 0 ∧ s.hi = 0)) :
    ¬ ((s.extend a).lo = 0 ∧ (s.extend a).hi = 0) ∧ (0 ≤ (s.extend a).lo ∧ (s.extend a).lo < 65536) ∧
      (0 ≤ (s.extend a).hi ∧ (s.extend a).hi < 65536) := by
  rcases extend_cases s a h with ⟨h1, e⟩ | ⟨h1, h2, e⟩ | ⟨h1, h2, e⟩ <;> rw [e]
  · exact ⟨h, hs, hs'⟩
  all_goals
    rw [enc_iff] at h1
    dsimp only
    omega

theorem enclosed_fold : ∀ (l : List ℤ) (s : Sector) (x : ℤ), (∀ a ∈ l, 0 ≤ a ∧ a < 65536) →
    (0 ≤ s.lo ∧ s.lo < 65536) → (0 ≤ s.hi ∧ s.hi < 65536) → ¬ (s.lo = 0 ∧ s.hi = 0) →
    (s.isEnclosed x = true ∨ x ∈ l) → (l.foldl Sector.extend s).isEnclosed x = true
  | [], s, x, _, _, _, _, hx => by simpa using hx
  | a :: l, s, x, hl, h1, h2, h3, hx => by
    have ha := hl a (by simp)
    obtain ⟨e1, e2, e3⟩ := extend_ne ha h1 h2 h3
    rw [List.foldl_cons]
    refine enclosed_fold l _ x (fun b hb => hl b (by simp [hb])) e2 e3 e1 ?_
    rcases hx with hx | hx
    · exact .inl (enclosed_extend h3 a x hx)
    · rcases List.mem_cons.mp hx with rfl | hx
      · exact .inl (enclosed_self s x)
      · exact .inr hx

/-- Extending a sector by an angle that equals all before it changes nothing but may reset it. -/
theorem fold_zeros : ∀ (l : List ℤ), (∀ a ∈ l, a = 0) → l.foldl Sector.extend Sector.new = Sector.new
  | [], _ => rfl
  | a :: l, h => by
    have : a = 0 := h a (by simp)
    subst this
    exact fold_zeros l (fun b hb => h b (by simp [hb]))

/-- **C48** (first half, what holds). If the first angle is not 0, or all angles are 0, every angle lies
on the arc of the extended sector. Missing: sequences that start with angle 0 and go on with another
angle; they lose the 0, see `C48_encloses_refuted`. -/
theorem C48_encloses_partial (l : List ℤ) (hl : ∀ a ∈ l, 0 ≤ a ∧ a < 65536)
    (h0 : l.head? ≠ some 0 ∨ ∀ a ∈ l, a = 0) (x : ℤ) (hx : x ∈ l) :
    OnArc (l.foldl Sector.extend Sector.new).lo (l.foldl Sector.extend Sector.new).hi x := by
  rw [← isEnclosed_iff]
  rcases h0 with h0 | h0
  · cases l with
    | nil => simp at hx
    | cons a l =>
      have ha := hl a (by simp)
      have ha0 : a ≠ 0 := by simpa using h0
      rw [List.foldl_cons]
      have e : Sector.new.extend a = ⟨a, a⟩ := by simp [Sector.extend, Sector.new, Sector.fromAngle]
      rw [e]
      refine enclosed_fold l _ x (fun b hb => hl b (by simp [hb])) ha ha (by simp [ha0]) ?_
      rcases List.mem_cons.mp hx with rfl | hx
      · exact .inl (by simp [Sector.isEnclosed])
      · exact .inr hx
  · rw [fold_zeros l h0, h0 x hx]; decide

/-- **C48** (first half) is false of the code: the sector of a route whose first customer lies at angle
0 (exactly east of the depot) does not enclose that customer once a second customer is added. -/
theorem C48_encloses_refuted : ∃ l : List ℤ, (∀ a ∈ l, 0 ≤ a ∧ a < 65536) ∧ ∃ x ∈ l,
    ¬ OnArc (l.foldl Sector.extend Sector.new).lo (l.foldl Sector.extend Sector.new).hi x := by
  refine ⟨[0, 100], by decide, 0, by decide, ?_⟩
  rw [← isEnclosed_iff]
  decide

/-- **C48** (second half). Two sectors overlap exactly when some angle lies on both arcs. -/
theorem C48_overlaps_iff (s t : Sector) :
    s.overlaps t = true ↔ ∃ x, OnArc s.lo s.hi x ∧ OnArc t.lo t.hi x := by
  have e : s.overlaps t = true ↔ (t.lo - s.lo) % 65536 ≤ (s.hi - s.lo) % 65536 ∨
      (s.lo - t.lo) % 65536 ≤ (t.hi - t.lo) % 65536 := by
    unfold Sector.overlaps maxAngle
    rw [Bool.or_eq_true, decide_eq_true_iff, decide_eq_true_iff]
  rw [e]
  simp only [← isEnclosed_iff, enc_iff]
  constructor
  · rintro (h | h)
    · exact ⟨t.lo, h, by omega⟩
    · exact ⟨s.lo, by omega, h⟩
  · rintro ⟨x, h1, h2⟩
    omega

/-- A sequence as in `C48_encloses_partial` that crosses angle 0. -/
example : (∀ a ∈ [65000, 0, 40000, 300], 0 ≤ a ∧ a < (65536 : ℤ)) ∧
    [65000, 0, 40000, 300].head? ≠ some (0 : ℤ) ∧
    [65000, 0, 40000, 300].foldl Sector.extend Sector.new = ⟨40000, 300⟩ := by decide

end Verif
