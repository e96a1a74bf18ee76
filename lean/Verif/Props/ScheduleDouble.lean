import Verif.Lemmas.DblSqrt
import Verif.Props.Matrix
import Verif.Props.Schedule
import Verif.Props.ComparisonDouble
import Verif.Props.ProgramDoubleExamples

/-!
# C18 and the acceptance of C27 in double precision
-/

namespace Verif
open F64 Dbl

namespace Spec

/-- What is asked of `f64::ln` between 0 and 1: minus infinity at 0, a number that is not positive elsewhere. -/
structure LnOK {ρ : Rounding} (ln : Dbl ρ → Dbl ρ) : Prop where
  zero : ln (fin 0) = inf true
  small : ∀ q : ℚ, 0 < q → q < 1 → ∃ l : ℚ, l ≤ 0 ∧ ln (fin q) = fin l

end Spec

section

variable {ρ : Rounding}

/-- **C18** in double precision, for finite coordinates and a root `SqrtOK`: precomputed and lazy distance matrix
answer alike, the matrix is symmetric to the bit and zero on the diagonal. -/
theorem C18_double {sqrt : Dbl ρ → Dbl ρ} (hroot : SqrtOK sqrt) (locs : List (Coord (Dbl ρ)))
    (hc : ∀ p ∈ locs, (∃ q, p.lng = fin q) ∧ ∃ q, p.lat = fin q) (rounded : Bool) :
    ∃ pre lazy, buildDist sqrt locs true rounded none = some pre ∧
      buildDist sqrt locs false rounded none = some lazy ∧
      (∀ i < locs.length, ∀ j < locs.length, ∃ x, pre.get sqrt i j = some x ∧ lazy.get sqrt i j = some x ∧
        pre.get sqrt j i = some x ∧ lazy.get sqrt j i = some x ∧ (i = j → x = fin 0)) ∧
      ∀ r c k, c < locs.length → r * locs.length + c + k ≤ locs.length * locs.length →
        ∃ l, pre.getVec sqrt r c k = some l ∧ lazy.getVec sqrt r c k = some l ∧ l.length = k ∧
          ∀ i < k, l[i]? = pre.get sqrt ((r * locs.length + c + i) / locs.length)
            ((r * locs.length + c + i) % locs.length) := by
  obtain ⟨pre, lazy, e1, e2, h1, h2⟩ := C18_euclidean sqrt (squareLaws_dbl hroot) locs hc rounded
  refine ⟨pre, lazy, e1, e2, fun i hi j hj => ?_, h2⟩
  obtain ⟨x, -, a1, a2, a3, a4, a5⟩ := h1 i j _ _ (List.getElem?_eq_getElem hi) (List.getElem?_eq_getElem hj)
  exact ⟨x, a1, a2, a3, a4, fun h => by
    rw [a5 h]
    exact ofRat_nat (k := 0) (by norm_num)⟩

theorem draw_dbl (w : ℕ) : (lit (realDraw w) : Dbl ρ) = fin (realDraw w) := by
  have h0 := realDraw_nonneg w
  have h1 := realDraw_lt_one w
  have hr : ρ.fl (realDraw w) = realDraw w := by
    have e : realDraw w = (((w % 2 ^ 52 : ℕ) : ℤ) : ℚ) * 2 ^ (-52 : ℤ) := by
      unfold realDraw
      rw [zpow_neg, div_eq_mul_inv]
      norm_cast
    rw [e]
    refine ρ.rep _ _ ?_ (by norm_num)
    rw [abs_of_nonneg (by positivity)]
    have := Nat.mod_lt w (show 0 < 2 ^ 52 by positivity)
    omega
  have := ofRat_le (ρ := ρ) (q := realDraw w) (m := 0) (by norm_num) (by rw [abs_of_nonneg h0]; norm_num; exact h1.le)
  rw [hr] at this
  exact this

/-- A threshold that is no lower accepts no less. -/
theorem accept_raise {a b c : ℚ} (ha : |a| < limit) (hb : ρ.fl b = b) (hbc : b ≤ c)
    (h : approxLt (fin a : Dbl ρ) (fin b) = true) : approxLt (fin a : Dbl ρ) (ofRat c) = true := by
  obtain ⟨e, he, e0, e1, er, el⟩ := eps_double (ρ := ρ)
  obtain ⟨l1, l2⟩ := abs_lt.mp ha
  rw [(approx_fin he el ha).1, decide_eq_true_eq] at h
  have hc := ρ.mono _ _ hbc
  rw [hb] at hc
  unfold ofRat
  split
  · unfold approxLt
    rw [he]
    rfl
  · split
    · have := ρ.mono (b - e) b (by linarith)
      rw [hb] at this
      linarith
    · rw [(approx_fin he el ha).1, decide_eq_true_eq]
      exact lt_of_lt_of_le h (ρ.mono _ _ (by linarith))

/-- **C27**, acceptance, in double precision. Let the temperature be a number that is not negative, and not zero when
the value drawn is exactly 0. A candidate that is cheaper beyond the tolerance is accepted whatever the draw. An
accepted candidate is below the old cost plus the rounded loss allowed; at temperature 0 it is cheaper. Missing: draw 0
at temperature 0, where the first sentence is false (`ScheduleDoubleEx.C27_double_refuted`). -/
theorem C27_double_partial {ln : Dbl ρ → Dbl ρ} (hln : Spec.LnOK ln) {t a b : ℚ} (ht : 0 ≤ t) (w : ℕ)
    (h0 : realDraw w = 0 → 0 < t) (ha : Spec.IsDouble (fin a : Dbl ρ)) (hb : Spec.IsDouble (fin b : Dbl ρ)) :
    (approxLt (fin a : Dbl ρ) (fin b) = true → acceptAt ln (fin t) w (fin a) (fin b) = true) ∧
    (acceptAt ln (fin t) w (fin a) (fin b) = true → realDraw w = 0 ∨
      ∃ l, l ≤ 0 ∧ ln (fin (realDraw w)) = fin l ∧ (a < ρ.fl (b - ρ.fl (t * l)) ∨ limit ≤ ρ.fl (-(t * l)))) ∧
    (acceptAt ln (fin t) w (fin a) (fin b) = true → t = 0 → a < b) := by
  obtain ⟨e, he, e0, e1, er, el⟩ := eps_double (ρ := ρ)
  unfold acceptAt
  rw [draw_dbl]
  rcases (realDraw_nonneg w).eq_or_lt with hw | hw
  · have htp := h0 hw.symm
    rw [← hw, hln.zero]
    have : (fin b : Dbl ρ) -. fin t *. inf true = inf false := by
      have e1 : (fin t : Dbl ρ) *. inf true = inf true := by
        show (if t = 0 then nan else inf (decide (t < 0) != true)) = inf true
        rw [if_neg htp.ne', decide_eq_false (by linarith)]
        rfl
      rw [e1]
      rfl
    rw [this]
    refine ⟨fun _ => ?_, fun _ => Or.inl rfl, fun _ h => absurd h htp.ne'⟩
    unfold approxLt
    rw [he]
    rfl
  · obtain ⟨l, hl, el'⟩ := hln.small _ hw (realDraw_lt_one w)
    rw [el', mul_fin]
    have hp : t * l ≤ 0 := mul_nonpos_of_nonneg_of_nonpos ht hl
    have hf : ρ.fl (t * l) ≤ 0 := by
      have := ρ.nonneg (x := -(t * l)) (by linarith)
      rw [ρ.odd] at this
      linarith
    have hlim := limit_pos
    have hprod : (ofRat (t * l) : Dbl ρ) = inf true ∧ limit ≤ ρ.fl (-(t * l)) ∨ (ofRat (t * l) : Dbl ρ) = fin (ρ.fl (t * l)) := by
      unfold ofRat
      rw [if_neg (by linarith)]
      split
      · exact Or.inl ⟨rfl, by rw [ρ.odd]; linarith⟩
      · exact Or.inr rfl
    rcases hprod with ⟨h1, h2⟩ | h1
    · rw [h1]
      have : (fin b : Dbl ρ) -. inf true = inf false := rfl
      rw [this]
      refine ⟨fun _ => ?_, fun _ => Or.inr ⟨l, hl, rfl, Or.inr h2⟩, fun _ h => ?_⟩
      · unfold approxLt
        rw [he]
        rfl
      · rw [h, zero_mul, neg_zero, ρ.zero] at h2
        linarith
    · rw [h1, sub_fin]
      have hacc : approxLt (fin a : Dbl ρ) (ofRat (b - ρ.fl (t * l))) = true → a < ρ.fl (b - ρ.fl (t * l)) := by
        intro h
        obtain ⟨l1, l2⟩ := abs_lt.mp ha.2
        unfold ofRat at h
        split at h
        · linarith
        · split at h
          · unfold approxLt at h
            rw [he] at h
            exact absurd (show false = true from h) Bool.false_ne_true
          · rw [(approx_fin he el ha.2).1, decide_eq_true_eq] at h
            have := ρ.mono (ρ.fl (b - ρ.fl (t * l)) - e) (ρ.fl (b - ρ.fl (t * l))) (by linarith)
            rw [ρ.idem] at this
            linarith
      refine ⟨accept_raise ha.2 hb.1 (by linarith), fun h => Or.inr ⟨l, hl, rfl, Or.inl (hacc h)⟩, fun h h0 => ?_⟩
      have := hacc h
      rwa [h0, zero_mul, ρ.zero, sub_zero, hb.1] at this

/-- **C27** in double precision at temperature 0 with the draw 0: nothing is accepted, however cheap. -/
theorem accept_zero_draw {ln : Dbl ρ → Dbl ρ} (hln : Spec.LnOK ln) (w : ℕ) (hw : realDraw w = 0) (new old : ℚ) :
    acceptAt ln (fin 0) w (fin new) (fin old) = false := by
  unfold acceptAt
  rw [draw_dbl, hw, hln.zero]
  have : (fin old : Dbl ρ) -. fin 0 *. inf true = nan := by
    have e1 : (fin 0 : Dbl ρ) *. inf true = nan := rfl
    rw [e1]
    rfl
  rw [this]
  rfl

end

namespace ScheduleDoubleEx

abbrev F := Dbl nearestEven

/-- A logarithm that meets the demands: `(x - 1) / x`. -/
def ln : F → F
  | .fin q => if q = 0 then .inf true else .fin ((q - 1) / q)
  | x => x

theorem ln_ok : Spec.LnOK ln where
  zero := by simp [ln]
  small := fun q h0 h1 => ⟨(q - 1) / q, div_nonpos_of_nonpos_of_nonneg (by linarith) h0.le, by simp [ln, h0.ne']⟩

/-- At temperature 5, with the value 3/2^52 drawn. -/
example := C27_double_partial ln_ok (t := 5) (a := 7) (b := 8) (by norm_num) 3
  (fun _ => by norm_num) ⟨by decide +kernel, by decide +kernel⟩ ⟨by decide +kernel, by decide +kernel⟩

/-- **C27** in double precision, first sentence: false. A schedule with start temperature 0 rejects a candidate of cost 1
against an old cost of 1000 when the value drawn is 0, since `0 * ln(0)` is not a number. -/
theorem C27_double_refuted : ∃ w, approxLt (fin 1 : F) (fin 1000) = true ∧ (IterSchedule.new (fin 0 : F) 100).temp = fin 0 ∧
    (Acceptance.iteration (IterSchedule.new (fin 0 : F) 100)).accept ln w (fin 1) (fin 1000) = false :=
  ⟨0, by decide +kernel, rfl, accept_zero_draw ln_ok 0 (by decide +kernel) 1 1000⟩

/-- Three points, lazily and precomputed. -/
example := C18_double DoubleEx.root_ok [⟨fin 0, fin 0⟩, ⟨fin 3, fin 4⟩, ⟨fin (1 / 2), fin (15 / 2)⟩] (by
    intro p hp
    simp only [List.mem_cons, List.not_mem_nil, or_false] at hp
    rcases hp with rfl | rfl | rfl <;> exact ⟨⟨_, rfl⟩, _, rfl⟩) true

end ScheduleDoubleEx

end Verif
