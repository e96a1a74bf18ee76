import Verif.Lemmas.DblRoute

/-! # The split, the penalties and the fleet in double precision -/

namespace Verif
open F64 Dbl Split

variable {ρ : Rounding}

/-- Distances are finite, not negative and of moderate size. -/
structure Moderate (ctx : Ctx (Dbl ρ)) (m : ℕ) : Prop where
  dist : ∀ a b, Nn m (ctx.dist a b)
  size : m ≤ 95
  total : (ctx.n : ℚ) * 2 ^ m ≤ 2 ^ 96
  nodes : ctx.n ≤ 2 ^ 53

theorem Moderate.partial {ctx : Ctx (Dbl ρ)} {m : ℕ} (h : Moderate ctx m) {j : ℕ} (hj : j ≤ ctx.n) :
    (j : ℚ) * 2 ^ m ≤ 2 ^ 96 :=
  (mul_le_mul_of_nonneg_right (by exact_mod_cast hj) (by positivity)).trans h.total

namespace Split.LoadedBy

variable {ctx : Ctx (Dbl ρ)} {g : List ℕ} {s : Split (Dbl ρ)}

theorem cumDist_le (h : LoadedBy ctx g s) {m : ℕ} (hm : Moderate ctx m) : ∀ j, 1 ≤ j → j < ctx.n →
    ∃ x, s.cumDist j = fin x ∧ 0 ≤ x ∧ x ≤ j * 2 ^ m := by
  intro j hj
  induction j, hj using Nat.le_induction with
  | base =>
    intro hn
    refine ⟨0, ?_, le_refl _, by positivity⟩
    rw [h.distOne hn, lit_zero', ofInt_add (by norm_num)]
    simp [ofInt]
  | succ j hj ih =>
    intro hn
    obtain ⟨x, h1, h2, h3⟩ := ih (by omega)
    obtain ⟨y, h4, h5, h6⟩ := hm.dist (g.getD (j - 1) 0) (g.getD j 0)
    have hle : x + y ≤ ((j + 1 : ℕ) : ℚ) * 2 ^ m := by push_cast; linarith
    have hj53 : j + 1 ≤ 2 ^ 53 := by have := hm.nodes; omega
    have hpow : ((j + 1 : ℕ) : ℚ) * 2 ^ m ≤ 2 ^ 96 := hm.partial hn.le
    refine ⟨ρ.fl (x + y), ?_, ρ.nonneg (by linarith), ?_⟩
    · rw [h.distSucc j hj hn, h1, h4, add_fin]
      exact ofRat_le (m := 96) (by norm_num) (by rw [abs_of_nonneg (by linarith)]; linarith)
    · have := ρ.mono _ _ hle
      rwa [ρ.mul_two_pow hj53] at this

theorem cumLoad_le (h : LoadedBy ctx g s) {q : ℕ → ℤ} {Q D : ℤ} (hw : Whole ctx q Q D) : ∀ j, j < ctx.n →
    ∃ k : ℤ, s.cumLoad j = ofInt k ∧ 0 ≤ k ∧ k ≤ j * D := by
  intro j
  induction j with
  | zero => exact fun _ => ⟨0, by rw [h.loadZero, lit_zero'], le_refl _, by simp⟩
  | succ j ih =>
    intro hn
    obtain ⟨k, h1, h2, h3⟩ := ih (by omega)
    have a := hw.nonneg (g.getD j 0)
    have b := hw.le (g.getD j 0)
    have c : ((j + 1 : ℕ) : ℤ) * D ≤ ctx.n * D :=
      mul_le_mul_of_nonneg_right (by exact_mod_cast hn.le) hw.D_nonneg
    have e := hw.small
    have f := hw.capPos
    push_cast at c ⊢
    rw [add_mul, one_mul] at c ⊢
    refine ⟨k + q (g.getD j 0), ?_, by omega, by omega⟩
    rw [h.loadSucc j hn, h1, hw.demand, ofInt_add (by rw [abs_of_nonneg (by omega)]; omega)]

end Split.LoadedBy

theorem nn_lit {m : ℕ} (hm : m < 1024) {q : ℚ} (h0 : 0 ≤ q) (h : q ≤ 2 ^ m) : Nn m (lit q : Dbl ρ) :=
  nn_ofRat hm h0 h

/-- The split in double precision. -/
theorem splitOK_dbl {ctx : Ctx (Dbl ρ)} {q : ℕ → ℤ} {Q D : ℤ} (hw : Whole ctx q Q D) {m : ℕ} (hm : Moderate ctx m)
    (cfg : SplitCfg (Dbl ρ)) {p : Dbl ρ} (hp : Nn 44 p) : SplitOK cfg (RR.ctxAt ctx p) := by
  have h30 : ∃ x, (lit (10 ^ 30) : Dbl ρ) = fin x ∧ 2 ^ 99 ≤ x ∧ x ≤ 2 ^ 100 := by
    refine ⟨ρ.fl (10 ^ 30), ?_, ρ.pow_le (by norm_num), ρ.le_pow (by norm_num)⟩
    exact ofRat_le (m := 100) (by norm_num) (by rw [abs_of_nonneg (by norm_num)]; norm_num)
  refine ⟨?_, fun _ g hg s hl rows hrows j hj hjn => ?_⟩
  · obtain ⟨x, h1, h2, -⟩ := h30
    exact Nn.lt (m := 97) (k := 99) (by norm_num) (nn_lit (by norm_num) (by norm_num) (by norm_num)) ⟨x, h1, h2⟩
  · change LoadedBy (RR.ctxAt ctx p) g s at hl
    have hn : (RR.ctxAt ctx p).n = ctx.n := rfl
    rw [hn] at hjn
    have hm' : Moderate (RR.ctxAt ctx p) m := ⟨hm.dist, hm.size, hm.total, hm.nodes⟩
    have hsize := hm.size
    unfold dominates
    have e1 : (resetAll rows (RR.ctxAt ctx p).n s).pathCost 0 0 = lit 0 := by simp [resetAll]
    have e2 : (resetAll rows (RR.ctxAt ctx p).n s).pathCost 0 j = lit (10 ^ 30) := by
      show (if 0 = 0 ∧ j = 0 then _ else if 0 < rows ∧ 1 ≤ j ∧ j < ctx.n then _ else _) = _
      rw [if_neg (by omega), if_pos ⟨hrows, hj, by omega⟩]
    rw [e1, e2]
    show (lit 0 +. s.distDepot (0 + 1) +. s.cumDist (j + 1) -. s.cumDist (0 + 1) +.
      s.pen *. (s.cumLoad j -. s.cumLoad 0) <. lit (10 ^ 30) +. s.distDepot (j + 1)) = true
    have d1 : Nn m (s.distDepot (0 + 1)) := by rw [hl.depot (0 + 1) (by omega) (by omega)]; exact hm.dist _ _
    have d2 : Nn m (s.distDepot (j + 1)) := by rw [hl.depot (j + 1) (by omega) (by omega)]; exact hm.dist _ _
    have d3 : Nn 96 (s.cumDist (j + 1)) := by
      obtain ⟨x, a, b, c⟩ := hl.cumDist_le hm' (j + 1) (by omega) (by omega)
      refine ⟨x, a, b, c.trans ?_⟩
      exact hm.partial (by omega)
    have d4 : s.cumDist (0 + 1) = lit 0 := by
      rw [hl.distOne (by show 1 < ctx.n; omega), lit_zero', ofInt_add (by norm_num), add_zero]
    have d5 : Nn 52 (s.cumLoad j -. s.cumLoad 0) := by
      obtain ⟨k, a, b, c⟩ := hl.cumLoad_le (hw.at_ (p := p)) j (by show j < ctx.n; omega)
      have c' : (j : ℤ) * D ≤ ctx.n * D :=
        mul_le_mul_of_nonneg_right (by exact_mod_cast (by omega : j ≤ ctx.n)) hw.D_nonneg
      have e := hw.small
      have f := hw.capPos
      rw [hl.loadZero, a]
      refine Nn.sub_zero (by norm_num) ⟨k, rfl, by exact_mod_cast b, ?_⟩
      exact_mod_cast (by omega : k ≤ 2 ^ 52)
    have hpen : s.pen = p := hl.pen
    rw [hpen, d4]
    have l1 : Nn 96 (lit 0 +. s.distDepot (0 + 1)) := ((Nn.zero m).add (by omega) d1).mono (by omega)
    have l2 := ((l1.add (by norm_num) d3).sub_zero (by norm_num)).add (by norm_num)
      ((hp.mul (by norm_num) d5).mono (show 44 + 52 ≤ 96 + 1 by norm_num))
    refine l2.lt (k := 99) (by norm_num) ?_
    obtain ⟨x, h1, h2, h3⟩ := h30
    obtain ⟨y, h4, h5, h6⟩ := d2
    rw [h1, h4, add_fin]
    have h7 : (2 : ℚ) ^ m ≤ 2 ^ 100 := pow_le_pow_right₀ (by norm_num) (by omega)
    refine ⟨ρ.fl (x + y), ofRat_le (m := 101) (by norm_num) ?_, ρ.pow_le (by linarith)⟩
    have h8 : (0 : ℚ) < 2 ^ 99 := by positivity
    rw [abs_of_nonneg (by linarith)]
    calc x + y ≤ 2 ^ 100 + 2 ^ 100 := by linarith
      _ = 2 ^ 101 := by norm_num

/-! ### Penalties -/

theorem clamp_nn {m : ℕ} {a b : Dbl ρ} (ha : Nn m a) (hb : Nn m b) (x : Dbl ρ) : Nn m (F64.max a (F64.min b x)) := by
  obtain ⟨u, rfl, u0, u1⟩ := ha
  obtain ⟨v, rfl, v0, v1⟩ := hb
  cases x with
  | nan =>
    show Nn m (F64.max (fin u) (fin v))
    rw [max_fin]
    exact ⟨_, rfl, le_max_of_le_left u0, max_le u1 v1⟩
  | inf s =>
    cases s with
    | false =>
      show Nn m (F64.max (fin u) (fin v))
      rw [max_fin]
      exact ⟨_, rfl, le_max_of_le_left u0, max_le u1 v1⟩
    | true => exact ⟨u, rfl, u0, u1⟩
  | fin y =>
    rw [min_fin, max_fin]
    exact ⟨_, rfl, le_max_of_le_left u0, max_le u1 ((min_le_left _ _).trans v1)⟩

theorem nextPenalty_nn (env : GAEnv (Dbl ρ)) (f p : Dbl ρ) : Nn 44 (GA.nextPenalty env f p) :=
  clamp_nn (nn_lit (by norm_num) (by norm_num) (by norm_num)) (nn_lit (by norm_num) (by norm_num) (by norm_num)) _

theorem initialPenalty_nn (a b : Option (Dbl ρ)) : Nn 14 (initialPenalty a b) := by
  unfold initialPenalty
  split
  · exact clamp_nn (nn_lit (by norm_num) (by norm_num) (by norm_num))
      (nn_lit (by norm_num) (by norm_num) (by norm_num)) _
  · exact nn_lit (by norm_num) (by norm_num) (by norm_num)

theorem scaled_nn {p : Dbl ρ} (h : Nn 14 p) :
    Nn 44 (p *. lit 1000000) ∧ Nn 44 (p *. lit 1000000 /. lit 1000000) := by
  have h1 : Nn 34 (p *. lit 1000000) :=
    Nn.mul (m := 14) (k := 20) (by norm_num) h (nn_lit (by norm_num) (by norm_num) (by norm_num))
  refine ⟨h1.mono (by norm_num), ?_⟩
  obtain ⟨x, hx, x0, x1⟩ := h1
  have e : (lit 1000000 : Dbl ρ) = fin 1000000 := by
    have := lit_int (ρ := ρ) (k := 1000000) (by norm_num)
    unfold ofInt at this
    push_cast at this
    exact this
  rw [hx, e, div_fin _ _ (by norm_num)]
  have : x / 1000000 ≤ 2 ^ 34 := by
    rw [div_le_iff₀ (by norm_num)]
    linarith
  exact (nn_ofRat (by norm_num) (by positivity) this).mono (by norm_num)

end Verif
