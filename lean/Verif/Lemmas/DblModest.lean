import Verif.Lemmas.DblMoves

/-! # Data of modest size, and writing a solution back in double precision -/

namespace Verif
open F64 Dbl LS Spec

variable {ρ : Rounding}

theorem distFrom_rat_bounds {cq : Ctx ℚ} {D : ℚ} (h0 : ∀ a b, 0 ≤ cq.dist a b) (h1 : ∀ a b, cq.dist a b ≤ D) :
    ∀ (P : List Ref) (x : Ref) (t : ℚ), t ≤ distFrom cq x t P ∧ distFrom cq x t P ≤ t + P.length * D
  | [], x, t => by simp [distFrom]
  | y :: P, x, t => by
    obtain ⟨a, b⟩ := distFrom_rat_bounds h0 h1 P y (t + cq.dist x.number y.number)
    have := h0 x.number y.number
    have := h1 x.number y.number
    rw [distFrom]
    push_cast [List.length_cons]
    constructor
    · exact le_trans (by linarith) a
    · exact b.trans (by linarith)

/-- A sum of distances is off by at most one rounding for each. -/
theorem distFrom_near {ctx : Ctx (Dbl ρ)} {cq : Ctx ℚ} {D : ℚ} {K : ℕ} (hK : K < 1024)
    (hd : ∀ a b, ctx.dist a b = fin (cq.dist a b)) (h0 : ∀ a b, 0 ≤ cq.dist a b) (h1 : ∀ a b, cq.dist a b ≤ D) :
    ∀ (P : List Ref) (x : Ref) (y : Dbl ρ) (t : ℚ) (j : ℕ), Near (2 ^ K / 2 ^ 53) t j y →
      t + P.length * D + (j + P.length) * (2 ^ K / 2 ^ 53) ≤ 2 ^ K →
      Near (2 ^ K / 2 ^ 53) (distFrom cq x t P) (j + P.length) (distFrom ctx x y P)
  | [], x, y, t, j, hy, h => by simpa [distFrom] using hy
  | z :: P, x, y, t, j, hy, h => by
    have hu : (0 : ℚ) < 2 ^ K / 2 ^ 53 := by positivity
    have d1 := h1 x.number z.number
    have d0 : 0 ≤ D := (h0 x.number z.number).trans d1
    have hl : (0 : ℚ) ≤ P.length * D := mul_nonneg (by positivity) d0
    have hl' : (0 : ℚ) ≤ P.length * (2 ^ K / 2 ^ 53) := by positivity
    push_cast [List.length_cons] at h
    rw [distFrom, distFrom, hd]
    have h2 := (hy.add hK (Near.exact (ρ := ρ) (h0 x.number z.number)) (by push_cast; linarith)).1
    have h3 := distFrom_near hK hd h0 h1 P z _ _ _ h2 (by push_cast; linarith)
    rw [List.length_cons, show j + (P.length + 1) = j + 0 + 1 + P.length by omega]
    exact h3

/-- Finite data: distances `d` of at most `D`, whole demands `q` of at most `W`, a capacity `Q` and a penalty
`p`, with all lengths and penalties of a route below `2 ^ K / 40`. -/
structure SizedData (ctx : Ctx (Dbl ρ)) (d : ℕ → ℕ → ℚ) (q : ℕ → ℤ) (p D : ℚ) (Q W : ℤ) (K : ℕ) : Prop where
  dist : ∀ a b, ctx.dist a b = fin (d a b)
  dist0 : ∀ a b, 0 ≤ d a b
  distD : ∀ a b, d a b ≤ D
  sym : ∀ a b, d a b = d b a
  demand : ∀ c, ctx.demand c = ofInt (q c)
  demand0 : ∀ c, 0 ≤ q c
  demandW : ∀ c, q c ≤ W
  depot : q 0 = 0
  cap : ctx.cap = ofInt Q
  cap0 : 0 ≤ Q
  pen0 : 0 ≤ p
  loads : ctx.n * W + Q ≤ 2 ^ 49
  lengths : 40 * (ctx.n * D) ≤ 2 ^ K
  penalties : 40 * (p * (ctx.n * W + Q)) ≤ 2 ^ K
  exp : K < 1024
  count : ctx.n ≤ 2 ^ 40

/-- Data small enough for the tolerance `EPSILON` to exceed all rounding errors of a move. -/
structure SmallData (ctx : Ctx (Dbl ρ)) (d : ℕ → ℕ → ℚ) (q : ℕ → ℤ) (p D : ℚ) (Q W : ℤ) (K : ℕ) : Prop
    extends SizedData ctx d q p D Q W K where
  roundings : (8 * ctx.n + 23 : ℚ) * 2 ^ K ≤ 2 ^ 32

theorem SmallData.small {ctx : Ctx (Dbl ρ)} {d : ℕ → ℕ → ℚ} {q : ℕ → ℤ} {p D : ℚ} {Q W : ℤ} {K : ℕ}
    (h : SmallData ctx d q p D Q W K) :
    8 * (ctx.n * (2 ^ K / 2 ^ 53)) + 23 * ((2 : ℚ) ^ K / 2 ^ 53) ≤ 1 / 2 ^ 21 := by
  have hsm : (8 * (ctx.n : ℚ) + 23) * (2 ^ K / 2 ^ 53) ≤ 1 / 2 ^ 21 := by
    rw [← mul_div_assoc, div_le_iff₀ (by norm_num)]
    calc _ ≤ (2 : ℚ) ^ 32 := h.roundings
      _ = _ := by norm_num
  linarith

/-- The exact counterpart of the data. -/
def exactCtx (ctx : Ctx (Dbl ρ)) (d : ℕ → ℕ → ℚ) (q : ℕ → ℤ) (Q : ℤ) : Ctx ℚ :=
  { n := ctx.n, cap := Q, demand := fun c => q c, dist := d, lat := fun _ => 0, lng := fun _ => 0, pen := 0 }

theorem SizedData.modest {ctx : Ctx (Dbl ρ)} {d : ℕ → ℕ → ℚ} {q : ℕ → ℤ} {p D : ℚ} {Q W : ℤ} {K : ℕ}
    (h : SizedData ctx d q p D Q W K) (hn : 1 ≤ ctx.n) :
    Modest ctx (exactCtx ctx d q Q) p K (ctx.n * (2 ^ K / 2 ^ 53)) (2 ^ K / 40) (ctx.n * W + Q) := by
  have hD0 : 0 ≤ D := (h.dist0 0 0).trans (h.distD 0 0)
  have hW0 : 0 ≤ W := (h.demand0 0).trans (h.demandW 0)
  have hn1 : (1 : ℚ) ≤ ctx.n := by exact_mod_cast hn
  have hδ : (0 : ℚ) < 2 ^ K / 2 ^ 53 := by positivity
  have hn40 : (ctx.n : ℚ) ≤ 2 ^ 40 := by exact_mod_cast h.count
  have hsm : 16 * (ctx.n * (2 ^ K / 2 ^ 53)) + 32 * ((2 : ℚ) ^ K / 2 ^ 53) ≤ 1 / 100 * 2 ^ K := by
    have h1 : (ctx.n : ℚ) * (2 ^ K / 2 ^ 53) ≤ 2 ^ 40 * (2 ^ K / 2 ^ 53) := mul_le_mul_of_nonneg_right hn40 hδ.le
    have h2 : (0 : ℚ) < 2 ^ K := by positivity
    calc _ ≤ (16 * 2 ^ 40 + 32) * ((2 : ℚ) ^ K / 2 ^ 53) := by linarith
      _ = ((16 * 2 ^ 40 + 32) / 2 ^ 53) * 2 ^ K := by ring
      _ ≤ _ := mul_le_mul_of_nonneg_right (by norm_num) h2.le
  have hpK : (0 : ℚ) < 2 ^ K := by positivity
  have hnd : (0 : ℚ) ≤ ctx.n * (2 ^ K / 2 ^ 53) := by positivity
  have hlen := h.lengths
  refine
    { budget := ⟨h.exp, hnd, by positivity, by linarith⟩
      n := rfl
      dist := h.dist
      dist0 := h.dist0
      distM := fun a b => ?_
      sym := h.sym
      demand := fun c => ⟨q c, h.demand c, rfl, h.demand0 c⟩
      depot := by simp [exactCtx, h.depot]
      cap := ⟨Q, h.cap, rfl, h.cap0, by have : 0 ≤ (ctx.n : ℤ) * W := by positivity
                                        omega⟩
      load := fun l hl => ?_
      T0 := by have := h.cap0; positivity
      T1 := h.loads
      path := fun r l P Q' hl he => ?_
      pen0 := h.pen0
      penM := ?_ }
  · have := h.distD a b
    have : 1 * D ≤ ctx.n * D := mul_le_mul_of_nonneg_right hn1 hD0
    show d a b ≤ _
    linarith
  · have h1 := (loadZ_bounds h.demand0 h.demandW l).2
    have h2 := loadZ_cast q l
    show routeLoad (fun a => (q a : ℚ)) l ≤ _
    rw [h2]
    have h3 : (l.length : ℤ) * W ≤ ctx.n * W := mul_le_mul_of_nonneg_right (by exact_mod_cast (by omega)) hW0
    have h4 := h.cap0
    exact_mod_cast (by omega : loadZ q l ≤ ctx.n * W + Q)
  · have hP : P.length ≤ ctx.n := by
      have := congrArg List.length he
      simp only [List.length_append, List.length_map, List.length_cons, List.length_nil] at this
      omega
    have hPD : (P.length : ℚ) * D ≤ ctx.n * D := mul_le_mul_of_nonneg_right (by exact_mod_cast hP) hD0
    have hPδ : (P.length : ℚ) * (2 ^ K / 2 ^ 53) ≤ ctx.n * (2 ^ K / 2 ^ 53) :=
      mul_le_mul_of_nonneg_right (by exact_mod_cast hP) hδ.le
    obtain ⟨v, e, -, hv⟩ := distFrom_near (ρ := ρ) (ctx := ctx) (cq := exactCtx ctx d q Q) (K := K) h.exp h.dist
      h.dist0 h.distD P (.start r) (lit 0) 0 0 (by rw [lit_zero]; exact Near.exact (le_refl _))
      (by push_cast; linarith)
    obtain ⟨b0, b1⟩ := distFrom_rat_bounds (cq := exactCtx ctx d q Q) h.dist0 h.distD P (.start r) 0
    refine ⟨v, e, ?_, ?_⟩
    · push_cast at hv
      rw [zero_add] at hv
      exact hv.trans hPδ
    · rw [show (lit 0 : ℚ) = 0 from rfl, abs_of_nonneg b0]
      linarith
  · have := h.penalties
    push_cast
    linarith

/-- Sums of whole distances are exact. -/
theorem distFrom_whole {ctx : Ctx (Dbl ρ)} {cq : Ctx ℚ} {D : ℚ} (hd : ∀ a b, ctx.dist a b = fin (cq.dist a b))
    (h0 : ∀ a b, 0 ≤ cq.dist a b) (h1 : ∀ a b, cq.dist a b ≤ D) (hz : ∀ a b, ∃ k : ℤ, cq.dist a b = k) :
    ∀ (P : List Ref) (x : Ref) (t : ℤ), 0 ≤ t → (t : ℚ) + P.length * D ≤ 2 ^ 53 →
      distFrom ctx x (ofInt t) P = fin (distFrom cq x t P)
  | [], x, t, _, _ => rfl
  | y :: P, x, t, ht, h => by
    obtain ⟨k, hk⟩ := hz x.number y.number
    have k0 := h0 x.number y.number
    have k1 := h1 x.number y.number
    have hP : (0 : ℚ) ≤ P.length * D := mul_nonneg (by positivity) (k0.trans k1)
    push_cast [List.length_cons] at h
    rw [hk] at k0 k1
    have k0' : 0 ≤ k := by exact_mod_cast k0
    have hb : |t + k| ≤ 2 ^ 53 := by
      rw [abs_of_nonneg (by omega)]
      have : (t : ℚ) + k ≤ 2 ^ 53 := by linarith
      exact_mod_cast this
    have e : (ofInt t : Dbl ρ) +. ctx.dist x.number y.number = ofInt (t + k) := by
      rw [hd, hk]; exact ofInt_add hb
    have e' : (t : ℚ) +. cq.dist x.number y.number = ((t + k : ℤ) : ℚ) := by
      rw [hk]; push_cast; rfl
    rw [distFrom, distFrom, e, e']
    exact distFrom_whole hd h0 h1 hz P y (t + k) (by omega) (by push_cast; linarith)

/-- Data with whole distances, and routes short enough for all their lengths to be exact. -/
structure WholeData (ctx : Ctx (Dbl ρ)) (d : ℕ → ℕ → ℚ) (q : ℕ → ℤ) (p D : ℚ) (Q W : ℤ) (K : ℕ) : Prop
    extends SizedData ctx d q p D Q W K where
  whole : ∀ a b, ∃ k : ℤ, d a b = k
  sum : K ≤ 53

theorem WholeData.modest {ctx : Ctx (Dbl ρ)} {d : ℕ → ℕ → ℚ} {q : ℕ → ℤ} {p D : ℚ} {Q W : ℤ} {K : ℕ}
    (h : WholeData ctx d q p D Q W K) (hn : 1 ≤ ctx.n) :
    Modest ctx (exactCtx ctx d q Q) p K 0 (2 ^ K / 40) (ctx.n * W + Q) := by
  have hm := h.toSizedData.modest hn
  have hb := hm.budget
  have hD0 : 0 ≤ D := (h.dist0 0 0).trans (h.distD 0 0)
  have hpK : (0 : ℚ) < 2 ^ K := by positivity
  refine { hm with budget := ⟨hb.exp, le_refl _, hb.M0, ?_⟩, path := fun r l P Q' hl he => ?_ }
  · have := hb.big
    have := hb.ed0
    linarith
  · obtain ⟨v, e, -, hv⟩ := hm.path r l P Q' hl he
    have hP : P.length ≤ ctx.n := by
      have := congrArg List.length he
      simp only [List.length_append, List.length_map, List.length_cons, List.length_nil] at this
      omega
    have hPD : (P.length : ℚ) * D ≤ ctx.n * D := mul_le_mul_of_nonneg_right (by exact_mod_cast hP) hD0
    have h53 : (2 : ℚ) ^ K ≤ 2 ^ 53 := pow_le_pow_right₀ (by norm_num) h.sum
    have hl := h.lengths
    have t := distFrom_whole (ρ := ρ) (ctx := ctx) (cq := exactCtx ctx d q Q) h.dist h.dist0 h.distD h.whole P
      (.start r) 0 (le_refl _) (by push_cast; linarith [mul_nonneg (Nat.cast_nonneg (α := ℚ) ctx.n) hD0])
    rw [show ((0 : ℤ) : ℚ) = lit 0 by simp] at t
    refine ⟨distFrom (exactCtx ctx d q Q) (.start r) (lit 0) P, ?_, ?_, hv⟩
    · rw [lit_zero, show (fin 0 : Dbl ρ) = ofInt 0 by simp [ofInt]]
      exact t
    · rw [sub_self, abs_zero]

/-- Data for which all the roundings of a move stay below `2 ^ (-21)`, half the tolerance `EPSILON`: small data, or
whole distances with all lengths and penalties of a route below `3 · 10 ^ 6`. -/
def FineData (ctx : Ctx (Dbl ρ)) (d : ℕ → ℕ → ℚ) (q : ℕ → ℤ) (p D : ℚ) (Q W : ℤ) (K : ℕ) : Prop :=
  SmallData ctx d q p D Q W K ∨ WholeData ctx d q p D Q W K ∧ K ≤ 27

theorem FineData.sized {ctx : Ctx (Dbl ρ)} {d : ℕ → ℕ → ℚ} {q : ℕ → ℤ} {p D : ℚ} {Q W : ℤ} {K : ℕ}
    (h : FineData ctx d q p D Q W K) : SizedData ctx d q p D Q W K := by
  rcases h with h | h
  · exact h.toSizedData
  · exact h.1.toSizedData

theorem FineData.modest {ctx : Ctx (Dbl ρ)} {d : ℕ → ℕ → ℚ} {q : ℕ → ℤ} {p D : ℚ} {Q W : ℤ} {K : ℕ}
    (h : FineData ctx d q p D Q W K) (hn : 1 ≤ ctx.n) : ∃ ed,
    Modest ctx (exactCtx ctx d q Q) p K ed (2 ^ K / 40) (ctx.n * W + Q) ∧
      8 * ed + 23 * ((2 : ℚ) ^ K / 2 ^ 53) ≤ 1 / 2 ^ 21 := by
  rcases h with h | ⟨h, hK⟩
  · exact ⟨_, h.toSizedData.modest hn, h.small⟩
  · refine ⟨0, h.modest hn, ?_⟩
    have : (2 : ℚ) ^ K ≤ 2 ^ 27 := pow_le_pow_right₀ (by norm_num) hK
    rw [mul_zero, zero_add, ← mul_div_assoc, div_le_iff₀ (by norm_num)]
    calc (23 : ℚ) * 2 ^ K ≤ 23 * 2 ^ 27 := by linarith
      _ ≤ _ := by norm_num

/-- The angle of a route is a number, for finite coordinates and an `atan2` that is a number there. -/
theorem routeAngle_self {ctx : Ctx (Dbl ρ)} {la ln : ℕ → ℚ} {b : ℕ} (hb : b ≤ 900)
    (hlat : ∀ c, ctx.lat c = fin (la c)) (hlng : ∀ c, ctx.lng c = fin (ln c)) (hla : ∀ c, |la c| ≤ 2 ^ b)
    (hln : ∀ c, |ln c| ≤ 2 ^ b) {atan2 : Dbl ρ → Dbl ρ → Dbl ρ}
    (hat : ∀ y x, (atan2 (fin y) (fin x) ≤. atan2 (fin y) (fin x)) = true)
    (l : List ℕ) (hl : l.length ≤ 2 ^ 53) :
    (Individual.routeAngle atan2 ctx l ≤. Individual.routeAngle atan2 ctx l) = true := by
  have p53 : (2 : ℚ) ^ 53 * 2 ^ b = 2 ^ (53 + b) := by rw [pow_add]
  have pb : (0 : ℚ) < 2 ^ b := by positivity
  have sum : ∀ (f : ℕ → Dbl ρ) (g : ℕ → ℚ), (∀ c, f c = fin (g c)) → (∀ c, |g c| ≤ 2 ^ b) →
      ∀ (l : List ℕ) (v : ℚ) (j : ℕ), |v| ≤ j * 2 ^ b → j + l.length ≤ 2 ^ 53 →
      ∃ w, l.foldl (fun s i => s +. f i) (fin v) = fin w ∧ |w| ≤ 2 ^ (53 + b) := by
    intro f g hf hg l
    induction l with
    | nil =>
      intro v j hv hj
      refine ⟨v, rfl, hv.trans ?_⟩
      rw [← p53]
      exact mul_le_mul_of_nonneg_right (by exact_mod_cast hj) pb.le
    | cons c l ih =>
      intro v j hv hj
      simp only [List.length_cons] at hj
      have hs : |v + g c| ≤ (j + 1 : ℕ) * 2 ^ b := by
        refine (abs_add_le _ _).trans ?_
        have := hg c
        push_cast
        linarith
      have hs' : |v + g c| ≤ 2 ^ (53 + b) := by
        refine hs.trans ?_
        rw [← p53]
        exact mul_le_mul_of_nonneg_right (by exact_mod_cast (by omega)) pb.le
      have e : (fin v : Dbl ρ) +. f c = fin (ρ.fl (v + g c)) := by
        rw [hf, add_fin, ofRat_le (by omega) hs']
      have hfix := ρ.mul_two_pow (k := j + 1) (m := b) (by omega)
      rw [List.foldl_cons, e]
      refine ih _ (j + 1) ?_ (by omega)
      rw [abs_le] at hs ⊢
      have m1 := ρ.mono _ _ hs.1
      have m2 := ρ.mono _ _ hs.2
      rw [ρ.odd, hfix] at m1
      rw [hfix] at m2
      exact ⟨m1, m2⟩
  have mean : ∀ (f : ℕ → Dbl ρ) (g : ℕ → ℚ), (∀ c, f c = fin (g c)) → (∀ c, |g c| ≤ 2 ^ b) → l.length ≠ 0 →
      ∃ w, l.foldl (fun s i => s +. f i) (lit 0) /. lit l.length -. f 0 = fin w := by
    intro f g hf hg hl0
    obtain ⟨w, e, hw⟩ := sum f g hf hg l 0 0 (by simp) (by omega)
    have hl1 : (1 : ℚ) ≤ l.length := by exact_mod_cast Nat.one_le_iff_ne_zero.mpr hl0
    have hq : |w / l.length| ≤ 2 ^ (53 + b) := by
      rw [abs_div, abs_of_nonneg (by linarith : (0 : ℚ) ≤ l.length), div_le_iff₀ (by linarith)]
      have : (2 : ℚ) ^ (53 + b) * 1 ≤ 2 ^ (53 + b) * l.length := mul_le_mul_of_nonneg_left hl1 (by positivity)
      linarith
    have hq' := fl_abs_le (ρ := ρ) hq
    have hlast : |ρ.fl (w / l.length) - g 0| ≤ 2 ^ (54 + b) := by
      refine (abs_sub _ _).trans ?_
      have h1 := hg 0
      have h2 : (2 : ℚ) ^ (54 + b) = 2 ^ (53 + b) + 2 ^ (53 + b) := by
        rw [show 54 + b = (53 + b) + 1 by omega, pow_succ]; ring
      have h3 : (2 : ℚ) ^ b ≤ 2 ^ (53 + b) := pow_le_pow_right₀ (by norm_num) (by omega)
      linarith
    have hne : (l.length : ℚ) ≠ 0 := by exact_mod_cast hl0
    refine ⟨ρ.fl (ρ.fl (w / l.length) - g 0), ?_⟩
    rw [lit_zero, e, lit_eq, ofRat_nat hl, div_fin _ _ hne, ofRat_le (by omega) hq, hf, sub_fin,
      ofRat_le (by omega) hlast]
  unfold Individual.routeAngle
  split
  · rw [lit_eq, show (10 : ℚ) = ((10 : ℕ) : ℚ) by norm_num, ofRat_nat (by norm_num), le_fin]
    simp
  · next h0 =>
    obtain ⟨y, ey⟩ := mean ctx.lat la hlat hla h0
    obtain ⟨x, ex⟩ := mean ctx.lng ln hlng hln h0
    dsimp only
    rw [ey, ex]
    exact hat y x

/-- Writing back never panics when no angle is NaN. -/
theorem write_total_any {α : Type} [F64 α] {ctx : Ctx α} {s : LS α} {R : List (List ℕ)} (h : Repr ctx s R)
    (atan2 : α → α → α) {x : Individual α} (hn : 0 < ctx.n) (hlen : x.phenotype.length = s.numRoutes)
    (hnan : ∀ r ∈ R, (Individual.routeAngle atan2 ctx r ≤. Individual.routeAngle atan2 ctx r) = true) :
    ∃ y, updateIndividual atan2 ctx s x = some y := by
  rw [updateIndividual, writeRoutes_all h hlen, Option.bind_some]
  obtain ⟨z, ez, hp, -⟩ := C03_sort_routes_perm atan2 ctx
    { x with genotype := R.flatten, phenotype := R } rfl hnan
  rw [ez, Option.bind_some, Individual.evaluate]
  obtain ⟨e', ee, -⟩ := evalRoutes_some ctx ctx.n hn z.phenotype 0
    { z.evaluation.reset z.phenotype.length ctx.n with cost := lit 0, feasible := true } (by
    intro r hr c hc
    have := (part_mem h.part (c := c)).mp
      (List.mem_flatten.mpr ⟨r, hp.mem_iff.mp hr, hc⟩)
    exact this.2)
    (by simp [SolEval.reset, resize_length]) (by simp [SolEval.reset, resize_length])
    (by simp [SolEval.reset, resize_length])
  rw [evaluate, ee]
  exact ⟨_, rfl⟩

end Verif
