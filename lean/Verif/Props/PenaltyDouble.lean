import Verif.Lemmas.DblProgram
import Verif.Props.PenaltyTimes

/-!
# C93: the penalty in double precision

C37 and C68 are about exact arithmetic. Here every operation is rounded. The range and the times of the updates are
unchanged. The rule for the direction is the exact one only away from its two thresholds: `0.2 - 0.05` is not `0.15`
in double precision, so with the default target a share of exactly 15 feasible outcomes in 100 raises the penalty.
-/

namespace Verif
open F64 Dbl

namespace GA

section
variable {α : Type} [F64 α] {env : GAEnv α} {ctx : Ctx α} {P : α → Prop} {E : RRoute α → Prop}

theorem Reach.any (hv : Laws env ctx P E) {g : GA α} (h : Reach env ctx ChOK g) : AnyInv env ctx P E g := by
  induction h with
  | new ω => exact new_any hv ω
  | step r hok h ih => exact iterate_any hv hok ih h

/-- Crossover and education leave the penalty alone. -/
theorem breed_pen (hv : Laws env ctx P E) {ch : GAChoice α} (hch : ChOK ch) {g g' : GA α}
    (hb : Base env ctx g) (hp : BestPart ctx g) (hm : AnyMut env ctx P E g.rr) (h : breed env ctx ch g = some g') :
    g'.rr.pen = g.rr.pen := by
  unfold breed at h
  obtain ⟨p1, e1, h⟩ := Option.bind_eq_some_iff.mp h
  obtain ⟨p2, e2, h⟩ := Option.bind_eq_some_iff.mp h
  obtain ⟨c, e3, h⟩ := Option.bind_eq_some_iff.mp h
  obtain ⟨g1, h1, h⟩ := Option.bind_eq_some_iff.mp h
  obtain ⟨⟨q1, k1⟩, l1⟩ := member_any hv hb (parent_mem e1)
  obtain ⟨⟨q2, k2⟩, l2⟩ := member_any hv hb (parent_mem e2)
  have hc := crossover_perm ((good_perm k1).nodup_iff.mpr (Spec.nodup_customers _))
    ((good_perm k2).trans (good_perm k1).symm) e3
  obtain ⟨b1, b2⟩ := nonempty_bounds hv.n k1
  obtain ⟨i1, r1⟩ := runSplit_any hv (g := { g with child := Individual.new c g.pop.total })
    l1 b1 ⟨hb.pop, hb.len, hb.ready, hb.nbr, hb.lsLen, hb.split⟩ hp hm
    (hc.trans (good_perm k1)) h1
  exact (educate_any hv hch i1 h).2.trans r1

/-- A crossover iteration in any arithmetic: it appends one outcome to the latest 100, and the penalty stays or
follows `nextPenalty` for the share of feasible ones among these. -/
theorem cycle_pen (hv : Laws env ctx P E) {ch : GAChoice α} (hch : ChOK ch) {g g' : GA α} (inv : AnyInv env ctx P E g)
    (hs : g.state = .cycle) (hi : iterate env ctx ch g = some g') (hn : g'.state ≠ .terminated)
    {outs : List Bool} (ho : outs = (g.pop.history ++ [g'.child.isFeasible]).drop 1) :
    outs.length = 100 ∧
    (g.iterations < g.nextPenaltyUpdate ∧ g'.rr.pen = g.rr.pen ∨ g.nextPenaltyUpdate ≤ g.iterations ∧
      g'.rr.pen = nextPenalty env (lit (outs.count true) /. lit 100) g.rr.pen) := by
  have hm := inv.mu (Or.inr (Or.inr hs))
  have hstep : GA.stepCycle env ctx ch g = some g' := by
    unfold GA.iterate at hi
    split at hi
    · rw [Option.some.injEq] at hi
      subst hi
      exact absurd rfl hn
    · rw [hs] at hi
      exact hi
  have hlen : outs.length = 100 := by
    obtain ⟨hs', hr⟩ := inv.base.pop
    have := (C36_classes ctx env.pop env.bs hv.bs env.sort hv.sort g.pop hs' hr).2.2.2.2.2.1
    rw [ho]
    simp [this]
  refine ⟨hlen, ?_⟩
  unfold GA.stepCycle at hstep
  obtain ⟨g1, h1, hstep⟩ := Option.bind_eq_some_iff.mp hstep
  obtain ⟨g2, h2, h3⟩ := Option.bind_eq_some_iff.mp hstep
  have f := (GA.breed_frame h1).trans (GA.addToPop_frame h2)
  have r1 := breed_pen hv hch (g := { g with ctxIteration := g.ctxIteration + 1 })
    ⟨inv.base.pop, inv.base.len, inv.base.ready, inv.base.nbr, inv.base.lsLen, inv.base.split⟩ inv.best hm h1
  obtain ⟨hc, hp, -⟩ := GA.finishCycle_pen h3
  unfold GA.addToPop at h2
  obtain ⟨p, hadd, rfl⟩ := Option.map_eq_some_iff.mp h2
  have hh := GA.add_history hadd
  rw [if_pos rfl, GA.breed_history h1] at hh
  have ho2 : p.history = outs := by
    rw [ho, hc]
    exact hh
  have hfrac : GA.feasibleFraction p = (lit (outs.count true) /. lit 100 : α) := by
    unfold GA.feasibleFraction
    rw [ho2, hlen]
    norm_num
  have hp' : (g1.iterations < g1.nextPenaltyUpdate ∧ g'.rr.pen = g1.rr.pen) ∨
      (g1.nextPenaltyUpdate ≤ g1.iterations ∧ g'.rr.pen = nextPenalty env (feasibleFraction p) g1.rr.pen) := hp
  have f1 : g1.iterations = g.iterations := f.iterations
  have f2 : g1.nextPenaltyUpdate = g.nextPenaltyUpdate := f.nextPenaltyUpdate
  have r2 : g1.rr.pen = g.rr.pen := r1
  rw [hfrac, r2, f1, f2] at hp'
  exact hp'

end
end GA

variable {ρ : Rounding}

/-- Rounding a number up to 4096 moves it by at most `2 ^ -40`. -/
theorem Rounding.near {x : ℚ} (h : |x| ≤ 2 ^ 12) : |ρ.fl x - x| ≤ 1 / 2 ^ 40 := by
  obtain ⟨h1, h2⟩ := abs_le.mp h
  have rep : ∀ k : ℤ, |k| ≤ 2 ^ 53 → ρ.fl ((k : ℚ) / 2 ^ 40) = k / 2 ^ 40 := by
    intro k hk
    have := ρ.rep k (-40) hk (by norm_num)
    rwa [show ((2 : ℚ) ^ (-40 : ℤ)) = 1 / 2 ^ 40 by norm_num, mul_one_div] at this
  have f0 := Int.floor_le (x * 2 ^ 40)
  have f1 := Int.lt_floor_add_one (x * 2 ^ 40)
  have k0 : -2 ^ 52 ≤ ⌊x * 2 ^ 40⌋ := by
    rw [Int.le_floor]
    push_cast
    linarith
  have k1 : ⌊x * 2 ^ 40⌋ ≤ 2 ^ 52 := by
    have : (⌊x * 2 ^ 40⌋ : ℚ) ≤ 2 ^ 52 := by linarith
    exact_mod_cast this
  have a := rep ⌊x * 2 ^ 40⌋ (abs_le.mpr ⟨by linarith, by linarith⟩)
  have b := rep (⌊x * 2 ^ 40⌋ + 1) (abs_le.mpr ⟨by linarith, by linarith⟩)
  have m1 := ρ.mono (⌊x * 2 ^ 40⌋ / 2 ^ 40) x (by rw [div_le_iff₀ (by positivity)]; exact f0)
  have m2 := ρ.mono x (((⌊x * 2 ^ 40⌋ + 1 : ℤ) : ℚ) / 2 ^ 40) (by
    rw [le_div_iff₀ (by positivity)]
    push_cast
    exact f1.le)
  rw [a] at m1
  rw [b] at m2
  push_cast at m2
  have e1 : (⌊x * 2 ^ 40⌋ : ℚ) / 2 ^ 40 ≤ x := by rw [div_le_iff₀ (by positivity)]; exact f0
  have e2 : x ≤ (⌊x * 2 ^ 40⌋ : ℚ) / 2 ^ 40 + 1 / 2 ^ 40 := by
    rw [← add_div, le_div_iff₀ (by positivity)]
    exact f1.le
  rw [add_div] at m2
  rw [abs_le]
  constructor <;> linarith

/-- A number forced into `[0.0001, 10000000]`, where the first bound is rounded (0.0001 is no double). -/
def Spec.clamp (ρ : Rounding) (x : ℚ) : ℚ := max (ρ.fl (1 / 10000)) (min 10000000 x)

/-- The new penalty `p'` for penalty `p` and a share of feasible outcomes. Away from the thresholds `t ± 0.05` the
direction is that of the exact rule, with one rounding of the product; within `10⁻⁹` of a threshold one of the two
adjacent cases applies. -/
structure Spec.PenaltyNear (ρ : Rounding) (t inc dec share p p' : ℚ) : Prop where
  below : share ≤ t - 1 / 20 - 1 / 10 ^ 9 → p' = Spec.clamp ρ (ρ.fl (p * inc))
  above : t + 1 / 20 + 1 / 10 ^ 9 ≤ share → p' = Spec.clamp ρ (ρ.fl (p * dec))
  between : t - 1 / 20 + 1 / 10 ^ 9 ≤ share → share ≤ t + 1 / 20 - 1 / 10 ^ 9 → p' = p
  lower : share < t → p' = Spec.clamp ρ (ρ.fl (p * inc)) ∨ p' = p
  upper : t < share → p' = Spec.clamp ρ (ρ.fl (p * dec)) ∨ p' = p

/-- In range. -/
def Dbl.PenRange (x : Dbl ρ) : Prop := ∃ p, x = fin p ∧ ρ.fl (1 / 10000) ≤ p ∧ p ≤ 10000000

theorem tenth_thousandth : 1 / 2 ^ 14 ≤ ρ.fl (1 / 10000) ∧ ρ.fl (1 / 10000) ≤ 1 := by
  have r1 : ρ.fl (1 / 2 ^ 14) = 1 / 2 ^ 14 := by
    have := ρ.rep 1 (-14) (by norm_num) (by norm_num)
    norm_num at this ⊢
    exact this
  have e1 := ρ.mono (1 / 2 ^ 14) (1 / 10000) (by norm_num)
  have e2 := ρ.le_nat (x := 1 / 10000) (k := 1) (by norm_num) (by norm_num)
  rw [r1] at e1
  exact ⟨e1, by simpa using e2⟩

theorem lit_small : (lit 0.0001 : Dbl ρ) = fin (ρ.fl (1 / 10000)) := by
  rw [lit_eq, show (0.0001 : ℚ) = 1 / 10000 by norm_num]
  exact ofRat_le (m := 0) (by norm_num) (by norm_num)

theorem lit_large : (lit 10000000 : Dbl ρ) = fin 10000000 := by
  rw [lit_eq]
  exact_mod_cast (ofRat_nat (ρ := ρ) (k := 10000000) (by norm_num))

/-- The last line of `update_penalty` on a finite or overflowed product. -/
theorem clamp_ofRat (x : ℚ) :
    F64.max (lit 0.0001) (F64.min (lit 10000000) (ofRat x)) = (fin (Spec.clamp ρ (ρ.fl x)) : Dbl ρ) := by
  have hl : (10000000 : ℚ) < limit := lt_trans (by norm_num) (pow_lt_limit (m := 24) (by norm_num))
  obtain ⟨s0, s1⟩ := tenth_thousandth (ρ := ρ)
  rw [lit_small, lit_large]
  unfold ofRat Spec.clamp
  split
  · rename_i h
    show F64.max (fin _) (fin 10000000) = _
    rw [max_fin, min_eq_left (by linarith)]
  · split
    · rename_i h
      show fin _ = _
      have : (0 : ℚ) < 1 / 2 ^ 14 := by positivity
      rw [max_eq_left]
      exact (min_le_right _ _).trans (by linarith)
    · rw [min_fin, max_fin]

theorem clamp_fin (x : ℚ) :
    F64.max (lit 0.0001) (F64.min (lit 10000000) (fin x)) = (fin (Spec.clamp ρ x) : Dbl ρ) := by
  rw [lit_small, lit_large, min_fin, max_fin]
  rfl

theorem clamp_range (x : Dbl ρ) : PenRange (F64.max (lit 0.0001) (F64.min (lit 10000000) x)) := by
  obtain ⟨s0, s1⟩ := tenth_thousandth (ρ := ρ)
  have w : ∀ y, PenRange (fin (Spec.clamp ρ y) : Dbl ρ) := fun y =>
    ⟨_, rfl, le_max_left _ _, max_le (by linarith) (min_le_left _ _)⟩
  cases x with
  | fin x => rw [clamp_fin]; exact w x
  | nan =>
    have := w 10000000
    rw [← clamp_fin, lit_large, min_fin, min_self] at this
    rw [lit_large]
    exact this
  | inf s =>
    cases s with
    | false =>
      have := w 10000000
      rw [← clamp_fin, lit_large, min_fin, min_self] at this
      rw [lit_large]
      exact this
    | true =>
      have := w (-1)
      have e : Spec.clamp ρ (-1) = ρ.fl (1 / 10000) := by
        have : (0 : ℚ) < 1 / 2 ^ 14 := by positivity
        exact max_eq_left ((min_le_right _ _).trans (by linarith))
      rw [e, ← lit_small] at this
      rw [lit_small, lit_large]
      rw [lit_small] at this
      exact this

theorem initialPenalty_range (a b : Option (Dbl ρ)) : PenRange (initialPenalty a b) := by
  obtain ⟨s0, s1⟩ := tenth_thousandth (ρ := ρ)
  unfold initialPenalty
  have k : ∀ k : ℕ, k ≤ 2 ^ 53 → (lit (k : ℚ) : Dbl ρ) = fin k := fun k hk => ofRat_nat hk
  split
  · have h4 : (lit 10000 : Dbl ρ) = fin 10000 := by exact_mod_cast k 10000 (by norm_num)
    have w : ∀ y, PenRange (F64.max (lit 0.0001) (fin (min 10000 y)) : Dbl ρ) := by
      intro y
      rw [lit_small, max_fin]
      exact ⟨_, rfl, le_max_left _ _, max_le (by linarith) ((min_le_left _ _).trans (by norm_num))⟩
    rename_i x y
    rw [h4]
    cases x /. y with
    | fin q => rw [min_fin]; exact w q
    | nan =>
      have := w 10000
      rw [min_self] at this
      exact this
    | inf s =>
      cases s with
      | false =>
        have := w 10000
        rw [min_self] at this
        exact this
      | true =>
        rw [lit_small]
        exact ⟨_, rfl, le_refl _, by linarith⟩
  · have h4 : (lit 100 : Dbl ρ) = fin 100 := by exact_mod_cast k 100 (by norm_num)
    rw [h4]
    exact ⟨_, rfl, by linarith, by norm_num⟩

/-- The direction, for `c` feasible outcomes of 100. -/
theorem nextPenalty_near (env : GAEnv (Dbl ρ)) {t i d p : ℚ} (ht : env.target = fin t) (h0 : 0 ≤ t) (h1 : t ≤ 1)
    (hi : env.rr.incMultiplier = fin i) (hd : env.rr.decMultiplier = fin d) (hp : PenRange (fin p : Dbl ρ)) {c : ℕ}
    (hc : c ≤ 100) : ∃ p', GA.nextPenalty env (lit (c : ℚ) /. lit 100) (fin p) = fin p' ∧
      Spec.PenaltyNear ρ t i d ((c : ℚ) / 100) p p' := by
  have hcq : (c : ℚ) ≤ 100 := by exact_mod_cast hc
  have hc0 : (0 : ℚ) ≤ c := Nat.cast_nonneg c
  have small : ∀ x : ℚ, |x| ≤ 2 ^ 12 → (ofRat x : Dbl ρ) = fin (ρ.fl x) ∧ |ρ.fl x - x| ≤ 1 / 2 ^ 40 := fun x hx =>
    ⟨ofRat_le (by norm_num) hx, ρ.near hx⟩
  have elit : (lit (c : ℚ) : Dbl ρ) = fin c := ofRat_nat (by omega)
  have e100 : (lit 100 : Dbl ρ) = fin 100 := by exact_mod_cast (ofRat_nat (ρ := ρ) (k := 100) (by norm_num))
  obtain ⟨ef, nf⟩ := small ((c : ℚ) / 100) (by
    rw [abs_of_nonneg (by positivity)]
    linarith)
  obtain ⟨e5, n5⟩ := small (1 / 20) (by norm_num)
  rw [abs_le] at nf n5
  have l5 : (lit 0.05 : Dbl ρ) = fin (ρ.fl (1 / 20)) := by
    rw [lit_eq, show (0.05 : ℚ) = 1 / 20 by norm_num, e5]
  have tiny : (1 : ℚ) / 2 ^ 40 ≤ 1 / 10 ^ 9 / 4 := by norm_num
  have tiny' : (1 : ℚ) / 2 ^ 40 ≤ 1 / 100 := by norm_num
  obtain ⟨es, ns⟩ := small (t - ρ.fl (1 / 20)) (by
    rw [abs_le]
    constructor <;> linarith)
  obtain ⟨ea, na⟩ := small (t + ρ.fl (1 / 20)) (by
    rw [abs_le]
    constructor <;> linarith)
  rw [abs_le] at ns na
  obtain ⟨p0, hp0, lo, hi'⟩ := hp
  rw [fin.injEq] at hp0
  subst hp0
  have hself : Spec.clamp ρ p = p := by
    unfold Spec.clamp
    rw [min_eq_right hi', max_eq_right lo]
  have hn : GA.nextPenalty env (lit (c : ℚ) /. lit 100) (fin p) =
      if ρ.fl ((c : ℚ) / 100) < ρ.fl (t - ρ.fl (1 / 20)) then fin (Spec.clamp ρ (ρ.fl (p * i)))
      else if ρ.fl (t + ρ.fl (1 / 20)) < ρ.fl ((c : ℚ) / 100) then fin (Spec.clamp ρ (ρ.fl (p * d)))
      else fin p := by
    unfold GA.nextPenalty
    rw [ht, hi, hd, elit, e100, div_fin _ _ (show (100 : ℚ) ≠ 0 by norm_num), ef, l5, sub_fin, add_fin, es, ea, lt_fin, lt_fin, mul_fin, mul_fin]
    simp only [decide_eq_true_eq]
    split
    · exact clamp_ofRat _
    · split
      · exact clamp_ofRat _
      · rw [clamp_fin, hself]
  rw [hn]
  split
  · rename_i hb
    exact ⟨_, rfl, fun _ => rfl, fun h => by linarith, fun h _ => by linarith, fun _ => Or.inl rfl, fun h => by linarith⟩
  · rename_i hb
    push Not at hb
    split
    · rename_i hab
      exact ⟨_, rfl, fun h => by linarith, fun _ => rfl, fun _ h => by linarith, fun h => by linarith,
        fun _ => Or.inl rfl⟩
    · rename_i hab
      push Not at hab
      exact ⟨_, rfl, fun h => by linarith, fun h => by linarith, fun _ _ => rfl, fun _ => Or.inr rfl,
        fun _ => Or.inr rfl⟩

/-- **C93**, range. In double precision the penalty outside elite education is a finite number in
`[0.0001, 10000000]` at every point of every run, for all settings: a multiplier or target that is infinite or not a
number does no harm. -/
theorem C93_range {env : GAEnv (Dbl ρ)} {ctx : Ctx (Dbl ρ)} {P : Dbl ρ → Prop} {E : RRoute (Dbl ρ) → Prop}
    (hv : GA.Laws env ctx P E) (h0 : PenRange env.initialPen) {g : GA (Dbl ρ)} (h : GA.Reach env ctx GA.ChOK g)
    (hs : g.state = .created ∨ g.state = .init ∨ g.state = .cycle) : PenRange g.rr.pen := by
  have hv' : GA.Laws env ctx (fun x => P x ∧ PenRange x) E :=
    ⟨hv.n, hv.fleet, hv.bound, hv.vehicles, hv.bs, hv.sort, hv.nbr, hv.arith, ⟨hv.init, h0⟩,
      fun f p => ⟨hv.next f p, clamp_range _⟩, fun p hp => hv.split p hp.1, hv.route⟩
  exact ((h.any hv').mu hs).pen.2

/-- **C93**, times and direction. The full statement, with `Spec.PenaltyRule` of C37 (rounded products) in place of
`Spec.PenaltyNear`, is refuted by `C93_threshold_refuted`: missing are the shares within `10⁻⁹` of a threshold. -/
theorem C93_penalty_double_partial {env : GAEnv (Dbl ρ)} {ctx : Ctx (Dbl ρ)} {P : Dbl ρ → Prop}
    {E : RRoute (Dbl ρ) → Prop} (hv : GA.Laws env ctx P E) (h0 : PenRange env.initialPen)
    (hk : 1 ≤ env.penaltyInterval) {t i d : ℚ} (ht : env.target = fin t) (ht0 : 0 ≤ t) (ht1 : t ≤ 1)
    (hi : env.rr.incMultiplier = fin i) (hd : env.rr.decMultiplier = fin d) {s : Option ℕ} {g g' : GA (Dbl ρ)}
    (h : GA.Run env ctx GA.ChOK s g) (hs : g.state = .cycle) {ch : GAChoice (Dbl ρ)} (hch : GA.ChOK ch)
    (hit : GA.iterate env ctx ch g = some g') (hn : g'.state ≠ .terminated) :
    ∃ p p', g.rr.pen = fin p ∧ g'.rr.pen = fin p' ∧
      (Spec.PenaltyDue env.penaltyInterval s g.iterations → Spec.PenaltyNear ρ t i d
        ((((g.pop.history ++ [g'.child.isFeasible]).drop 1).count true : ℚ) / 100) p p') ∧
      (¬ Spec.PenaltyDue env.penaltyInterval s g.iterations → p' = p) := by
  have due := (h.onTime hk).due hk
  have hr := C93_range hv h0 h.reach (Or.inr (Or.inr hs))
  obtain ⟨p, hp, -⟩ := hr
  have hr : PenRange (fin p : Dbl ρ) := hp ▸ C93_range hv h0 h.reach (Or.inr (Or.inr hs))
  obtain ⟨hlen, m⟩ := GA.cycle_pen hv hch (h.reach.any hv) hs hit hn rfl
  rcases m with ⟨m1, m2⟩ | ⟨m1, m2⟩
  · exact ⟨p, p, hp, m2.trans hp, fun d => absurd (due.mpr d) (by omega), fun _ => rfl⟩
  · have hcount := List.count_le_length (a := true) (l := (g.pop.history ++ [g'.child.isFeasible]).drop 1)
    obtain ⟨p', e, hnear⟩ := nextPenalty_near env ht ht0 ht1 hi hd hr (hcount.trans hlen.le)
    rw [hp] at m2
    exact ⟨p, p', hp, m2.trans e, fun _ => hnear, fun d => absurd (due.mp m1) d⟩

/-- **C93** in the program: the run of the solver without decomposition, on an instance of whole demands. -/
theorem C93_program_partial {lib : Lib (Dbl ρ)} {cfg : Settings (Dbl ρ)} {nodes : List (ℚ × ℚ × ℚ)} {cap : ℚ}
    {dist : ℕ → ℕ → ℚ} {dm : DistMatrix (Dbl ρ)} {c : Correlation} {m : Option (List (List (Dbl ρ)))}
    (hl : Program.DblLib lib) (hset : Program.DblSettings cfg nodes.length) (hload : Program.DblLoads nodes cap)
    (hx : Program.DblDist nodes.length dist) (hb : Program.Built lib nodes.length (fun a b => fin (dist a b)) dm)
    (hc : buildCorr lib.sqrt lib.corrSort dm = some c)
    {ctx : Ctx (Dbl ρ)} (hctx : ctx = Program.context lib (Program.parsed (Program.dblNodes ρ nodes) (fin cap) m) dm)
    (hk : 1 ≤ cfg.penaltyInterval) {t i d : ℚ} (ht : cfg.target = fin t) (ht0 : 0 ≤ t) (ht1 : t ≤ 1)
    (hi : cfg.incMultiplier = fin i) (hd : cfg.decMultiplier = fin d) {s : Option ℕ} {g g' : GA (Dbl ρ)}
    (h : GA.Run (Program.gaEnv lib cfg ctx dm c) ctx GA.ChOK s g) (hs : g.state = .cycle) {ch : GAChoice (Dbl ρ)}
    (hch : GA.ChOK ch) (hit : GA.iterate (Program.gaEnv lib cfg ctx dm c) ctx ch g = some g')
    (hn : g'.state ≠ .terminated) :
    ∃ p p', g.rr.pen = fin p ∧ g'.rr.pen = fin p' ∧
      (ρ.fl (1 / 10000) ≤ p ∧ p ≤ 10000000) ∧
      (Spec.PenaltyDue cfg.penaltyInterval s g.iterations → Spec.PenaltyNear ρ t i d
        ((((g.pop.history ++ [g'.child.isFeasible]).drop 1).count true : ℚ) / 100) p p') ∧
      (¬ Spec.PenaltyDue cfg.penaltyInterval s g.iterations → p' = p) := by
  subst hctx
  obtain ⟨Q, D, hQ, hw⟩ := Program.dbl_whole (lib := lib) (m := m) (d := dm) (ρ := ρ) hload
  have hv := Program.dbl_gaLaws (m := m) hl hset hload hx hb hc (loadExact_laws hw)
  have h0 : PenRange (Program.gaEnv lib cfg
      (Program.context lib (Program.parsed (Program.dblNodes ρ nodes) (fin cap) m) dm) dm c).initialPen :=
    initialPenalty_range _ _
  obtain ⟨p, p', e1, e2, e3, e4⟩ := C93_penalty_double_partial hv h0 hk ht ht0 ht1 hi hd h hs hch hit hn
  obtain ⟨q, eq, q0, q1⟩ := C93_range hv h0 h.reach (Or.inr (Or.inr hs))
  rw [e1, fin.injEq] at eq
  subst eq
  exact ⟨p, p', e1, e2, ⟨q0, q1⟩, e3, e4⟩

/-- **C93**, the default target. With round to nearest and the target 0.2 of the default and of the shipped settings,
`c` feasible outcomes of 100 raise the penalty exactly up to `c = 15` and lower it exactly from `c = 26` on. By the
exact rule (`Spec.PenaltyRule`) 15 would leave it alone. -/
theorem C93_default_target (env : GAEnv (Dbl nearestEven)) (ht : env.target = lit 0.2) (c : ℕ) (hc : c ≤ 100)
    (p : Dbl nearestEven) :
    GA.nextPenalty env (lit (c : ℚ) /. lit 100) p = F64.max (lit 0.0001) (F64.min (lit 10000000)
      (if c ≤ 15 then p *. env.rr.incMultiplier else if 26 ≤ c then p *. env.rr.decMultiplier else p)) := by
  have key : ∀ c ∈ List.range 101,
      ((lit (c : ℚ) /. lit 100 <. (lit 0.2 -. lit 0.05 : Dbl nearestEven)) = decide (c ≤ 15)) ∧
      (((lit 0.2 +. lit 0.05 : Dbl nearestEven) <. lit (c : ℚ) /. lit 100) = decide (26 ≤ c)) := by
    decide +kernel
  obtain ⟨h1, h2⟩ := key c (List.mem_range.mpr (by omega))
  unfold GA.nextPenalty
  rw [ht, h1, h2]
  simp only [decide_eq_true_eq]

/-- C93 at the lower threshold: with the target 0.2 and exactly 15 feasible outcomes among the latest 100 the
update of the penalty of any state raises a penalty of 100 to 120, though 15 in 100 is not below 0.2 - 0.05. -/
theorem C93_threshold (env : GAEnv (Dbl nearestEven)) (ctx : Ctx (Dbl nearestEven)) (g g' : GA (Dbl nearestEven))
    (ht : env.target = lit 0.2) (hi : env.rr.incMultiplier = lit 1.2) (hh : g.pop.history.length = 100)
    (hc : g.pop.history.count true = 15) (hp : g.rr.pen = lit 100) (h : GA.updatePenalty env ctx g = some g') :
    g'.rr.pen = fin 120 ∧ ¬ ((g.pop.history.count true : ℚ) / 100 < 0.2 - 0.05) := by
  unfold GA.updatePenalty at h
  obtain ⟨q, -, rfl⟩ := Option.map_eq_some_iff.mp h
  refine ⟨?_, by rw [hc]; norm_num⟩
  show GA.nextPenalty env (GA.feasibleFraction g.pop) g.rr.pen = fin 120
  unfold GA.feasibleFraction
  rw [hh, hc, hp, show ((100 : ℕ) : ℚ) = 100 by norm_num, C93_default_target env ht 15 (by norm_num), if_pos (by norm_num), hi]
  decide +kernel

/-- **C93 refuted** in its full form: there is a state whose penalty rises although exactly 15 of the latest 100
outcomes were feasible and the target is 0.2. -/
theorem C93_threshold_refuted : ∃ (env : GAEnv (Dbl nearestEven)) (ctx : Ctx (Dbl nearestEven))
    (g g' : GA (Dbl nearestEven)), env.target = lit 0.2 ∧ g.pop.history.length = 100 ∧
      GA.updatePenalty env ctx g = some g' ∧ g.rr.pen = fin 100 ∧ g'.rr.pen = fin 120 ∧
      ¬ ((g.pop.history.count true : ℚ) / 100 < 0.2 - 0.05) := by
  let ctx : Ctx (Dbl nearestEven) := ⟨2, fun _ _ => fin 1, fun _ => fin 1, fin 10, fin 0, fun _ => fin 0, fun _ => fin 0⟩
  let env : GAEnv (Dbl nearestEven) := {
    rr := ⟨10, 10, 4, lit 1.2, lit 0.85, fun _ => none, fun _ _ => fin 0, fun _ => fin 1, fun _ => fin 0⟩
    split := ⟨true, lit 1.5, 4⟩
    pop := ⟨2, 2, 1, 1, 2⟩
    moves := ⟨true, true, true, true, true, true, true, true, true, true⟩
    lowerBound := 1
    bs := bsearchNew
    sort := some
    granularity := 1
    angle := fun _ => 0
    corr := []
    corrCols := 1
    lsEnabled := true
    rrMutation := true
    rrProbability := lit 1
    rrStartTemp := lit 1
    rrIterations := 1
    repairProbability := lit 0.5
    target := lit 0.2
    penaltyInterval := 100
    logInterval := 1
    initialIndividuals := 2
    maxStagnation := 10
    maxIterations := none
    timeLimit := 10
    initialPen := lit 100
    eliteEducation := false
    eliteLimit := 10
    eliteTemp := lit 1
    eliteIterations := 1
    eliteTimeBased := false
    eliteDuration := lit 1 }
  let g0 := GA.new env ctx fun _ => 0
  let g : GA (Dbl nearestEven) :=
    { g0 with pop := { g0.pop with history := List.replicate 15 true ++ List.replicate 85 false } }
  have hp : g.rr.pen = lit 100 := rfl
  have hh : g.pop.history.length = 100 := rfl
  have hc : g.pop.history.count true = 15 := by decide
  obtain ⟨g', h⟩ : ∃ g', GA.updatePenalty env ctx g = some g' := ⟨_, rfl⟩
  obtain ⟨a, b⟩ := C93_threshold env ctx g g' rfl rfl hh hc hp h
  exact ⟨env, ctx, g, g', rfl, hh, h, by rw [hp]; decide +kernel, a, b⟩

end Verif
