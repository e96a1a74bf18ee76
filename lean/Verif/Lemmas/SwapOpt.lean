import Verif.Lemmas.SwapStarComplete
import Verif.Lemmas.Run
import Verif.Lemmas.MoveLocal

/-!
# The search loop skips no pair of routes that SWAP* could improve
-/

namespace Verif
open F64 LS Spec

/-- No SWAP* move between the routes `r1` and `r2` lowers the penalized cost by more than `3e-6`, provided
the distances satisfy the triangle inequality. -/
def SwapNoGain (ctx : Ctx ℚ) (pen : ℚ) (R : List (List ℕ)) (r1 r2 : ℕ) : Prop :=
  (∀ a b c, ctx.dist a c ≤ ctx.dist a b + ctx.dist b c) → ∀ R', SwapStarEffect R r1 r2 R' →
    solCost ctx.dist ctx.demand ctx.cap pen R ≤
      solCost ctx.dist ctx.demand ctx.cap pen R' + 3 / 1000000

/-- Both routes have customers and their sectors overlap. -/
def SwapPair (angle : ℕ → ℤ) (R : List (List ℕ)) (r1 r2 : ℕ) : Prop :=
  ∃ l1 l2, R[r1]? = some l1 ∧ R[r2]? = some l2 ∧ l1 ≠ [] ∧ l2 ≠ [] ∧
    (routeSector angle l1).overlaps (routeSector angle l2) = true

section
variable {ctx : Ctx ℚ} {fl : MoveFlags}

theorem Steps.zero_eq {pen : ℚ} {R R' : List (List ℕ)} (h : Steps ctx fl pen 0 R R') : R' = R := by
  cases h; rfl

/-- When SWAP* changes nothing, no SWAP* move has a gain. -/
theorem swapNoGain_of_false {s s' : LS ℚ} {R : List (List ℕ)} {r1 r2 : ℕ} (h : Repr ctx s R)
    (h0 : ctx.demand 0 = 0) (hf : InsertFinite ctx) (hne : r1 ≠ r2) (h1 : r1 < R.length)
    (h2 : r2 < R.length) (e : SwapStar.run ctx r1 r2 s = some (s', false)) :
    SwapNoGain ctx s.pen R r1 r2 := by
  intro htri R' heff
  have g1 : R[r1]? = some R[r1] := List.getElem?_eq_getElem h1
  have g2 : R[r2]? = some R[r2] := List.getElem?_eq_getElem h2
  obtain ⟨s1, s2, e1, e2, hr, hc, hp1, hp2⟩ := preprocess_repr h hne g1 g2
  obtain ⟨b, eb, -⟩ := bestMove_good hr hf g1 g2 hp1 hp2
  rw [SwapStar.run, e1, Option.bind_some, e2, Option.bind_some, eb, Option.bind_some] at e
  by_cases hge : approxGte b.cost (lit 0) = true
  · have hm := bestMove_min hr h0 hf htri hne g1 g2 hp1 hp2 eb heff
    rw [hc.frame.pen] at hm
    rw [rat_approxGte, decide_eq_true_eq, rat_lit] at hge
    have hb : -(1 / 1000000) ≤ b.cost := by
      rcases hge with hge | hge
      · linarith
      · rw [sub_zero] at hge
        linarith [(abs_lt.mp hge).1]
    rcases hm with hm | hm <;> linarith
  · rw [if_neg hge] at e
    obtain ⟨_, -, e⟩ := Option.map_eq_some_iff.mp e
    simp at e

theorem SwapStarEffect.symm {R R' : List (List ℕ)} {r1 r2 : ℕ} (hne : r1 ≠ r2)
    (h : SwapStarEffect R r1 r2 R') : SwapStarEffect R r2 r1 R' := by
  cases h with
  | relocU u p q A B g1 g2 => exact .relocV u p q A B g1 g2
  | relocV v p q A B g1 g2 => exact .relocU v p q A B g1 g2
  | both u v p1 q1 p2 q2 A B C D g1 g2 e1 e2 =>
    rw [List.set_comm _ _ hne]
    exact .both v u p2 q2 p1 q1 C D A B g2 g1 e2 e1

/-- A SWAP* move between two routes changes the cost alike wherever the routes stand. -/
theorem SwapStarEffect.transfer {pen : ℚ} {R T T' : List (List ℕ)} {r1 r2 t1 t2 : ℕ} {l1 l2 : List ℕ}
    (hr : r1 ≠ r2) (ht : t1 ≠ t2) (hr1 : R[r1]? = some l1) (hr2 : R[r2]? = some l2)
    (ht1 : T[t1]? = some l1) (ht2 : T[t2]? = some l2) (h : SwapStarEffect T t1 t2 T') :
    ∃ R', SwapStarEffect R r1 r2 R' ∧
      solCost ctx.dist ctx.demand ctx.cap pen R' - solCost ctx.dist ctx.demand ctx.cap pen R =
        solCost ctx.dist ctx.demand ctx.cap pen T' - solCost ctx.dist ctx.demand ctx.cap pen T := by
  cases h with
  | relocU u p q A B g1 g2 =>
    refine ⟨_, .relocU u p q A B (hr1.trans (ht1.symm.trans g1)) (hr2.trans (ht2.symm.trans g2)), ?_⟩
    rw [solCost_set_two hr hr1 hr2, solCost_set_two ht ht1 ht2]
  | relocV v p q A B g1 g2 =>
    refine ⟨_, .relocV v p q A B (hr2.trans (ht2.symm.trans g1)) (hr1.trans (ht1.symm.trans g2)), ?_⟩
    rw [solCost_set_two hr.symm hr2 hr1, solCost_set_two ht.symm ht2 ht1]
  | both u v p1 q1 p2 q2 A B C D g1 g2 e1 e2 =>
    refine ⟨_, .both u v p1 q1 p2 q2 A B C D (hr1.trans (ht1.symm.trans g1))
      (hr2.trans (ht2.symm.trans g2)) e1 e2, ?_⟩
    rw [solCost_set_two hr hr1 hr2, solCost_set_two ht ht1 ht2]

theorem overlaps_comm (a b : Sector) : a.overlaps b = b.overlaps a := by
  unfold Sector.overlaps; exact Bool.or_comm _ _

/-- Pairs of routes without gain in one order of the routes are without gain in any other. -/
theorem SwapNoGain.perm {pen : ℚ} {angle : ℕ → ℤ} {R T : List (List ℕ)} (hR : IsPartition ctx.n R)
    (hp : T.Perm R)
    (h : ∀ r1 r2, r1 < r2 → SwapPair angle R r1 r2 → SwapNoGain ctx pen R r1 r2) {t1 t2 : ℕ}
    (ht : t1 ≠ t2) (hpair : SwapPair angle T t1 t2) : SwapNoGain ctx pen T t1 t2 := by
  intro htri T' heff
  obtain ⟨l1, l2, e1, e2, n1, n2, ov⟩ := hpair
  have hT : IsPartition ctx.n T := hp.flatten.trans hR
  obtain ⟨r1, g1⟩ := List.getElem?_of_mem (hp.mem_iff.mp (List.mem_of_getElem? e1))
  obtain ⟨r2, g2⟩ := List.getElem?_of_mem (hp.mem_iff.mp (List.mem_of_getElem? e2))
  have hr : r1 ≠ r2 := by
    rintro rfl
    rw [g1] at g2
    cases g2
    obtain ⟨c, hc⟩ := List.exists_mem_of_ne_nil _ n1
    exact ht (route_unique hT e1 e2 hc hc)
  obtain ⟨R', he, hc⟩ := heff.transfer (ctx := ctx) (pen := pen) hr ht g1 g2 e1 e2
  have key : solCost ctx.dist ctx.demand ctx.cap pen R ≤
      solCost ctx.dist ctx.demand ctx.cap pen R' + 3 / 1000000 := by
    rcases Nat.lt_or_gt_of_ne hr with hlt | hlt
    · exact h r1 r2 hlt ⟨l1, l2, g1, g2, n1, n2, ov⟩ htri R' he
    · exact h r2 r1 hlt ⟨l2, l1, g2, g1, n2, n1, by rw [overlaps_comm]; exact ov⟩ htri R' (he.symm hr)
  linarith

/-- SWAP* was tried without success for `r` and the routes in `Q` after the last accepted move, if the
stamp of `r` says so. -/
def SwapDone (ctx : Ctx ℚ) (s : LS ℚ) (R : List (List ℕ)) (r : ℕ) (Q : ℕ → Prop) : Prop :=
  (s.route r).lastTestedSwapStar = s.moveCount → ∀ r2, Q r2 → r < r2 → SwapPair s.angle R r r2 →
    SwapNoGain ctx s.pen R r r2

/-- The invariant of the search for SWAP*. -/
structure SwapOpt (ctx : Ctx ℚ) (s : LS ℚ) (R : List (List ℕ)) : Prop where
  done : ∀ r < R.length, SwapDone ctx s R r (fun _ => True)
  le : ∀ r < R.length, (s.route r).lastTestedSwapStar ≤ s.moveCount

theorem swapDue_false {s : LS ℚ} {R : List (List ℕ)} {lc r1 r2 : ℕ} {lt : ℤ} (h : Repr ctx s R)
    (hd : swapDue s lc lt r1 r2 = false) (hlt : r1 < r2) (hp : SwapPair s.angle R r1 r2) :
    (s.route r1).lastTestedSwapStar ≤ lt := by
  obtain ⟨l1, l2, g1, g2, n1, n2, ov⟩ := hp
  have d1 := h.data r1 l1 trivial g1
  have d2 := h.data r2 l2 trivial g2
  rw [← d1.sector, ← d2.sector] at ov
  have m1 : (s.route r1).num ≠ 0 := by rw [d1.num]; simpa using n1
  have m2 : (s.route r2).num ≠ 0 := by rw [d2.num]; simpa using n2
  unfold swapDue at hd
  simp only [m1, m2, hlt, ov, ne_eq, not_false_eq_true, decide_true, Bool.true_and, Bool.and_true,
    Bool.or_eq_false_iff, decide_eq_false_iff_not, not_lt] at hd
  exact (le_max_left _ _).trans hd.2

variable (A : Arith ctx) (h0 : ctx.demand 0 = 0) (hsym : ∀ a b, ctx.dist a b = ctx.dist b a)
include h0 hsym

/-- Accepted moves raise the move count. -/
theorem Ran.moved {s s' : LS ℚ} {R R' : List (List ℕ)} {k : ℕ} (h : Repr ctx s R)
    (ran : Ran ctx fl s R k s' R') (hk : 0 < k) : s.moveCount < s'.moveCount := by
  by_contra hle
  rw [not_lt] at hle
  have hRR : R' = R := by
    apply List.ext_getElem?
    intro j
    by_cases hj : j < R'.length
    · exact (ran.stamped.kept j ((ran.repr.stamps j hj).trans hle)).1
    · have hl : R'.length = R.length := by rw [ran.repr.len, h.len, ran.num]
      rw [List.getElem?_eq_none (by omega), List.getElem?_eq_none (by omega)]
  have hc := ran.steps.cost h0 hsym
  rw [hRR] at hc
  have : (1 : ℚ) ≤ k := by exact_mod_cast hk
  linarith

theorem SwapDone.step {s s' : LS ℚ} {R R' : List (List ℕ)} {k r : ℕ} {Q : ℕ → Prop} (h : Repr ctx s R)
    (hle : (s.route r).lastTestedSwapStar ≤ s.moveCount) (hd : SwapDone ctx s R r Q)
    (ran : Ran ctx fl s R k s' R') (hang : s'.angle = s.angle)
    (hst : (s'.route r).lastTestedSwapStar = (s.route r).lastTestedSwapStar) :
    SwapDone ctx s' R' r Q := by
  rcases Nat.eq_zero_or_pos k with rfl | hk
  · have hR := ran.steps.zero_eq
    subst hR
    intro hs
    rw [hang, ran.pen]
    exact hd (by rw [← hst, hs, ran.still rfl])
  · intro hs
    have := ran.moved h0 hsym h hk
    omega

theorem SwapOpt.step {s s' : LS ℚ} {R R' : List (List ℕ)} {k : ℕ} (h : Repr ctx s R)
    (ho : SwapOpt ctx s R) (ran : Ran ctx fl s R k s' R') (hang : s'.angle = s.angle)
    (hst : ∀ r, (s'.route r).lastTestedSwapStar = (s.route r).lastTestedSwapStar) :
    SwapOpt ctx s' R' := by
  have hl : R'.length = R.length := by rw [ran.repr.len, h.len, ran.num]
  refine ⟨fun r hr => (ho.done r (by omega)).step h0 hsym h (ho.le r (by omega)) ran hang (hst r),
    fun r hr => ?_⟩
  rw [hst]
  exact (ho.le r (by omega)).trans ran.stamped.count

include A

theorem swapLoop2_done (hsw : fl.swapStar = true) {lc : ℕ} {lt : ℤ} {r1 : ℕ} : ∀ (rs : List ℕ) (s : LS ℚ) (R : List (List ℕ))
    (imp : Bool), Repr ctx s R → NbrOK ctx s → r1 < s.numRoutes → (∀ r ∈ rs, r ≠ r1 ∧ r < s.numRoutes) →
    (s.route r1).lastTestedSwapStar ≤ s.moveCount →
    ((s.route r1).lastTestedSwapStar ≤ lt → SwapDone ctx s R r1 (fun _ => True)) →
    SwapDone ctx s R r1 (· ∉ rs) →
    ∃ s' R' k, swapLoop2 ctx lc lt r1 rs s imp = some (s', imp || decide (0 < k)) ∧
      Ran ctx fl s R k s' R' ∧ SameFrame s s' ∧ SwapDone ctx s' R' r1 (fun _ => True)
  | [], s, R, imp, h, hn, _, _, _, _, hd =>
    ⟨s, R, 0, by simp [swapLoop2], .refl h hn, .refl s, fun hs r2 _ => hd hs r2 (by simp)⟩
  | r2 :: rs, s, R, imp, h, hn, h1, hrs, hle, hold, hd => by
    rw [swapLoop2]
    split
    · obtain ⟨hne, h2⟩ := hrs r2 (by simp)
      obtain ⟨s1, b, R1, e1, hr1, f1, stp, hfalse, htrue⟩ := swapStar_run h A.ins A.infty hne.symm
        (by rw [h.len]; exact h1) (by rw [h.len]; exact h2)
      obtain ⟨k1, hb, ran1⟩ : ∃ k1, b = decide (0 < k1) ∧ Ran ctx fl s R k1 s1 R1 := by
        cases b with
        | false =>
          refine ⟨0, rfl, hr1, hn.frame f1.1, f1.pen, f1.numRoutes, f1.customers, ?_, stp,
            fun _ => (hfalse rfl).2.1⟩
          rw [(hfalse rfl).1]; exact .zero R
        | true =>
          obtain ⟨_, s2, b, hr2, hp, hg, hc, hb⟩ := htrue rfl
          exact ⟨1, rfl, .step hn hr1 f1 stp (.swap hr2 hp hne.symm hg hb hc hsw)⟩
      have hd1 : SwapDone ctx s1 R1 r1 (· ∉ rs) := by
        rcases Nat.eq_zero_or_pos k1 with rfl | hk
        · have hng := swapNoGain_of_false h h0 A.ins hne.symm (by rw [h.len]; exact h1)
            (by rw [h.len]; exact h2) (by rw [e1, hb]; rfl)
          refine SwapDone.step h0 hsym h hle ?_ ran1 f1.angle (f1.swapTest r1)
          intro hs r hr hlt hp
          by_cases hrr : r = r2
          · rw [hrr]; exact hng
          · exact hd hs r (by simp [hrr, hr]) hlt hp
        · intro hs
          have := ran1.moved h0 hsym h hk
          rw [f1.swapTest] at hs
          omega
      subst hb
      obtain ⟨s2, R2, k2, e2, ran2, f2, hd2⟩ := swapLoop2_done hsw rs s1 R1 (imp || decide (0 < k1)) ran1.repr
        ran1.nbr (by rw [ran1.num]; exact h1) (fun w hw => by rw [ran1.num]; exact hrs w (by simp [hw]))
        (by rw [f1.swapTest]; exact hle.trans ran1.stamped.count)
        (fun hlt => (hold (by rw [← f1.swapTest]; exact hlt)).step h0 hsym h hle ran1 f1.angle
          (f1.swapTest r1)) hd1
      refine ⟨s2, R2, k1 + k2, ?_, ran1.trans ran2, f1.trans f2, hd2⟩
      rw [e1, Option.bind_some, e2, or_decide]
    · next hdue =>
      refine swapLoop2_done hsw rs s R imp h hn h1 (fun w hw => hrs w (by simp [hw])) hle hold ?_
      intro hs r hr hlt hp
      by_cases hrr : r = r2
      · subst hrr
        exact hold (swapDue_false h (by simpa using hdue) hlt hp) hs r trivial hlt hp
      · exact hd hs r (by simp [hrr, hr]) hlt hp

theorem swapLoop1_done (hsw : fl.swapStar = true) {lc : ℕ} : ∀ (rs : List ℕ) (s : LS ℚ) (R : List (List ℕ))
    (imp : Bool), Repr ctx s R → NbrOK ctx s → (∀ r ∈ rs, r < s.numRoutes) → SwapOpt ctx s R →
    ∃ s' R' k, swapLoop1 ctx lc rs s imp = some (s', imp || decide (0 < k)) ∧
      Ran ctx fl s R k s' R' ∧ SameBase s s' ∧ SwapOpt ctx s' R' ∧
      (k = 0 → ∀ r, r ∈ rs ∨ (s.route r).lastTestedSwapStar = s.moveCount →
        (s'.route r).lastTestedSwapStar = s'.moveCount)
  | [], s, R, imp, h, hn, _, ho =>
    ⟨s, R, 0, by simp [swapLoop1], .refl h hn, .refl s, ho, by simp⟩
  | r1 :: rs, s, R, imp, h, hn, hrs, ho => by
    have hr0 : Repr ctx (LS.testSwap r1 s) R := by
      refine Repr.congr h rfl rfl rfl rfl rfl ?_ rfl rfl rfl rfl rfl rfl
      intro r
      by_cases e : r = r1
      · subst e; simp [LS.testSwap]
      · simp [LS.testSwap, e]
    have hn0 : NbrOK ctx (LS.testSwap r1 s) :=
      ⟨hn.gran, hn.cols, hn.len, hn.nbr, hn.cust⟩
    have hst1 : ((LS.testSwap r1 s).route r1).lastTestedSwapStar = s.moveCount := by simp [LS.testSwap]
    have hst2 : ∀ r, r ≠ r1 → (LS.testSwap r1 s).route r = s.route r := by
      intro r e; simp [LS.testSwap, e]
    have h1 : r1 < s.numRoutes := hrs r1 (by simp)
    have h1' : r1 < R.length := by rw [h.len]; exact h1
    obtain ⟨s1, R1, k1, e1, ran1, f1, hd1⟩ := swapLoop2_done A h0 hsym hsw (lc := lc)
      (lt := (s.route r1).lastTestedSwapStar)
      (r1 := r1) (List.range' (r1 + 1) (s.numRoutes - (r1 + 1))) _ R imp hr0 hn0 h1 (by
        intro r hr
        rw [List.mem_range'_1] at hr
        exact ⟨by omega, by show r < s.numRoutes; omega⟩) hst1.le (by
        intro hle
        rw [hst1] at hle
        have heq : (s.route r1).lastTestedSwapStar = s.moveCount := le_antisymm (ho.le r1 h1') hle
        exact fun _ => ho.done r1 h1' heq) (by
        rintro - r hr hlt ⟨l1, l2, -, g2, -⟩
        have := get_lt g2
        rw [h.len] at this
        exact absurd (List.mem_range'_1.mpr ⟨by omega, by omega⟩) hr)
    have ran1' : Ran ctx fl s R k1 s1 R1 :=
      ⟨ran1.repr, ran1.nbr, ran1.pen, ran1.num, ran1.cust, ran1.steps, testSwap_stamped ran1.stamped,
        ran1.still⟩
    have hl1 : R1.length = R.length := by rw [ran1'.repr.len, h.len, ran1'.num]
    have hstamp : ∀ r, r ≠ r1 → (s1.route r).lastTestedSwapStar = (s.route r).lastTestedSwapStar := by
      intro r hr; rw [f1.swapTest, hst2 r hr]
    have ho1 : SwapOpt ctx s1 R1 := by
      constructor
      · intro r hr
        by_cases hrr : r = r1
        · rw [hrr]; exact hd1
        · exact (ho.done r (by omega)).step h0 hsym h (ho.le r (by omega)) ran1' f1.angle (hstamp r hrr)
      · intro r hr
        by_cases hrr : r = r1
        · rw [hrr, f1.swapTest, hst1]; exact ran1'.stamped.count
        · rw [hstamp r hrr]; exact (ho.le r (by omega)).trans ran1'.stamped.count
    obtain ⟨s2, R2, k2, e2, ran2, f2, ho2, hk2⟩ := swapLoop1_done hsw rs s1 R1 (imp || decide (0 < k1)) ran1.repr
      ran1.nbr (fun w hw => by rw [ran1'.num]; exact hrs w (by simp [hw])) ho1
    have f1' : SameBase s s1 := ⟨f1.1.1, f1.1.2, f1.1.3, f1.1.4, f1.1.5, f1.1.6, f1.1.7, f1.1.8⟩
    refine ⟨s2, R2, k1 + k2, ?_, ran1'.trans ran2, f1'.trans f2, ho2, ?_⟩
    · rw [LS.testSwap] at e1
      rw [swapLoop1, e1, Option.bind_some, e2, or_decide]
    · intro hk r hr
      have hmc := ran1'.still (by omega)
      apply hk2 (by omega)
      by_cases hrr : r = r1
      · right; rw [hrr, f1.swapTest, hst1, hmc]
      · rcases hr with hr | hr
        · rcases List.mem_cons.mp hr with e | e
          · exact absurd e hrr
          · exact .inl e
        · right; rw [hstamp r hrr, hr, hmc]

end
end Verif
