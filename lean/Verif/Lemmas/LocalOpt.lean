import Verif.Lemmas.MoveLocal
import Verif.Lemmas.SwapOpt
import Verif.Props.SearchGaps

/-!
# The search loop skips no pair that could improve
-/

namespace Verif
open F64 LS Spec

/-- The moves `ms` of customer `u` towards the customers in `V` have no gain, as long as the two routes
were not modified after move number `t`. -/
def DoneFor (ctx : Ctx ℚ) (ms : List MoveKind) (s : LS ℚ) (R : List (List ℕ)) (u : ℕ) (V : ℕ → Prop)
    (t : ℤ) : Prop :=
  ∀ v, V v → ∀ (r r' : ℕ) (l l' : List ℕ), R[r]? = some l → R[r']? = some l' → u ∈ l → v ∈ l' →
    (s.route r).lastModified ≤ t → (s.route r').lastModified ≤ t → NoGain ctx s.pen R ms u (.cust v)

theorem DoneFor.step {ctx : Ctx ℚ} {ms : List MoveKind} {s s' : LS ℚ} {R R' : List (List ℕ)} {u : ℕ}
    {V : ℕ → Prop} {t : ℤ} (h : DoneFor ctx ms s R u V t) (ht : t ≤ s.moveCount)
    (hp : IsPartition ctx.n R') (hpen : s'.pen = s.pen) (hs : Stamped s R s' R') :
    DoneFor ctx ms s' R' u V t := by
  intro v hv r r' l l' hr hr' hu hv' hm hm'
  obtain ⟨e1, e2⟩ := hs.kept r (hm.trans ht)
  obtain ⟨e3, e4⟩ := hs.kept r' (hm'.trans ht)
  rw [hr] at e1
  rw [hr'] at e3
  rw [hpen]
  exact NoGain.transfer hp (h v hv r r' l l' e1.symm e3.symm hu hv' (by rw [← e2]; exact hm)
    (by rw [← e4]; exact hm')) e1.symm e3.symm hr hr' Iff.rfl hu hv'

/-- The invariant of the search: every customer was last examined when nothing could be gained for it,
unless the routes changed since. -/
structure Opt (ctx : Ctx ℚ) (ms : List MoveKind) (s : LS ℚ) (R : List (List ℕ)) : Prop where
  done : ∀ u, 0 < u → u < ctx.n → DoneFor ctx ms s R u (Neighbour s u) (s.lastTested u)
  le : ∀ u, s.lastTested u ≤ s.moveCount

theorem Neighbour.congr {α : Type} [F64 α] {s s' : LS α} (h1 : s'.corr = s.corr) (h2 : s'.corrCols = s.corrCols)
    (h3 : s'.granularity = s.granularity) {u v : ℕ} : Neighbour s' u v ↔ Neighbour s u v := by
  unfold Neighbour; rw [h1, h2, h3]

theorem Opt.step {ctx : Ctx ℚ} {ms : List MoveKind} {s s' : LS ℚ} {R R' : List (List ℕ)}
    (h : Opt ctx ms s R) (hp : IsPartition ctx.n R') (f : SameBase s s') (hs : Stamped s R s' R') :
    Opt ctx ms s' R' := by
  constructor
  · intro u hu hun v hv
    rw [f.lastTested]
    exact (h.done u hu hun).step (h.le u) hp f.pen hs v
      ((Neighbour.congr f.corr f.corrCols f.granularity).mp hv)
  · intro u
    rw [f.lastTested]
    exact (h.le u).trans hs.count

/-- Nothing can be gained by moving `u` into an empty route. -/
def EmptyDone (ctx : Ctx ℚ) (ms : List MoveKind) (pen : ℚ) (R : List (List ℕ)) (u : ℕ) : Prop :=
  ∀ r : ℕ, R[r]? = some [] → NoGain ctx pen R ms u (.start r)

/-- Shuffling the neighbours keeps them. -/
theorem neighbours_same {α : Type} [F64 α] {ctx : Ctx α} {ω : Oracle} {u : ℕ} {s s' : LS α} {vs : List ℕ} (hn : NbrOK ctx s)
    (hu : 0 < u ∧ u < ctx.n) (e : neighbours ω u s = some (s', vs)) :
    (∀ v, v ∈ vs ↔ Neighbour s u v) ∧ ∀ w v, w < ctx.n → (Neighbour s' w v ↔ Neighbour s w v) := by
  have hbound : u * s.corrCols + s.granularity ≤ s.corr.length := by
    rw [hn.len]
    calc u * s.corrCols + s.granularity ≤ u * s.corrCols + s.corrCols := by have := hn.cols; omega
      _ = (u + 1) * s.corrCols := by rw [Nat.add_mul, Nat.one_mul]
      _ ≤ ctx.n * s.corrCols := Nat.mul_le_mul_right _ hu.2
  have hsl : ((s.corr.drop (u * s.corrCols)).take s.granularity).length = s.granularity := by
    simp; omega
  have hmem : ∀ v, v ∈ (s.corr.drop (u * s.corrCols)).take s.granularity ↔ Neighbour s u v := by
    intro v
    constructor
    · intro hv
      obtain ⟨i, hi⟩ := List.getElem?_of_mem hv
      have hig : i < s.granularity := by have := get_lt hi; omega
      rw [slice_get hig] at hi
      exact ⟨i, hig, hi⟩
    · rintro ⟨i, hi, hv⟩
      rw [← slice_get hi] at hv
      exact List.mem_of_getElem? hv
  rw [neighbours, topSlice, if_pos hbound, Option.bind_some] at e
  obtain ⟨k, -, e⟩ := Option.map_eq_some_iff.mp e
  have hperm := shuffle_perm (ω.sub 1) ((s.corr.drop (u * s.corrCols)).take s.granularity)
  split at e
  · simp only [Prod.mk.injEq] at e
    obtain ⟨rfl, rfl⟩ := e
    refine ⟨fun v => hperm.mem_iff.trans (hmem v), ?_⟩
    generalize shuffle (ω.sub 1) ((s.corr.drop (u * s.corrCols)).take s.granularity) = m at hperm
    have hm : m.length = s.granularity := by rw [hperm.length_eq, hsl]
    have hg := fun j => store_get (l := s.corr) (m := m) (a := u * s.corrCols) (by rw [hm]; exact hbound) j
    rw [hm] at hg
    intro w v hw
    have hcols := hn.cols
    by_cases hwu : w = u
    · subst hwu
      rw [← hmem v, ← hperm.mem_iff]
      constructor
      · rintro ⟨i, hi, hv⟩
        have hi : i < s.granularity := hi
        simp only [storeSlice] at hv
        rw [hg, if_pos (by omega), Nat.add_sub_cancel_left] at hv
        exact List.mem_of_getElem? hv
      · intro hv
        obtain ⟨i, hi⟩ := List.getElem?_of_mem hv
        have hig : i < s.granularity := by have := get_lt hi; omega
        refine ⟨i, hig, ?_⟩
        simp only [storeSlice]
        rw [hg, if_pos (by omega), Nat.add_sub_cancel_left]
        exact hi
    · have key : ∀ i < s.granularity, (s.storeSlice u m).corr[w * s.corrCols + i]? =
          s.corr[w * s.corrCols + i]? := by
        intro i hi
        simp only [storeSlice]
        rw [hg, if_neg]
        rintro ⟨c1, c2⟩
        rcases Nat.lt_or_gt_of_ne hwu with hlt | hgt
        · have : (w + 1) * s.corrCols ≤ u * s.corrCols := Nat.mul_le_mul_right _ hlt
          rw [Nat.add_mul, Nat.one_mul] at this; omega
        · have : (u + 1) * s.corrCols ≤ w * s.corrCols := Nat.mul_le_mul_right _ hgt
          rw [Nat.add_mul, Nat.one_mul] at this; omega
      constructor
      · rintro ⟨i, hi, hv⟩
        exact ⟨i, hi, (key i hi).symm.trans hv⟩
      · rintro ⟨i, hi, hv⟩
        exact ⟨i, hi, (key i hi).trans hv⟩
  · simp only [Prod.mk.injEq] at e
    obtain ⟨rfl, rfl⟩ := e
    exact ⟨hmem, fun _ _ _ => Iff.rfl⟩

section
variable {ctx : Ctx ℚ}

theorem noGain_of_false {u : ℕ} {v : Ref} {ms : List MoveKind} {s s' : LS ℚ} {R : List (List ℕ)}
    (h : Repr ctx s R) (h0 : ctx.demand 0 = 0) (hsym : ∀ a b, ctx.dist a b = ctx.dist b a)
    (e : tryMoves ctx (.cust u) v ms s = some (s', false)) : NoGain ctx s.pen R ms u v := by
  intro m hm R' heff
  obtain ⟨d, hd, hlt⟩ := (tryMoves_false ms e).2 m hm
  rw [heff.delta h h0 hsym] at hd
  cases hd
  rw [rat_approxLt, decide_eq_false_iff_not] at hlt
  simp only [rat_lit] at hlt
  linarith

variable (A : Arith ctx) (h0 : ctx.demand 0 = 0) (hsym : ∀ a b, ctx.dist a b = ctx.dist b a)
include A h0 hsym

/-- After the attempts for `u` and `v` nothing can be gained for them, unless one of their routes was
just modified. -/
theorem tryPair_done {f : MoveFlags} {u v : ℕ} {s : LS ℚ} {R : List (List ℕ)} (h : Repr ctx s R)
    (hn : NbrOK ctx s) (hu : u ∈ R.flatten) (hv : v ∈ R.flatten) (hne : v ≠ u) :
    ∃ s' R' k, tryPair ctx f (.cust u) (.cust v) s = some (s', decide (0 < k)) ∧
      Ran ctx f s R k s' R' ∧ SameFrame s s' ∧
      ∀ t ≤ s.moveCount, DoneFor ctx f.neighbor s' R' u (· = v) t := by
  obtain ⟨s', R', k, e, ran, hk, hm, fr⟩ := tryPair_ran A (f := f) h hn hu hv hne
  refine ⟨s', R', k, e, ran, fr, ?_⟩
  rintro t ht w rfl r r' l l' hr hr' hul hvl hmr hmr'
  by_cases hpos : 0 < k
  · exfalso
    obtain ⟨m, hm⟩ := hm hpos
    obtain ⟨r1, r2, l1, l2, e1, hu1, e2, hv2, hoth, -⟩ := hm.local ctx.dist ctx.demand ctx.cap s.pen
    have k1 := (ran.stamped.kept r (hmr.trans ht)).1
    have k2 := (ran.stamped.kept r' (hmr'.trans ht)).1
    have a1 := route_unique h.part e1 (k1.symm.trans hr) hu1 hul
    have a2 := route_unique h.part e2 (k2.symm.trans hr') hv2 hvl
    subst a1 a2
    have hRR : R' = R := by
      apply List.ext_getElem?
      intro j
      by_cases j1 : j = r1
      · rw [j1]; exact k1
      · by_cases j2 : j = r2
        · rw [j2]; exact k2
        · exact hoth j j1 j2
    have hc := ran.steps.cost h0 hsym
    rw [hRR] at hc
    have : (1 : ℚ) ≤ k := by exact_mod_cast hpos
    linarith
  · have hk0 : k = 0 := by omega
    subst hk0
    obtain ⟨rfl, rfl⟩ := hk rfl
    exact noGain_of_false h h0 hsym (C14_depot_branch_inert_refuted _ _ _ _ _ _ e)

theorem vLoop_done {f : MoveFlags} {lc u : ℕ} {lt mc : ℤ} : ∀ (vs : List ℕ) (s : LS ℚ)
    (R : List (List ℕ)) (imp : Bool), Repr ctx s R → NbrOK ctx s → (0 < u ∧ u < ctx.n) →
    (∀ v ∈ vs, 0 < v ∧ v < ctx.n ∧ v ≠ u) → lt ≤ s.moveCount → mc ≤ s.moveCount →
    DoneFor ctx f.neighbor s R u (· ∈ vs) lt →
    ∃ s' R' k, vLoop ctx f lc u lt vs s imp = some (s', imp || decide (0 < k)) ∧ Ran ctx f s R k s' R' ∧
      SameFrame s s' ∧ DoneFor ctx f.neighbor s' R' u (· ∈ vs) mc
  | [], s, R, imp, h, hn, _, _, _, _, _ =>
    ⟨s, R, 0, by simp [vLoop], .refl h hn, .refl s, fun v hv => by simp at hv⟩
  | v :: vs, s, R, imp, h, hn, hu, hv, hlt, hmc, hd => by
    have hu' := (part_mem h.part).mpr hu
    have hv0 := hv v (by simp)
    have hv' := (part_mem h.part).mpr ⟨hv0.1, hv0.2.1⟩
    have hrt : ∀ c ∈ R.flatten, ∃ (r : ℕ) (l : List ℕ), R[r]? = some l ∧ c ∈ l ∧
        s.rt (.cust c) = some r := by
      intro c hc
      obtain ⟨l, hl, hcl⟩ := List.mem_flatten.mp hc
      obtain ⟨r, hr⟩ := List.getElem?_of_mem hl
      exact ⟨r, l, hr, hcl, h.rt_cust hr hcl⟩
    obtain ⟨ru, lu, gu, mu, eu⟩ := hrt u hu'
    obtain ⟨rv, lv, gv, mv, ev⟩ := hrt v hv'
    rw [vLoop, eu, Option.bind_some, ev, Option.bind_some]
    -- one step that leaves nothing to gain for `v`, then the rest
    have rest : ∀ (s1 : LS ℚ) (R1 : List (List ℕ)) (k1 : ℕ), Ran ctx f s R k1 s1 R1 → SameFrame s s1 →
        DoneFor ctx f.neighbor s1 R1 u (· = v) mc →
        ∃ s' R' k, vLoop ctx f lc u lt vs s1 (imp || decide (0 < k1)) = some (s', imp || decide (0 < k)) ∧
          Ran ctx f s R k s' R' ∧ SameFrame s s' ∧ DoneFor ctx f.neighbor s' R' u (· ∈ v :: vs) mc := by
      intro s1 R1 k1 ran1 f1 hd1
      have hmc1 : s.moveCount ≤ s1.moveCount := ran1.stamped.count
      obtain ⟨s2, R2, k2, e2, ran2, f2, hd2⟩ := vLoop_done vs s1 R1 (imp || decide (0 < k1)) ran1.repr
        ran1.nbr hu (fun w hw => hv w (by simp [hw])) (hlt.trans hmc1) (hmc.trans hmc1)
        (fun w hw => (hd.step hlt ran1.repr.part f1.pen ran1.stamped) w (by simp [hw]))
      refine ⟨s2, R2, k1 + k2, by rw [e2, or_decide], ran1.trans ran2, f1.trans f2, ?_⟩
      intro w hw
      rcases List.mem_cons.mp hw with rfl | hw
      · exact (hd1.step (hmc.trans hmc1) ran2.repr.part f2.pen ran2.stamped) w rfl
      · exact hd2 w hw
    by_cases hdue : pairDue s lc lt ru rv = true
    · rw [if_pos hdue]
      obtain ⟨s1, R1, k1, e1, ran1, f1, hd1⟩ := tryPair_done A h0 hsym (f := f) h hn hu' hv' hv0.2.2
      obtain ⟨s2, R2, k2, e2, r⟩ := rest s1 R1 k1 ran1 f1 (hd1 mc hmc)
      exact ⟨s2, R2, k2, by rw [e1, Option.bind_some, e2], r⟩
    · rw [if_neg hdue]
      simp only [pairDue, Bool.or_eq_true, decide_eq_true_eq, not_or, not_lt, sup_le_iff] at hdue
      obtain ⟨s2, R2, k2, e2, r⟩ := rest s R 0 (.refl h hn) (.refl s) (by
        rintro w rfl r r' l l' hr hr' hul hwl - -
        have a1 := route_unique h.part gu hr mu hul
        have a2 := route_unique h.part gv hr' mv hwl
        subst a1 a2
        exact hd w (by simp) ru rv lu lv gu gv mu mv hdue.2.1 hdue.2.2)
      refine ⟨s2, R2, k2, ?_, r⟩
      rw [← e2]; simp

theorem emptyStep_done {f : MoveFlags} {lc w u : ℕ} {s : LS ℚ} {R : List (List ℕ)} (h : Repr ctx s R)
    (hn : NbrOK ctx s) (hu : 0 < u ∧ u < ctx.n) :
    ∃ s' R' k, emptyStep ctx f lc w u s = some (s', decide (0 < k)) ∧ Ran ctx f s R k s' R' ∧
      SameFrame s s' ∧ (k = 0 → 0 < lc → EmptyDone ctx f.emptyRoute s.pen R u) := by
  unfold emptyStep
  split
  · next hc =>
    have hlen : 0 < s.empty.length := List.length_pos_iff.mpr hc.2
    have hlt : w % s.empty.length < s.empty.length := Nat.mod_lt _ hlen
    rw [List.getElem?_eq_getElem hlt, Option.bind_some]
    have hmem : s.empty[w % s.empty.length] ∈ s.empty := List.getElem_mem hlt
    have hr := (h.empty _ trivial).mp hmem
    obtain ⟨s', R', k, e, ran, hk, -, fr⟩ := tryMoves_ran A (v := .start (s.empty[w % s.empty.length]))
      f.emptyRoute s R h hn ((part_mem h.part).mpr hu) (by
        intro m hm
        refine .inr ⟨⟨_, get_lt hr, rfl⟩, ?_⟩
        simp only [MoveFlags.emptyRoute, List.mem_append] at hm
        rcases hm with ((hm | hm) | hm) | hm <;> split at hm <;> simp_all) (fun _ => enabled_of_mem.2.2)
    refine ⟨s', R', k, e, ran, fr, ?_⟩
    rintro rfl - r hre m hm T' heff
    have hng := noGain_of_false h h0 hsym e
    obtain ⟨R2, he2, hc2⟩ := heff.empty (ctx := ctx) (pen := s.pen) (.refl _) hre hr
    rw [← hc2]
    exact hng m hm R2 he2
  · next hc =>
    refine ⟨s, R, 0, rfl, .refl h hn, .refl s, fun _ hlc r hre => ?_⟩
    rw [not_and, not_not] at hc
    have := (h.empty r trivial).mpr hre
    rw [hc hlc] at this
    simp at this

theorem uStep_done {f : MoveFlags} {lc u : ℕ} {ω : Oracle} {s : LS ℚ} {R : List (List ℕ)}
    (h : Repr ctx s R) (hn : NbrOK ctx s) (hu : 0 < u ∧ u < ctx.n) (ho : Opt ctx f.neighbor s R) :
    ∃ s' R' k, uStep ctx f lc ω u s = some (s', decide (0 < k)) ∧ Ran ctx f s R k s' R' ∧
      Opt ctx f.neighbor s' R' ∧
      s'.lastTested = Function.update s.lastTested u s.moveCount ∧
      (∀ w v, w < ctx.n → (Neighbour s' w v ↔ Neighbour s w v)) ∧
      (k = 0 → 0 < lc → EmptyDone ctx f.emptyRoute s.pen R u) ∧ s'.angle = s.angle ∧
      ∀ r, (s'.route r).lastTestedSwapStar = (s.route r).lastTestedSwapStar := by
  obtain ⟨s1, vs, e1, ⟨c, rfl⟩, hn1, hvs⟩ := neighbours_ok (ω := ω) hn hu
  obtain ⟨hmem, hnb⟩ := neighbours_same hn hu e1
  rw [uStep, e1, Option.bind_some]
  dsimp only at hn1 ⊢
  have h2 : Repr ctx { s with corr := c, lastTested := Function.update s.lastTested u s.moveCount } R :=
    Repr.congr h rfl rfl rfl rfl rfl (fun _ => ⟨rfl, rfl, rfl, rfl, rfl, rfl, rfl⟩) rfl rfl rfl rfl rfl rfl
  have hn2 : NbrOK ctx { s with corr := c, lastTested := Function.update s.lastTested u s.moveCount } :=
    ⟨hn1.gran, hn1.cols, hn1.len, hn1.nbr, hn1.cust⟩
  obtain ⟨s3, R3, k3, e3, ran3, f3, hd3⟩ := vLoop_done A h0 hsym (f := f) (lc := lc)
    (lt := s.lastTested u) (mc := s.moveCount) vs _ R false h2 hn2 hu hvs (ho.le u) (le_refl _)
    (fun v hv => ho.done u hu.1 hu.2 v ((hmem v).mp hv))
  obtain ⟨s4, R4, k4, e4, ran4, f4, hd4⟩ := emptyStep_done A h0 hsym (f := f) (lc := lc) (w := ω 2)
    ran3.repr ran3.nbr hu
  have ran := ran3.trans ran4
  have f34 := f3.trans f4
  have stp : Stamped s R s4 R4 := ⟨ran.stamped.1, ran.stamped.2⟩
  have hlt : s4.lastTested = Function.update s.lastTested u s.moveCount := f34.lastTested
  have hnb4 : ∀ w v, w < ctx.n → (Neighbour s4 w v ↔ Neighbour s w v) := fun w v hw =>
    (Neighbour.congr f34.corr f34.corrCols f34.granularity).trans (hnb w v hw)
  refine ⟨s4, R4, k3 + k4, ?_, ?_, ?_, hlt, hnb4, ?_, f34.angle, f34.swapTest⟩
  · rw [e3, Option.bind_some, e4, Option.map_some, or_decide, Bool.false_or]
  · exact ⟨ran.repr, ran.nbr, ran.pen, ran.num, ran.cust, ran.steps, stp, ran.still⟩
  · constructor
    · intro w hw hwn v hv
      rw [hnb4 w v hwn] at hv
      rw [hlt]
      by_cases hwu : w = u
      · subst hwu
        rw [Function.update_self]
        have hm3 : s.moveCount ≤ s3.moveCount := ran3.stamped.count
        exact hd3.step hm3 ran4.repr.part f4.pen ran4.stamped v ((hmem v).mpr hv)
      · rw [Function.update_of_ne hwu]
        exact (ho.done w hw hwn).step (ho.le w) ran.repr.part ran.pen stp v hv
    · intro w
      rw [hlt]
      by_cases hwu : w = u
      · subst hwu; rw [Function.update_self]; exact stp.count
      · rw [Function.update_of_ne hwu]; exact (ho.le w).trans stp.count
  · intro hk hlc
    have hk3 : k3 = 0 := by omega
    have := hd4 (by omega) hlc
    subst hk3
    rw [ran3.steps.zero_eq, f3.pen] at this
    exact this

theorem uLoop_done {f : MoveFlags} {lc : ℕ} {ω : Oracle} : ∀ (us : List ℕ) (i : ℕ) (s : LS ℚ)
    (R : List (List ℕ)) (imp : Bool), Repr ctx s R → NbrOK ctx s → (∀ u ∈ us, 0 < u ∧ u < ctx.n) →
    Opt ctx f.neighbor s R →
    ∃ s' R' k, uLoop ctx f lc ω i us s imp = some (s', imp || decide (0 < k)) ∧ Ran ctx f s R k s' R' ∧
      Opt ctx f.neighbor s' R' ∧ (∀ w v, w < ctx.n → (Neighbour s' w v ↔ Neighbour s w v)) ∧
      (k = 0 → (∀ u, u ∈ us ∨ s.lastTested u = s.moveCount → s'.lastTested u = s.moveCount) ∧
        (0 < lc → ∀ u ∈ us, EmptyDone ctx f.emptyRoute s.pen R u)) ∧ s'.angle = s.angle ∧
      ∀ r, (s'.route r).lastTestedSwapStar = (s.route r).lastTestedSwapStar
  | [], i, s, R, imp, h, hn, _, ho =>
    ⟨s, R, 0, by simp [uLoop], .refl h hn, ho, fun _ _ _ => Iff.rfl, fun _ => by simp,
      rfl, fun _ => rfl⟩
  | u :: us, i, s, R, imp, h, hn, hu, ho => by
    obtain ⟨s1, R1, k1, e1, ran1, ho1, hlt1, hnb1, hem1, ha1, hs1⟩ := uStep_done A h0 hsym (f := f) (lc := lc)
      (ω := ω.sub i) h hn (hu u (by simp)) ho
    obtain ⟨s2, R2, k2, e2, ran2, ho2, hnb2, h2, ha2, hs2⟩ := uLoop_done us (i + 1) s1 R1 (imp || decide (0 < k1))
      ran1.repr ran1.nbr (fun w hw => hu w (by simp [hw])) ho1
    refine ⟨s2, R2, k1 + k2, ?_, ran1.trans ran2, ho2, fun w v hw => (hnb2 w v hw).trans (hnb1 w v hw), ?_,
      ha2.trans ha1, fun r => (hs2 r).trans (hs1 r)⟩
    · rw [uLoop, e1, Option.bind_some, e2, or_decide]
    · intro hk
      have hk1 : k1 = 0 := by omega
      have hk2 : k2 = 0 := by omega
      obtain ⟨g1, g2⟩ := h2 hk2
      have hmc := ran1.still hk1
      subst hk1
      have hR := ran1.steps.zero_eq
      subst hR
      rw [hmc, hlt1] at g1
      refine ⟨fun w hw => g1 w ?_, fun hlc w hw => ?_⟩
      · by_cases hwu : w = u
        · right; rw [hwu, Function.update_self]
        · rw [Function.update_of_ne hwu]
          rcases hw with hw | hw
          · rcases List.mem_cons.mp hw with h | h
            · exact absurd h hwu
            · exact .inl h
          · exact .inr hw
      · rcases List.mem_cons.mp hw with rfl | hw
        · exact hem1 rfl hlc
        · have := g2 hlc w hw
          rwa [ran1.pen] at this

/-- One pass keeps the invariant; when it accepts no move, nothing can be gained any more. -/
theorem pass_done {f : MoveFlags} {lc : ℕ} {ω : Oracle} {s : LS ℚ} {R : List (List ℕ)}
    (h : Repr ctx s R) (hn : NbrOK ctx s) (ho : Opt ctx f.neighbor s R) (hso : SwapOpt ctx s R) :
    ∃ s' R' k, pass ctx f ω lc s =
        some (s', decide (0 < k), if f.swapStar then lc + 1 else lc) ∧
      Repr ctx s' R' ∧ NbrOK ctx s' ∧ s'.pen = s.pen ∧ s'.numRoutes = s.numRoutes ∧
      s'.customers.Perm s.customers ∧ Steps ctx f s.pen k R R' ∧ Opt ctx f.neighbor s' R' ∧
      (∀ w v, w < ctx.n → (Neighbour s' w v ↔ Neighbour s w v)) ∧
      (k = 0 → ∀ u ∈ s.customers,
        (∀ v, Neighbour s u v → NoGain ctx s.pen R' f.neighbor u (.cust v)) ∧
        (0 < lc → EmptyDone ctx f.emptyRoute s.pen R' u)) ∧
      SwapOpt ctx s' R' ∧ s'.angle = s.angle ∧
      (k = 0 → f.swapStar = true → ∀ r1 r2, r1 < r2 → SwapPair s.angle R' r1 r2 →
        SwapNoGain ctx s.pen R' r1 r2) := by
  have hperm := shuffle_perm (ω.sub 1) s.customers
  have hr0 : Repr ctx { s with customers := shuffle (ω.sub 1) s.customers } R :=
    Repr.congr h rfl rfl rfl rfl rfl (fun _ => ⟨rfl, rfl, rfl, rfl, rfl, rfl, rfl⟩) rfl rfl rfl rfl rfl rfl
  have hn0 : NbrOK ctx { s with customers := shuffle (ω.sub 1) s.customers } :=
    ⟨hn.gran, hn.cols, hn.len, hn.nbr, fun u hu => hn.cust u (hperm.mem_iff.mp hu)⟩
  obtain ⟨s1, R1, k1, e1, ran1, ho1, hnb1, hk1, hang1, hst1⟩ := uLoop_done A h0 hsym (f := f) (lc := lc)
    (ω := ω.sub 0) (shuffle (ω.sub 1) s.customers) 0 _ R false hr0 hn0 hn0.cust ⟨ho.done, ho.le⟩
  have hso0 : SwapOpt ctx { s with customers := shuffle (ω.sub 1) s.customers } R := ⟨hso.done, hso.le⟩
  have hso1 : SwapOpt ctx s1 R1 := hso0.step h0 hsym hr0 ran1 hang1 hst1
  have hfinal : k1 = 0 → ∀ u ∈ s.customers,
      (∀ v, Neighbour s u v → NoGain ctx s.pen R1 f.neighbor u (.cust v)) ∧
      (0 < lc → EmptyDone ctx f.emptyRoute s.pen R1 u) := by
    rintro rfl u hu
    obtain ⟨g1, g2⟩ := hk1 rfl
    have hu0 := hn.cust u hu
    have hmc : s1.moveCount = s.moveCount := ran1.still rfl
    have hlt : s1.lastTested u = s.moveCount := g1 u (.inl (hperm.mem_iff.mpr hu))
    refine ⟨fun v hv => ?_, fun hlc => ?_⟩
    · obtain ⟨i, hi, hvi⟩ := id hv
      have hv0 := hn.nbr u i hu0.1 hu0.2 hi v hvi
      have get : ∀ c ∈ R1.flatten, ∃ (r : ℕ) (l : List ℕ), R1[r]? = some l ∧ c ∈ l ∧
          (s1.route r).lastModified ≤ s1.lastTested u := by
        intro c hc
        obtain ⟨l, hl, hcl⟩ := List.mem_flatten.mp hc
        obtain ⟨r, hr⟩ := List.getElem?_of_mem hl
        refine ⟨r, l, hr, hcl, ?_⟩
        rw [hlt, ← hmc]
        exact ran1.repr.stamps r (get_lt hr)
      obtain ⟨r, l, hr, hul, hm⟩ := get u ((part_mem ran1.repr.part).mpr hu0)
      obtain ⟨r', l', hr', hvl, hm'⟩ := get v ((part_mem ran1.repr.part).mpr ⟨hv0.1, hv0.2.1⟩)
      have := ho1.done u hu0.1 hu0.2 v ((hnb1 u v hu0.2).mpr hv) r r' l l' hr hr' hul hvl hm hm'
      rwa [ran1.pen] at this
    · have := g2 hlc u (hperm.mem_iff.mpr hu)
      rwa [← ran1.steps.zero_eq] at this
  rw [pass, e1, Option.bind_some]
  dsimp only
  cases hs : f.swapStar with
  | false =>
    exact ⟨s1, R1, k1, by simp, ran1.repr, ran1.nbr, ran1.pen, ran1.num, by rw [ran1.cust]; exact hperm,
      ran1.steps, ho1, hnb1, hfinal, hso1, hang1, by simp⟩
  | true =>
    obtain ⟨s2, R2, k2, e2, ran2, f2, hso2, hk2⟩ := swapLoop1_done A h0 hsym hs (lc := lc)
      (List.range s1.numRoutes) s1 R1 (false || decide (0 < k1)) ran1.repr ran1.nbr (by simp) hso1
    have ran := ran1.trans ran2
    refine ⟨s2, R2, k1 + k2, ?_, ran.repr, ran.nbr, ran.pen, ran.num, by rw [ran.cust]; exact hperm,
      ran.steps, ho1.step ran2.repr.part f2 ran2.stamped, fun w v hw =>
        (Neighbour.congr f2.corr f2.corrCols f2.granularity).trans (hnb1 w v hw), fun hk => ?_, hso2,
      f2.angle.trans hang1, fun hk _ r1 r2 hlt hp => ?_⟩
    · rw [if_pos rfl, e2, Option.map_some, or_decide, Bool.false_or, if_pos rfl]
    · have hk2 : k2 = 0 := by omega
      subst hk2
      rw [ran2.steps.zero_eq]
      exact hfinal (by omega)
    · have hr1 : r1 < R2.length := by
        obtain ⟨_, _, g, -⟩ := hp
        exact get_lt g
      have hst := hk2 (by omega) r1 (.inl (by rw [List.mem_range, ← ran2.num, ← ran2.repr.len]; exact hr1))
      have ha : s2.angle = s.angle := f2.angle.trans hang1
      have := hso2.done r1 hr1 hst r2 trivial hlt (by rw [ha]; exact hp)
      rwa [ran.pen] at this

/-- The search ends with routes where nothing can be gained. -/
theorem searchLoop_done {f : MoveFlags} {ω : Oracle} : ∀ (fuel i lc : ℕ) (s : LS ℚ)
    (R : List (List ℕ)) (s' : LS ℚ), Repr ctx s R → NbrOK ctx s → Opt ctx f.neighbor s R → SwapOpt ctx s R →
    searchLoop ctx f ω fuel i lc s = some s' →
    ∃ R' k, Repr ctx s' R' ∧ s'.numRoutes = s.numRoutes ∧ Steps ctx f s.pen k R R' ∧
      (∀ w v, w < ctx.n → (Neighbour s' w v ↔ Neighbour s w v)) ∧
      (∀ u ∈ s.customers, (∀ v, Neighbour s u v → NoGain ctx s.pen R' f.neighbor u (.cust v)) ∧
        (f.swapStar = true → 0 < lc ∨ 0 < k → EmptyDone ctx f.emptyRoute s.pen R' u)) ∧
      (f.swapStar = true → ∀ r1 r2, r1 < r2 → SwapPair s.angle R' r1 r2 → SwapNoGain ctx s.pen R' r1 r2) ∧
      s'.angle = s.angle
  | 0, _, _, _, _, _, _, _, _, _, e => by simp [searchLoop] at e
  | fuel + 1, i, lc, s, R, s', h, hn, ho, hso, e => by
    obtain ⟨s1, R1, k1, e1, hr1, hn1, hp1, hnum1, hc1, st1, ho1, hnb1, hk1, hso1, hang1, hsf1⟩ := pass_done A h0 hsym (f := f)
      (lc := lc) (ω := ω.sub i) h hn ho hso
    rw [searchLoop, e1, Option.bind_some] at e
    dsimp only at e
    split at e
    · obtain ⟨R2, k2, hr2, hnum2, st2, hnb2, hfin, hsf2, ha2⟩ := searchLoop_done fuel (i + 1) _ s1 R1 s' hr1 hn1
        ho1 hso1 e
      refine ⟨R2, k1 + k2, hr2, hnum2.trans hnum1, st1.trans (hp1 ▸ st2),
        fun w v hw => (hnb2 w v hw).trans (hnb1 w v hw), fun u hu => ?_, by
          rw [← hp1, ← hang1]; exact hsf2, ha2.trans hang1⟩
      obtain ⟨g1, g2⟩ := hfin u (hc1.mem_iff.mpr hu)
      rw [hp1] at g1 g2
      exact ⟨fun v hv => g1 v ((hnb1 u v (hn.cust u hu).2).mpr hv),
        fun hs _ => g2 hs (.inl (by rw [if_pos hs]; omega))⟩
    · next hk =>
      cases e
      have hk0 : k1 = 0 := by
        rw [decide_eq_true_eq] at hk; omega
      refine ⟨R1, k1, hr1, hnum1, st1, hnb1, fun u hu => ⟨(hk1 hk0 u hu).1, fun _ hor => ?_⟩, hsf1 hk0, hang1⟩
      exact (hk1 hk0 u hu).2 (by omega)

end
end Verif
