import Verif.Lemmas.DeltaLocal
import Verif.Lemmas.LocalOpt

/-!
# The search loop skips no pair that could improve, in any arithmetic
-/

namespace Verif
open F64 LS Spec

variable {α : Type} [F64 α] {ctx : Ctx α}

/-- No listed move of customer `u` to customer `v` reports a gain in the state `s`. -/
def Quiet (ctx : Ctx α) (ms : List MoveKind) (s : LS α) (u v : ℕ) : Prop :=
  ∀ m ∈ ms, ∃ d, m.delta ctx s (.cust u) (.cust v) = some d ∧ approxLt d (lit 0) = false

/-- The moves `ms` of customer `u` towards the customers in `V` report no gain, as long as the two routes
were not modified after move number `t`. -/
def QuietFor (ctx : Ctx α) (ms : List MoveKind) (s : LS α) (R : List (List ℕ)) (u : ℕ) (V : ℕ → Prop)
    (t : ℤ) : Prop :=
  ∀ v, V v → ∀ (r r' : ℕ) (l l' : List ℕ), R[r]? = some l → R[r']? = some l' → u ∈ l → v ∈ l' →
    (s.route r).lastModified ≤ t → (s.route r').lastModified ≤ t → Quiet ctx ms s u v

theorem QuietFor.step {ms : List MoveKind} {s s' : LS α} {R R' : List (List ℕ)} {u : ℕ}
    {V : ℕ → Prop} {t : ℤ} (h : QuietFor ctx ms s R u V t) (ht : t ≤ s.moveCount) (hR : Repr ctx s R)
    (hR' : Repr ctx s' R') (hpen : s'.pen = s.pen) (hs : Stamped s R s' R') :
    QuietFor ctx ms s' R' u V t := by
  intro v hv r r' l l' hr hr' hu hv' hm hm'
  obtain ⟨e1, e2⟩ := hs.kept r (hm.trans ht)
  obtain ⟨e3, e4⟩ := hs.kept r' (hm'.trans ht)
  rw [hr] at e1
  rw [hr'] at e3
  intro m hmm
  obtain ⟨d, ed, hd⟩ := h v hv r r' l l' e1.symm e3.symm hu hv' (by rw [← e2]; exact hm)
    (by rw [← e4]; exact hm') m hmm
  exact ⟨d, (delta_same hR' hR hpen hr e1.symm hr' e3.symm hu hv' m).trans ed, hd⟩

/-- The invariant of the search: every customer was last examined when no move of it reported a gain,
unless the routes changed since. -/
structure AnyOpt (ctx : Ctx α) (ms : List MoveKind) (s : LS α) (R : List (List ℕ)) : Prop where
  done : ∀ u, 0 < u → u < ctx.n → QuietFor ctx ms s R u (Neighbour s u) (s.lastTested u)
  le : ∀ u, s.lastTested u ≤ s.moveCount

theorem AnyOpt.step {ms : List MoveKind} {s s' : LS α} {R R' : List (List ℕ)}
    (h : AnyOpt ctx ms s R) (hR : Repr ctx s R) (hR' : Repr ctx s' R') (f : SameBase s s')
    (hs : Stamped s R s' R') : AnyOpt ctx ms s' R' := by
  constructor
  · intro u hu hun v hv
    rw [f.lastTested]
    exact (h.done u hu hun).step (h.le u) hR hR' f.pen hs v
      ((Neighbour.congr f.corr f.corrCols f.granularity).mp hv)
  · intro u
    rw [f.lastTested]
    exact (h.le u).trans hs.count

variable (A : Arith ctx)
include A

/-- After the attempts for `u` and `v` no move of them reports a gain, unless one of their routes was
just modified. -/
theorem tryPair_quiet {f : MoveFlags} {u v : ℕ} {s : LS α} {R : List (List ℕ)} (h : Repr ctx s R)
    (hn : NbrOK ctx s) (hu : u ∈ R.flatten) (hv : v ∈ R.flatten) (hne : v ≠ u) :
    ∃ s' R' k, tryPair ctx f (.cust u) (.cust v) s = some (s', decide (0 < k)) ∧
      Ran ctx f s R k s' R' ∧ SameFrame s s' ∧
      ∀ t ≤ s.moveCount, QuietFor ctx f.neighbor s' R' u (· = v) t := by
  obtain ⟨s', R', k, e, ran, hk, -, fr⟩ := tryPair_ran A (f := f) h hn hu hv hne
  refine ⟨s', R', k, e, ran, fr, ?_⟩
  rintro t ht w rfl r r' l l' hr hr' hul hvl hmr hmr'
  have e' := C14_depot_branch_inert_refuted _ _ _ _ _ _ e
  by_cases hpos : 0 < k
  · exfalso
    rw [decide_eq_true hpos] at e'
    obtain ⟨m, -, d, hd, hlt, hper⟩ := tryMoves_true e'
    have k1 := (ran.stamped.kept r (hmr.trans ht)).1
    have k2 := (ran.stamped.kept r' (hmr'.trans ht)).1
    have g1 := h.rt_cust (k1.symm.trans hr) hul
    have g2 := h.rt_cust (k2.symm.trans hr') hvl
    have st := perform_stamps hper (r1 := r) (r2 := r') g1 g2 (by
      rintro rfl
      by_contra hrr
      rw [MoveKind.delta, Move.twoOptIntraReverseDelta, g1, Option.bind_some, g2, Option.bind_some,
        if_pos hrr] at hd
      cases hd
      rw [A.zero] at hlt
      simp at hlt)
    have := st.1
    dsimp only at this
    omega
  · have hk0 : k = 0 := by omega
    subst hk0
    obtain ⟨rfl, rfl⟩ := hk rfl
    exact (tryMoves_false _ e').2

theorem vLoop_quiet {f : MoveFlags} {lc u : ℕ} {lt mc : ℤ} : ∀ (vs : List ℕ) (s : LS α)
    (R : List (List ℕ)) (imp : Bool), Repr ctx s R → NbrOK ctx s → (0 < u ∧ u < ctx.n) →
    (∀ v ∈ vs, 0 < v ∧ v < ctx.n ∧ v ≠ u) → lt ≤ s.moveCount → mc ≤ s.moveCount →
    QuietFor ctx f.neighbor s R u (· ∈ vs) lt →
    ∃ s' R' k, vLoop ctx f lc u lt vs s imp = some (s', imp || decide (0 < k)) ∧ Ran ctx f s R k s' R' ∧
      SameFrame s s' ∧ QuietFor ctx f.neighbor s' R' u (· ∈ vs) mc
  | [], s, R, imp, h, hn, _, _, _, _, _ =>
    ⟨s, R, 0, by simp [vLoop], .refl h hn, .refl s, fun v hv => by simp at hv⟩
  | v :: vs, s, R, imp, h, hn, hu, hv, hlt, hmc, hd => by
    have hu' := (part_mem h.part).mpr hu
    have hv0 := hv v (by simp)
    have hv' := (part_mem h.part).mpr ⟨hv0.1, hv0.2.1⟩
    have hrt : ∀ c ∈ R.flatten, ∃ (r : ℕ) (l : List ℕ), R[r]? = some l ∧ c ∈ l ∧
        s.rt (.cust c) = some r := by
      intro c hc
      obtain ⟨l, hl, hcl⟩ := List.mem_flatten.mp hc
      obtain ⟨r, hr⟩ := List.getElem?_of_mem hl
      exact ⟨r, l, hr, hcl, h.rt_cust hr hcl⟩
    obtain ⟨ru, lu, gu, mu, eu⟩ := hrt u hu'
    obtain ⟨rv, lv, gv, mv, ev⟩ := hrt v hv'
    rw [vLoop, eu, Option.bind_some, ev, Option.bind_some]
    have rest : ∀ (s1 : LS α) (R1 : List (List ℕ)) (k1 : ℕ), Ran ctx f s R k1 s1 R1 → SameFrame s s1 →
        QuietFor ctx f.neighbor s1 R1 u (· = v) mc →
        ∃ s' R' k, vLoop ctx f lc u lt vs s1 (imp || decide (0 < k1)) = some (s', imp || decide (0 < k)) ∧
          Ran ctx f s R k s' R' ∧ SameFrame s s' ∧ QuietFor ctx f.neighbor s' R' u (· ∈ v :: vs) mc := by
      intro s1 R1 k1 ran1 f1 hd1
      have hmc1 : s.moveCount ≤ s1.moveCount := ran1.stamped.count
      obtain ⟨s2, R2, k2, e2, ran2, f2, hd2⟩ := vLoop_quiet vs s1 R1 (imp || decide (0 < k1)) ran1.repr
        ran1.nbr hu (fun w hw => hv w (by simp [hw])) (hlt.trans hmc1) (hmc.trans hmc1)
        (fun w hw => (hd.step hlt h ran1.repr f1.pen ran1.stamped) w (by simp [hw]))
      refine ⟨s2, R2, k1 + k2, by rw [e2, or_decide], ran1.trans ran2, f1.trans f2, ?_⟩
      intro w hw
      rcases List.mem_cons.mp hw with rfl | hw
      · exact (hd1.step (hmc.trans hmc1) ran1.repr ran2.repr f2.pen ran2.stamped) w rfl
      · exact hd2 w hw
    by_cases hdue : pairDue s lc lt ru rv = true
    · rw [if_pos hdue]
      obtain ⟨s1, R1, k1, e1, ran1, f1, hd1⟩ := tryPair_quiet A (f := f) h hn hu' hv' hv0.2.2
      obtain ⟨s2, R2, k2, e2, r⟩ := rest s1 R1 k1 ran1 f1 (hd1 mc hmc)
      exact ⟨s2, R2, k2, by rw [e1, Option.bind_some, e2], r⟩
    · rw [if_neg hdue]
      simp only [pairDue, Bool.or_eq_true, decide_eq_true_eq, not_or, not_lt, sup_le_iff] at hdue
      obtain ⟨s2, R2, k2, e2, r⟩ := rest s R 0 (.refl h hn) (.refl s) (by
        rintro w rfl r r' l l' hr hr' hul hwl - -
        have a1 := route_unique h.part gu hr mu hul
        have a2 := route_unique h.part gv hr' mv hwl
        subst a1 a2
        exact hd w (by simp) ru rv lu lv gu gv mu mv hdue.2.1 hdue.2.2)
      refine ⟨s2, R2, k2, ?_, r⟩
      rw [← e2]; simp

theorem emptyStep_frame {f : MoveFlags} {lc w u : ℕ} {s : LS α} {R : List (List ℕ)} (h : Repr ctx s R)
    (hn : NbrOK ctx s) (hu : 0 < u ∧ u < ctx.n) :
    ∃ s' R' k, emptyStep ctx f lc w u s = some (s', decide (0 < k)) ∧ Ran ctx f s R k s' R' ∧
      SameFrame s s' := by
  unfold emptyStep
  split
  · next hc =>
    have hlen : 0 < s.empty.length := List.length_pos_iff.mpr hc.2
    have hlt : w % s.empty.length < s.empty.length := Nat.mod_lt _ hlen
    rw [List.getElem?_eq_getElem hlt, Option.bind_some]
    have hmem : s.empty[w % s.empty.length] ∈ s.empty := List.getElem_mem hlt
    have hr := (h.empty _ trivial).mp hmem
    obtain ⟨s', R', k, e, ran, -, -, fr⟩ := tryMoves_ran A (v := .start (s.empty[w % s.empty.length]))
      f.emptyRoute s R h hn ((part_mem h.part).mpr hu) (by
        intro m hm
        refine .inr ⟨⟨_, get_lt hr, rfl⟩, ?_⟩
        simp only [MoveFlags.emptyRoute, List.mem_append] at hm
        rcases hm with ((hm | hm) | hm) | hm <;> split at hm <;> simp_all) (fun _ => enabled_of_mem.2.2)
    exact ⟨s', R', k, e, ran, fr⟩
  · exact ⟨s, R, 0, rfl, .refl h hn, .refl s⟩

theorem uStep_quiet {f : MoveFlags} {lc u : ℕ} {ω : Oracle} {s : LS α} {R : List (List ℕ)}
    (h : Repr ctx s R) (hn : NbrOK ctx s) (hu : 0 < u ∧ u < ctx.n) (ho : AnyOpt ctx f.neighbor s R) :
    ∃ s' R' k, uStep ctx f lc ω u s = some (s', decide (0 < k)) ∧ Ran ctx f s R k s' R' ∧
      AnyOpt ctx f.neighbor s' R' ∧
      s'.lastTested = Function.update s.lastTested u s.moveCount ∧
      (∀ w v, w < ctx.n → (Neighbour s' w v ↔ Neighbour s w v)) := by
  obtain ⟨s1, vs, e1, ⟨c, rfl⟩, hn1, hvs⟩ := neighbours_ok (ω := ω) hn hu
  obtain ⟨hmem, hnb⟩ := neighbours_same hn hu e1
  rw [uStep, e1, Option.bind_some]
  dsimp only at hn1 ⊢
  have h2 : Repr ctx { s with corr := c, lastTested := Function.update s.lastTested u s.moveCount } R :=
    Repr.congr h rfl rfl rfl rfl rfl (fun _ => ⟨rfl, rfl, rfl, rfl, rfl, rfl, rfl⟩) rfl rfl rfl rfl rfl rfl
  have hn2 : NbrOK ctx { s with corr := c, lastTested := Function.update s.lastTested u s.moveCount } :=
    ⟨hn1.gran, hn1.cols, hn1.len, hn1.nbr, hn1.cust⟩
  have q2 : ∀ (w : ℕ) (V : ℕ → Prop) (t : ℤ), QuietFor ctx f.neighbor s R w V t → t ≤ s.moveCount →
      QuietFor ctx f.neighbor { s with corr := c, lastTested := Function.update s.lastTested u s.moveCount } R
        w V t := fun w V t hq ht => hq.step ht h h2 rfl ⟨le_refl _, fun _ _ => ⟨rfl, rfl⟩⟩
  obtain ⟨s3, R3, k3, e3, ran3, f3, hd3⟩ := vLoop_quiet A (f := f) (lc := lc)
    (lt := s.lastTested u) (mc := s.moveCount) vs _ R false h2 hn2 hu hvs (ho.le u) (le_refl _)
    (q2 _ _ _ (fun v hv => ho.done u hu.1 hu.2 v ((hmem v).mp hv)) (ho.le u))
  obtain ⟨s4, R4, k4, e4, ran4, f4⟩ := emptyStep_frame A (f := f) (lc := lc) (w := ω 2)
    ran3.repr ran3.nbr hu
  have ran := ran3.trans ran4
  have f34 := f3.trans f4
  have stp : Stamped s R s4 R4 := ⟨ran.stamped.1, ran.stamped.2⟩
  have hlt : s4.lastTested = Function.update s.lastTested u s.moveCount := f34.lastTested
  have hnb4 : ∀ w v, w < ctx.n → (Neighbour s4 w v ↔ Neighbour s w v) := fun w v hw =>
    (Neighbour.congr f34.corr f34.corrCols f34.granularity).trans (hnb w v hw)
  refine ⟨s4, R4, k3 + k4, ?_, ?_, ?_, hlt, hnb4⟩
  · rw [e3, Option.bind_some, e4, Option.map_some, or_decide, Bool.false_or]
  · exact ⟨ran.repr, ran.nbr, ran.pen, ran.num, ran.cust, ran.steps, stp, ran.still⟩
  · constructor
    · intro w hw hwn v hv
      rw [hnb4 w v hwn] at hv
      rw [hlt]
      by_cases hwu : w = u
      · subst hwu
        rw [Function.update_self]
        have hm3 : s.moveCount ≤ s3.moveCount := ran3.stamped.count
        exact hd3.step hm3 ran3.repr ran4.repr f4.pen ran4.stamped v ((hmem v).mpr hv)
      · rw [Function.update_of_ne hwu]
        exact (ho.done w hw hwn).step (ho.le w) h ran.repr ran.pen stp v hv
    · intro w
      rw [hlt]
      by_cases hwu : w = u
      · subst hwu; rw [Function.update_self]; exact stp.count
      · rw [Function.update_of_ne hwu]; exact (ho.le w).trans stp.count

theorem uLoop_quiet {f : MoveFlags} {lc : ℕ} {ω : Oracle} : ∀ (us : List ℕ) (i : ℕ) (s : LS α)
    (R : List (List ℕ)) (imp : Bool), Repr ctx s R → NbrOK ctx s → (∀ u ∈ us, 0 < u ∧ u < ctx.n) →
    AnyOpt ctx f.neighbor s R →
    ∃ s' R' k, uLoop ctx f lc ω i us s imp = some (s', imp || decide (0 < k)) ∧ Ran ctx f s R k s' R' ∧
      AnyOpt ctx f.neighbor s' R' ∧ (∀ w v, w < ctx.n → (Neighbour s' w v ↔ Neighbour s w v)) ∧
      (k = 0 → ∀ u, u ∈ us ∨ s.lastTested u = s.moveCount → s'.lastTested u = s.moveCount)
  | [], i, s, R, imp, h, hn, _, ho =>
    ⟨s, R, 0, by simp [uLoop], .refl h hn, ho, fun _ _ _ => Iff.rfl, fun _ => by simp⟩
  | u :: us, i, s, R, imp, h, hn, hu, ho => by
    obtain ⟨s1, R1, k1, e1, ran1, ho1, hlt1, hnb1⟩ := uStep_quiet A (f := f) (lc := lc)
      (ω := ω.sub i) h hn (hu u (by simp)) ho
    obtain ⟨s2, R2, k2, e2, ran2, ho2, hnb2, h2⟩ := uLoop_quiet us (i + 1) s1 R1 (imp || decide (0 < k1))
      ran1.repr ran1.nbr (fun w hw => hu w (by simp [hw])) ho1
    refine ⟨s2, R2, k1 + k2, ?_, ran1.trans ran2, ho2, fun w v hw => (hnb2 w v hw).trans (hnb1 w v hw), ?_⟩
    · rw [uLoop, e1, Option.bind_some, e2, or_decide]
    · intro hk
      have hk1 : k1 = 0 := by omega
      have hk2 : k2 = 0 := by omega
      have g1 := h2 hk2
      have hmc := ran1.still hk1
      rw [hmc, hlt1] at g1
      intro w hw
      refine g1 w ?_
      by_cases hwu : w = u
      · right; rw [hwu, Function.update_self]
      · rw [Function.update_of_ne hwu]
        rcases hw with hw | hw
        · rcases List.mem_cons.mp hw with h | h
          · exact absurd h hwu
          · exact .inl h
        · exact .inr hw

/-- One pass keeps the invariant; when it accepts no move, no examined pair reports a gain any more. -/
theorem pass_quiet {f : MoveFlags} {lc : ℕ} {ω : Oracle} {s : LS α} {R : List (List ℕ)}
    (h : Repr ctx s R) (hn : NbrOK ctx s) (ho : AnyOpt ctx f.neighbor s R) :
    ∃ s' R' k, pass ctx f ω lc s =
        some (s', decide (0 < k), if f.swapStar then lc + 1 else lc) ∧
      Repr ctx s' R' ∧ NbrOK ctx s' ∧ s'.pen = s.pen ∧ s'.numRoutes = s.numRoutes ∧
      s'.customers.Perm s.customers ∧ Steps ctx f s.pen k R R' ∧ AnyOpt ctx f.neighbor s' R' ∧
      (∀ w v, w < ctx.n → (Neighbour s' w v ↔ Neighbour s w v)) ∧
      (k = 0 → ∀ u ∈ s.customers, ∀ v, Neighbour s u v → Quiet ctx f.neighbor s' u v) := by
  have hperm := shuffle_perm (ω.sub 1) s.customers
  have hr0 : Repr ctx { s with customers := shuffle (ω.sub 1) s.customers } R :=
    Repr.congr h rfl rfl rfl rfl rfl (fun _ => ⟨rfl, rfl, rfl, rfl, rfl, rfl, rfl⟩) rfl rfl rfl rfl rfl rfl
  have hn0 : NbrOK ctx { s with customers := shuffle (ω.sub 1) s.customers } :=
    ⟨hn.gran, hn.cols, hn.len, hn.nbr, fun u hu => hn.cust u (hperm.mem_iff.mp hu)⟩
  have ho0 : AnyOpt ctx f.neighbor { s with customers := shuffle (ω.sub 1) s.customers } R :=
    ⟨fun u hu hun => (ho.done u hu hun).step (ho.le u) h hr0 rfl ⟨le_refl _, fun _ _ => ⟨rfl, rfl⟩⟩, ho.le⟩
  obtain ⟨s1, R1, k1, e1, ran1, ho1, hnb1, hk1⟩ := uLoop_quiet A (f := f) (lc := lc)
    (ω := ω.sub 0) (shuffle (ω.sub 1) s.customers) 0 _ R false hr0 hn0 hn0.cust ho0
  -- after a pass without moves, whatever follows that changes no route
  have hfinal : k1 = 0 → ∀ (s2 : LS α) (R2 : List (List ℕ)), Ran ctx f s1 R1 0 s2 R2 → SameBase s1 s2 →
      ∀ u ∈ s.customers, ∀ v, Neighbour s u v → Quiet ctx f.neighbor s2 u v := by
    intro hk0 s2 R2 ran2 f2 u hu v hv
    have ho2 := ho1.step ran1.repr ran2.repr f2 ran2.stamped
    have g1 := hk1 hk0
    have hu0 := hn.cust u hu
    have hmc : s1.moveCount = s.moveCount := ran1.still hk0
    have hmc2 : s2.moveCount = s1.moveCount := ran2.still rfl
    have hlt : s2.lastTested u = s.moveCount := by
      rw [f2.lastTested]; exact g1 u (.inl (hperm.mem_iff.mpr hu))
    obtain ⟨i, hi, hvi⟩ := id hv
    have hv0 := hn.nbr u i hu0.1 hu0.2 hi v hvi
    have get : ∀ c ∈ R2.flatten, ∃ (r : ℕ) (l : List ℕ), R2[r]? = some l ∧ c ∈ l ∧
        (s2.route r).lastModified ≤ s2.lastTested u := by
      intro c hc
      obtain ⟨l, hl, hcl⟩ := List.mem_flatten.mp hc
      obtain ⟨r, hr⟩ := List.getElem?_of_mem hl
      refine ⟨r, l, hr, hcl, ?_⟩
      rw [hlt, ← hmc, ← hmc2]
      exact ran2.repr.stamps r (get_lt hr)
    obtain ⟨r, l, hr, hul, hm⟩ := get u ((part_mem ran2.repr.part).mpr hu0)
    obtain ⟨r', l', hr', hvl, hm'⟩ := get v ((part_mem ran2.repr.part).mpr ⟨hv0.1, hv0.2.1⟩)
    exact ho2.done u hu0.1 hu0.2 v ((Neighbour.congr f2.corr f2.corrCols f2.granularity).mpr
      ((hnb1 u v hu0.2).mpr hv)) r r' l l' hr hr' hul hvl hm hm'
  rw [pass, e1, Option.bind_some]
  dsimp only
  cases hs : f.swapStar with
  | false =>
    exact ⟨s1, R1, k1, by simp, ran1.repr, ran1.nbr, ran1.pen, ran1.num, by rw [ran1.cust]; exact hperm,
      ran1.steps, ho1, hnb1, fun hk => hfinal hk s1 R1 (.refl ran1.repr ran1.nbr) (.refl s1)⟩
  | true =>
    obtain ⟨s2, R2, k2, e2, ran2, f2⟩ := swapLoop1_ran A hs (lc := lc)
      (List.range s1.numRoutes) s1 R1 (false || decide (0 < k1)) ran1.repr ran1.nbr (by simp)
    have ran := ran1.trans ran2
    refine ⟨s2, R2, k1 + k2, ?_, ran.repr, ran.nbr, ran.pen, ran.num, by rw [ran.cust]; exact hperm,
      ran.steps, ho1.step ran1.repr ran2.repr f2 ran2.stamped, fun w v hw =>
        (Neighbour.congr f2.corr f2.corrCols f2.granularity).trans (hnb1 w v hw), fun hk => ?_⟩
    · rw [if_pos rfl, e2, Option.map_some, or_decide, Bool.false_or, if_pos rfl]
    · have hk2 : k2 = 0 := by omega
      subst hk2
      exact hfinal (by omega) s2 R2 ran2 f2

/-- The search ends in a state where no examined pair reports a gain. -/
theorem searchLoop_quiet {f : MoveFlags} {ω : Oracle} : ∀ (fuel i lc : ℕ) (s : LS α)
    (R : List (List ℕ)) (s' : LS α), Repr ctx s R → NbrOK ctx s → AnyOpt ctx f.neighbor s R →
    searchLoop ctx f ω fuel i lc s = some s' →
    ∃ R' k, Repr ctx s' R' ∧ s'.numRoutes = s.numRoutes ∧ s'.pen = s.pen ∧ Steps ctx f s.pen k R R' ∧
      (∀ w v, w < ctx.n → (Neighbour s' w v ↔ Neighbour s w v)) ∧
      ∀ u ∈ s.customers, ∀ v, Neighbour s u v → Quiet ctx f.neighbor s' u v
  | 0, _, _, _, _, _, _, _, _, e => by simp [searchLoop] at e
  | fuel + 1, i, lc, s, R, s', h, hn, ho, e => by
    obtain ⟨s1, R1, k1, e1, hr1, hn1, hp1, hnum1, hc1, st1, ho1, hnb1, hk1⟩ := pass_quiet A (f := f)
      (lc := lc) (ω := ω.sub i) h hn ho
    rw [searchLoop, e1, Option.bind_some] at e
    dsimp only at e
    split at e
    · obtain ⟨R2, k2, hr2, hnum2, hp2, st2, hnb2, hfin⟩ := searchLoop_quiet fuel (i + 1) _ s1 R1 s' hr1 hn1 ho1 e
      refine ⟨R2, k1 + k2, hr2, hnum2.trans hnum1, hp2.trans hp1, st1.trans (hp1 ▸ st2),
        fun w v hw => (hnb2 w v hw).trans (hnb1 w v hw), fun u hu v hv => ?_⟩
      exact hfin u (hc1.mem_iff.mpr hu) v ((hnb1 u v (hn.cust u hu).2).mpr hv)
    · next hk =>
      cases e
      have hk0 : k1 = 0 := by
        rw [decide_eq_true_eq] at hk; omega
      exact ⟨R1, k1, hr1, hnum1, hp1, st1, hnb1, hk1 hk0⟩

/-- A finished run of the local search leaves a state where no examined pair reports a gain. -/
theorem run_quiet {atan2 : α → α → α} {f : MoveFlags} {ω : Oracle} {fuel : ℕ} {penMult : α}
    {s : LS α} {x : Individual α} (hs : Ready s) (hn : NbrOK ctx s)
    (hp : IsPartition ctx.n x.phenotype) (hlen : x.phenotype.length = s.numRoutes) {s' : LS α}
    {y : Individual α} (hrun : LS.run atan2 ctx f ω fuel penMult s x = some (s', y)) :
    ∃ R k, Repr ctx s' R ∧ y.phenotype.Perm R ∧ s'.pen = ctx.pen *. penMult ∧
      Steps ctx f (ctx.pen *. penMult) k x.phenotype R ∧
      (∀ w v, w < ctx.n → (Neighbour s' w v ↔ Neighbour s w v)) ∧
      ∀ u ∈ s.customers, ∀ v, Neighbour s u v → Quiet ctx f.neighbor s' u v := by
  obtain ⟨s1, e1, hr1, hn1, hp1, hnum1, hc1, hm1, hl1, ht1, hco, hcc, hg, hsw1, hang1⟩ := load_run hs hn penMult hp hlen
  rw [LS.run, e1, Option.bind_some, Option.bind_eq_some_iff] at hrun
  obtain ⟨s2, e2, hrun⟩ := hrun
  have ho : AnyOpt ctx f.neighbor s1 x.phenotype := by
    constructor
    · intro u _ _ v _ r r' l l' hr _ _ _ hle
      rw [ht1, hl1 r (by rw [← hlen]; exact get_lt hr)] at hle
      simp at hle
    · intro u; rw [ht1, hm1]; simp
  obtain ⟨R, k, hr2, hnum2, hp2, st, hnb, hfin⟩ := searchLoop_quiet A fuel 0 0 s1 _ s2 hr1 hn1 ho e2
  obtain ⟨y', e3, e⟩ := Option.map_eq_some_iff.mp hrun
  simp only [Prod.mk.injEq] at e
  obtain ⟨rfl, rfl⟩ := e
  obtain ⟨w1, -⟩ := write_run hr2 atan2 (by rw [hnum2, hnum1]; exact hlen) e3
  have hnb1 : ∀ w v, Neighbour s1 w v ↔ Neighbour s w v := fun w v => Neighbour.congr hco hcc hg
  rw [hp1] at st
  exact ⟨R, k, hr2, w1, hp2.trans hp1, st, fun w v hw => (hnb w v hw).trans (hnb1 w v),
    fun u hu v hv => hfin u (by rw [hc1]; exact hu) v ((hnb1 u v).mpr hv)⟩

end Verif
