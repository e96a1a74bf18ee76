import Verif.Lemmas.DblShadow
import Verif.Lemmas.Run

/-! # Accepted moves in double precision lower the exact cost -/

namespace Verif
open F64 LS Spec Dbl

set_option linter.unusedSectionVars false

variable {ρ : Rounding}

theorem Off.to {K : ℕ} {ed M : ℚ} {a b j a' b' j' : ℕ} {x : Dbl ρ} {q : ℚ} (h : Off K ed M a b j x q)
    (ha : a = a') (hb : b = b') (hj : j = j') : Off K ed M a' b' j' x q := by
  subst ha hb hj; exact h

section
variable {ctx : Ctx (Dbl ρ)} {cq : Ctx ℚ} {p : ℚ} {K : ℕ} {ed M : ℚ} {T : ℤ}
  (hm : Modest ctx cq p K ed M T) {R R' : List (List ℕ)} {s : LS (Dbl ρ)} (h : Repr ctx s R) (hp : s.pen = fin p)
include hm h hp

/-- A computed `delta` is close to the exact one. -/
theorem Modest.move {u : ℕ} {v : Ref} {m : MoveKind} {d : Dbl ρ} (hd : m.delta ctx s (.cust u) v = some d)
    (he : MoveEffect R u v m R') :
    ∃ x, d = fin x ∧ |x - (solCost cq.dist cq.demand cq.cap p R' - solCost cq.dist cq.demand cq.cap p R)| ≤
      8 * ed + 23 * (2 ^ K / 2 ^ 53) := by
  have ht := shadow_repr hm.n p h
  have hq := he.delta ht hm.depot hm.sym
  have hb := hm.budget
  have hT0 := hm.T0
  have hT1 := hm.T1
  have D := hm.distOff
  have ed0 := hb.ed0
  have δ0 : (0 : ℚ) ≤ 2 ^ K / 2 ^ 53 := by positivity
  suffices H : ∃ (a b j : ℕ), a ≤ 8 ∧ b ≤ 23 ∧ Off K ed M a b j d
      (solCost cq.dist cq.demand cq.cap p R' - solCost cq.dist cq.demand cq.cap p R) by
    obtain ⟨a, b, j, ha, hb', x, rfl, hx, -⟩ := H
    refine ⟨x, rfl, hx.trans ?_⟩
    have t1 : (a : ℚ) * ed ≤ 8 * ed := mul_le_mul_of_nonneg_right (by exact_mod_cast ha) ed0
    have t2 : (b : ℚ) * (2 ^ K / 2 ^ 53) ≤ 23 * (2 ^ K / 2 ^ 53) :=
      mul_le_mul_of_nonneg_right (by exact_mod_cast hb') δ0
    linarith
  have hn : ∀ c ∈ R.flatten, 1 ≤ ctx.n - 1 := fun c hc => by
    have := h.part.mem_iff.mp hc; omega
  cases he with
  | relocateSingle hr =>
    obtain ⟨r1, r2, a, x, y, rd, l1, l2, -⟩ := hr.step h (.refl _)
    have Q := fun c => hm.demandT c (hn u (hr.mem u (by simp)))
    have rq : RelocReads (shadow cq p R s) [u] v r1 r2 a x y := ⟨rd.1, rd.2, rd.3, rd.4, rd.5, rd.6, rd.7⟩
    rw [MoveKind.delta, relocateSingle_delta h hr rd, Option.some.injEq] at hd
    rw [MoveKind.delta, relocateSingle_delta ht hr rq, Option.some.injEq] at hq
    obtain ⟨a1, -, o1⟩ := hm.routeOff h l1
    obtain ⟨a2, -, o2⟩ := hm.routeOff h l2
    rw [← hd]
    change _ = solCost cq.dist cq.demand cq.cap p R' - solCost cq.dist cq.demand cq.cap p R at hq
    rw [← hq]
    exact ⟨_, _, _, by decide, by decide, hm.deltaOff h hp l1 l2
      (((a1.sub hb (D _ _)).sub hb (D _ _)).add hb (D _ _))
      ((o1.add hT0 hT1 (Q u).neg).ite hT0 o1)
      (((a2.sub hb (D _ _)).add hb (D _ _)).add hb (D _ _))
      ((o2.add hT0 hT1 (Q u)).ite hT0 o2)⟩
  | relocateDouble w hr =>
    obtain ⟨r1, r2, a, x, y, rd, l1, l2, -⟩ := hr.step h (.refl _)
    have Q := fun c => hm.demandT c (hn u (hr.mem u (by simp)))
    have rq : RelocReads (shadow cq p R s) [u, w] v r1 r2 a x y := ⟨rd.1, rd.2, rd.3, rd.4, rd.5, rd.6, rd.7⟩
    rw [MoveKind.delta, relocateDouble_delta h hr rd, Option.some.injEq] at hd
    rw [MoveKind.delta, relocateDouble_delta ht hr rq, Option.some.injEq] at hq
    obtain ⟨a1, -, o1⟩ := hm.routeOff h l1
    obtain ⟨a2, -, o2⟩ := hm.routeOff h l2
    rw [← hd]
    change _ = solCost cq.dist cq.demand cq.cap p R' - solCost cq.dist cq.demand cq.cap p R at hq
    rw [← hq]
    exact ⟨_, _, _, by decide, by decide, hm.deltaOff h hp l1 l2
      ((((a1.sub hb (D _ _)).sub hb (D _ _)).sub hb (D _ _)).add hb (D _ _))
      ((o1.add hT0 hT1 ((Q u).neg.sub hT0 hT1 (Q w))).ite hT0 o1)
      ((((a2.sub hb (D _ _)).add hb (D _ _)).add hb (D _ _)).add hb (D _ _))
      ((o2.add hT0 hT1 ((Q u).add hT0 hT1 (Q w))).ite hT0 o2)⟩
  | relocateDoubleReverse w hr =>
    obtain ⟨r1, r2, a, x, y, rd, l1, l2, -⟩ := hr.step h (.swap _ _ _)
    have Q := fun c => hm.demandT c (hn u (hr.mem u (by simp)))
    have rq : RelocReads (shadow cq p R s) [u, w] v r1 r2 a x y := ⟨rd.1, rd.2, rd.3, rd.4, rd.5, rd.6, rd.7⟩
    rw [MoveKind.delta, relocateDoubleReverse_delta h hr rd, Option.some.injEq] at hd
    rw [MoveKind.delta, relocateDoubleReverse_delta ht hr rq, Option.some.injEq] at hq
    obtain ⟨a1, -, o1⟩ := hm.routeOff h l1
    obtain ⟨a2, -, o2⟩ := hm.routeOff h l2
    rw [← hd]
    change _ = solCost cq.dist cq.demand cq.cap p R' - solCost cq.dist cq.demand cq.cap p R at hq
    rw [← hq]
    exact ⟨_, _, _, by decide, by decide, hm.deltaOff h hp l1 l2
      ((((a1.sub hb (D _ _)).sub hb (D _ _)).sub hb (D _ _)).add hb (D _ _))
      ((o1.add hT0 hT1 ((Q u).neg.sub hT0 hT1 (Q w))).ite hT0 o1)
      ((((a2.sub hb (D _ _)).add hb (D _ _)).add hb (D _ _)).add hb (D _ _))
      ((o2.add hT0 hT1 ((Q u).add hT0 hT1 (Q w))).ite hT0 o2)⟩
  | swapOneWithOne c hv hr =>
    subst hv
    obtain ⟨r1, r2, a, x, cp, y, rd, l1, l2, -⟩ := hr.step h
    have Q := fun c => hm.demandT c (hn u (hr.mem.1 u (by simp)))
    have rq : SwapReads (shadow cq p R s) [u] [c] r1 r2 a x cp y :=
      ⟨rd.1, rd.2, rd.3, rd.4, rd.5, rd.6, rd.7, rd.8, rd.9, rd.10, rd.11⟩
    rw [MoveKind.delta, swapOne_delta h hr rd, Option.some.injEq] at hd
    rw [MoveKind.delta, swapOne_delta ht hr rq, Option.some.injEq] at hq
    obtain ⟨a1, -, o1⟩ := hm.routeOff h l1
    obtain ⟨a2, -, o2⟩ := hm.routeOff h l2
    rw [← hd]
    change _ = solCost cq.dist cq.demand cq.cap p R' - solCost cq.dist cq.demand cq.cap p R at hq
    rw [← hq]
    exact ⟨_, _, _, by decide, by decide, hm.deltaOff h hp l1 l2
      ((((a1.sub hb (D _ _)).sub hb (D _ _)).add hb (D _ _)).add hb (D _ _))
      ((o1.add hT0 hT1 ((Q u).neg.add hT0 hT1 (Q c))).ite hT0 o1)
      ((((a2.sub hb (D _ _)).sub hb (D _ _)).add hb (D _ _)).add hb (D _ _))
      ((o2.add hT0 hT1 ((Q u).sub hT0 hT1 (Q c))).ite hT0 o2)⟩
  | swapTwoWithOne c w hv hr =>
    subst hv
    obtain ⟨r1, r2, a, x, cp, y, rd, l1, l2, -⟩ := hr.step h
    have Q := fun c => hm.demandT c (hn u (hr.mem.1 u (by simp)))
    have rq : SwapReads (shadow cq p R s) [u, w] [c] r1 r2 a x cp y :=
      ⟨rd.1, rd.2, rd.3, rd.4, rd.5, rd.6, rd.7, rd.8, rd.9, rd.10, rd.11⟩
    rw [MoveKind.delta, swapTwoOne_delta h hr rd, Option.some.injEq] at hd
    rw [MoveKind.delta, swapTwoOne_delta ht hr rq, Option.some.injEq] at hq
    obtain ⟨a1, -, o1⟩ := hm.routeOff h l1
    obtain ⟨a2, -, o2⟩ := hm.routeOff h l2
    rw [← hd]
    change _ = solCost cq.dist cq.demand cq.cap p R' - solCost cq.dist cq.demand cq.cap p R at hq
    rw [← hq]
    exact ⟨_, _, _, by decide, by decide, hm.deltaOff h hp l1 l2
      (((((a1.sub hb (D _ _)).sub hb (D _ _)).sub hb (D _ _)).add hb (D _ _)).add hb (D _ _))
      ((o1.add hT0 hT1 (((Q u).neg.sub hT0 hT1 (Q w)).add hT0 hT1 (Q c))).ite hT0 o1)
      (((((a2.sub hb (D _ _)).sub hb (D _ _)).add hb (D _ _)).add hb (D _ _)).add hb (D _ _))
      ((o2.add hT0 hT1 (((Q u).add hT0 hT1 (Q w)).sub hT0 hT1 (Q c))).ite hT0 o2)⟩
  | swapTwoWithTwo c w z hv hr =>
    subst hv
    obtain ⟨r1, r2, a, x, cp, y, rd, l1, l2, -⟩ := hr.step h
    have Q := fun c => hm.demandT c (hn u (hr.mem.1 u (by simp)))
    have rq : SwapReads (shadow cq p R s) [u, w] [c, z] r1 r2 a x cp y :=
      ⟨rd.1, rd.2, rd.3, rd.4, rd.5, rd.6, rd.7, rd.8, rd.9, rd.10, rd.11⟩
    rw [MoveKind.delta, swapTwoTwo_delta h hr rd, Option.some.injEq] at hd
    rw [MoveKind.delta, swapTwoTwo_delta ht hr rq, Option.some.injEq] at hq
    obtain ⟨a1, -, o1⟩ := hm.routeOff h l1
    obtain ⟨a2, -, o2⟩ := hm.routeOff h l2
    rw [← hd]
    change _ = solCost cq.dist cq.demand cq.cap p R' - solCost cq.dist cq.demand cq.cap p R at hq
    rw [← hq]
    exact ⟨_, _, _, by decide, by decide, hm.deltaOff h hp l1 l2
      ((((((a1.sub hb (D _ _)).sub hb (D _ _)).sub hb (D _ _)).add hb (D _ _)).add hb (D _ _)).add hb (D _ _))
      ((o1.add hT0 hT1 ((((Q u).neg.sub hT0 hT1 (Q w)).add hT0 hT1 (Q c)).add hT0 hT1 (Q z))).ite hT0 o1)
      ((((((a2.sub hb (D _ _)).sub hb (D _ _)).sub hb (D _ _)).add hb (D _ _)).add hb (D _ _)).add hb (D _ _))
      ((o2.add hT0 hT1 ((((Q u).add hT0 hT1 (Q w)).sub hT0 hT1 (Q c)).sub hT0 hT1 (Q z))).ite hT0 o2)⟩
  | twoOptIntraReverse c r p' m q hv hm' hr =>
    subst hv
    rw [MoveKind.delta, twoOptIntraReverse_delta h hm' hr, Option.some.injEq] at hd
    rw [MoveKind.delta, twoOptIntraReverse_delta ht hm' hr, Option.some.injEq] at hq
    rw [← hd]
    change _ = solCost cq.dist cq.demand cq.cap p _ - solCost cq.dist cq.demand cq.cap p R at hq
    rw [← hq]
    exact ⟨_, _, _, by decide, by decide, (((D _ _).neg.sub hb (D _ _)).add hb (D _ _)).add hb (D _ _)⟩
  | twoOptInterReverse c r1 r2 p' q p2 q2 hv hne h1 h2 =>
    subst hv
    have l1 := get_lt h1
    have l2 := get_lt h2
    rw [MoveKind.delta, twoOptInterReverse_delta h hne h1 h2, Option.some.injEq] at hd
    rw [MoveKind.delta, twoOptInterReverse_delta ht hne h1 h2, Option.some.injEq] at hq
    obtain ⟨a1, w1, -⟩ := hm.routeOff h l1
    obtain ⟨a2, w2, -⟩ := hm.routeOff h l2
    obtain ⟨cu, lu⟩ := hm.cumOff h h1 (x := .cust u) (by simp [routeRefs])
    obtain ⟨cv, lv⟩ := hm.cumOff h h2 (x := .cust c) (by simp [routeRefs])
    have cx := (hm.cumOff h h1 (x := headRef r1 q) (by cases q <;> simp [routeRefs])).1
    have cy := (hm.cumOff h h2 (x := headRef r2 q2) (by cases q2 <;> simp [routeRefs])).1
    rw [← hd]
    change _ = solCost cq.dist cq.demand cq.cap p _ - solCost cq.dist cq.demand cq.cap p R at hq
    rw [← hq]
    exact ⟨_, _, _, by decide, by decide, hm.deltaOff h hp l1 l2
      ((cu.add hb cv).add hb (D _ _))
      ((lu.add hT0 hT1 lv).sub hT0 hT1 hm.capT)
      ((((a1.sub hb cx).add hb a2).sub hb cy).add hb (D _ _))
      ((((w1.sub hT0 hT1 lu).add hT0 hT1 w2).sub hT0 hT1 lv).sub hT0 hT1 hm.capT)⟩
  | twoOptInter r1 r2 p' q p2 q2 hne h1 h2 hv =>
    subst hv
    have l1 := get_lt h1
    have l2 := get_lt h2
    rw [MoveKind.delta, twoOptInter_delta h hne h1 h2, Option.some.injEq] at hd
    rw [MoveKind.delta, twoOptInter_delta ht hne h1 h2, Option.some.injEq] at hq
    obtain ⟨a1, w1, -⟩ := hm.routeOff h l1
    obtain ⟨a2, w2, -⟩ := hm.routeOff h l2
    obtain ⟨cu, lu⟩ := hm.cumOff h h1 (x := .cust u) (by simp [routeRefs])
    obtain ⟨cv, lv⟩ := hm.cumOff h h2 (x := lastRef r2 p2) (by
      rcases List.eq_nil_or_concat p2 with rfl | ⟨p', c, rfl⟩
      · simp [routeRefs]
      · rw [List.concat_eq_append, lastRef_concat]; simp [routeRefs])
    have cx := (hm.cumOff h h1 (x := headRef r1 q) (by cases q <;> simp [routeRefs])).1
    have cy := (hm.cumOff h h2 (x := headRef r2 q2) (by cases q2 <;> simp [routeRefs])).1
    rw [← hd]
    change _ = solCost cq.dist cq.demand cq.cap p _ - solCost cq.dist cq.demand cq.cap p R at hq
    rw [← hq]
    exact ⟨_, _, _, by decide, by decide, hm.deltaOff h hp l1 l2
      (((cu.add hb a2).sub hb cy).add hb (D _ _))
      (((lu.add hT0 hT1 w2).sub hT0 hT1 lv).sub hT0 hT1 hm.capT)
      (((cv.add hb a1).sub hb cx).add hb (D _ _))
      (((lv.add hT0 hT1 w1).sub hT0 hT1 lu).sub hT0 hT1 hm.capT)⟩

omit h hp in
theorem Modest.insOff (a : Ref) (u : ℕ) (b : Ref) : Off K ed M 0 2 3 (insCost ctx a u b) (insCost cq a u b) := by
  have t := ((hm.distOff a.number u).add hm.budget (hm.distOff u b.number)).sub hm.budget
    (hm.distOff a.number b.number)
  unfold insCost
  exact t.to rfl rfl rfl

omit h hp in
theorem Modest.remOff (r : ℕ) (l : List ℕ) (u : ℕ) (l' : List ℕ) :
    Off K ed M 0 2 3 (remCost ctx r l u l') (remCost cq r l u l') := by
  have t := ((hm.distOff (lastRef r l).number (headRef r l').number).sub hm.budget
    (hm.distOff (lastRef r l).number u)).sub hm.budget (hm.distOff u (headRef r l').number)
  unfold remCost
  exact t.to rfl rfl rfl

omit h in
theorem Modest.penOff {i j : ℕ} {o o' : Dbl ρ} {q q' : ℚ} (h1 : Exact T i o q) (h2 : Exact T j o' q')
    (hi : i + j ≤ 32 := by decide) :
    Off K ed M 0 3 (j + i) (penDiff s o o') (penDiff (shadow cq p R s) q q') := by
  unfold penDiff SwapStar.penaltyOf
  rw [hp, show (shadow cq p R s).pen = p from rfl]
  refine Off.to ?_ rfl rfl rfl (a := 0 + 0) (b := 1 + 1 + 1)
  exact (h2.penalty hm.budget hm.T0 hm.pen0 hm.penM (by omega)).2.sub hm.budget
    (h1.penalty hm.budget hm.T0 hm.pen0 hm.penM (by omega)).2 (by decide) (by decide) (by omega)

omit h hp in
theorem Modest.placed {r : ℕ} {l : List ℕ} {v : ℕ} {l' : List ℕ} {u : ℕ} {n : Ref} {c : Dbl ρ} {A B : List ℕ}
    (hpl : Placed ctx r l v l' u n c A B) : ∃ c', Placed cq r l v l' u n c' A B ∧ Off K ed M 0 2 3 c c' := by
  cases hpl with
  | inPlace => exact ⟨_, .inPlace, hm.insOff _ _ _⟩
  | before A B e hB => exact ⟨_, .before A B e hB, hm.insOff _ _ _⟩
  | after A B e hA => exact ⟨_, .after A B e hA, hm.insOff _ _ _⟩

/-- The computed cost of the best SWAP* move is close to the exact one. -/
theorem Modest.best {r1 r2 : ℕ} (hne : r1 ≠ r2) {b : BestSwap (Dbl ρ)} (hg : GoodBest ctx s R r1 r2 b R')
    (hb0 : b ≠ SwapStar.best0) :
    ∃ x, b.cost = fin x ∧ |x - (solCost cq.dist cq.demand cq.cap p R' - solCost cq.dist cq.demand cq.cap p R)| ≤
      8 * ed + 23 * (2 ^ K / 2 ^ 53) := by
  have ht := shadow_repr hm.n p h
  have hb := hm.budget
  have hT0 := hm.T0
  have hT1 := hm.T1
  have ed0 := hb.ed0
  have δ0 : (0 : ℚ) ≤ 2 ^ K / 2 ^ 53 := by positivity
  suffices H : ∃ (b' : BestSwap ℚ) (i j : ℕ), b' ≠ SwapStar.best0 ∧ GoodBest cq (shadow cq p R s) R r1 r2 b' R' ∧
      i ≤ 23 ∧ Off K ed M 0 i j b.cost b'.cost by
    obtain ⟨b', i, j, hb', hg', hi, x, e, hx, -⟩ := H
    have hc : b'.cost = solCost cq.dist cq.demand cq.cap p R' - solCost cq.dist cq.demand cq.cap p R :=
      hg'.cost_rat ht hm.depot hne hb'
    rw [hc] at hx
    refine ⟨x, e, hx.trans ?_⟩
    have t2 : (i : ℚ) * (2 ^ K / 2 ^ 53) ≤ 23 * (2 ^ K / 2 ^ 53) :=
      mul_le_mul_of_nonneg_right (by exact_mod_cast hi) δ0
    push_cast
    linarith
  have hn : ∀ c ∈ R.flatten, 1 ≤ ctx.n - 1 := fun c hc => by
    have := h.part.mem_iff.mp hc; omega
  cases hg with
  | none => exact absurd rfl hb0
  | both p1 q1 p2 q2 A B C D u v pu pv cu cv h1 h2 hpu hpv =>
    have Q := fun c => hm.demandT c (hn u (mem_flatten_of_get h1 (by simp)))
    obtain ⟨-, -, o1⟩ := hm.routeOff h (get_lt h1)
    obtain ⟨-, -, o2⟩ := hm.routeOff h (get_lt h2)
    obtain ⟨cu', hpu', eu⟩ := hm.placed hpu
    obtain ⟨cv', hpv', ev⟩ := hm.placed hpv
    have t := (((((hm.remOff r1 p1 u q1).add hb (hm.penOff (R := R) hp o1 ((o1.sub hT0 hT1 (Q u)).add hT0 hT1 (Q v)))).add hb eu).add hb
        (hm.remOff r2 p2 v q2)).add hb (hm.penOff (R := R) hp o2 ((o2.add hT0 hT1 (Q u)).sub hT0 hT1 (Q v)))).add hb ev
    exact ⟨_, _, _, by simp [SwapStar.best0], .both p1 q1 p2 q2 A B C D u v pu pv cu' cv' h1 h2 hpu' hpv', by decide, t⟩
  | relocU l q A B u h1 h2 =>
    have Q := fun c => hm.demandT c (hn u (mem_flatten_of_get h1 (by simp)))
    obtain ⟨-, -, o1⟩ := hm.routeOff h (get_lt h1)
    obtain ⟨-, -, o2⟩ := hm.routeOff h (get_lt h2)
    have t := (((hm.remOff r1 l u q).add hb (hm.insOff (lastRef r2 A) u (headRef r2 B))).add hb (hm.penOff (R := R) hp o1 (o1.sub hT0 hT1 (Q u)))).add hb
        (hm.penOff (R := R) hp o2 (o2.add hT0 hT1 (Q u)))
    exact ⟨_, _, _, by simp [SwapStar.best0], .relocU l q A B u h1 h2, by decide, t⟩
  | relocV l q A B v h1 h2 =>
    have Q := fun c => hm.demandT c (hn v (mem_flatten_of_get h1 (by simp)))
    obtain ⟨-, -, o2⟩ := hm.routeOff h (get_lt h1)
    obtain ⟨-, -, o1⟩ := hm.routeOff h (get_lt h2)
    have t := (((hm.remOff r2 l v q).add hb (hm.insOff (lastRef r1 A) v (headRef r1 B))).add hb (hm.penOff (R := R) hp o1 (o1.add hT0 hT1 (Q v)))).add hb
        (hm.penOff (R := R) hp o2 (o2.sub hT0 hT1 (Q v)))
    exact ⟨_, _, _, by simp [SwapStar.best0], .relocV l q A B v h1 h2, by decide, t⟩

end

/-- The tolerance is above `2 ^ (-20)`. -/
theorem eps_ge : ∃ e : ℚ, (eps : Dbl ρ) = fin e ∧ 1 / 2 ^ 20 < e ∧ e ≤ 1 / 2 ∧ ρ.fl e = e := by
  have r1 : ρ.fl (65 / 2 ^ 26) = 65 / 2 ^ 26 := by
    have := ρ.rep 65 (-26) (by norm_num) (by norm_num)
    norm_num at this ⊢
    exact this
  have e1 := ρ.mono (65 / 2 ^ 26) 0.000001 (by norm_num)
  rw [r1] at e1
  have e2 : (1 : ℚ) / 2 ^ 20 < 65 / 2 ^ 26 := by norm_num
  refine ⟨ρ.fl 0.000001, ?_, by linarith, fl_half (by norm_num), ρ.idem _⟩
  show (ofRat 0.000001 : Dbl ρ) = _
  exact ofRat_le (m := 0) (by norm_num) (by rw [abs_of_nonneg (by norm_num)]; norm_num)

theorem approxLt_zero {x : ℚ} (h : approxLt (fin x : Dbl ρ) (lit 0) = true) : x ≤ -(1 / 2 ^ 20) := by
  obtain ⟨e, he, e0, e1, hfix⟩ := eps_ge (ρ := ρ)
  have p1 : (0 : ℚ) < 1 / 2 ^ 20 := by norm_num
  unfold approxLt at h
  rw [lit_zero, he, sub_fin, zero_sub, ofRat_le (m := 0) (by norm_num) (by
    rw [abs_neg, abs_of_nonneg (by linarith)]; norm_num; linarith), lt_fin, decide_eq_true_eq, ρ.odd, hfix] at h
  linarith

theorem approxGte_zero {x : ℚ} (h : approxGte (fin x : Dbl ρ) (lit 0) = false) : x ≤ -(1 / 2 ^ 20) := by
  obtain ⟨e, he, e0, e1, hfix⟩ := eps_ge (ρ := ρ)
  have p1 : (0 : ℚ) < 1 / 2 ^ 20 := by norm_num
  have p2 : (1 : ℚ) / 2 ^ 20 ≤ 2 ^ 0 := by norm_num
  unfold approxGte at h
  rw [Bool.or_eq_false_iff, lit_zero, lt_fin, decide_eq_false_iff_not] at h
  obtain ⟨h1, h2⟩ := h
  by_contra hc
  have r1 : ρ.fl (1 / 2 ^ 20) = 1 / 2 ^ 20 := by
    have := ρ.rep 1 (-20) (by norm_num) (by norm_num)
    norm_num at this ⊢
    exact this
  have b1 := ρ.mono (-(1 / 2 ^ 20)) x (by linarith)
  have b2 := ρ.mono x (1 / 2 ^ 20) (by linarith)
  rw [ρ.odd, r1] at b1
  rw [r1] at b2
  have hx : |ρ.fl x| ≤ 1 / 2 ^ 20 := abs_le.mpr ⟨b1, b2⟩
  unfold approxEq at h2
  rw [he, sub_fin, sub_zero, ofRat_le (m := 0) (by norm_num) (abs_le.mpr ⟨by linarith, by linarith⟩)] at h2
  change F64.lt (fin |ρ.fl x| : Dbl ρ) (fin e) = false at h2
  rw [lt_fin, decide_eq_false_iff_not] at h2
  linarith

/-- Every accepted move lowers the exact cost by at least `2 ^ (-21)`. -/
theorem Modest.accepted {ctx : Ctx (Dbl ρ)} {cq : Ctx ℚ} {p : ℚ} {K : ℕ} {ed M : ℚ} {T : ℤ}
    (hm : Modest ctx cq p K ed M T) (hs : 8 * ed + 23 * (2 ^ K / 2 ^ 53) ≤ 1 / 2 ^ 21)
    {fl : MoveFlags} {R R' : List (List ℕ)} (h : Accepted ctx fl (fin p) R R') :
    solCost cq.dist cq.demand cq.cap p R' ≤ solCost cq.dist cq.demand cq.cap p R - 1 / 2 ^ 21 := by
  have e : (1 : ℚ) / 2 ^ 20 = 1 / 2 ^ 21 + 1 / 2 ^ 21 := by norm_num
  cases h with
  | move hr hp hd hlt he _ =>
    obtain ⟨x, rfl, hx⟩ := hm.move hr hp hd he
    have := approxLt_zero hlt
    have := (abs_le.mp hx).1
    linarith
  | swap hr hp hne hg hb hlt _ =>
    obtain ⟨x, ex, hx⟩ := hm.best hr hp hne hg hb
    rw [ex] at hlt
    have := approxGte_zero hlt
    have := (abs_le.mp hx).1
    linarith

theorem Modest.steps {ctx : Ctx (Dbl ρ)} {cq : Ctx ℚ} {p : ℚ} {K : ℕ} {ed M : ℚ} {T : ℤ}
    (hm : Modest ctx cq p K ed M T) (hs : 8 * ed + 23 * (2 ^ K / 2 ^ 53) ≤ 1 / 2 ^ 21)
    {fl : MoveFlags} {k : ℕ} {R R' : List (List ℕ)} (h : Steps ctx fl (fin p) k R R') :
    solCost cq.dist cq.demand cq.cap p R' ≤ solCost cq.dist cq.demand cq.cap p R - k * (1 / 2 ^ 21) := by
  induction h with
  | zero => simp
  | succ _ ha ih =>
    have := hm.accepted hs ha
    push_cast
    linarith

theorem Modest.steps_le {ctx : Ctx (Dbl ρ)} {cq : Ctx ℚ} {p : ℚ} {K : ℕ} {ed M : ℚ} {T : ℤ}
    (hm : Modest ctx cq p K ed M T) (hs : 8 * ed + 23 * (2 ^ K / 2 ^ 53) ≤ 1 / 2 ^ 21)
    {fl : MoveFlags} {k : ℕ} {R R' : List (List ℕ)} (h : Steps ctx fl (fin p) k R R') :
    k ≤ ⌊solCost cq.dist cq.demand cq.cap p R * 2 ^ 21⌋.toNat := by
  have h1 := hm.steps hs h
  have h2 := solCost_nonneg cq.dist cq.demand hm.dist0 cq.cap hm.pen0 R'
  have e : (1 : ℚ) / 2 ^ 21 * 2 ^ 21 = 1 := by norm_num
  have h3 : (k : ℚ) ≤ solCost cq.dist cq.demand cq.cap p R * 2 ^ 21 := by
    have : (k : ℚ) * (1 / 2 ^ 21) ≤ solCost cq.dist cq.demand cq.cap p R := by linarith
    have := mul_le_mul_of_nonneg_right this (show (0 : ℚ) ≤ 2 ^ 21 by positivity)
    rwa [mul_assoc, e, mul_one] at this
  have h4 : (k : ℤ) ≤ ⌊solCost cq.dist cq.demand cq.cap p R * 2 ^ 21⌋ := by
    rw [Int.le_floor]; exact_mod_cast h3
  omega

end Verif
