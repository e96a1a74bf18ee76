import Verif.Lemmas.TwoOptSteps

/-!
# `perform` carries out the effect of each move
-/

namespace Verif
open F64 LS Spec

set_option linter.unusedSectionVars false

variable {α : Type} [F64 α]

theorem MoveEffect.perform {ctx : Ctx α} {s : LS α} {R R' : List (List ℕ)} {u : ℕ} {v : Ref}
    {m : MoveKind} (h : Repr ctx s R) (hm : MoveEffect R u v m R') :
    ∃ s', m.perform ctx { s with moveCount := s.moveCount + 1 } (.cust u) v = some s' ∧
      Repr ctx s' R' ∧ SameFrame s s' ∧ Stamped s R s' R' := by
  have hperm := hm.perm
  cases hm with
  | relocateSingle hr =>
    obtain ⟨r1, r2, a, x, y, rd, hr1, hr2, hsame, henc, -⟩ := hr.step h (.refl _)
    obtain ⟨s', e, hh⟩ := Repr.updateRoutes h (henc u u rfl rfl rfl) hperm hr1 hr2 hsame
    refine ⟨s', ?_, hh⟩
    simp only [MoveKind.perform, Move.relocateSinglePerform, rd.rtS u (by simp), rd.rtV,
      rd.pred u rfl, rd.succ u rfl, rd.succV, Option.bind_some]
    exact e
  | relocateDouble w hr =>
    obtain ⟨r1, r2, a, x, y, rd, hr1, hr2, hsame, henc, -⟩ := hr.step h (.refl _)
    obtain ⟨s', e, hh⟩ := Repr.updateRoutes h (henc u w rfl rfl rfl) hperm hr1 hr2 hsame
    have hsu : s.heap.succ (.cust u) = some (.cust w) := by
      cases hr with
      | inter r1 r2 p q p2 q2 hne h1 h2 hv =>
        have := h.enc.succ_cust (p := p) (q := w :: q) (by simpa using h1)
        simpa using this
      | after r p m q hm h1 hv =>
        have := h.enc.succ_cust (p := p) (q := w :: (m ++ q)) (by simpa using h1)
        simpa using this
      | before r p m q hm h1 hv =>
        have := h.enc.succ_cust (p := p ++ m) (q := w :: q) (by simpa using h1)
        simpa using this
    refine ⟨s', ?_, hh⟩
    simp only [MoveKind.perform, Move.relocateDoublePerform, rd.rtS u (by simp), rd.rtV,
      rd.pred u rfl, hsu, rd.succ w rfl, rd.succV, Option.bind_some]
    exact e
  | relocateDoubleReverse w hr =>
    obtain ⟨r1, r2, a, x, y, rd, hr1, hr2, hsame, -, henc⟩ := hr.step h (.swap _ _ _)
    obtain ⟨s', e, hh⟩ := Repr.updateRoutes h (henc u w rfl rfl) hperm hr1 hr2 hsame
    have hsu : s.heap.succ (.cust u) = some (.cust w) := by
      cases hr with
      | inter r1 r2 p q p2 q2 hne h1 h2 hv =>
        have := h.enc.succ_cust (p := p) (q := w :: q) (by simpa using h1)
        simpa using this
      | after r p m q hm h1 hv =>
        have := h.enc.succ_cust (p := p) (q := w :: (m ++ q)) (by simpa using h1)
        simpa using this
      | before r p m q hm h1 hv =>
        have := h.enc.succ_cust (p := p ++ m) (q := w :: q) (by simpa using h1)
        simpa using this
    refine ⟨s', ?_, hh⟩
    simp only [MoveKind.perform, Move.relocateDoubleReversePerform, rd.rtS u (by simp), rd.rtV,
      rd.pred u rfl, hsu, rd.succ w rfl, rd.succV, Option.bind_some]
    exact e
  | swapOneWithOne c hv hr =>
    subst hv
    obtain ⟨r1, r2, a, x, cp, y, rd, hr1, hr2, hsame, henc⟩ := hr.step h
    obtain ⟨s', e, hh⟩ := Repr.updateRoutes h (henc u u c c rfl rfl rfl rfl) hperm hr1 hr2 hsame
    refine ⟨s', ?_, hh⟩
    simp only [MoveKind.perform, Move.swapOneWithOnePerform, rd.rtS u (by simp), rd.rtT c (by simp),
      rd.pred u rfl, rd.succ u rfl, rd.predT c rfl, rd.succT c rfl, Option.bind_some]
    exact e
  | swapTwoWithOne c w hv hr =>
    subst hv
    obtain ⟨r1, r2, a, x, cp, y, rd, hr1, hr2, hsame, henc⟩ := hr.step h
    obtain ⟨s', e, hh⟩ := Repr.updateRoutes h (henc u w c c rfl rfl rfl rfl) hperm hr1 hr2 hsame
    have hsu : s.heap.succ (.cust u) = some (.cust w) := by
      cases hr with
      | inter r1 r2 p q p2 q2 hne h1 h2 =>
        have := h.enc.succ_cust (p := p) (q := w :: q) (by simpa using h1)
        simpa using this
      | fwd r p m q hm h1 =>
        have := h.enc.succ_cust (p := p) (q := w :: (m ++ [c] ++ q)) (by simpa using h1)
        simpa using this
      | bwd r p m q hm h1 =>
        have := h.enc.succ_cust (p := p ++ [c] ++ m) (q := w :: q) (by simpa using h1)
        simpa using this
    refine ⟨s', ?_, hh⟩
    simp only [MoveKind.perform, Move.swapTwoWithOnePerform, rd.rtS u (by simp), rd.rtT c (by simp),
      rd.pred u rfl, hsu, rd.succ w rfl, rd.predT c rfl, rd.succT c rfl, Option.bind_some]
    exact e
  | swapTwoWithTwo c w z hv hr =>
    subst hv
    obtain ⟨r1, r2, a, x, cp, y, rd, hr1, hr2, hsame, henc⟩ := hr.step h
    obtain ⟨s', e, hh⟩ := Repr.updateRoutes h (henc u w c z rfl rfl rfl rfl) hperm hr1 hr2 hsame
    have hsu : s.heap.succ (.cust u) = some (.cust w) ∧ s.heap.succ (.cust c) = some (.cust z) := by
      cases hr with
      | inter r1 r2 p q p2 q2 hne h1 h2 =>
        have := h.enc.succ_cust (p := p) (q := w :: q) (by simpa using h1)
        have := h.enc.succ_cust (p := p2) (q := z :: q2) (by simpa using h2)
        simp_all
      | fwd r p m q hm h1 =>
        have := h.enc.succ_cust (p := p) (q := w :: (m ++ [c, z] ++ q)) (by simpa using h1)
        have := h.enc.succ_cust (p := p ++ [u, w] ++ m) (q := z :: q) (by simpa using h1)
        simp_all
      | bwd r p m q hm h1 =>
        have := h.enc.succ_cust (p := p ++ [c, z] ++ m) (q := w :: q) (by simpa using h1)
        have := h.enc.succ_cust (p := p) (q := z :: (m ++ [u, w] ++ q)) (by simpa using h1)
        simp_all
    refine ⟨s', ?_, hh⟩
    simp only [MoveKind.perform, Move.swapTwoWithTwoPerform, rd.rtS u (by simp), rd.rtT c (by simp),
      rd.pred u rfl, hsu.1, hsu.2, rd.succ w rfl, rd.predT c rfl, rd.succT z rfl, Option.bind_some]
    exact e
  | twoOptIntraReverse c r p m q hv hm hr =>
    subst hv
    obtain ⟨h', hb, henc⟩ := intraReverse_step h hm hr
    obtain ⟨s', e, hh⟩ := h.updateOne henc hperm.2 (hperm.1.trans h.part) (get_lt hr)
      (fun k hk => set_other k hk hk)
    refine ⟨s', ?_, hh⟩
    have hsu : s.heap.succ (.cust u) = some (headRef r m) := by
      have := h.enc.succ_cust (p := p) (c := u) (q := m ++ ([c] ++ q)) (by simpa using hr)
      rw [this, headRef_append hm]
    have hsv : s.heap.succ (.cust c) = some (headRef r q) :=
      h.enc.succ_cust (p := p ++ [u] ++ m) (q := q) (by simpa using hr)
    have hru : s.rt (.cust u) = some r := h.rt_cust hr (by simp)
    have hfl : LS.fuel ctx { s with moveCount := s.moveCount + 1 } = LS.fuel ctx s := rfl
    simp only [MoveKind.perform, Move.twoOptIntraReversePerform, hru, hsu, hsv, Option.bind_some, hfl,
      hb]
    exact e
  | twoOptInterReverse c r1 r2 p q p2 q2 hv hne h1 h2 =>
    subst hv
    obtain ⟨h', h'', hb, hb', henc⟩ := interReverse_step h hne h1 h2
    obtain ⟨s', e, hh⟩ := h.updateBoth henc hperm.2 (hperm.1.trans h.part) (get_lt h1) (get_lt h2) hne
      set_set_other
    refine ⟨s', ?_, hh⟩
    have hsu : s.heap.succ (.cust u) = some (headRef r1 q) :=
      h.enc.succ_cust (p := p) (q := q) (by simpa using h1)
    have hsv : s.heap.succ (.cust c) = some (headRef r2 q2) :=
      h.enc.succ_cust (p := p2) (q := q2) (by simpa using h2)
    have hru : s.rt (.cust u) = some r1 := h.rt_cust h1 (by simp)
    have hrv : s.rt (.cust c) = some r2 := h.rt_cust h2 (by simp)
    have hfl : LS.fuel ctx { s with moveCount := s.moveCount + 1 } = LS.fuel ctx s := rfl
    simp only [MoveKind.perform, Move.twoOptInterReversePerform, hru, hrv, hsu, hsv, Option.bind_some,
      hfl, hb, hb']
    exact e
  | twoOptInter r1 r2 p q p2 q2 hne h1 h2 hv =>
    subst hv
    obtain ⟨h', h'', hb, hb', henc⟩ := twoOptInter_step h hne h1 h2
    obtain ⟨s', e, hh⟩ := h.updateBoth henc hperm.2 (hperm.1.trans h.part) (get_lt h1) (get_lt h2) hne
      set_set_other
    refine ⟨s', ?_, hh⟩
    have hsu : s.heap.succ (.cust u) = some (headRef r1 q) :=
      h.enc.succ_cust (p := p) (q := q) (by simpa using h1)
    have hsv : s.heap.succ (lastRef r2 p2) = some (headRef r2 q2) := h.enc.succ_last h2
    have hru : s.rt (.cust u) = some r1 := h.rt_cust h1 (by simp)
    have hrv : s.rt (lastRef r2 p2) = some r2 := h.rt_last h2
    have hfl : LS.fuel ctx { s with moveCount := s.moveCount + 1 } = LS.fuel ctx s := rfl
    simp only [MoveKind.perform, Move.twoOptInterPerform, hru, hrv, hsu, hsv, Option.bind_some,
      hfl, hb, hb']
    exact e

end Verif
