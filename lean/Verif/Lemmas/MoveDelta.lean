import Verif.Lemmas.MovePerform

/-!
# `delta` of each move: it is defined, and it is zero unless the move has an effect
-/

namespace Verif
open F64 LS Spec

set_option linter.unusedSectionVars false

@[simp] theorem number_cust (c : ℕ) : (Ref.cust c).number = c := rfl
@[simp] theorem number_start (c : ℕ) : (Ref.start c).number = 0 := rfl
@[simp] theorem number_fin (c : ℕ) : (Ref.fin c).number = 0 := rfl

theorem number_ne {a : Ref} {c : ℕ} (h : a ≠ .cust c) (hc : c ≠ 0) : a.number ≠ c := by
  cases a with
  | cust n => simpa using h
  | start r => simpa using Ne.symm hc
  | fin r => simpa using Ne.symm hc

theorem isDepot_cust {c : ℕ} (hc : c ≠ 0) : (Ref.cust c).isDepot = false := by
  simp [Ref.isDepot, hc]
@[simp] theorem isDepot_fin (r : ℕ) : (Ref.fin r).isDepot = true := rfl
@[simp] theorem isDepot_start (r : ℕ) : (Ref.start r).isDepot = true := rfl

/-- The node `v` is a customer different from `u`, or the start depot of a route. -/
def Target (R : List (List ℕ)) (u : ℕ) (v : Ref) : Prop :=
  (∃ c, v = .cust c ∧ c ∈ R.flatten ∧ c ≠ u) ∨ ∃ r < R.length, v = .start r

theorem mem_flatten_split {R : List (List ℕ)} {u : ℕ} (h : u ∈ R.flatten) :
    ∃ (r : ℕ) (p q : List ℕ), R[r]? = some (p ++ u :: q) := by
  obtain ⟨l, hl, hu⟩ := List.mem_flatten.mp h
  obtain ⟨r, hr⟩ := List.mem_iff_getElem?.mp hl
  obtain ⟨p, q, rfl⟩ := List.append_of_mem hu
  exact ⟨r, p, q, hr⟩

theorem Target.split {R : List (List ℕ)} {u : ℕ} {v : Ref} (h : Target R u v) :
    v ≠ .cust u ∧ ∃ r p q, R[r]? = some (p ++ q) ∧ v = lastRef r p := by
  rcases h with ⟨c, rfl, hc, hne⟩ | ⟨r, hr, rfl⟩
  · obtain ⟨r, p, q, e⟩ := mem_flatten_split hc
    exact ⟨by simpa using hne, r, p ++ [c], q, by simpa using e, by simp⟩
  · exact ⟨by simp, r, [], R[r], by simp [List.getElem?_eq_getElem hr], rfl⟩

/-- The three relative positions of `u` and `v`. -/
theorem locate {R : List (List ℕ)} {u : ℕ} {v : Ref} (hu : u ∈ R.flatten) (hv : Target R u v) :
    (∃ r1 r2 p q p2 q2, r1 ≠ r2 ∧ R[r1]? = some (p ++ [u] ++ q) ∧ R[r2]? = some (p2 ++ q2) ∧
      v = lastRef r2 p2) ∨
    (∃ r p m q, m ≠ [] ∧ R[r]? = some (p ++ [u] ++ m ++ q) ∧ v = lastRef r m) ∨
    (∃ r p m q, R[r]? = some (p ++ m ++ [u] ++ q) ∧ v = lastRef r p) := by
  obtain ⟨r1, p, q, h1⟩ := mem_flatten_split hu
  obtain ⟨hvu, r2, p2, q2, h2, hv⟩ := hv.split
  by_cases e : r1 = r2
  · subst e
    rw [h1] at h2
    simp only [Option.some.injEq] at h2
    rcases List.append_eq_append_iff.mp h2 with ⟨a, ha, hb⟩ | ⟨a, ha, hb⟩
    · cases a with
      | nil =>
        simp at ha hb
        subst ha
        refine .inr (.inr ⟨r1, p2, [], q, ?_, hv⟩)
        simpa using h1
      | cons z a =>
        simp at hb
        obtain ⟨rfl, rfl⟩ := hb
        have ha0 : a ≠ [] := by
          rintro rfl
          rw [ha, lastRef_concat] at hv
          exact hvu hv
        refine .inr (.inl ⟨r1, p, a, q2, ha0, by simpa using h1, ?_⟩)
        rw [hv, ha, show p ++ u :: a = (p ++ [u]) ++ a by simp, lastRef_append ha0]
    · subst ha
      refine .inr (.inr ⟨r1, p2, a, q, ?_, hv⟩)
      simpa using h1
  · exact .inl ⟨r1, r2, p, q, p2, q2, e, by simpa using h1, h2, hv⟩

variable {α : Type} [F64 α]

theorem bind_some' {β γ : Type} (x : β) (f : β → Option γ) : (some x).bind f = f x := rfl

/-! ### Relocations -/

theorem Relocated.succ_pair {ctx : Ctx α} {s : LS α} {R R' : List (List ℕ)} (h : Repr ctx s R)
    {u w : ℕ} {S' : List ℕ} {v : Ref} (hr : Relocated R [u, w] S' v R') :
    s.heap.succ (.cust u) = some (.cust w) := by
  cases hr with
  | inter r1 r2 p q p2 q2 hne h1 h2 hv =>
    have := h.enc.succ_cust (p := p) (q := w :: q) (by simpa using h1)
    simpa using this
  | after r p m q hm h1 hv =>
    have := h.enc.succ_cust (p := p) (q := w :: (m ++ q)) (by simpa using h1)
    simpa using this
  | before r p m q hm h1 hv =>
    have := h.enc.succ_cust (p := p ++ m) (q := w :: q) (by simpa using h1)
    simpa using this

theorem Relocated.mem {R R' : List (List ℕ)} {S S' : List ℕ} {v : Ref} (hr : Relocated R S S' v R') :
    ∀ c ∈ S, c ∈ R.flatten := by
  intro c hc
  cases hr with
  | inter r1 r2 p q p2 q2 hne h1 h2 hv => exact mem_flatten_of_get h1 (by simp [hc])
  | after r p m q hm h1 hv => exact mem_flatten_of_get h1 (by simp [hc])
  | before r p m q hm h1 hv => exact mem_flatten_of_get h1 (by simp [hc])

theorem ReprOn.ne_zero {ctx : Ctx α} {s : LS α} {R : List (List ℕ)} (h : Repr ctx s R) {c : ℕ}
    (hc : c ∈ R.flatten) : c ≠ 0 := by
  have := h.part.mem_iff.mp hc; omega

/-- The value returned by `RelocateSingle::delta` when the move has an effect. -/
theorem relocateSingle_delta {ctx : Ctx α} {s : LS α} {R R' : List (List ℕ)} (h : Repr ctx s R)
    {u : ℕ} {v : Ref} (hr : Relocated R [u] [u] v R') {r1 r2 : ℕ} {a x y : Ref}
    (rd : RelocReads s [u] v r1 r2 a x y) :
    Move.relocateSingleDelta ctx s (.cust u) v = some (costDelta s r1 r2
      ((s.route r1).distance -. ctx.dist a.number u -. ctx.dist u x.number +. ctx.dist a.number x.number)
      (if r1 ≠ r2 then (s.route r1).overload +. F64.neg (ctx.demand u) else (s.route r1).overload)
      ((s.route r2).distance -. ctx.dist v.number y.number +. ctx.dist v.number u
        +. ctx.dist u y.number)
      (if r1 ≠ r2 then (s.route r2).overload +. ctx.demand u else (s.route r2).overload)) := by
  have hu := h.ne_zero (hr.mem u (by simp))
  simp only [Move.relocateSingleDelta, rd.pred u rfl, rd.succ u rfl, rd.succV, rd.rtS u (by simp), rd.rtV,
    Option.bind_some, number_cust]
  exact if_neg (number_ne (rd.yS u (by simp)) hu)

theorem relocateDouble_delta {ctx : Ctx α} {s : LS α} {R R' : List (List ℕ)} (h : Repr ctx s R)
    {u w : ℕ} {S' : List ℕ} {v : Ref} (hr : Relocated R [u, w] S' v R') {r1 r2 : ℕ} {a x y : Ref}
    (rd : RelocReads s [u, w] v r1 r2 a x y) :
    Move.relocateDoubleDelta ctx s (.cust u) v = some (costDelta s r1 r2
      ((s.route r1).distance -. ctx.dist a.number u -. ctx.dist u w
        -. ctx.dist w x.number +. ctx.dist a.number x.number)
      (if r1 ≠ r2 then (s.route r1).overload +. (F64.neg (ctx.demand u) -. ctx.demand w)
        else (s.route r1).overload)
      ((s.route r2).distance -. ctx.dist v.number y.number +. ctx.dist v.number u
        +. ctx.dist u w +. ctx.dist w y.number)
      (if r1 ≠ r2 then (s.route r2).overload +. (ctx.demand u +. ctx.demand w)
        else (s.route r2).overload)) := by
  have hu := h.ne_zero (hr.mem u (by simp))
  have hw := h.ne_zero (hr.mem w (by simp))
  simp only [Move.relocateDoubleDelta, rd.pred u rfl, hr.succ_pair h, rd.succ w rfl, rd.succV,
    rd.rtS u (by simp), rd.rtV, Option.bind_some, number_cust, isDepot_cust hw, Bool.false_eq_true,
    if_false]
  refine if_neg ?_
  rintro (e | e)
  · exact number_ne (rd.yS u (by simp)) hu e.symm
  · exact number_ne (rd.vS w (by simp)) hw e

theorem relocateDoubleReverse_delta {ctx : Ctx α} {s : LS α} {R R' : List (List ℕ)} (h : Repr ctx s R)
    {u w : ℕ} {S' : List ℕ} {v : Ref} (hr : Relocated R [u, w] S' v R') {r1 r2 : ℕ} {a x y : Ref}
    (rd : RelocReads s [u, w] v r1 r2 a x y) :
    Move.relocateDoubleReverseDelta ctx s (.cust u) v = some (costDelta s r1 r2
      ((s.route r1).distance -. ctx.dist a.number u -. ctx.dist u w
        -. ctx.dist w x.number +. ctx.dist a.number x.number)
      (if r1 ≠ r2 then (s.route r1).overload +. (F64.neg (ctx.demand u) -. ctx.demand w)
        else (s.route r1).overload)
      ((s.route r2).distance -. ctx.dist v.number y.number +. ctx.dist v.number w
        +. ctx.dist w u +. ctx.dist u y.number)
      (if r1 ≠ r2 then (s.route r2).overload +. (ctx.demand u +. ctx.demand w)
        else (s.route r2).overload)) := by
  have hu := h.ne_zero (hr.mem u (by simp))
  have hw := h.ne_zero (hr.mem w (by simp))
  simp only [Move.relocateDoubleReverseDelta, rd.pred u rfl, hr.succ_pair h, rd.succ w rfl, rd.succV,
    rd.rtS u (by simp), rd.rtV, Option.bind_some, number_cust, isDepot_cust hw, Bool.false_eq_true,
    if_false]
  refine if_neg ?_
  rintro (e | e)
  · exact number_ne (rd.yS u (by simp)) hu e.symm
  · exact number_ne (rd.vS w (by simp)) hw e

theorem relocateSingle_total {ctx : Ctx α} {s : LS α} {R : List (List ℕ)} (h : Repr ctx s R)
    {u : ℕ} {v : Ref} (hu : u ∈ R.flatten) (hv : Target R u v) :
    ∃ d, Move.relocateSingleDelta ctx s (.cust u) v = some d ∧
      (d = lit 0 ∨ ∃ R', MoveEffect R u v .relocateSingle R') := by
  have key : ∀ R', Relocated R [u] [u] v R' → ∃ d, Move.relocateSingleDelta ctx s (.cust u) v = some d ∧
      (d = lit 0 ∨ ∃ R', MoveEffect R u v .relocateSingle R') := by
    intro R' hr
    obtain ⟨r1, r2, a, x, y, rd, -⟩ := hr.step h (.refl _)
    exact ⟨_, relocateSingle_delta h hr rd, .inr ⟨R', .relocateSingle hr⟩⟩
  rcases locate hu hv with ⟨r1, r2, p, q, p2, q2, hne, h1, h2, rfl⟩ | ⟨r, p, m, q, hm, h1, rfl⟩ |
    ⟨r, p, m, q, h1, rfl⟩
  · exact key _ (.inter r1 r2 p q p2 q2 hne h1 h2 rfl)
  · exact key _ (.after r p m q hm h1 rfl)
  · by_cases hm : m = []
    · subst hm
      refine ⟨lit 0, ?_, .inl rfl⟩
      have h1' : R[r]? = some (p ++ u :: q) := by simpa using h1
      have hy := h.enc.succ_last (p := p) (q := u :: q) h1'
      simp only [Move.relocateSingleDelta, h.enc.pred_cust h1', h.enc.succ_cust h1', hy,
        h.rt_cust h1' (c := u) (by simp), h.rt_last h1', Option.bind_some, headRef_cons, if_true]
    · exact key _ (.before r p m q hm h1 rfl)

/-- The common part of the two double relocations. -/
theorem relocateTwo_total {R : List (List ℕ)} {u : ℕ} {v : Ref} (hu : u ∈ R.flatten)
    (hv : Target R u v) (S' : ℕ → List ℕ) :
    (∃ (r : ℕ) (p : List ℕ), R[r]? = some (p ++ [u])) ∨
    (∃ (w r : ℕ) (p q : List ℕ), R[r]? = some (p ++ u :: w :: q) ∧
      ((∃ R', Relocated R [u, w] (S' w) v R') ∨ v = .cust w ∨ v = lastRef r p)) := by
  rcases locate hu hv with ⟨r1, r2, p, q, p2, q2, hne, h1, h2, rfl⟩ | ⟨r, p, m, q, hm, h1, rfl⟩ |
    ⟨r, p, m, q, h1, rfl⟩
  · cases q with
    | nil => exact .inl ⟨r1, p, by simpa using h1⟩
    | cons w q =>
      exact .inr ⟨w, r1, p, q, by simpa using h1,
        .inl ⟨_, .inter r1 r2 p q p2 q2 hne (by simpa using h1) h2 rfl⟩⟩
  · cases m with
    | nil => exact absurd rfl hm
    | cons w m =>
      refine .inr ⟨w, r, p, m ++ q, by simpa using h1, ?_⟩
      by_cases hm0 : m = []
      · subst hm0; exact .inr (.inl (by simp))
      · refine .inl ⟨_, .after r p m q hm0 (by simpa using h1) ?_⟩
        rw [show w :: m = [w] ++ m from rfl, lastRef_append hm0]
  · cases q with
    | nil => exact .inl ⟨r, p ++ m, by simpa using h1⟩
    | cons w q =>
      refine .inr ⟨w, r, p ++ m, q, by simpa using h1, ?_⟩
      by_cases hm0 : m = []
      · subst hm0; exact .inr (.inr (by simp))
      · exact .inl ⟨_, .before r p m q hm0 (by simpa using h1) rfl⟩

theorem Target.reads {ctx : Ctx α} {s : LS α} {R : List (List ℕ)} (h : Repr ctx s R) {u : ℕ} {v : Ref}
    (hv : Target R u v) : ∃ r y, s.heap.succ v = some y ∧ s.rt v = some r := by
  obtain ⟨-, r, p, q, hr, rfl⟩ := hv.split
  exact ⟨r, _, h.enc.succ_last hr, h.rt_last hr⟩

theorem relocateDouble_total {ctx : Ctx α} {s : LS α} {R : List (List ℕ)} (h : Repr ctx s R)
    {u : ℕ} {v : Ref} (hu : u ∈ R.flatten) (hv : Target R u v) :
    ∃ d, Move.relocateDoubleDelta ctx s (.cust u) v = some d ∧
      (d = lit 0 ∨ ∃ R', MoveEffect R u v .relocateDouble R') := by
  rcases relocateTwo_total hu hv (fun w => [u, w]) with ⟨r, p, h1⟩ | ⟨w, r, p, q, h1, hc⟩
  · refine ⟨lit 0, ?_, .inl rfl⟩
    simp only [Move.relocateDoubleDelta, h.enc.pred_cust h1, h.enc.succ_cust h1, Option.bind_some,
      headRef_nil, isDepot_fin, if_true]
  · rcases hc with ⟨R', hr⟩ | hvw | hvp
    · obtain ⟨r1, r2, a, x, y, rd, -⟩ := hr.step h (.refl _)
      exact ⟨_, relocateDouble_delta h hr rd, .inr ⟨R', .relocateDouble w hr⟩⟩
    all_goals
      have hw := h.ne_zero (mem_flatten_of_get h1 (c := w) (by simp))
      have h1' : R[r]? = some ((p ++ [u]) ++ w :: q) := by simpa using h1
      refine ⟨lit 0, ?_, .inl rfl⟩
    · subst hvw
      obtain ⟨r', y, hy, hrt⟩ := hv.reads h
      simp only [Move.relocateDoubleDelta, h.enc.pred_cust h1, h.enc.succ_cust h1, Option.bind_some,
        headRef_cons, isDepot_cust hw, Bool.false_eq_true, if_false, h.enc.succ_cust h1', hrt,
        h.rt_cust h1 (c := u) (by simp), number_cust, or_true, if_true]
    · subst hvp
      simp only [Move.relocateDoubleDelta, h.enc.pred_cust h1, h.enc.succ_cust h1, Option.bind_some,
        headRef_cons, isDepot_cust hw, Bool.false_eq_true, if_false, h.enc.succ_cust h1',
        h.enc.succ_last h1, h.rt_last h1,
        h.rt_cust h1 (c := u) (by simp), number_cust, true_or, if_true]

theorem relocateDoubleReverse_total {ctx : Ctx α} {s : LS α} {R : List (List ℕ)} (h : Repr ctx s R)
    {u : ℕ} {v : Ref} (hu : u ∈ R.flatten) (hv : Target R u v) :
    ∃ d, Move.relocateDoubleReverseDelta ctx s (.cust u) v = some d ∧
      (d = lit 0 ∨ ∃ R', MoveEffect R u v .relocateDoubleReverse R') := by
  rcases relocateTwo_total hu hv (fun w => [w, u]) with ⟨r, p, h1⟩ | ⟨w, r, p, q, h1, hc⟩
  · refine ⟨lit 0, ?_, .inl rfl⟩
    simp only [Move.relocateDoubleReverseDelta, h.enc.pred_cust h1, h.enc.succ_cust h1,
      Option.bind_some, headRef_nil, isDepot_fin, if_true]
  · rcases hc with ⟨R', hr⟩ | hvw | hvp
    · obtain ⟨r1, r2, a, x, y, rd, -⟩ := hr.step h (.swap _ _ _)
      exact ⟨_, relocateDoubleReverse_delta h hr rd, .inr ⟨R', .relocateDoubleReverse w hr⟩⟩
    all_goals
      have hw := h.ne_zero (mem_flatten_of_get h1 (c := w) (by simp))
      have h1' : R[r]? = some ((p ++ [u]) ++ w :: q) := by simpa using h1
      refine ⟨lit 0, ?_, .inl rfl⟩
    · subst hvw
      obtain ⟨r', y, hy, hrt⟩ := hv.reads h
      simp only [Move.relocateDoubleReverseDelta, h.enc.pred_cust h1, h.enc.succ_cust h1,
        Option.bind_some, headRef_cons, isDepot_cust hw, Bool.false_eq_true, if_false,
        h.enc.succ_cust h1', hrt, h.rt_cust h1 (c := u) (by simp), number_cust, or_true, if_true]
    · subst hvp
      simp only [Move.relocateDoubleReverseDelta, h.enc.pred_cust h1, h.enc.succ_cust h1,
        Option.bind_some, headRef_cons, isDepot_cust hw, Bool.false_eq_true, if_false,
        h.enc.succ_cust h1', h.enc.succ_last h1, h.rt_last h1,
        h.rt_cust h1 (c := u) (by simp), number_cust, true_or, if_true]

/-! ### Swaps -/

theorem Swapped.mem {R R' : List (List ℕ)} {S T : List ℕ} (hr : Swapped R S T R') :
    (∀ c ∈ S, c ∈ R.flatten) ∧ ∀ c ∈ T, c ∈ R.flatten := by
  cases hr with
  | inter r1 r2 p q p2 q2 hne h1 h2 =>
    exact ⟨fun c hc => mem_flatten_of_get h1 (by simp [hc]),
      fun c hc => mem_flatten_of_get h2 (by simp [hc])⟩
  | fwd r p m q hm h1 =>
    exact ⟨fun c hc => mem_flatten_of_get h1 (by simp [hc]),
      fun c hc => mem_flatten_of_get h1 (by simp [hc])⟩
  | bwd r p m q hm h1 =>
    exact ⟨fun c hc => mem_flatten_of_get h1 (by simp [hc]),
      fun c hc => mem_flatten_of_get h1 (by simp [hc])⟩

theorem Swapped.succ_pair {ctx : Ctx α} {s : LS α} {R R' : List (List ℕ)} (h : Repr ctx s R)
    {u w : ℕ} {T : List ℕ} (hr : Swapped R [u, w] T R') :
    s.heap.succ (.cust u) = some (.cust w) := by
  cases hr with
  | inter r1 r2 p q p2 q2 hne h1 h2 =>
    have := h.enc.succ_cust (p := p) (q := w :: q) (by simpa using h1)
    simpa using this
  | fwd r p m q hm h1 =>
    have := h.enc.succ_cust (p := p) (q := w :: (m ++ T ++ q)) (by simpa using h1)
    simpa using this
  | bwd r p m q hm h1 =>
    have := h.enc.succ_cust (p := p ++ T ++ m) (q := w :: q) (by simpa using h1)
    simpa using this

theorem Swapped.succ_pair' {ctx : Ctx α} {s : LS α} {R R' : List (List ℕ)} (h : Repr ctx s R)
    {c z : ℕ} {S : List ℕ} (hr : Swapped R S [c, z] R') :
    s.heap.succ (.cust c) = some (.cust z) := by
  cases hr with
  | inter r1 r2 p q p2 q2 hne h1 h2 =>
    have := h.enc.succ_cust (p := p2) (q := z :: q2) (by simpa using h2)
    simpa using this
  | fwd r p m q hm h1 =>
    have := h.enc.succ_cust (p := p ++ S ++ m) (q := z :: q) (by simpa using h1)
    simpa using this
  | bwd r p m q hm h1 =>
    have := h.enc.succ_cust (p := p) (q := z :: (m ++ S ++ q)) (by simpa using h1)
    simpa using this

theorem swapOne_delta {ctx : Ctx α} {s : LS α} {R R' : List (List ℕ)} (h : Repr ctx s R)
    {u c : ℕ} (hr : Swapped R [u] [c] R') {r1 r2 : ℕ} {a x cp y : Ref}
    (rd : SwapReads s [u] [c] r1 r2 a x cp y) :
    Move.swapOneWithOneDelta ctx s (.cust u) (.cust c) = some (costDelta s r1 r2
      ((s.route r1).distance -. ctx.dist a.number u -. ctx.dist u x.number
        +. ctx.dist a.number c +. ctx.dist c x.number)
      (if r1 ≠ r2 then (s.route r1).overload +. (F64.neg (ctx.demand u) +. ctx.demand c)
        else (s.route r1).overload)
      ((s.route r2).distance -. ctx.dist cp.number c -. ctx.dist c y.number
        +. ctx.dist cp.number u +. ctx.dist u y.number)
      (if r1 ≠ r2 then (s.route r2).overload +. (ctx.demand u -. ctx.demand c)
        else (s.route r2).overload)) := by
  have hu := h.ne_zero (hr.mem.1 u (by simp))
  simp only [Move.swapOneWithOneDelta, rd.pred u rfl, rd.succ u rfl, rd.predT c rfl, rd.succT c rfl,
    rd.rtS u (by simp), rd.rtT c (by simp), Option.bind_some, number_cust]
  refine if_neg ?_
  rintro (e | e)
  · exact number_ne (rd.yS u (by simp)) hu e.symm
  · exact number_ne (rd.cS u (by simp)) hu e.symm

theorem swapTwoOne_delta {ctx : Ctx α} {s : LS α} {R R' : List (List ℕ)} (h : Repr ctx s R)
    {u w c : ℕ} (hr : Swapped R [u, w] [c] R') {r1 r2 : ℕ} {a x cp y : Ref}
    (rd : SwapReads s [u, w] [c] r1 r2 a x cp y) :
    Move.swapTwoWithOneDelta ctx s (.cust u) (.cust c) = some (costDelta s r1 r2
      ((s.route r1).distance -. ctx.dist a.number u -. ctx.dist u w
        -. ctx.dist w x.number +. ctx.dist a.number c +. ctx.dist c x.number)
      (if r1 ≠ r2 then (s.route r1).overload +.
          (F64.neg (ctx.demand u) -. ctx.demand w +. ctx.demand c)
        else (s.route r1).overload)
      ((s.route r2).distance -. ctx.dist cp.number c -. ctx.dist c y.number
        +. ctx.dist cp.number u +. ctx.dist u w +. ctx.dist w y.number)
      (if r1 ≠ r2 then (s.route r2).overload +. (ctx.demand u +. ctx.demand w -. ctx.demand c)
        else (s.route r2).overload)) := by
  have hu := h.ne_zero (hr.mem.1 u (by simp))
  have hw := h.ne_zero (hr.mem.1 w (by simp))
  simp only [Move.swapTwoWithOneDelta, rd.pred u rfl, hr.succ_pair h, rd.succ w rfl, rd.predT c rfl,
    rd.succT c rfl, isDepot_cust hw, Bool.false_eq_true, if_false,
    rd.rtS u (by simp), rd.rtT c (by simp), Option.bind_some, number_cust]
  refine if_neg ?_
  rintro (e | e | e)
  · exact number_ne (rd.cS u (by simp)) hu e.symm
  · exact number_ne (rd.cS w (by simp)) hw e.symm
  · exact number_ne (rd.yS u (by simp)) hu e.symm

theorem swapTwoTwo_delta {ctx : Ctx α} {s : LS α} {R R' : List (List ℕ)} (h : Repr ctx s R)
    {u w c z : ℕ} (hr : Swapped R [u, w] [c, z] R') {r1 r2 : ℕ} {a x cp y : Ref}
    (rd : SwapReads s [u, w] [c, z] r1 r2 a x cp y) :
    Move.swapTwoWithTwoDelta ctx s (.cust u) (.cust c) = some (costDelta s r1 r2
      ((s.route r1).distance -. ctx.dist a.number u -. ctx.dist u w
        -. ctx.dist w x.number +. ctx.dist a.number c +. ctx.dist c z +. ctx.dist z x.number)
      (if r1 ≠ r2 then (s.route r1).overload +.
          (F64.neg (ctx.demand u) -. ctx.demand w +. ctx.demand c +. ctx.demand z)
        else (s.route r1).overload)
      ((s.route r2).distance -. ctx.dist cp.number c -. ctx.dist c z -. ctx.dist z y.number
        +. ctx.dist cp.number u +. ctx.dist u w +. ctx.dist w y.number)
      (if r1 ≠ r2 then (s.route r2).overload +.
          (ctx.demand u +. ctx.demand w -. ctx.demand c -. ctx.demand z)
        else (s.route r2).overload)) := by
  have hu := h.ne_zero (hr.mem.1 u (by simp))
  have hw := h.ne_zero (hr.mem.1 w (by simp))
  have hc := h.ne_zero (hr.mem.2 c (by simp))
  have hz := h.ne_zero (hr.mem.2 z (by simp))
  have hd1 := rd.disj u (by simp)
  have hd2 := rd.disj w (by simp)
  simp only [List.mem_cons, List.not_mem_nil, or_false, not_or] at hd1 hd2
  simp only [Move.swapTwoWithTwoDelta, rd.pred u rfl, hr.succ_pair h, rd.succ w rfl, rd.predT c rfl,
    hr.succ_pair' h, rd.succT z rfl, isDepot_cust hw, isDepot_cust hz, Bool.false_eq_true, if_false,
    rd.rtS u (by simp), rd.rtT c (by simp), Option.bind_some, number_cust]
  refine if_neg ?_
  rintro (e | e | e | e)
  · exact hd1.2 e
  · exact hd2.1 e.symm
  · exact number_ne (rd.aT z (by simp)) hz e.symm
  · exact number_ne (rd.xT c (by simp)) hc e.symm

/-- The relative positions of two customers. -/
theorem locate_cust {R : List (List ℕ)} {u c : ℕ} (hu : u ∈ R.flatten) (hc : c ∈ R.flatten)
    (hne : c ≠ u) :
    (∃ (r1 r2 : ℕ) (p q p2 q2 : List ℕ), r1 ≠ r2 ∧ R[r1]? = some (p ++ [u] ++ q) ∧
      R[r2]? = some (p2 ++ [c] ++ q2)) ∨
    (∃ (r : ℕ) (p m q : List ℕ), R[r]? = some (p ++ [u] ++ m ++ [c] ++ q)) ∨
    (∃ (r : ℕ) (p m q : List ℕ), R[r]? = some (p ++ [c] ++ m ++ [u] ++ q)) := by
  have hlast : ∀ r p, Ref.cust c = lastRef r p → ∃ p', p = p' ++ [c] := by
    intro r p e
    rcases List.eq_nil_or_concat p with rfl | ⟨p', d, rfl⟩
    · simp at e
    · rw [List.concat_eq_append, lastRef_concat] at e
      exact ⟨p', by simp at e; simp [e]⟩
  rcases locate hu (.inl ⟨c, rfl, hc, hne⟩) with ⟨r1, r2, p, q, p2, q2, hn, h1, h2, hv⟩ |
    ⟨r, p, m, q, hm, h1, hv⟩ | ⟨r, p, m, q, h1, hv⟩
  · obtain ⟨p', rfl⟩ := hlast _ _ hv
    exact .inl ⟨r1, r2, p, q, p', q2, hn, h1, h2⟩
  · obtain ⟨m', rfl⟩ := hlast _ _ hv
    exact .inr (.inl ⟨r, p, m', q, by simpa using h1⟩)
  · obtain ⟨p', rfl⟩ := hlast _ _ hv
    exact .inr (.inr ⟨r, p', m, q, h1⟩)

theorem swapOne_total {ctx : Ctx α} {s : LS α} {R : List (List ℕ)} (h : Repr ctx s R)
    {u c : ℕ} (hu : u ∈ R.flatten) (hc : c ∈ R.flatten) (hne : c ≠ u) :
    ∃ d, Move.swapOneWithOneDelta ctx s (.cust u) (.cust c) = some d ∧
      (d = lit 0 ∨ ∃ R', MoveEffect R u (.cust c) .swapOneWithOne R') := by
  have key : ∀ R', Swapped R [u] [c] R' →
      ∃ d, Move.swapOneWithOneDelta ctx s (.cust u) (.cust c) = some d ∧
      (d = lit 0 ∨ ∃ R', MoveEffect R u (.cust c) .swapOneWithOne R') := by
    intro R' hr
    obtain ⟨r1, r2, a, x, cp, y, rd, -⟩ := hr.step h
    exact ⟨_, swapOne_delta h hr rd, .inr ⟨R', .swapOneWithOne c rfl hr⟩⟩
  rcases locate_cust hu hc hne with ⟨r1, r2, p, q, p2, q2, hn, h1, h2⟩ | ⟨r, p, m, q, h1⟩ |
    ⟨r, p, m, q, h1⟩
  · exact key _ (.inter r1 r2 p q p2 q2 hn h1 h2)
  · by_cases hm : m = []
    · subst hm
      refine ⟨lit 0, ?_, .inl rfl⟩
      have e1 : R[r]? = some (p ++ u :: (c :: q)) := by simpa using h1
      have e2 : R[r]? = some ((p ++ [u]) ++ c :: q) := by simpa using h1
      simp only [Move.swapOneWithOneDelta, h.enc.pred_cust e1, h.enc.succ_cust e1,
        h.enc.pred_cust e2, h.enc.succ_cust e2, h.rt_cust e1 (c := u) (by simp),
        h.rt_cust e1 (c := c) (by simp), Option.bind_some, lastRef_concat, number_cust, or_true,
        if_true]
    · exact key _ (.fwd r p m q hm h1)
  · by_cases hm : m = []
    · subst hm
      refine ⟨lit 0, ?_, .inl rfl⟩
      have e1 : R[r]? = some (p ++ c :: (u :: q)) := by simpa using h1
      have e2 : R[r]? = some ((p ++ [c]) ++ u :: q) := by simpa using h1
      simp only [Move.swapOneWithOneDelta, h.enc.pred_cust e1, h.enc.succ_cust e1,
        h.enc.pred_cust e2, h.enc.succ_cust e2, h.rt_cust e1 (c := u) (by simp),
        h.rt_cust e1 (c := c) (by simp), Option.bind_some, headRef_cons, number_cust, true_or,
        if_true]
    · exact key _ (.bwd r p m q hm h1)

theorem swapTwoOne_total {ctx : Ctx α} {s : LS α} {R : List (List ℕ)} (h : Repr ctx s R)
    {u c : ℕ} (hu : u ∈ R.flatten) (hc : c ∈ R.flatten) (hne : c ≠ u) :
    ∃ d, Move.swapTwoWithOneDelta ctx s (.cust u) (.cust c) = some d ∧
      (d = lit 0 ∨ ∃ R', MoveEffect R u (.cust c) .swapTwoWithOne R') := by
  have key : ∀ w R', Swapped R [u, w] [c] R' →
      ∃ d, Move.swapTwoWithOneDelta ctx s (.cust u) (.cust c) = some d ∧
      (d = lit 0 ∨ ∃ R', MoveEffect R u (.cust c) .swapTwoWithOne R') := by
    intro w R' hr
    obtain ⟨r1, r2, a, x, cp, y, rd, -⟩ := hr.step h
    exact ⟨_, swapTwoOne_delta h hr rd, .inr ⟨R', .swapTwoWithOne c w rfl hr⟩⟩
  have keyFin : ∀ (r : ℕ) (p : List ℕ), R[r]? = some (p ++ [u]) →
      ∃ d, Move.swapTwoWithOneDelta ctx s (.cust u) (.cust c) = some d ∧
      (d = lit 0 ∨ ∃ R', MoveEffect R u (.cust c) .swapTwoWithOne R') := by
    intro r p e
    refine ⟨lit 0, ?_, .inl rfl⟩
    simp only [Move.swapTwoWithOneDelta, h.enc.pred_cust e, h.enc.succ_cust e, Option.bind_some,
      headRef_nil, isDepot_fin, if_true]
  rcases locate_cust hu hc hne with ⟨r1, r2, p, q, p2, q2, hn, h1, h2⟩ | ⟨r, p, m, q, h1⟩ |
    ⟨r, p, m, q, h1⟩
  · cases q with
    | nil => exact keyFin r1 p (by simpa using h1)
    | cons w q => exact key w _ (.inter r1 r2 p q p2 q2 hn (by simpa using h1) h2)
  · have hc0 := h.ne_zero hc
    cases m with
    | nil =>
      refine ⟨lit 0, ?_, .inl rfl⟩
      have e1 : R[r]? = some (p ++ u :: (c :: q)) := by simpa using h1
      have e2 : R[r]? = some ((p ++ [u]) ++ c :: q) := by simpa using h1
      simp only [Move.swapTwoWithOneDelta, h.enc.pred_cust e1, h.enc.succ_cust e1,
        h.enc.pred_cust e2, h.enc.succ_cust e2, h.rt_cust e1 (c := u) (by simp),
        h.rt_cust e1 (c := c) (by simp), Option.bind_some, lastRef_concat, headRef_cons, number_cust,
        true_or, isDepot_cust hc0, Bool.false_eq_true, if_false, if_true]
    | cons w m =>
      have hw0 := h.ne_zero (mem_flatten_of_get h1 (c := w) (by simp))
      by_cases hm : m = []
      · subst hm
        refine ⟨lit 0, ?_, .inl rfl⟩
        have e1 : R[r]? = some (p ++ u :: (w :: c :: q)) := by simpa using h1
        have e2 : R[r]? = some ((p ++ [u]) ++ w :: (c :: q)) := by simpa using h1
        have e3 : R[r]? = some ((p ++ [u] ++ [w]) ++ c :: q) := by simpa using h1
        simp only [Move.swapTwoWithOneDelta, h.enc.pred_cust e1, h.enc.succ_cust e1,
          h.enc.succ_cust e2, h.enc.pred_cust e3, h.enc.succ_cust e3,
          h.rt_cust e1 (c := u) (by simp), h.rt_cust e1 (c := c) (by simp), Option.bind_some,
          lastRef_concat, headRef_cons, number_cust, or_true, true_or, isDepot_cust hw0,
          Bool.false_eq_true, if_false, if_true]
      · exact key w _ (.fwd r p m q hm (by simpa using h1))
  · cases q with
    | nil => exact keyFin r (p ++ [c] ++ m) (by simpa using h1)
    | cons w q =>
      have hw0 := h.ne_zero (mem_flatten_of_get h1 (c := w) (by simp))
      by_cases hm : m = []
      · subst hm
        refine ⟨lit 0, ?_, .inl rfl⟩
        have e1 : R[r]? = some (p ++ c :: (u :: w :: q)) := by simpa using h1
        have e2 : R[r]? = some ((p ++ [c]) ++ u :: (w :: q)) := by simpa using h1
        have e3 : R[r]? = some ((p ++ [c] ++ [u]) ++ w :: q) := by simpa using h1
        simp only [Move.swapTwoWithOneDelta, h.enc.pred_cust e1, h.enc.succ_cust e1,
          h.enc.pred_cust e2, h.enc.succ_cust e2, h.enc.succ_cust e3,
          h.rt_cust e1 (c := u) (by simp), h.rt_cust e1 (c := c) (by simp), Option.bind_some,
          headRef_cons, number_cust, or_true, isDepot_cust hw0, Bool.false_eq_true, if_false, if_true]
      · exact key w _ (.bwd r p m q hm (by simpa using h1))

theorem swapTwoTwo_total {ctx : Ctx α} {s : LS α} {R : List (List ℕ)} (h : Repr ctx s R)
    {u c : ℕ} (hu : u ∈ R.flatten) (hc : c ∈ R.flatten) (hne : c ≠ u) :
    ∃ d, Move.swapTwoWithTwoDelta ctx s (.cust u) (.cust c) = some d ∧
      (d = lit 0 ∨ ∃ R', MoveEffect R u (.cust c) .swapTwoWithTwo R') := by
  have key : ∀ w z R', Swapped R [u, w] [c, z] R' →
      ∃ d, Move.swapTwoWithTwoDelta ctx s (.cust u) (.cust c) = some d ∧
      (d = lit 0 ∨ ∃ R', MoveEffect R u (.cust c) .swapTwoWithTwo R') := by
    intro w z R' hr
    obtain ⟨r1, r2, a, x, cp, y, rd, -⟩ := hr.step h
    exact ⟨_, swapTwoTwo_delta h hr rd, .inr ⟨R', .swapTwoWithTwo c w z rfl hr⟩⟩
  have keyFin : ∀ (r : ℕ) (p : List ℕ), R[r]? = some (p ++ [u]) →
      ∃ d, Move.swapTwoWithTwoDelta ctx s (.cust u) (.cust c) = some d ∧
      (d = lit 0 ∨ ∃ R', MoveEffect R u (.cust c) .swapTwoWithTwo R') := by
    intro r p e
    refine ⟨lit 0, ?_, .inl rfl⟩
    simp only [Move.swapTwoWithTwoDelta, h.enc.pred_cust e, h.enc.succ_cust e, Option.bind_some,
      headRef_nil, isDepot_fin, if_true]
  have keyFin2 : ∀ (r : ℕ) (p : List ℕ) (w : ℕ) (q : List ℕ) (r' : ℕ) (p' : List ℕ), R[r]? = some (p ++ u :: w :: q) → R[r']? = some (p' ++ [c]) →
      ∃ d, Move.swapTwoWithTwoDelta ctx s (.cust u) (.cust c) = some d ∧
      (d = lit 0 ∨ ∃ R', MoveEffect R u (.cust c) .swapTwoWithTwo R') := by
    intro r p w q r' p' e e'
    refine ⟨lit 0, ?_, .inl rfl⟩
    have hw0 := h.ne_zero (mem_flatten_of_get e (c := w) (by simp))
    have e2 : R[r]? = some ((p ++ [u]) ++ w :: q) := by simpa using e
    simp only [Move.swapTwoWithTwoDelta, h.enc.pred_cust e, h.enc.succ_cust e, h.enc.succ_cust e2,
      h.enc.pred_cust e', h.enc.succ_cust e', Option.bind_some, headRef_cons, isDepot_cust hw0,
      Bool.false_eq_true, if_false, headRef_nil, isDepot_fin, if_true]
  rcases locate_cust hu hc hne with ⟨r1, r2, p, q, p2, q2, hn, h1, h2⟩ | ⟨r, p, m, q, h1⟩ |
    ⟨r, p, m, q, h1⟩
  · cases q with
    | nil => exact keyFin r1 p (by simpa using h1)
    | cons w q =>
      cases q2 with
      | nil => exact keyFin2 r1 p w q r2 p2 (by simpa using h1) (by simpa using h2)
      | cons z q2 => exact key w z _ (.inter r1 r2 p q p2 q2 hn (by simpa using h1) (by simpa using h2))
  · have hc0 := h.ne_zero hc
    cases m with
    | nil =>
      cases q with
      | nil => exact keyFin2 r p c [] r (p ++ [u]) (by simpa using h1) (by simpa using h1)
      | cons z q =>
        refine ⟨lit 0, ?_, .inl rfl⟩
        have hz0 := h.ne_zero (mem_flatten_of_get h1 (c := z) (by simp))
        have e1 : R[r]? = some (p ++ u :: (c :: z :: q)) := by simpa using h1
        have e2 : R[r]? = some ((p ++ [u]) ++ c :: (z :: q)) := by simpa using h1
        have e3 : R[r]? = some ((p ++ [u] ++ [c]) ++ z :: q) := by simpa using h1
        simp only [Move.swapTwoWithTwoDelta, h.enc.pred_cust e1, h.enc.succ_cust e1,
          h.enc.pred_cust e2, h.enc.succ_cust e2, h.enc.succ_cust e3, h.rt_cust e1 (c := u) (by simp),
          h.rt_cust e1 (c := c) (by simp), Option.bind_some, headRef_cons, number_cust,
          true_or, or_true, isDepot_cust hc0, isDepot_cust hz0, Bool.false_eq_true, if_false, if_true]
    | cons w m =>
      have hw0 := h.ne_zero (mem_flatten_of_get h1 (c := w) (by simp))
      cases q with
      | nil => exact keyFin2 r p w (m ++ [c]) r (p ++ [u] ++ w :: m) (by simpa using h1) (by simpa using h1)
      | cons z q =>
        have hz0 := h.ne_zero (mem_flatten_of_get h1 (c := z) (by simp))
        by_cases hm : m = []
        · subst hm
          refine ⟨lit 0, ?_, .inl rfl⟩
          have e1 : R[r]? = some (p ++ u :: (w :: c :: z :: q)) := by simpa using h1
          have e2 : R[r]? = some ((p ++ [u]) ++ w :: (c :: z :: q)) := by simpa using h1
          have e3 : R[r]? = some ((p ++ [u] ++ [w]) ++ c :: z :: q) := by simpa using h1
          have e4 : R[r]? = some ((p ++ [u] ++ [w] ++ [c]) ++ z :: q) := by simpa using h1
          simp only [Move.swapTwoWithTwoDelta, h.enc.pred_cust e1, h.enc.succ_cust e1,
            h.enc.succ_cust e2, h.enc.pred_cust e3, h.enc.succ_cust e3, h.enc.succ_cust e4,
            h.rt_cust e1 (c := u) (by simp), h.rt_cust e1 (c := c) (by simp), Option.bind_some,
            headRef_cons, number_cust, or_true, isDepot_cust hw0, isDepot_cust hz0,
            Bool.false_eq_true, if_false, if_true]
        · exact key w z _ (.fwd r p m q hm (by simpa using h1))
  · cases q with
    | nil => exact keyFin r (p ++ [c] ++ m) (by simpa using h1)
    | cons w q =>
      have hw0 := h.ne_zero (mem_flatten_of_get h1 (c := w) (by simp))
      have hu0 := h.ne_zero hu
      cases m with
      | nil =>
        refine ⟨lit 0, ?_, .inl rfl⟩
        have e1 : R[r]? = some (p ++ c :: (u :: w :: q)) := by simpa using h1
        have e2 : R[r]? = some ((p ++ [c]) ++ u :: (w :: q)) := by simpa using h1
        have e3 : R[r]? = some ((p ++ [c] ++ [u]) ++ w :: q) := by simpa using h1
        simp only [Move.swapTwoWithTwoDelta, h.enc.pred_cust e1, h.enc.succ_cust e1,
          h.enc.pred_cust e2, h.enc.succ_cust e2, h.enc.succ_cust e3,
          h.rt_cust e1 (c := u) (by simp), h.rt_cust e1 (c := c) (by simp), Option.bind_some,
          headRef_cons, number_cust, true_or, isDepot_cust hw0, isDepot_cust hu0,
          Bool.false_eq_true, if_false, if_true]
      | cons z m =>
        have hz0 := h.ne_zero (mem_flatten_of_get h1 (c := z) (by simp))
        by_cases hm : m = []
        · subst hm
          refine ⟨lit 0, ?_, .inl rfl⟩
          have e1 : R[r]? = some (p ++ c :: (z :: u :: w :: q)) := by simpa using h1
          have e2 : R[r]? = some ((p ++ [c]) ++ z :: (u :: w :: q)) := by simpa using h1
          have e3 : R[r]? = some ((p ++ [c] ++ [z]) ++ u :: (w :: q)) := by simpa using h1
          have e4 : R[r]? = some ((p ++ [c] ++ [z] ++ [u]) ++ w :: q) := by simpa using h1
          simp only [Move.swapTwoWithTwoDelta, h.enc.pred_cust e1, h.enc.succ_cust e1,
            h.enc.succ_cust e2, h.enc.pred_cust e3, h.enc.succ_cust e3, h.enc.succ_cust e4,
            h.rt_cust e1 (c := u) (by simp), h.rt_cust e1 (c := c) (by simp), Option.bind_some,
            headRef_cons, lastRef_concat, number_cust, true_or, or_true, isDepot_cust hw0,
            isDepot_cust hz0, Bool.false_eq_true, if_false, if_true]
        · exact key w z _ (.bwd r p m q hm (by simpa using h1))

/-! ### 2-opt -/

theorem node_pos {ctx : Ctx α} {s : LS α} {R : List (List ℕ)} (h : Repr ctx s R) {r c : ℕ}
    {p q : List ℕ} (hr : R[r]? = some (p ++ c :: q)) : s.pos (.cust c) = p.length + 1 := by
  have := ((h.data r _ trivial hr).node (p.map Ref.cust) (.cust c) (q.map Ref.cust ++ [Ref.fin r])
    (by simp)).1
  simpa using this

theorem twoOptIntraReverse_delta {ctx : Ctx α} {s : LS α} {R : List (List ℕ)} (h : Repr ctx s R)
    {r u c : ℕ} {p m q : List ℕ} (hm : m ≠ []) (hr : R[r]? = some (p ++ [u] ++ (m ++ [c]) ++ q)) :
    Move.twoOptIntraReverseDelta ctx s (.cust u) (.cust c) =
      some (F64.neg (ctx.dist u (headRef r m).number) -. ctx.dist c (headRef r q).number
      +. ctx.dist u c +. ctx.dist (headRef r m).number (headRef r q).number) := by
  have e1 : R[r]? = some (p ++ u :: (m ++ ([c] ++ q))) := by simpa using hr
  have e2 : R[r]? = some ((p ++ [u] ++ m) ++ c :: q) := by simpa using hr
  have hnd := part_nodup h.part hr
  have hc0 := h.ne_zero (mem_flatten_of_get hr (c := c) (by simp))
  have hx : headRef r m ≠ .cust c := headRef_ne_cust fun hc => by
    simp only [List.nodup_append] at hnd
    exact hnd.1.2.1.2.2 c hc c (by simp) rfl
  have hs1 := h.enc.succ_cust e1
  rw [headRef_append hm] at hs1
  simp only [Move.twoOptIntraReverseDelta, hs1, h.enc.succ_cust e2,
    h.rt_cust e1 (c := u) (by simp), h.rt_cust e1 (c := c) (by simp), Option.bind_some, number_cust,
    node_pos h e1, node_pos h e2]
  rw [if_neg (by simp), if_neg]
  rintro (e | e)
  · simp at e
  · exact number_ne hx hc0 e

theorem twoOptIntraReverse_total {ctx : Ctx α} {s : LS α} {R : List (List ℕ)} (h : Repr ctx s R)
    {u c : ℕ} (hu : u ∈ R.flatten) (hc : c ∈ R.flatten) (hne : c ≠ u) :
    ∃ d, Move.twoOptIntraReverseDelta ctx s (.cust u) (.cust c) = some d ∧
      (d = lit 0 ∨ ∃ R', MoveEffect R u (.cust c) .twoOptIntraReverse R') := by
  rcases locate_cust hu hc hne with ⟨r1, r2, p, q, p2, q2, hn, h1, h2⟩ | ⟨r, p, m, q, h1⟩ |
    ⟨r, p, m, q, h1⟩
  · refine ⟨lit 0, ?_, .inl rfl⟩
    simp only [Move.twoOptIntraReverseDelta, h.rt_cust h1 (c := u) (by simp),
      h.rt_cust h2 (c := c) (by simp), Option.bind_some]
    rw [if_pos hn]
  · by_cases hm : m = []
    · subst hm
      refine ⟨lit 0, ?_, .inl rfl⟩
      have e1 : R[r]? = some (p ++ u :: (c :: q)) := by simpa using h1
      have e2 : R[r]? = some ((p ++ [u]) ++ c :: q) := by simpa using h1
      simp only [Move.twoOptIntraReverseDelta, h.enc.succ_cust e1, h.enc.succ_cust e2,
        h.rt_cust e1 (c := u) (by simp), h.rt_cust e1 (c := c) (by simp), Option.bind_some,
        headRef_cons, number_cust, or_true, if_true]
      rw [if_neg (by simp)]
    · have h1' : R[r]? = some (p ++ [u] ++ (m ++ [c]) ++ q) := by simpa using h1
      exact ⟨_, twoOptIntraReverse_delta h hm h1',
        .inr ⟨_, .twoOptIntraReverse c r p m q rfl hm h1'⟩⟩
  · refine ⟨lit 0, ?_, .inl rfl⟩
    have e1 : R[r]? = some (p ++ c :: (m ++ [u] ++ q)) := by simpa using h1
    have e2 : R[r]? = some ((p ++ [c] ++ m) ++ u :: q) := by simpa using h1
    simp only [Move.twoOptIntraReverseDelta, h.enc.succ_cust e1, h.enc.succ_cust e2,
      h.rt_cust e1 (c := u) (by simp), h.rt_cust e1 (c := c) (by simp), Option.bind_some,
      number_cust, node_pos h e1, node_pos h e2]
    rw [if_neg (by simp), if_pos (.inl (by simp))]

theorem twoOptInterReverse_delta {ctx : Ctx α} {s : LS α} {R : List (List ℕ)} (h : Repr ctx s R)
    {r1 r2 u c : ℕ} {p q p2 q2 : List ℕ} (hne : r1 ≠ r2) (h1 : R[r1]? = some (p ++ [u] ++ q))
    (h2 : R[r2]? = some (p2 ++ [c] ++ q2)) :
    Move.twoOptInterReverseDelta ctx s (.cust u) (.cust c) = some (costDelta s r1 r2
      (s.cumD (.cust u) +. s.cumD (.cust c) +. ctx.dist u c)
      (s.cumL (.cust u) +. s.cumL (.cust c) -. ctx.cap)
      ((s.route r1).distance -. s.cumD (headRef r1 q) +. (s.route r2).distance -. s.cumD (headRef r2 q2)
        +. ctx.dist (headRef r1 q).number (headRef r2 q2).number)
      ((s.route r1).load -. s.cumL (.cust u) +. (s.route r2).load -. s.cumL (.cust c) -. ctx.cap)) := by
  have e1 : R[r1]? = some (p ++ u :: q) := by simpa using h1
  have e2 : R[r2]? = some (p2 ++ c :: q2) := by simpa using h2
  simp only [Move.twoOptInterReverseDelta, h.enc.succ_cust e1, h.enc.succ_cust e2,
    h.rt_cust e1 (c := u) (by simp), h.rt_cust e2 (c := c) (by simp), Option.bind_some, number_cust,
    if_neg hne]

theorem twoOptInter_delta {ctx : Ctx α} {s : LS α} {R : List (List ℕ)} (h : Repr ctx s R)
    {r1 r2 u : ℕ} {p q p2 q2 : List ℕ} (hne : r1 ≠ r2) (h1 : R[r1]? = some (p ++ [u] ++ q))
    (h2 : R[r2]? = some (p2 ++ q2)) :
    Move.twoOptInterDelta ctx s (.cust u) (lastRef r2 p2) = some (costDelta s r1 r2
      (s.cumD (.cust u) +. (s.route r2).distance -. s.cumD (headRef r2 q2)
        +. ctx.dist u (headRef r2 q2).number)
      (s.cumL (.cust u) +. (s.route r2).load -. s.cumL (lastRef r2 p2) -. ctx.cap)
      (s.cumD (lastRef r2 p2) +. (s.route r1).distance -. s.cumD (headRef r1 q)
        +. ctx.dist (lastRef r2 p2).number (headRef r1 q).number)
      (s.cumL (lastRef r2 p2) +. (s.route r1).load -. s.cumL (.cust u) -. ctx.cap)) := by
  have e1 : R[r1]? = some (p ++ u :: q) := by simpa using h1
  simp only [Move.twoOptInterDelta, h.enc.succ_cust e1, h.enc.succ_last h2,
    h.rt_cust e1 (c := u) (by simp), h.rt_last h2, Option.bind_some, number_cust, if_neg hne]

theorem twoOptInterReverse_total {ctx : Ctx α} {s : LS α} {R : List (List ℕ)} (h : Repr ctx s R)
    {u c : ℕ} (hu : u ∈ R.flatten) (hc : c ∈ R.flatten) (hne : c ≠ u) :
    ∃ d, Move.twoOptInterReverseDelta ctx s (.cust u) (.cust c) = some d ∧
      (d = lit 0 ∨ ∃ R', MoveEffect R u (.cust c) .twoOptInterReverse R') := by
  rcases locate_cust hu hc hne with ⟨r1, r2, p, q, p2, q2, hn, h1, h2⟩ | ⟨r, p, m, q, h1⟩ |
    ⟨r, p, m, q, h1⟩
  · exact ⟨_, twoOptInterReverse_delta h hn h1 h2, .inr ⟨_, .twoOptInterReverse c r1 r2 p q p2 q2 rfl hn
      h1 h2⟩⟩
  all_goals
    refine ⟨lit 0, ?_, .inl rfl⟩
    simp only [Move.twoOptInterReverseDelta, h.rt_cust h1 (c := u) (by simp),
      h.rt_cust h1 (c := c) (by simp), Option.bind_some, if_true]

theorem twoOptInter_total {ctx : Ctx α} {s : LS α} {R : List (List ℕ)} (h : Repr ctx s R)
    {u : ℕ} {v : Ref} (hu : u ∈ R.flatten) (hv : Target R u v) :
    ∃ d, Move.twoOptInterDelta ctx s (.cust u) v = some d ∧
      (d = lit 0 ∨ ∃ R', MoveEffect R u v .twoOptInter R') := by
  rcases locate hu hv with ⟨r1, r2, p, q, p2, q2, hn, h1, h2, rfl⟩ | ⟨r, p, m, q, hm, h1, rfl⟩ |
    ⟨r, p, m, q, h1, rfl⟩
  · exact ⟨_, twoOptInter_delta h hn h1 h2, .inr ⟨_, .twoOptInter r1 r2 p q p2 q2 hn h1 h2 rfl⟩⟩
  · refine ⟨lit 0, ?_, .inl rfl⟩
    have hv := h.rt_last (p := p ++ [u] ++ m) (q := q) h1
    rw [lastRef_append hm] at hv
    simp only [Move.twoOptInterDelta, h.rt_cust h1 (c := u) (by simp), hv, Option.bind_some, if_true]
  · refine ⟨lit 0, ?_, .inl rfl⟩
    have hv := h.rt_last (p := p) (q := m ++ ([u] ++ q)) (by simpa using h1)
    simp only [Move.twoOptInterDelta, h.rt_cust h1 (c := u) (by simp), hv, Option.bind_some, if_true]

/-- The pairs on which a move is tried: any move for two customers, the relocations and the inter-route
2-opt also for a start depot. -/
def Tried (R : List (List ℕ)) (u : ℕ) (v : Ref) (m : MoveKind) : Prop :=
  (∃ c, v = .cust c ∧ c ∈ R.flatten ∧ c ≠ u) ∨
  ((∃ r < R.length, v = .start r) ∧ (m = .relocateSingle ∨ m = .relocateDouble ∨
    m = .relocateDoubleReverse ∨ m = .twoOptInter))

theorem delta_total {ctx : Ctx α} {s : LS α} {R : List (List ℕ)} (h : Repr ctx s R) {u : ℕ} {v : Ref}
    {m : MoveKind} (hu : u ∈ R.flatten) (hv : Tried R u v m) :
    ∃ d, m.delta ctx s (.cust u) v = some d ∧ (d = lit 0 ∨ ∃ R', MoveEffect R u v m R') := by
  have ht : Target R u v := hv.imp id (fun h => h.1)
  cases m with
  | relocateSingle => exact relocateSingle_total h hu ht
  | relocateDouble => exact relocateDouble_total h hu ht
  | relocateDoubleReverse => exact relocateDoubleReverse_total h hu ht
  | twoOptInter => exact twoOptInter_total h hu ht
  | swapOneWithOne =>
    rcases hv with ⟨c, rfl, hc, hne⟩ | ⟨_, hm⟩
    · exact swapOne_total h hu hc hne
    · simp at hm
  | swapTwoWithOne =>
    rcases hv with ⟨c, rfl, hc, hne⟩ | ⟨_, hm⟩
    · exact swapTwoOne_total h hu hc hne
    · simp at hm
  | swapTwoWithTwo =>
    rcases hv with ⟨c, rfl, hc, hne⟩ | ⟨_, hm⟩
    · exact swapTwoTwo_total h hu hc hne
    · simp at hm
  | twoOptIntraReverse =>
    rcases hv with ⟨c, rfl, hc, hne⟩ | ⟨_, hm⟩
    · exact twoOptIntraReverse_total h hu hc hne
    · simp at hm
  | twoOptInterReverse =>
    rcases hv with ⟨c, rfl, hc, hne⟩ | ⟨_, hm⟩
    · exact twoOptInterReverse_total h hu hc hne
    · simp at hm

end Verif
