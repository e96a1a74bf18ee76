import Verif.Lemmas.SwapStarCost
import Verif.Lemmas.Three

/-!
# SWAP* misses no move: the place and the pair it chooses are the best up to the tolerance
-/

namespace Verif
open F64 LS Spec

set_option linter.unusedSectionVars false

/-! ### The cache -/

theorem insertLocs_all_aux {α : Type} [F64 α] (ctx : Ctx α) (r u : ℕ) : ∀ (q p : List ℕ) (a : Ref),
    a = lastRef r p → ∀ A B, q = A ++ B →
    (⟨insCost ctx (lastRef r (p ++ A)) u (headRef r B), some (lastRef r (p ++ A))⟩ : Loc α) ∈
      (a :: (q.map Ref.cust ++ [Ref.fin r])).zipWith (fun a b =>
      (⟨ctx.dist a.number u +. ctx.dist u b.number -. ctx.dist a.number b.number, some a⟩ : Loc α))
      (q.map Ref.cust ++ [Ref.fin r])
  | [], p, a, ha, A, B, e => by
    obtain ⟨rfl, rfl⟩ := List.append_eq_nil_iff.mp e.symm
    subst ha
    simp [insCost]
  | c :: q, p, a, ha, A, B, e => by
    simp only [List.map_cons, List.cons_append, List.zipWith_cons_cons, List.mem_cons]
    cases A with
    | nil =>
      simp only [List.nil_append] at e
      subst ha e
      left
      simp [insCost]
    | cons x A =>
      simp only [List.cons_append, List.cons.injEq] at e
      obtain ⟨rfl, rfl⟩ := e
      right
      have := insertLocs_all_aux ctx r u (A ++ B) (p ++ [c]) (.cust c) (by simp) A B rfl
      simpa using this

/-- Every place of the route is offered to the cache. -/
theorem insertLocs_all {α : Type} [F64 α] (ctx : Ctx α) (r u : ℕ) {l A B : List ℕ} (e : l = A ++ B) :
    (⟨insCost ctx (lastRef r A) u (headRef r B), some (lastRef r A)⟩ : Loc α) ∈ insertLocs ctx r l u := by
  exact insertLocs_all_aux ctx r u l [] (.start r) rfl A B e

section
variable {ctx : Ctx ℚ} {s : LS ℚ} {R R' : List (List ℕ)}

/-- A place is one of the three cached ones or costs at least as much as the third. -/
theorem Cached.place {r u : ℕ} {l A B : List ℕ} {t : Three ℚ} (h : Cached ctx r l u t)
    (e : l = A ++ B) : t.l0.cost ≤ t.l1.cost ∧ t.l1.cost ≤ t.l2.cost ∧
    (t.l0 = ⟨insCost ctx (lastRef r A) u (headRef r B), some (lastRef r A)⟩ ∨
     t.l1 = ⟨insCost ctx (lastRef r A) u (headRef r B), some (lastRef r A)⟩ ∨
     t.l2.cost ≤ insCost ctx (lastRef r A) u (headRef r B)) := by
  obtain ⟨⟨s1, s2⟩, -, rest, hp, hc⟩ := Three.foldl_sorted (insertLocs ctx r l u)
    (⟨Loc.new, Loc.new, Loc.new, t.lastCalculated⟩ : Three ℚ) ⟨le_refl _, le_refl _⟩
  rw [← h] at s1 s2 hp hc
  refine ⟨s1, s2, ?_⟩
  have hm := hp.mem_iff.mpr (List.mem_append_right _ (insertLocs_all ctx r u e))
  rcases List.mem_append.mp hm with hm | hm
  · simp only [List.mem_cons, List.not_mem_nil, or_false] at hm
    rcases hm with hm | hm | hm
    · exact .inl hm.symm
    · exact .inr (.inl hm.symm)
    · exact .inr (.inr (by rw [← hm]))
  · exact .inr (.inr (hc _ hm))

theorem Cached.first {r u : ℕ} {l A B : List ℕ} {t : Three ℚ} (h : Cached ctx r l u t)
    (e : l = A ++ B) : t.l0.cost ≤ insCost ctx (lastRef r A) u (headRef r B) := by
  obtain ⟨h1, h2, h | h | h⟩ := h.place e
  · rw [h]
  · rw [h] at h1; exact h1
  · linarith

/-- The place chosen among the cached ones is the best of those that are not next to `v`. -/
theorem pickInsert_min (h : Repr ctx s R) {r : ℕ} {p q : List ℕ} {v u : ℕ}
    (hr : R[r]? = some (p ++ v :: q)) {t : Three ℚ} (hc : Cached ctx r (p ++ v :: q) u t)
    (ht : EntryOK ctx r (p ++ v :: q) u t) {n : Ref} {c : ℚ} {b : Bool}
    (hpick : pickInsert s.heap t (.cust v) = some (n, c, b)) {A B : List ℕ}
    (e : p ++ v :: q = A ++ B) (hA1 : lastRef r A ≠ .cust v) (hA2 : lastRef r A ≠ lastRef r p) :
    b = true ∧ c ≤ insCost ctx (lastRef r A) u (headRef r B) := by
  have hlen : 3 ≤ (p ++ v :: q).length + 1 := by
    rcases split_cases e with ⟨B1, e1, -⟩ | ⟨A2, rfl, e2⟩
    · have : B1 ≠ [] := by rintro rfl; simp [e1] at hA2
      have := List.length_pos_iff.mpr this
      simp [e1]; omega
    · have : A2 ≠ [] := by rintro rfl; simp at hA1
      have := List.length_pos_iff.mpr this
      simp [e2]; omega
  have f0 := ht.filled.f0 (by omega)
  have f1 := ht.filled.f1 (by omega)
  have f2 := ht.filled.f2 hlen
  obtain ⟨n0, e0⟩ := Option.isSome_iff_exists.mp f0
  obtain ⟨n1, e1⟩ := Option.isSome_iff_exists.mp f1
  obtain ⟨n2, e2⟩ := Option.isSome_iff_exists.mp f2
  have hplace := hc.place e
  obtain ⟨A0, B0, s0, m0, -⟩ := ht.loc0 f0
  obtain ⟨A1, B1, s1, m1, -⟩ := ht.loc1 f1
  have a0 := notAdjacent_eq h hr s0
  have a1 := notAdjacent_eq h hr s1
  rw [e0] at m0; cases m0
  rw [e1] at m1; cases m1
  rw [pickInsert, e0, Option.bind_some, a0, Option.bind_some] at hpick
  obtain ⟨h01, h12, hpl⟩ := hplace
  by_cases c0 : lastRef r A0 ≠ Ref.cust v ∧ lastRef r A0 ≠ lastRef r p
  · rw [if_pos (decide_eq_true c0)] at hpick
    cases hpick
    exact ⟨rfl, hc.first e⟩
  rw [if_neg (by rw [decide_eq_false c0]; simp)] at hpick
  have g0 : t.l0 ≠ ⟨insCost ctx (lastRef r A) u (headRef r B), some (lastRef r A)⟩ := by
    intro he
    rw [he] at e0
    simp only [Option.some.injEq] at e0
    rw [← e0] at c0
    exact c0 ⟨hA1, hA2⟩
  simp only [e1] at hpick
  rw [a1, Option.bind_some] at hpick
  by_cases c1 : lastRef r A1 ≠ Ref.cust v ∧ lastRef r A1 ≠ lastRef r p
  · rw [if_pos (decide_eq_true c1)] at hpick
    cases hpick
    refine ⟨rfl, ?_⟩
    rcases hpl with hpl | hpl | hpl
    · exact absurd hpl g0
    · rw [hpl]
    · exact h12.trans hpl
  rw [if_neg (by rw [decide_eq_false c1]; simp)] at hpick
  simp only [e2] at hpick
  cases hpick
  refine ⟨rfl, ?_⟩
  rcases hpl with hpl | hpl | hpl
  · exact absurd hpl g0
  · exfalso
    rw [hpl] at e1
    simp only [Option.some.injEq] at e1
    rw [← e1] at c1
    exact c1 ⟨hA1, hA2⟩
  · exact hpl

/-- The place found for `u` when `v` leaves is the best one up to `1e-6`. -/
theorem cheapestInsert_min (h : Repr ctx s R) {r : ℕ} {p q : List ℕ} {v u : ℕ}
    (hr : R[r]? = some (p ++ v :: q)) (hc : Cached ctx r (p ++ v :: q) u (s.inserts r u))
    (ht : EntryOK ctx r (p ++ v :: q) u (s.inserts r u)) {n : Ref} {c : ℚ}
    (hx : cheapestInsert ctx s (.cust u) (.cust v) = some (n, c)) {A B : List ℕ}
    (e : p ++ q = A ++ B) :
    c ≤ routeDist ctx.dist (A ++ u :: B) - routeDist ctx.dist (p ++ q) + 1 / 1000000 := by
  obtain ⟨n', c', b, hpick, -⟩ := pickInsert_ok h hr ht
  rw [cheapestInsert, h.rt_cust hr (by simp), Option.bind_some,
    show (Ref.cust u).number = u from rfl, hpick, Option.bind_some, h.enc.pred_cust hr,
    Option.bind_some, h.enc.succ_cust hr, Option.map_some, Option.some.injEq] at hx
  dsimp only at hx
  have hin : ctx.dist (lastRef r p).number u +. ctx.dist u (headRef r q).number -.
      ctx.dist (lastRef r p).number (headRef r q).number =
      routeDist ctx.dist (p ++ u :: q) - routeDist ctx.dist (p ++ q) := insCost_rat r p q u
  rw [hin] at hx
  have hnd : (p ++ v :: q).Nodup := part_nodup h.part hr
  -- either the place of `v`, or one the cache covers
  have key : (A = p ∧ B = q) ∨ (b = true ∧
      c' ≤ routeDist ctx.dist (A ++ u :: B) - routeDist ctx.dist (p ++ q)) := by
    rcases List.append_eq_append_iff.mp e with ⟨A2, rfl, rfl⟩ | ⟨B1, rfl, rfl⟩
    · by_cases hA : A2 = []
      · subst hA; left; simp
      right
      have hl := lastRef_append (r := r) (p := p ++ [v]) hA
      have hl2 := lastRef_append (r := r) (p := p) hA
      have hv : v ∉ A2 := by
        rw [List.nodup_append, List.nodup_cons] at hnd
        intro hm; exact hnd.2.1.1 (by simp [hm])
      have := pickInsert_min h hr hc ht hpick (A := p ++ [v] ++ A2) (B := B) (by simp) ?_ ?_
      · rw [hl, ← hl2, insCost_rat] at this
        simpa using this
      · rw [hl]; exact lastRef_ne_cust hv
      · rw [hl]
        intro he
        obtain ⟨L, x, rfl⟩ := (List.eq_nil_or_concat A2).resolve_left hA
        rcases List.eq_nil_or_concat p with rfl | ⟨P, y, rfl⟩
        · simp [lastRef] at he
        · simp at he
          subst he
          rw [List.nodup_append] at hnd
          exact hnd.2.2 x (by simp) x (by simp) rfl
    · by_cases hB : B1 = []
      · subst hB; left; simp
      right
      have hh := headRef_append (r := r) (q := v :: q) hB
      have hh2 := headRef_append (r := r) (q := q) hB
      have hv : v ∉ A := by
        rw [List.nodup_append] at hnd
        intro hm; exact hnd.2.2 v (by simp [hm]) v (by simp) rfl
      have := pickInsert_min h hr hc ht hpick (A := A) (B := B1 ++ v :: q) (by simp) ?_ ?_
      · rw [hh, ← hh2, insCost_rat] at this
        simpa using this
      · exact lastRef_ne_cust hv
      · intro he
        rw [lastRef_append hB] at he
        obtain ⟨L, x, rfl⟩ := (List.eq_nil_or_concat B1).resolve_left hB
        rcases List.eq_nil_or_concat A with rfl | ⟨P, y, rfl⟩
        · simp [lastRef] at he
        · simp at he
          subst he
          simp [List.nodup_append] at hnd
  rcases hif : approxLt (routeDist ctx.dist (p ++ u :: q) - routeDist ctx.dist (p ++ q)) c' with _ | _
  · rw [hif, Bool.or_false] at hx
    rw [rat_approxLt, decide_eq_false_iff_not, not_lt] at hif
    rcases key with ⟨rfl, rfl⟩ | ⟨rfl, hle⟩
    · split at hx <;> cases hx <;> linarith
    · rw [if_neg (by simp)] at hx
      cases hx
      linarith
  · rw [hif, Bool.or_true, if_pos rfl] at hx
    rw [rat_approxLt, decide_eq_true_eq] at hif
    cases hx
    rcases key with ⟨rfl, rfl⟩ | ⟨hb, hle⟩ <;> linarith

/-! ### The loops -/

/-- Change of penalty of the two routes when `u` and `v` change places. -/
def pen1 (ctx : Ctx ℚ) (s : LS ℚ) (r1 : ℕ) (u v : ℕ) : ℚ :=
  penDiff s (s.route r1).overload ((s.route r1).overload - ctx.demand u + ctx.demand v)

/-- The same for the second route. -/
def pen2 (ctx : Ctx ℚ) (s : LS ℚ) (r2 : ℕ) (u v : ℕ) : ℚ :=
  penDiff s (s.route r2).overload ((s.route r2).overload + ctx.demand u - ctx.demand v)

/-- `c` is at most the cost of exchanging `u` and `v`, unless the filter drops the pair. -/
def PairMin (ctx : Ctx ℚ) (s : LS ℚ) (r1 r2 u v : ℕ) (c : ℚ) : Prop :=
  (0 ≤ s.delRem (.cust u) + s.delRem (.cust v) + pen1 ctx s r1 u v + pen2 ctx s r2 u v) ∨
  ∀ iu iv, cheapestInsert ctx s (.cust u) (.cust v) = some iu →
    cheapestInsert ctx s (.cust v) (.cust u) = some iv →
    c ≤ s.delRem (.cust u) + pen1 ctx s r1 u v + iu.2 + s.delRem (.cust v) + pen2 ctx s r2 u v + iv.2

theorem PairMin.mono {r1 r2 u v : ℕ} {c c' : ℚ} (h : PairMin ctx s r1 r2 u v c) (hc : c' ≤ c) :
    PairMin ctx s r1 r2 u v c' := by
  rcases h with h | h
  · exact .inl h
  · exact .inr fun iu iv h1 h2 => hc.trans (h iu iv h1 h2)

theorem pairStep_min {r1 r2 u v : ℕ} {b b' : BestSwap ℚ}
    (h : SwapStar.pairStep ctx s r1 r2 (.cust u) (.cust v) b = some b') :
    b'.cost ≤ b.cost ∧ PairMin ctx s r1 r2 u v b'.cost := by
  unfold SwapStar.pairStep at h
  dsimp only at h
  split at h
  · obtain ⟨iu, e1, h⟩ := Option.bind_eq_some_iff.mp h
    obtain ⟨iv, e2, h⟩ := Option.map_eq_some_iff.mp h
    subst h
    split
    · next hlt =>
      rw [rat_lt, decide_eq_true_eq] at hlt
      refine ⟨le_of_lt hlt, .inr ?_⟩
      intro iu' iv' e1' e2'
      rw [e1] at e1'; cases e1'
      rw [e2] at e2'; cases e2'
      exact le_refl _
    · next hlt =>
      rw [rat_lt, decide_eq_true_eq, not_lt] at hlt
      refine ⟨le_refl _, .inr ?_⟩
      intro iu' iv' e1' e2'
      rw [e1] at e1'; cases e1'
      rw [e2] at e2'; cases e2'
      exact hlt
  · next hf =>
    cases h
    refine ⟨le_refl _, .inl ?_⟩
    rw [rat_approxLte, decide_eq_true_eq, not_or, not_lt] at hf
    have := hf.1
    simp only [rat_lit] at this
    exact this

theorem pairLoopV_min {r1 r2 u : ℕ} : ∀ (vs : List ℕ) (b b' : BestSwap ℚ),
    SwapStar.pairLoopV ctx s r1 r2 (.cust u) (vs.map Ref.cust) b = some b' →
    b'.cost ≤ b.cost ∧ ∀ v ∈ vs, PairMin ctx s r1 r2 u v b'.cost
  | [], b, b', h => by
    cases h
    exact ⟨le_refl _, by simp⟩
  | v :: vs, b, b', h => by
    rw [List.map_cons, SwapStar.pairLoopV] at h
    obtain ⟨b1, e1, h⟩ := Option.bind_eq_some_iff.mp h
    obtain ⟨l1, m1⟩ := pairStep_min e1
    obtain ⟨l2, m2⟩ := pairLoopV_min vs b1 b' h
    refine ⟨l2.trans l1, ?_⟩
    intro w hw
    rcases List.mem_cons.mp hw with rfl | hw
    · exact m1.mono l2
    · exact m2 w hw

theorem pairLoop_min {r1 r2 : ℕ} {vs : List ℕ} : ∀ (us : List ℕ) (b b' : BestSwap ℚ),
    SwapStar.pairLoop ctx s r1 r2 (vs.map Ref.cust) (us.map Ref.cust) b = some b' →
    b'.cost ≤ b.cost ∧ ∀ u ∈ us, ∀ v ∈ vs, PairMin ctx s r1 r2 u v b'.cost
  | [], b, b', h => by
    cases h
    exact ⟨le_refl _, by simp⟩
  | u :: us, b, b', h => by
    rw [List.map_cons, SwapStar.pairLoop] at h
    obtain ⟨b1, e1, h⟩ := Option.bind_eq_some_iff.mp h
    obtain ⟨l1, m1⟩ := pairLoopV_min vs b b1 e1
    obtain ⟨l2, m2⟩ := pairLoop_min us b1 b' h
    refine ⟨l2.trans l1, ?_⟩
    intro w hw
    rcases List.mem_cons.mp hw with rfl | hw
    · exact fun v hv => (m1 v hv).mono l2
    · exact m2 w hw

theorem relocU_min {r1 r2 : ℕ} : ∀ (us : List ℕ) (b : BestSwap ℚ),
    (SwapStar.relocU ctx s r1 r2 (us.map Ref.cust) b).cost ≤ b.cost ∧ ∀ u ∈ us,
      (SwapStar.relocU ctx s r1 r2 (us.map Ref.cust) b).cost ≤
        s.delRem (.cust u) + (s.inserts r2 u).l0.cost
          + penDiff s (s.route r1).overload ((s.route r1).overload - ctx.demand u)
          + penDiff s (s.route r2).overload ((s.route r2).overload + ctx.demand u) + 1 / 1000000
  | [], b => ⟨le_refl _, by simp⟩
  | u :: us, b => by
    rw [List.map_cons, SwapStar.relocU]
    split
    · next hlt =>
      rw [rat_approxLt, decide_eq_true_eq] at hlt
      obtain ⟨l2, m2⟩ := relocU_min (r1 := r1) (r2 := r2) us ⟨_, some (.cust u), none,
        (s.inserts r2 (Ref.cust u).number).l0.node, none⟩
      refine ⟨l2.trans (by dsimp only; linarith), ?_⟩
      intro w hw
      rcases List.mem_cons.mp hw with rfl | hw
      · refine l2.trans ?_
        simp only [rat_add, rat_sub, penDiff, show (Ref.cust w).number = w from rfl]
        linarith
      · exact m2 w hw
    · next hlt =>
      rw [rat_approxLt, decide_eq_true_eq, not_lt] at hlt
      obtain ⟨l2, m2⟩ := relocU_min (r1 := r1) (r2 := r2) us b
      refine ⟨l2, ?_⟩
      intro w hw
      rcases List.mem_cons.mp hw with rfl | hw
      · refine l2.trans ?_
        simp only [rat_add, rat_sub, penDiff, show (Ref.cust w).number = w from rfl] at hlt ⊢
        linarith
      · exact m2 w hw

theorem relocV_min {r1 r2 : ℕ} : ∀ (us : List ℕ) (b : BestSwap ℚ),
    (SwapStar.relocV ctx s r1 r2 (us.map Ref.cust) b).cost ≤ b.cost ∧ ∀ u ∈ us,
      (SwapStar.relocV ctx s r1 r2 (us.map Ref.cust) b).cost ≤
        s.delRem (.cust u) + (s.inserts r1 u).l0.cost
          + penDiff s (s.route r1).overload ((s.route r1).overload + ctx.demand u)
          + penDiff s (s.route r2).overload ((s.route r2).overload - ctx.demand u) + 1 / 1000000
  | [], b => ⟨le_refl _, by simp⟩
  | u :: us, b => by
    rw [List.map_cons, SwapStar.relocV]
    split
    · next hlt =>
      rw [rat_approxLt, decide_eq_true_eq] at hlt
      obtain ⟨l2, m2⟩ := relocV_min (r1 := r1) (r2 := r2) us ⟨_, none, some (.cust u), none,
        (s.inserts r1 (Ref.cust u).number).l0.node⟩
      refine ⟨l2.trans (by dsimp only; linarith), ?_⟩
      intro w hw
      rcases List.mem_cons.mp hw with rfl | hw
      · refine l2.trans ?_
        simp only [rat_add, rat_sub, penDiff, show (Ref.cust w).number = w from rfl]
        linarith
      · exact m2 w hw
    · next hlt =>
      rw [rat_approxLt, decide_eq_true_eq, not_lt] at hlt
      obtain ⟨l2, m2⟩ := relocV_min (r1 := r1) (r2 := r2) us b
      refine ⟨l2, ?_⟩
      intro w hw
      rcases List.mem_cons.mp hw with rfl | hw
      · refine l2.trans ?_
        simp only [rat_add, rat_sub, penDiff, show (Ref.cust w).number = w from rfl] at hlt ⊢
        linarith
      · exact m2 w hw

/-- With the triangle inequality another stop never makes a route shorter. -/
theorem routeDist_insert_le (htri : ∀ a b c, ctx.dist a c ≤ ctx.dist a b + ctx.dist b c)
    (A B : List ℕ) (u : ℕ) : routeDist ctx.dist (A ++ B) ≤ routeDist ctx.dist (A ++ u :: B) := by
  rw [routeDist_insert ctx.dist 0]
  linarith [htri (lastRef 0 A).number u (headRef 0 B).number]

/-- The best move is no worse than any SWAP* move, up to `2e-6`, or that move gains nothing. -/
theorem bestMove_min (h : Repr ctx s R) (h0 : ctx.demand 0 = 0) (hf : InsertFinite ctx)
    (htri : ∀ a b c, ctx.dist a c ≤ ctx.dist a b + ctx.dist b c) {r1 r2 : ℕ} {l1 l2 : List ℕ}
    (hne : r1 ≠ r2) (h1 : R[r1]? = some l1) (h2 : R[r2]? = some l2)
    (hp1 : Prepared ctx s r1 r2 l1 l2) (hp2 : Prepared ctx s r2 r1 l2 l1) {b : BestSwap ℚ}
    (hb : SwapStar.bestMove ctx s r1 r2 = some b) (heff : SwapStarEffect R r1 r2 R') :
    solCost ctx.dist ctx.demand ctx.cap s.pen R ≤ solCost ctx.dist ctx.demand ctx.cap s.pen R' ∨
    solCost ctx.dist ctx.demand ctx.cap s.pen R + b.cost ≤
      solCost ctx.dist ctx.demand ctx.cap s.pen R' + 2 / 1000000 := by
  rw [SwapStar.bestMove, walk_custs h h1, Option.bind_some, walk_custs h h2, Option.bind_some] at hb
  obtain ⟨b0, e0, hb⟩ := Option.map_eq_some_iff.mp hb
  obtain ⟨-, mp⟩ := pairLoop_min l1 _ b0 e0
  obtain ⟨lu, mu⟩ := relocU_min (ctx := ctx) (s := s) (r1 := r1) (r2 := r2) l1 b0
  obtain ⟨lv, mv⟩ := relocV_min (ctx := ctx) (s := s) (r1 := r1) (r2 := r2) l2
    (SwapStar.relocU ctx s r1 r2 (l1.map Ref.cust) b0)
  rw [hb] at lv mv
  cases heff with
  | relocU u p q A B g1 g2 =>
    right
    rw [h1] at g1; cases g1
    rw [h2] at g2; cases g2
    have e1 : p ++ [u] ++ q = p ++ u :: q := by simp
    have e2 : A ++ [u] ++ B = A ++ u :: B := by simp
    rw [e1] at h1 hp1
    have hc := lv.trans (mu u (by simp))
    have hl := (hp1.ins u (by simp)).first (A := A) (B := B) rfl
    rw [hp1.rem p u q rfl] at hc
    have hsum : remCost ctx r1 p u q +. insCost ctx (lastRef r2 A) u (headRef r2 B)
          +. penDiff s (s.route r1).overload ((s.route r1).overload -. ctx.demand u)
          +. penDiff s (s.route r2).overload ((s.route r2).overload +. ctx.demand u) =
        solCost ctx.dist ctx.demand ctx.cap s.pen ((R.set r1 (p ++ q)).set r2 (A ++ u :: B)) -
          solCost ctx.dist ctx.demand ctx.cap s.pen R :=
      (GoodBest.relocU (ctx := ctx) (s := s) p q A B u h1 h2).cost_rat h h0 hne
        (by intro h; exact absurd (congrArg BestSwap.u h) (by simp [SwapStar.best0]))
    simp only [rat_add, rat_sub] at hsum
    rw [e2]
    linarith
  | relocV v p q A B g1 g2 =>
    right
    rw [h2] at g1; cases g1
    rw [h1] at g2; cases g2
    have e1 : p ++ [v] ++ q = p ++ v :: q := by simp
    have e2 : A ++ [v] ++ B = A ++ v :: B := by simp
    rw [e1] at h2 hp2
    have hc := mv v (by simp)
    have hl := (hp2.ins v (by simp)).first (A := A) (B := B) rfl
    rw [hp2.rem p v q rfl] at hc
    have hsum : remCost ctx r2 p v q +. insCost ctx (lastRef r1 A) v (headRef r1 B)
          +. penDiff s (s.route r1).overload ((s.route r1).overload +. ctx.demand v)
          +. penDiff s (s.route r2).overload ((s.route r2).overload -. ctx.demand v) =
        solCost ctx.dist ctx.demand ctx.cap s.pen ((R.set r2 (p ++ q)).set r1 (A ++ v :: B)) -
          solCost ctx.dist ctx.demand ctx.cap s.pen R :=
      (GoodBest.relocV (ctx := ctx) (s := s) p q A B v h2 h1).cost_rat h h0 hne
        (by intro h; exact absurd (congrArg BestSwap.v h) (by simp [SwapStar.best0]))
    simp only [rat_add, rat_sub] at hsum
    rw [e2]
    linarith
  | both u v p1 q1 p2 q2 A B C D g1 g2 eA eC =>
    rw [h1] at g1; cases g1
    rw [h2] at g2; cases g2
    have e1 : p1 ++ [u] ++ q1 = p1 ++ u :: q1 := by simp
    have e2 : p2 ++ [v] ++ q2 = p2 ++ v :: q2 := by simp
    have m := mp u (by simp) v (by simp)
    rw [e1, e2] at hp1 hp2
    rw [e1] at h1
    rw [e2] at h2
    have k1 := (hp1.ins u (by simp))
    have k2 := (hp2.ins v (by simp))
    have t1 := k1.entryOK hf (h.enc.nodup h2)
    have t2 := k2.entryOK hf (h.enc.nodup h1)
    obtain ⟨n, c, -, -, x1, -⟩ := cheapestInsert_ok (u := u) h h2 t1
    obtain ⟨n', c', -, -, x2, -⟩ := cheapestInsert_ok (u := v) h h1 t2
    have y1 := cheapestInsert_min h h2 k1 t1 x1 eA
    have y2 := cheapestInsert_min h h1 k2 t2 x2 eC
    -- the change of cost
    have hsum : solCost ctx.dist ctx.demand ctx.cap s.pen
        ((R.set r1 (C ++ [v] ++ D)).set r2 (A ++ [u] ++ B)) -
          solCost ctx.dist ctx.demand ctx.cap s.pen R =
        s.delRem (.cust u) + pen1 ctx s r1 u v
          + (routeDist ctx.dist (A ++ u :: B) - routeDist ctx.dist (p2 ++ q2))
          + s.delRem (.cust v) + pen2 ctx s r2 u v
          + (routeDist ctx.dist (C ++ v :: D) - routeDist ctx.dist (p1 ++ q1)) := by
      rw [show C ++ [v] ++ D = C ++ v :: D by simp, show A ++ [u] ++ B = A ++ u :: B by simp,
        solCost_set_two hne h1 h2, hp1.rem p1 u q1 rfl, hp2.rem p2 v q2 rfl]
      simp only [pen1, pen2, route_over h h0 h1, route_over h h0 h2, penDiff_rat, remCost_rat,
        Spec.routeCost, routeLoad_insert, ← eA, ← eC]
      have a1 : routeLoad ctx.demand (p1 ++ q1) + ctx.demand u - ctx.cap - ctx.demand u + ctx.demand v =
        routeLoad ctx.demand (p1 ++ q1) + ctx.demand v - ctx.cap := by ring
      have a2 : routeLoad ctx.demand (p2 ++ q2) + ctx.demand v - ctx.cap + ctx.demand u - ctx.demand v =
        routeLoad ctx.demand (p2 ++ q2) + ctx.demand u - ctx.cap := by ring
      rw [a1, a2]
      ring
    rcases m with m | m
    · left
      have z1 := routeDist_insert_le htri A B u
      have z2 := routeDist_insert_le htri C D v
      rw [← eA] at z1
      rw [← eC] at z2
      linarith
    · right
      have := m _ _ x1 x2
      dsimp only at this
      linarith

end
end Verif
