import Verif.Props.PopOrder

/-!
# Clones (C34)

The broken-pairs distance is zero for different solutions and not symmetric
(`C34_clone_refuted`). If it is zero in both directions, or in one direction and the last route of the
other individual is used, the routes are the same up to order and direction.
-/

namespace Verif
open F64 SubPop

variable {α : Type} [F64 α]

namespace Spec

/-- The non-empty routes are the same up to their order and the direction of each. -/
def SameTours (R R' : List (List ℕ)) : Prop :=
  ∃ Q : List (List ℕ), Q.Perm (R'.filter (· ≠ [])) ∧
    List.Forall₂ (fun r q => q = r ∨ q = r.reverse) (R.filter (· ≠ [])) Q

/-- `b` directly follows `a`. -/
def Next (q : List ℕ) (a b : ℕ) : Prop := ∃ s t, q = s ++ a :: b :: t

theorem Next.reverse {q : List ℕ} {a b : ℕ} (h : Next q a b) : Next q.reverse b a := by
  obtain ⟨s, t, rfl⟩ := h
  exact ⟨t.reverse, s.reverse, by simp⟩

theorem split_unique {β : Type} : ∀ {l₁ l₂ l₃ l₄ : List β} {b : β}, (l₁ ++ b :: l₂).Nodup →
    l₁ ++ b :: l₂ = l₃ ++ b :: l₄ → l₁ = l₃ ∧ l₂ = l₄
  | [], l₂, [], l₄, b, _, h => by simpa using h
  | [], l₂, c :: l₃, l₄, b, hn, h => by
    simp only [List.nil_append, List.cons_append, List.cons.injEq] at h hn
    obtain ⟨rfl, rfl⟩ := h
    simp at hn
  | c :: l₁, l₂, [], l₄, b, hn, h => by
    simp only [List.nil_append, List.cons_append, List.cons.injEq] at h hn
    obtain ⟨rfl, rfl⟩ := h
    simp at hn
  | c :: l₁, l₂, d :: l₃, l₄, b, hn, h => by
    simp only [List.cons_append, List.cons.injEq, List.nodup_cons] at h hn
    obtain ⟨rfl, h⟩ := h
    obtain ⟨h1, h2⟩ := split_unique hn.2 h
    exact ⟨by rw [h1], h2⟩

theorem walk_step {q r' : List ℕ} {a b : ℕ} (hq : q.Nodup) (hi : (b :: r') <:+: q) (ha : a ∉ b :: r')
    (hn : Next q a b ∨ Next q b a) : (a :: b :: r') <:+: q ∨ (a :: b :: r') <:+: q.reverse := by
  obtain ⟨s, t, hq'⟩ := hi
  have e : s ++ b :: (r' ++ t) = q := by rw [← hq']; simp
  rcases hn with ⟨s', t', h⟩ | ⟨s', t', h⟩
  · left
    have h' : s ++ b :: (r' ++ t) = (s' ++ [a]) ++ b :: t' := by rw [e, h]; simp
    obtain ⟨h1, h2⟩ := split_unique (by rw [e]; exact hq) h'
    exact ⟨s', t, by rw [← e, h1]; simp⟩
  · right
    have h' : s ++ b :: (r' ++ t) = s' ++ b :: (a :: t') := by rw [e, h]
    obtain ⟨h1, h2⟩ := split_unique (by rw [e]; exact hq) h'
    cases r' with
    | nil =>
      refine ⟨t'.reverse, s'.reverse, ?_⟩
      rw [h]; simp
    | cons c r' =>
      simp only [List.cons_append, List.cons.injEq] at h2
      exact absurd h2.1.symm (by simp at ha; tauto)

theorem nodup_of_mem {Y : List (List ℕ)} (h : Y.flatten.Nodup) {q : List ℕ} (hq : q ∈ Y) : q.Nodup :=
  (List.nodup_flatten.mp h).1 q hq

theorem route_unique {Y : List (List ℕ)} (h : Y.flatten.Nodup) {q q' : List ℕ} {b : ℕ} (hq : q ∈ Y)
    (hq' : q' ∈ Y) (hb : b ∈ q) (hb' : b ∈ q') : q = q' := by
  by_contra hne
  have hp := (List.nodup_flatten.mp h).2
  obtain ⟨i, hi, rfl⟩ := List.getElem_of_mem hq
  obtain ⟨j, hj, rfl⟩ := List.getElem_of_mem hq'
  rcases Nat.lt_trichotomy i j with hij | rfl | hij
  · exact (List.pairwise_iff_getElem.mp hp i j hi hj hij) hb hb'
  · exact hne rfl
  · exact (List.pairwise_iff_getElem.mp hp j i hj hi hij) hb' hb

/-- A path whose steps are all edges of the routes `Y` is a stretch of one of them. -/
theorem walk {Y : List (List ℕ)} (hY : Y.flatten.Nodup) : ∀ (r : List ℕ), r ≠ [] → r.Nodup →
    (∀ a ∈ r, a ∈ Y.flatten) → (∀ a b, Next r a b → ∃ q ∈ Y, Next q a b ∨ Next q b a) →
    ∃ q ∈ Y, r <:+: q ∨ r <:+: q.reverse
  | [], h, _, _, _ => absurd rfl h
  | [a], _, _, hm, _ => by
    obtain ⟨q, hq, ha⟩ := List.mem_flatten.mp (hm a (by simp))
    obtain ⟨s, t, rfl⟩ := List.append_of_mem ha
    exact ⟨_, hq, Or.inl ⟨s, t, by simp⟩⟩
  | a :: b :: r', _, hn, hm, hs => by
    rw [List.nodup_cons] at hn
    obtain ⟨q, hq, hi⟩ := walk hY (b :: r') (by simp) hn.2 (fun c hc => hm c (by simp at hc ⊢; tauto))
      (fun c d hcd => hs c d (by
        obtain ⟨s, t, h⟩ := hcd
        exact ⟨a :: s, t, by rw [h]; simp⟩))
    obtain ⟨q', hq', hab⟩ := hs a b ⟨[], r', rfl⟩
    have hbq : b ∈ q := by
      rcases hi with hi | hi
      · exact hi.subset (by simp)
      · exact List.mem_reverse.mp (hi.subset (by simp))
    have hbq' : b ∈ q' := by
      rcases hab with ⟨s, t, h⟩ | ⟨s, t, h⟩ <;> rw [h] <;> simp
    obtain rfl := route_unique hY hq hq' hbq hbq'
    have hqn := nodup_of_mem hY hq
    refine ⟨q, hq, ?_⟩
    rcases hi with hi | hi
    · exact walk_step hqn hi hn.1 hab
    · have := walk_step (List.nodup_reverse.mpr hqn) hi hn.1 (hab.symm.imp Next.reverse Next.reverse)
      rw [List.reverse_reverse] at this
      exact this.symm

/-- Pairing the routes. -/
theorem sameTours_of {n : ℕ} {X Y : List (List ℕ)} (hX : IsPartition n X) (hY : IsPartition n Y)
    (h : ∀ r ∈ X, r ≠ [] → ∃ q ∈ Y, q = r ∨ q = r.reverse) : SameTours X Y := by
  classical
  choose! f hf1 hf2 using h
  refine ⟨(X.filter (· ≠ [])).map f, ?_, ?_⟩
  · have nodup_ne : ∀ Z : List (List ℕ), Z.flatten.Nodup → (Z.filter (· ≠ [])).Nodup := by
      intro Z hZ
      have hp := (List.nodup_flatten.mp hZ).2
      refine List.Pairwise.imp_of_mem ?_ (hp.filter _)
      intro a b ha hb hd e
      subst e
      rw [List.mem_filter] at ha
      simp only [ne_eq, decide_not, Bool.not_eq_true', decide_eq_false_iff_not] at ha
      obtain ⟨c, hc⟩ := List.exists_mem_of_ne_nil _ ha.2
      exact hd hc hc
    have hmemf : ∀ r ∈ X, r ≠ [] → ∀ c, c ∈ f r ↔ c ∈ r := by
      intro r hr hne c
      rcases hf2 r hr hne with e | e <;> rw [e]
      simp
    rw [List.perm_ext_iff_of_nodup]
    · intro q
      rw [List.mem_map, List.mem_filter]
      constructor
      · rintro ⟨r, hr, rfl⟩
        rw [List.mem_filter] at hr
        simp only [ne_eq, decide_not, Bool.not_eq_true', decide_eq_false_iff_not] at hr
        refine ⟨hf1 r hr.1 hr.2, ?_⟩
        simp only [ne_eq, decide_not, Bool.not_eq_true', decide_eq_false_iff_not]
        rcases hf2 r hr.1 hr.2 with e | e <;> rw [e]
        · exact hr.2
        · simpa using hr.2
      · rintro ⟨hq, hne⟩
        simp only [ne_eq, decide_not, Bool.not_eq_true', decide_eq_false_iff_not] at hne
        obtain ⟨c, hc⟩ := List.exists_mem_of_ne_nil _ hne
        have hcx : c ∈ X.flatten :=
          hX.mem_iff.mpr (hY.mem_iff.mp (List.mem_flatten.mpr ⟨q, hq, hc⟩))
        obtain ⟨r, hr, hcr⟩ := List.mem_flatten.mp hcx
        have hrne : r ≠ [] := List.ne_nil_of_mem hcr
        refine ⟨r, ?_, ?_⟩
        · rw [List.mem_filter]
          exact ⟨hr, by simpa using hrne⟩
        · exact route_unique hY.nodup (hf1 r hr hrne) hq ((hmemf r hr hrne c).mpr hcr) hc
    · refine List.Nodup.map_on ?_ (nodup_ne X hX.nodup)
      intro a ha b hb e
      rw [List.mem_filter] at ha hb
      simp only [ne_eq, decide_not, Bool.not_eq_true', decide_eq_false_iff_not] at ha hb
      obtain ⟨c, hc⟩ := List.exists_mem_of_ne_nil _ ha.2
      have hcb : c ∈ b := by
        rw [← hmemf b hb.1 hb.2, ← e, hmemf a ha.1 ha.2]
        exact hc
      exact route_unique hX.nodup ha.1 hb.1 hc hcb
    · exact nodup_ne Y hY.nodup
  · rw [List.forall₂_map_right_iff, List.forall₂_same]
    intro r hr
    rw [List.mem_filter] at hr
    exact hf2 r hr.1 (by simpa using hr.2)

/-- A stretch that covers the whole route is the route. -/
theorem infix_full {r q : List ℕ} (hq : q.Nodup) (h : r <:+: q ∨ r <:+: q.reverse)
    (hs : ∀ c ∈ q, c ∈ r) : q = r ∨ q = r.reverse := by
  have hl : q.length ≤ r.length := (hq.subperm hs).length_le
  rcases h with h | h
  · left
    exact (h.eq_of_length (le_antisymm h.length_le hl)).symm
  · right
    have := h.eq_of_length (le_antisymm h.length_le (by simpa using hl))
    rw [this, List.reverse_reverse]

theorem consec_of_next {R : List (List ℕ)} {r : List ℕ} (hr : r ∈ R) {a b : ℕ} (h : Next r a b) :
    Consec R a b := by
  obtain ⟨s, t, rfl⟩ := h
  exact ⟨_, hr, 0 :: s, t ++ [0], by simp⟩

theorem next_of_consec {R : List (List ℕ)} {a b : ℕ} (ha : a ≠ 0) (hb : b ≠ 0) (h : Consec R a b) :
    ∃ r ∈ R, Next r a b := by
  obtain ⟨r, hr, l1, l2, e⟩ := h
  refine ⟨r, hr, ?_⟩
  cases l1 with
  | nil =>
    simp only [List.nil_append, List.cons.injEq] at e
    exact absurd e.1.symm ha
  | cons z l1 =>
    simp only [List.cons_append, List.cons.injEq] at e
    obtain ⟨-, e⟩ := e
    rcases List.eq_nil_or_concat l2 with rfl | ⟨l2, y, rfl⟩
    · have e' : r ++ [0] = (l1 ++ [a]) ++ [b] := by rw [e]; simp
      have := (List.append_inj' e' rfl).2
      simp at this
      exact absurd this.symm hb
    · have e' : r ++ [0] = (l1 ++ a :: b :: l2) ++ [y] := by rw [e]; simp
      exact ⟨l1, l2, (List.append_inj' e' rfl).1⟩

end Spec

/-- What a distance of zero says. -/
theorem zero_distance {ctx ctx' : Ctx α} (hn : ctx'.n = ctx.n) {x y : Individual α} (hx : x.Good ctx)
    (hy : y.Good ctx') (h : x.brokenPairs y = some 0) {i : ℕ} (h1 : 1 ≤ i) (h2 : i < ctx.n) :
    ∃ xs ys xp yp, x.successor i = some xs ∧ y.successor i = some ys ∧ x.predecessor i = some xp ∧
      y.predecessor i = some yp ∧ (xs = ys ∨ xs = yp) ∧
      (xp = 0 → yp = 0 ∨ (y.phenotype.getLastD []).headD 0 = 0) := by
  obtain ⟨c, hc, hsum⟩ := Individual.brokenPairsLoop_sum _ _ _ h
  have hi : i ∈ List.range' 1 x.genotype.length := by
    rw [List.mem_range'_1, hx.geno_length]; omega
  have hci : c i = 0 := by
    have h0 : ((List.range' 1 x.genotype.length).map c).sum = 0 := by omega
    have key : ∀ (l : List ℕ), i ∈ l → c i ≤ (l.map c).sum := by
      intro l
      induction l with
      | nil => simp
      | cons z l ih =>
        intro hz
        rw [List.map_cons, List.sum_cons]
        rcases List.mem_cons.mp hz with rfl | hz
        · omega
        · have := ih hz; omega
    have := key _ hi
    omega
  have hat := hc i hi
  rw [hci] at hat
  have hp : y.phenotype ≠ [] := by
    intro hp
    have := hy.part.length
    rw [hp] at this
    simp at this
    omega
  unfold Individual.brokenPairsAt at hat
  rw [hy.succ0 hp] at hat
  split at hat
  · rename_i xs ys yp xp y0 e1 e2 e3 e4 e5
    rw [Option.some.injEq] at e5 hat
    refine ⟨xs, ys, xp, yp, e1, e2, e4, e3, ?_, ?_⟩
    · by_contra hc
      rw [not_or] at hc
      rw [if_pos hc] at hat
      omega
    · intro hxp
      by_contra hc
      rw [not_or] at hc
      rw [e5] at hc
      rw [if_pos (c := xp = 0 ∧ yp ≠ 0 ∧ y0 ≠ 0) ⟨hxp, hc.1, hc.2⟩] at hat
      omega
  · simp at hat

/-- Every stretch of `x` between customers is one of `y`. -/
theorem zero_walk {ctx ctx' : Ctx α} (hn : ctx'.n = ctx.n) {x y : Individual α} (hx : x.Good ctx)
    (hy : y.Good ctx') (h : x.brokenPairs y = some 0) {r : List ℕ} (hr : r ∈ x.phenotype)
    (hne : r ≠ []) : ∃ q ∈ y.phenotype, r <:+: q ∨ r <:+: q.reverse := by
  have hmem : ∀ a ∈ r, 1 ≤ a ∧ a < ctx.n := fun a ha =>
    hx.part.mem_iff.mp (List.mem_flatten.mpr ⟨r, hr, ha⟩)
  refine Spec.walk hy.part.nodup r hne (Spec.nodup_of_mem hx.part.nodup hr) ?_ ?_
  · intro a ha
    exact hy.part.mem_iff.mpr (hn ▸ hmem a ha)
  · intro a b hab
    have ha : a ∈ r := by obtain ⟨s, t, rfl⟩ := hab; simp
    have hb : b ∈ r := by obtain ⟨s, t, rfl⟩ := hab; simp
    obtain ⟨ha1, ha2⟩ := hmem a ha
    obtain ⟨hb1, hb2⟩ := hmem b hb
    obtain ⟨xs, ys, xp, yp, e1, e2, e3, e4, h5, -⟩ := zero_distance hn hx hy h ha1 ha2
    have := (hx.nbrs (Spec.consec_of_next hr hab)).2 (by omega)
    rw [e1, Option.some.injEq] at this
    subst this
    obtain ⟨u, v, c1, c2⟩ := Spec.exists_consec hy.part ha1 (hn ▸ ha2)
    have f1 := (hy.nbrs c1).1 (by omega)
    have f2 := (hy.nbrs c2).2 (by omega)
    rw [e4, Option.some.injEq] at f1
    rw [e2, Option.some.injEq] at f2
    subst f1 f2
    rcases h5 with rfl | rfl
    · obtain ⟨q, hq, hn⟩ := Spec.next_of_consec (by omega) (by omega) c2
      exact ⟨q, hq, Or.inl hn⟩
    · obtain ⟨q, hq, hn⟩ := Spec.next_of_consec (by omega) (by omega) c1
      exact ⟨q, hq, Or.inr hn⟩

/-- **C34 (partial).** Two complete individuals at distance zero in both directions have the same routes
up to order and direction. Missing from the full claim: one direction suffices, and symmetry; both are
false, see `C34_clone_refuted`. -/
theorem C34_clone_partial (ctx ctx' : Ctx α) (hn : ctx'.n = ctx.n) (x y : Individual α)
    (hx : x.Good ctx) (hy : y.Good ctx') (h1 : x.brokenPairs y = some 0)
    (h2 : y.brokenPairs x = some 0) : Spec.SameTours x.phenotype y.phenotype := by
  refine Spec.sameTours_of hx.part (hn ▸ hy.part) ?_
  intro r hr hne
  obtain ⟨q, hq, hi⟩ := zero_walk hn hx hy h1 hr hne
  obtain ⟨c, hc⟩ := List.exists_mem_of_ne_nil _ hne
  have hcq : c ∈ q := by
    rcases hi with hi | hi
    · exact hi.subset hc
    · exact List.mem_reverse.mp (hi.subset hc)
  obtain ⟨r', hr', hi'⟩ := zero_walk hn.symm hy hx h2 hq (List.ne_nil_of_mem hcq)
  have hsub : ∀ d ∈ q, d ∈ r' := by
    intro d hd
    rcases hi' with hi' | hi'
    · exact hi'.subset hd
    · exact List.mem_reverse.mp (hi'.subset hd)
  obtain rfl := Spec.route_unique hx.part.nodup hr hr' hc (hsub c hcq)
  exact ⟨q, hq, Spec.infix_full (Spec.nodup_of_mem hy.part.nodup hq) hi hsub⟩

/-- **C34, last route used (partial).** If the last route of `y` is not empty, distance zero from `x` to
`y` already implies the same routes up to order and direction. -/
theorem C34_last_route_partial (ctx ctx' : Ctx α) (hn : ctx'.n = ctx.n) (x y : Individual α)
    (hx : x.Good ctx) (hy : y.Good ctx') (h1 : x.brokenPairs y = some 0)
    (hl : y.phenotype.getLastD [] ≠ []) : Spec.SameTours x.phenotype y.phenotype := by
  have hl0 : (y.phenotype.getLastD []).headD 0 ≠ 0 := by
    cases hq : y.phenotype.getLastD [] with
    | nil => exact absurd hq hl
    | cons a q =>
      have hqm : a :: q ∈ y.phenotype := by
        have : y.phenotype ≠ [] := by rintro e; rw [e] at hq; simp at hq
        rw [← hq, List.getLastD_eq_getLast?, List.getLast?_eq_some_getLast this]
        exact List.getLast_mem this
      have := (hy.part.mem_iff (x := a)).mp (List.mem_flatten.mpr ⟨_, hqm, by simp⟩)
      simp
      omega
  refine Spec.sameTours_of hx.part (hn ▸ hy.part) ?_
  -- the first stop of a route of x is the first stop of the route of y that contains it
  have first : ∀ r ∈ x.phenotype, ∀ a t, r = a :: t → ∀ q ∈ y.phenotype, a ∈ q → ∃ t', q = a :: t' := by
    intro r hr a t e q hq haq
    obtain ⟨ha1, ha2⟩ := (hx.part.mem_iff (x := a)).mp (List.mem_flatten.mpr ⟨r, hr, by rw [e]; simp⟩)
    obtain ⟨xs, ys, xp, yp, e1, e2, e3, e4, -, h6⟩ := zero_distance hn hx hy h1 ha1 ha2
    have := (hx.nbrs (u := 0) (v := a) ⟨r, hr, [], t ++ [0], by rw [e]; simp⟩).1 (by omega)
    rw [e3, Option.some.injEq] at this
    have hyp := (h6 this).resolve_right hl0
    subst hyp
    obtain ⟨s, t', rfl⟩ := List.append_of_mem haq
    rcases List.eq_nil_or_concat s with rfl | ⟨s, b, rfl⟩
    · exact ⟨t', rfl⟩
    · exfalso
      have hb := (hy.part.mem_iff (x := b)).mp (List.mem_flatten.mpr ⟨_, hq, by simp⟩)
      have := (hy.nbrs (Spec.consec_of_next hq (a := b) (b := a) ⟨s, t', by simp⟩)).1 (by omega)
      rw [e4, Option.some.injEq] at this
      omega
  intro r hr hne
  obtain ⟨q, hq, hi⟩ := zero_walk hn hx hy h1 hr hne
  have sub : ∀ {r q : List ℕ}, (r <:+: q ∨ r <:+: q.reverse) → ∀ c ∈ r, c ∈ q := by
    intro r q hi c hc
    rcases hi with hi | hi
    · exact hi.subset hc
    · exact List.mem_reverse.mp (hi.subset hc)
  refine ⟨q, hq, Spec.infix_full (Spec.nodup_of_mem hy.part.nodup hq) hi ?_⟩
  intro c hc
  obtain ⟨r', hr', hcr'⟩ := List.mem_flatten.mp (hx.part.mem_iff.mpr
    (hn ▸ hy.part.mem_iff.mp (List.mem_flatten.mpr ⟨q, hq, hc⟩)))
  obtain ⟨q', hq', hi'⟩ := zero_walk hn hx hy h1 hr' (List.ne_nil_of_mem hcr')
  obtain rfl := Spec.route_unique hy.part.nodup hq hq' hc (sub hi' c hcr')
  cases r with
  | nil => exact absurd rfl hne
  | cons a t =>
    cases r' with
    | nil => simp at hcr'
    | cons a' t' =>
      obtain ⟨s1, g1⟩ := first _ hr a t rfl q hq (sub hi a (by simp))
      obtain ⟨s2, g2⟩ := first _ hr' a' t' rfl q hq (sub hi' a' (by simp))
      rw [g1, List.cons.injEq] at g2
      obtain ⟨rfl, -⟩ := g2
      rw [Spec.route_unique hx.part.nodup hr hr' (b := a) (by simp) (by simp)]
      exact hcr'

namespace CloneEx

/-- Two customers, two vehicles. -/
def ctx : Ctx ℚ where
  n := 3
  dist a b := if a = b then 0 else 1
  demand _ := 1
  cap := 10
  pen := 1
  lng _ := 0
  lat _ := 0

/-- Two routes with one customer each. -/
def x : Individual ℚ :=
  ⟨0, [1, 2], [[1], [2]], 0, ⟨4, true, [⟨2, -9, 2⟩, ⟨2, -9, 2⟩], [0, 0, 0], [2, 0, 0]⟩⟩

/-- One route with both customers, the second route empty. -/
def y : Individual ℚ :=
  ⟨1, [1, 2], [[1, 2], []], 0, ⟨3, true, [⟨3, -8, 3⟩, ⟨0, -10, 0⟩], [0, 0, 1], [0, 2, 0]⟩⟩

theorem good_x : x.Good ctx := ⟨by unfold Spec.IsPartition; decide, rfl, SolEval.new, by decide +kernel⟩
theorem good_y : y.Good ctx := ⟨by unfold Spec.IsPartition; decide, rfl, SolEval.new, by decide +kernel⟩

/-- **C34 is false of the code.** The complete individuals `[[1],[2]]` and `[[1,2],[]]` have different
routes and different costs, yet the distance from the first to the second is zero (and not zero in the
other direction). -/
theorem C34_clone_refuted : x.Good ctx ∧ y.Good ctx ∧ x.brokenPairs y = some 0 ∧
    y.brokenPairs x = some 1 ∧ ¬ Spec.SameTours x.phenotype y.phenotype := by
  refine ⟨good_x, good_y, by decide, by decide, ?_⟩
  rintro ⟨Q, hp, hf⟩
  have h1 := hf.length_eq
  have h2 := hp.length_eq
  have h3 : (List.filter (fun r : List ℕ => decide (r ≠ [])) x.phenotype).length = 2 := by decide
  have h4 : (List.filter (fun r : List ℕ => decide (r ≠ [])) y.phenotype).length = 1 := by decide
  omega

/-- The consequence: with `[[1],[2]]` in the population the cheaper `[[1,2],[]]` is thrown away as a
clone. -/
theorem C34_cheaper_lost : ∃ p p' p'' : Population ℚ,
    p = Population.new PopEx.cfg ∧ p.add PopEx.cfg bsearchNew x true = some p' ∧
    p'.add PopEx.cfg bsearchNew y true = some p'' ∧ y.cost < x.cost ∧
    p''.feasible.pop.map (·.phenotype) = [[[1], [2]]] := by
  have gx : x.Good (RR.ctxAt ctx 1) := good_x
  have gy : y.Good (RR.ctxAt ctx 1) := good_y
  have r0 : Population.Run ctx PopEx.cfg bsearchNew costSort (fun _ => True)
    (Population.new PopEx.cfg) [] := .new
  have tot : ∀ (p : Population ℚ) (z : Individual ℚ), p.Inv ctx PopEx.cfg → z.Good (RR.ctxAt ctx 1) →
      ∃ p', p.add PopEx.cfg bsearchNew z true = some p' := fun p z hI hz =>
    Population.add_total bsearchNew_ok avgOK_rat (by decide) (by decide) hI hz
      (fun w _ => PopEx.cmp_rat w z) true
  have i0 := r0.inv bsearchNew_ok costSort_ok.perm
  obtain ⟨p', a1⟩ := tot _ x i0 gx
  have r1 := r0.add gx trivial a1
  have i1 := r1.inv bsearchNew_ok costSort_ok.perm
  obtain ⟨p'', a2⟩ := tot _ y i1 gy
  refine ⟨_, p', p'', rfl, a1, a2, by decide +kernel, ?_⟩
  have phen : ∀ P Q : List (Individual ℚ), P.map strip = Q.map strip →
      P.map (·.phenotype) = Q.map (·.phenotype) := by
    intro P Q h
    have e : ∀ L : List (Individual ℚ), L.map (·.phenotype) = (L.map strip).map (·.phenotype) := by
      intro L; simp [Function.comp_def, strip]
    rw [e P, e Q, h]
  -- first insertion
  unfold Population.add at a1
  dsimp only at a1
  have hfx : ({ x with number := (Population.new (α := ℚ) PopEx.cfg).total } : Individual ℚ).isFeasible
      = true := rfl
  rw [if_pos hfx] at a1
  obtain ⟨s, hs, rfl⟩ := Option.map_eq_some_iff.mp a1
  obtain ⟨os, m, s2, -, hle, -, -, h1, -, h3, -, -, h5⟩ :=
    add_some bsearchNew_ok hs i0.feasible.table i0.feasible.fresh
  have hle' : bsearchNew os = 0 := by simpa [Population.new, SubPop.new] using hle
  have e1 : s2.pop.map strip = [strip { x with number := 0 }] := by
    rcases h1 with ⟨h1, -⟩ | ⟨-, h1⟩
    · exact absurd rfl h1
    · rw [h1, hle']; rfl
  have l1 : s2.pop.length = 1 := by simpa using congrArg List.length e1
  have e2 : s = s2 := by
    rcases h5 with ⟨h5, -⟩ | ⟨-, h5⟩
    · rw [h3, i0.feasible.maxInd, l1] at h5
      simp only [PopEx.cfg] at h5
      omega
    · exact h5
  rw [← e2] at e1
  -- second insertion
  unfold Population.add at a2
  dsimp only at a2
  have hfy : ({ y with number := (Population.new (α := ℚ) PopEx.cfg).total + 1 } : Individual ℚ).isFeasible
      = true := rfl
  rw [if_pos hfy] at a2
  obtain ⟨s', hs', rfl⟩ := Option.map_eq_some_iff.mp a2
  obtain ⟨os', m', s2', -, hle', hm', -, h1', -, h3', -, -, h5'⟩ :=
    add_some bsearchNew_ok hs' i1.feasible.table i1.feasible.fresh
  dsimp only at h1' h3' h5' hm' hle'
  have hmem : ∃ z ∈ s.pop, strip z = strip { x with number := 0 } := by
    have : strip { x with number := 0 } ∈ s.pop.map strip := by rw [e1]; simp
    obtain ⟨z, hz, e⟩ := List.mem_map.mp this
    exact ⟨z, hz, e⟩
  obtain ⟨z, hz, ez⟩ := hmem
  have hbp : z.brokenPairs { y with number := 1 } = some 0 := by
    have hgz : z.Good (RR.ctxAt ctx 1) :=
      Individual.good_strip (x := { x with number := 0 }) ez (Individual.good_number 0 gx)
    rw [Individual.brokenPairs_congr
      (Individual.Good.nbrEq (ctx := RR.ctxAt ctx 1) (ctx' := RR.ctxAt ctx 1) rfl hgz gx
        (congrArg (f := Individual.phenotype) (a₁ := strip z) (a₂ := strip { x with number := 0 }) ez))
      (Individual.Good.nbrEq (ctx := RR.ctxAt ctx 1) (ctx' := RR.ctxAt ctx 1) rfl
        (Individual.good_number 1 gy) gy rfl)]
    exact C34_clone_refuted.2.2.1
  have w := addDivs_written bsearchNew_ok hm' i1.feasible.fresh i1.feasible.table.nodup
    i1.feasible.table.sorted
  obtain ⟨-, d, hd, -, hdm⟩ := w.each z hz
  have hd0 : d = 0 := by
    have : z.brokenPairs { y with number := 1 } = some d := hd
    rw [hbp, Option.some.injEq] at this
    exact this.symm
  subst hd0
  have e3 : s2'.pop.map strip = s.pop.map strip := by
    rcases h1' with ⟨-, -, h⟩ | ⟨hcl, -⟩
    · exact h
    · exfalso
      rcases hcl with hcl | ⟨d, v, hv, hdz⟩
      · rw [hcl] at hz; simp at hz
      · have hso := w.sorted ((Population.new (α := ℚ) PopEx.cfg).total + 1)
        unfold vec at hdm hso
        dsimp only at hdm hv
        rw [hv] at hdm hso
        dsimp only [Option.getD_some] at hdm hso
        rw [List.mem_cons] at hdm
        rcases hdm with hdm | hdm
        · rw [← hdm] at hdz; exact hdz rfl
        · have := (List.pairwise_cons.mp hso).1 _ hdm
          dsimp only at this
          omega
  have e4 : s' = s2' := by
    rcases h5' with ⟨h5', -⟩ | ⟨-, h5'⟩
    · have l2 : s2'.pop.length = 1 := by
        have := congrArg List.length e3
        rw [e1] at this
        simpa using this
      have := i1.feasible.maxInd
      dsimp only at this
      rw [h3', this, l2] at h5'
      simp only [PopEx.cfg] at h5'
      omega
    · exact h5'
  dsimp only
  rw [e4, phen s2'.pop [{ x with number := 0 }] (by rw [e3, e1]; rfl)]
  rfl

/-- The hypotheses of `C34_clone_partial` are met by different individuals. -/
example : let x' : Individual ℚ := ⟨0, [2, 1], [[2, 1], []], 0,
      ⟨3, true, [⟨3, -8, 3⟩, ⟨0, -10, 0⟩], [0, 2, 0], [0, 0, 1]⟩⟩
    x'.Good ctx ∧ x'.brokenPairs y = some 0 ∧ y.brokenPairs x' = some 0 ∧
      x'.phenotype ≠ y.phenotype :=
  ⟨⟨by unfold Spec.IsPartition; decide, rfl, SolEval.new, by decide +kernel⟩, by decide, by decide,
    by decide⟩

end CloneEx
end Verif
