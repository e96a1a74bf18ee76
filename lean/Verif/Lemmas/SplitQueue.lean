import Verif.Lemmas.SplitReach

/-! The deque of the linear split keeps a label within tolerance of every earlier label. -/

namespace Verif
open F64

namespace SplitQueue

/-- The value of label `a` at cumulated load `x`, up to terms common to all labels. -/
def H (G Q : ℕ → ℚ) (pen cap : ℚ) (a : ℕ) (x : ℚ) : ℚ := G a + pen * max 0 (x - Q a - cap)

variable {G Q : ℕ → ℚ} {pen cap e : ℚ}

theorem max_diff_mono {A B x y : ℚ} (hAB : A ≤ B) (hxy : x ≤ y) :
    max 0 (x - A) - max 0 (x - B) ≤ max 0 (y - A) - max 0 (y - B) := by
  simp only [max_def]
  split_ifs <;> linarith

theorem H_diff_mono (hpen : 0 ≤ pen) {a b : ℕ} (hab : Q a ≤ Q b) {x y : ℚ} (hxy : x ≤ y) :
    H G Q pen cap a x - H G Q pen cap b x ≤ H G Q pen cap a y - H G Q pen cap b y := by
  unfold H
  have := max_diff_mono (A := Q a + cap) (B := Q b + cap) (by linarith) hxy
  simp only [← sub_sub] at this
  have := mul_le_mul_of_nonneg_left this hpen
  simp only [mul_sub] at this
  linarith

theorem H_dom (hpen : 0 ≤ pen) {a b : ℕ} (hab : Q a ≤ Q b) (h : G a + pen * (Q b - Q a) ≤ G b)
    (x : ℚ) : H G Q pen cap a x ≤ H G Q pen cap b x := by
  unfold H
  have h1 : max 0 (x - Q a - cap) ≤ (Q b - Q a) + max 0 (x - Q b - cap) := by
    simp only [max_def]
    split_ifs <;> linarith
  have := mul_le_mul_of_nonneg_left h1 hpen
  rw [mul_add] at this
  linarith

theorem H_right (hpen : 0 ≤ pen) {a b : ℕ} (hab : Q a ≤ Q b) (h : G b ≤ G a + e) (x : ℚ) :
    H G Q pen cap b x ≤ H G Q pen cap a x + e := by
  unfold H
  have h1 : max 0 (x - Q b - cap) ≤ max 0 (x - Q a - cap) := max_le_max (le_refl _) (by linarith)
  have := mul_le_mul_of_nonneg_left h1 hpen
  linarith

theorem H_front {a b c : ℕ} (hab : Q a ≤ Q b) (hbc : Q b ≤ Q c)
    (h1 : G b ≤ G a + pen * (Q b - Q a)) (h2 : G b < G c) {x : ℚ}
    (h : H G Q pen cap a x < H G Q pen cap b x) : H G Q pen cap a x < H G Q pen cap c x := by
  unfold H at *
  rcases le_or_gt 0 (x - Q b - cap) with hx | hx
  · rw [max_eq_right hx, max_eq_right (by linarith : 0 ≤ x - Q a - cap)] at h
    have : pen * (x - Q a - cap) = pen * (x - Q b - cap) + pen * (Q b - Q a) := by ring
    linarith
  · rw [max_eq_left (by linarith : x - Q c - cap ≤ 0)]
    rw [max_eq_left (by linarith : x - Q b - cap ≤ 0)] at h
    linarith

/-- The state of the queue before position `i`; labels `lo … i - 1` have been offered. -/
structure QInv (G Q : ℕ → ℚ) (pen cap e : ℚ) (lo i n : ℕ) (q : List ℕ) : Prop where
  ne : q ≠ []
  sorted : q.Pairwise (· < ·)
  rng : ∀ a ∈ q, lo ≤ a ∧ a < i
  inc : q.Pairwise (fun a b => G a < G b)
  nd : q.Pairwise (fun a b => G b ≤ G a + pen * (Q b - Q a))
  cover : ∀ c, lo ≤ c → c < i → ∃ r ∈ q,
    (c ≤ r ∧ ∀ j, i ≤ j → j < n →
      H G Q pen cap r (Q j) ≤ H G Q pen cap c (Q j) + ((r - c : ℕ) : ℚ) * e) ∨
    (r < c ∧ (∀ j, i ≤ j → j < n → H G Q pen cap r (Q j) ≤ H G Q pen cap c (Q j)) ∧
      ∀ b ∈ q, r < b → c < b)

/-- The front beats its neighbour at load `x`. -/
def Head (G Q : ℕ → ℚ) (pen cap : ℚ) (x : ℚ) (q : List ℕ) : Prop :=
  ∀ a b t, q = a :: b :: t → H G Q pen cap a x < H G Q pen cap b x

theorem pairwise_getLast {β : Type} {R : β → β → Prop} {l : List β} (h : l.Pairwise R) (hl : l ≠ [])
    {b : β} (hb : b ∈ l) : b = l.getLast hl ∨ R b (l.getLast hl) := by
  rw [← List.dropLast_append_getLast hl] at hb h
  rw [List.pairwise_append] at h
  rcases List.mem_append.mp hb with hb | hb
  · right; exact h.2.2 b hb _ (by simp)
  · left; simpa using hb

theorem mem_rdropWhile {β : Type} (p : β → Bool) (l : List β) {x : β} (h : x ∈ l) :
    x ∈ l.rdropWhile p ∨ p x = true := by
  unfold List.rdropWhile
  have hx : x ∈ l.reverse := by simpa using h
  rw [← List.takeWhile_append_dropWhile (p := p) (l := l.reverse)] at hx
  rcases List.mem_append.mp hx with hx | hx
  · right; exact List.mem_takeWhile_imp hx
  · left; simpa using hx

theorem QInv.congr {G' : ℕ → ℚ} {lo i n : ℕ} {q : List ℕ} (h : QInv G Q pen cap e lo i n q)
    (hG : ∀ a, a < i → G' a = G a) : QInv G' Q pen cap e lo i n q := by
  have hH : ∀ a, a < i → ∀ x, H G' Q pen cap a x = H G Q pen cap a x := by
    intro a ha x; unfold H; rw [hG a ha]
  refine ⟨h.ne, h.sorted, h.rng, ?_, ?_, ?_⟩
  · refine h.inc.imp_of_mem ?_
    intro a b ha hb hab
    rw [hG a (h.rng a ha).2, hG b (h.rng b hb).2]; exact hab
  · refine h.nd.imp_of_mem ?_
    intro a b ha hb hab
    rw [hG a (h.rng a ha).2, hG b (h.rng b hb).2]; exact hab
  · intro c h1 h2
    obtain ⟨r, hr, hc⟩ := h.cover c h1 h2
    refine ⟨r, hr, ?_⟩
    simp only [hH c h2, hH r (h.rng r hr).2]
    exact hc

theorem QInv.front_le {lo i n : ℕ} {q : List ℕ} (h : QInv G Q pen cap e lo i n q)
    (hQ : ∀ a b, a ≤ b → b < n → Q a ≤ Q b) (hin : i ≤ n) {x : ℚ} (hh : Head G Q pen cap x q)
    {front : ℕ} {rest : List ℕ} (hq : q = front :: rest) :
    ∀ r ∈ q, H G Q pen cap front x ≤ H G Q pen cap r x := by
  subst hq
  intro r hr
  rcases List.mem_cons.mp hr with rfl | hr'
  · exact le_refl _
  · cases rest with
    | nil => simp at hr'
    | cons b t =>
      have hb := hh front b t rfl
      rcases List.mem_cons.mp hr' with rfl | hr''
      · exact le_of_lt hb
      · have s1 := List.pairwise_cons.mp h.sorted
        have s2 := List.pairwise_cons.mp s1.2
        have n1 := List.pairwise_cons.mp h.nd
        have i2 := List.pairwise_cons.mp (List.pairwise_cons.mp h.inc).2
        have hbn := (h.rng b (by simp)).2
        have hrn := (h.rng r hr).2
        exact le_of_lt (H_front
          (hQ _ _ (le_of_lt (s1.1 b (by simp))) (by omega))
          (hQ _ _ (le_of_lt (s2.1 r hr'')) (by omega))
          (n1.1 b (by simp)) (i2.1 r hr'') hb)

/-- The front is within tolerance of every label offered so far. -/
theorem QInv.front_near {lo i n : ℕ} {q : List ℕ} (h : QInv G Q pen cap e lo i n q) (he : 0 ≤ e)
    (hQ : ∀ a b, a ≤ b → b < n → Q a ≤ Q b) (hin : i < n) (hh : Head G Q pen cap (Q i) q)
    {front : ℕ} {rest : List ℕ} (hq : q = front :: rest) (c : ℕ) (h1 : lo ≤ c) (h2 : c < i) :
    H G Q pen cap front (Q i) ≤ H G Q pen cap c (Q i) + ((i - 1 - c : ℕ) : ℚ) * e := by
  obtain ⟨r, hr, hc⟩ := h.cover c h1 h2
  have hf := h.front_le hQ (by omega) hh hq r hr
  have hri := (h.rng r hr).2
  rcases hc with hc | hc
  · have := hc.2 i (le_refl _) hin
    have h3 : ((r - c : ℕ) : ℚ) ≤ ((i - 1 - c : ℕ) : ℚ) := by exact_mod_cast (by omega)
    have := mul_le_mul_of_nonneg_right h3 he
    linarith
  · have := hc.2.1 i (le_refl _) hin
    have h3 : (0 : ℚ) ≤ ((i - 1 - c : ℕ) : ℚ) := by exact_mod_cast (Nat.zero_le _)
    have := mul_nonneg h3 he
    linarith

/-- Offering label `i`. -/
theorem QInv.push {lo i n : ℕ} {q : List ℕ} (h : QInv G Q pen cap e lo i n q) (he : 0 < e)
    (hpen : 0 ≤ pen) (hQ : ∀ a b, a ≤ b → b < n → Q a ≤ Q b) (hin : i < n) (hlo : lo ≤ i)
    (dom : Bool) (back : ℕ) (hback : q.getLast? = some back)
    (hdom : dom = true ↔ G back + pen * (Q i - Q back) < G i)
    (p : ℕ → Bool) (hp : ∀ b, p b = true ↔ G i < G b + e) :
    QInv G Q pen cap e lo (i + 1) n (if !dom then q.rdropWhile p ++ [i] else q) := by
  have hl : q.getLast h.ne = back := by
    rw [List.getLast?_eq_some_getLast h.ne] at hback
    simpa using hback
  have hbm : back ∈ q := hl ▸ List.getLast_mem h.ne
  have hbi := (h.rng back hbm).2
  by_cases hd : dom = true
  · rw [hd]
    simp only [Bool.not_true, Bool.false_eq_true, if_false]
    refine ⟨h.ne, h.sorted, fun a ha => ⟨(h.rng a ha).1, by have := (h.rng a ha).2; omega⟩, h.inc, h.nd, ?_⟩
    intro c h1 h2
    by_cases hc : c = i
    · subst hc
      refine ⟨back, hbm, Or.inr ⟨hbi, ?_, ?_⟩⟩
      · intro j _ _
        exact H_dom hpen (hQ _ _ (by omega) hin) (le_of_lt (hdom.mp hd)) _
      · intro b hb hlt
        rcases pairwise_getLast h.sorted h.ne hb with hb' | hb'
        · rw [hl] at hb'; omega
        · rw [hl] at hb'; omega
    · obtain ⟨r, hr, hc'⟩ := h.cover c h1 (by omega)
      refine ⟨r, hr, ?_⟩
      rcases hc' with hc' | hc'
      · exact Or.inl ⟨hc'.1, fun j hj hjn => hc'.2 j (by omega) hjn⟩
      · exact Or.inr ⟨hc'.1, fun j hj hjn => hc'.2.1 j (by omega) hjn, hc'.2.2⟩
  · have hd' : dom = false := by simpa using hd
    have hnd : G i ≤ G back + pen * (Q i - Q back) := by
      by_contra hlt
      exact hd (hdom.mpr (by linarith))
    rw [hd']
    simp only [Bool.not_false, if_true]
    have hpre : q.rdropWhile p <+: q := List.rdropWhile_prefix _ _
    have hsub : (q.rdropWhile p).Sublist q := hpre.sublist
    have hmem : ∀ b ∈ q.rdropWhile p, b ∈ q := fun b hb => hpre.subset hb
    have hGi : ∀ b ∈ q.rdropWhile p, G b < G i := by
      intro b hb
      have hne : q.rdropWhile p ≠ [] := List.ne_nil_of_mem hb
      have hlast := List.rdropWhile_last_not p q hne
      rw [hp] at hlast
      rcases pairwise_getLast (h.inc.sublist hsub) hne hb with hb' | hb'
      · rw [← hb'] at hlast; linarith
      · linarith
    have hNi : ∀ b ∈ q, G i ≤ G b + pen * (Q i - Q b) := by
      intro b hb
      rcases pairwise_getLast h.nd h.ne hb with hb' | hb'
      · rw [hl] at hb'; subst hb'; exact hnd
      · rw [hl] at hb'
        have : pen * (Q i - Q b) = pen * (Q i - Q back) + pen * (Q back - Q b) := by ring
        linarith
    refine ⟨by simp, ?_, ?_, ?_, ?_, ?_⟩
    · rw [List.pairwise_append]
      refine ⟨h.sorted.sublist hsub, by simp, ?_⟩
      intro a ha b hb
      rw [List.mem_singleton] at hb; subst hb
      exact (h.rng a (hmem a ha)).2
    · intro a ha
      rcases List.mem_append.mp ha with ha | ha
      · have := h.rng a (hmem a ha); omega
      · rw [List.mem_singleton] at ha; omega
    · rw [List.pairwise_append]
      refine ⟨h.inc.sublist hsub, by simp, ?_⟩
      intro a ha b hb
      rw [List.mem_singleton] at hb; subst hb
      exact hGi a ha
    · rw [List.pairwise_append]
      refine ⟨h.nd.sublist hsub, by simp, ?_⟩
      intro a ha b hb
      rw [List.mem_singleton] at hb; subst hb
      exact hNi a (hmem a ha)
    · intro c h1 h2
      by_cases hc : c = i
      · subst hc
        refine ⟨c, by simp, Or.inl ⟨le_refl _, ?_⟩⟩
        intro j _ _; simp
      · obtain ⟨r, hr, hc'⟩ := h.cover c h1 (by omega)
        have hri := (h.rng r hr).2
        rcases mem_rdropWhile p q hr with hk | hk
        · refine ⟨r, by simp [hk], ?_⟩
          rcases hc' with hc' | hc'
          · exact Or.inl ⟨hc'.1, fun j hj hjn => hc'.2 j (by omega) hjn⟩
          · refine Or.inr ⟨hc'.1, fun j hj hjn => hc'.2.1 j (by omega) hjn, ?_⟩
            intro b hb hrb
            rcases List.mem_append.mp hb with hb | hb
            · exact hc'.2.2 b (hmem b hb) hrb
            · rw [List.mem_singleton] at hb; omega
        · rw [hp] at hk
          refine ⟨i, by simp, Or.inl ⟨by omega, ?_⟩⟩
          intro j hj hjn
          have hR := H_right (cap := cap) hpen (hQ r i (by omega) hin) (le_of_lt hk) (Q j)
          rcases hc' with hc' | hc'
          · have := hc'.2 j (by omega) hjn
            have h3 : ((r - c : ℕ) : ℚ) + 1 ≤ ((i - c : ℕ) : ℚ) := by
              exact_mod_cast (by omega : r - c + 1 ≤ i - c)
            have := mul_le_mul_of_nonneg_right h3 he.le
            linarith
          · have := hc'.2.1 j (by omega) hjn
            have h3 : (1 : ℚ) ≤ ((i - c : ℕ) : ℚ) := by
              exact_mod_cast (by omega : 1 ≤ i - c)
            have := mul_le_mul_of_nonneg_right h3 he.le
            linarith

/-- Popping the front. -/
theorem QInv.pop {lo i n : ℕ} {a b : ℕ} {t : List ℕ}
    (h : QInv G Q pen cap e lo i n (a :: b :: t)) (he : 0 ≤ e)
    (hpen : 0 ≤ pen) (hQ : ∀ a b, a ≤ b → b < n → Q a ≤ Q b) (hin : i < n)
    (hab : H G Q pen cap b (Q i) ≤ H G Q pen cap a (Q i) + e) :
    QInv G Q pen cap e lo i n (b :: t) := by
  have hlt : a < b := (List.pairwise_cons.mp h.sorted).1 b (by simp)
  have hbi := (h.rng b (by simp)).2
  refine ⟨by simp, (List.pairwise_cons.mp h.sorted).2, fun x hx => h.rng x (by simp at hx ⊢; tauto),
    (List.pairwise_cons.mp h.inc).2, (List.pairwise_cons.mp h.nd).2, ?_⟩
  intro c h1 h2
  obtain ⟨r, hr, hc⟩ := h.cover c h1 h2
  have hB : ∀ j, i ≤ j → j < n → H G Q pen cap b (Q j) ≤ H G Q pen cap a (Q j) + e := by
    intro j hj hjn
    have := H_diff_mono (G := G) (cap := cap) hpen (hQ a b hlt.le (by omega)) (hQ i j hj hjn)
    linarith
  rcases List.mem_cons.mp hr with rfl | hr'
  · refine ⟨b, by simp, Or.inl ?_⟩
    rcases hc with hc | hc
    · refine ⟨by omega, fun j hj hjn => ?_⟩
      have e1 := hc.2 j hj hjn
      have e2 := hB j hj hjn
      have h3 : ((r - c : ℕ) : ℚ) + 1 ≤ ((b - c : ℕ) : ℚ) := by
        exact_mod_cast (by omega : r - c + 1 ≤ b - c)
      have := mul_le_mul_of_nonneg_right h3 he
      linarith
    · have hcb := hc.2.2 b (by simp) hlt
      refine ⟨hcb.le, fun j hj hjn => ?_⟩
      have e1 := hc.2.1 j hj hjn
      have e2 := hB j hj hjn
      have h3 : (1 : ℚ) ≤ ((b - c : ℕ) : ℚ) := by
        exact_mod_cast (by omega : 1 ≤ b - c)
      have := mul_le_mul_of_nonneg_right h3 he
      linarith
  · refine ⟨r, hr', ?_⟩
    rcases hc with hc | hc
    · exact Or.inl hc
    · exact Or.inr ⟨hc.1, hc.2.1, fun x hx hrx => hc.2.2 x (by simp at hx ⊢; tauto) hrx⟩

end SplitQueue

namespace Split
open SplitQueue

/-- Label constant of `a` in row `k`. -/
def gval (s : Split ℚ) (k a : ℕ) : ℚ := s.pathCost k a + s.distDepot (a + 1) - s.cumDist (a + 1)

theorem propagate_H (s : Split ℚ) (a j k : ℕ) :
    propagate s a j k = H (gval s k) s.cumLoad s.pen s.cap a (s.cumLoad j)
      + (s.cumDist j + s.distDepot j) := by
  unfold propagate H gval
  simp only [rat_add, rat_sub, rat_mul, rat_max, rat_lit]; ring

theorem dominates_iff (s : Split ℚ) (a i k : ℕ) :
    dominates s a i k = true ↔
      gval s k a + s.pen * (s.cumLoad i - s.cumLoad a) < gval s k i := by
  unfold dominates gval
  simp only [rat_add, rat_sub, rat_mul, rat_lt, decide_eq_true_eq]
  constructor <;> intro h <;> linarith

theorem approxLte_iff (a b : ℚ) : approxLte a b = true ↔ a < b + 1 / 1000000 := by
  rw [rat_approxLte, decide_eq_true_eq, abs_lt]
  constructor
  · rintro (h | h)
    · linarith
    · linarith [h.2]
  · intro h
    rcases lt_or_ge a b with h' | h'
    · exact Or.inl h'
    · exact Or.inr ⟨by linarith, by linarith⟩

theorem approxGte_iff (a b : ℚ) : approxGte a b = true ↔ b < a + 1 / 1000000 := by
  rw [rat_approxGte, decide_eq_true_eq, abs_lt]
  constructor
  · rintro (h | h)
    · linarith
    · linarith [h.1]
  · intro h
    rcases lt_or_ge b a with h' | h'
    · exact Or.inl h'
    · exact Or.inr ⟨by linarith, by linarith⟩

theorem dominatesRight_iff (s : Split ℚ) (b i k : ℕ) :
    dominatesRight s b i k = true ↔ gval s k i < gval s k b + 1 / 1000000 := by
  unfold dominatesRight gval
  rw [approxLte_iff]
  simp only [rat_add, rat_sub]
  constructor <;> intro h <;> linarith

theorem popFront_inv (s : Split ℚ) (lo i n k : ℕ) (hpen : 0 ≤ s.pen)
    (hQ : ∀ a b, a ≤ b → b < n → s.cumLoad a ≤ s.cumLoad b) (hin : i < n) (q : List ℕ)
    (h : QInv (gval s k) s.cumLoad s.pen s.cap (1 / 1000000) lo i n q) :
    QInv (gval s k) s.cumLoad s.pen s.cap (1 / 1000000) lo i n (popFront s i k q) ∧
      Head (gval s k) s.cumLoad s.pen s.cap (s.cumLoad i) (popFront s i k q) := by
  fun_induction popFront s i k q with
  | case1 a b q hc ih =>
    refine ih (h.pop (by norm_num) hpen hQ hin ?_)
    rw [approxGte_iff, propagate_H, propagate_H] at hc
    linarith
  | case2 a b q hc =>
    refine ⟨h, ?_⟩
    intro a' b' t' he
    simp only [List.cons.injEq] at he
    obtain ⟨rfl, rfl, rfl⟩ := he
    rw [approxGte_iff, propagate_H, propagate_H] at hc
    linarith
  | case3 q hc =>
    refine ⟨h, ?_⟩
    intro a b t he
    exact absurd he (hc a b t)

theorem updateQueue_inv (s : Split ℚ) (lo i n k : ℕ) (hpen : 0 ≤ s.pen)
    (hQ : ∀ a b, a ≤ b → b < n → s.cumLoad a ≤ s.cumLoad b) (hin : i + 1 < n) (hlo : lo ≤ i)
    (q q' : List ℕ) (h : QInv (gval s k) s.cumLoad s.pen s.cap (1 / 1000000) lo i n q)
    (hu : updateQueue s i k q = some q') :
    QInv (gval s k) s.cumLoad s.pen s.cap (1 / 1000000) lo (i + 1) n q' ∧
      Head (gval s k) s.cumLoad s.pen s.cap (s.cumLoad (i + 1)) q' := by
  unfold updateQueue at hu
  split at hu
  · simp at hu
  · rename_i back hback
    simp only [Option.some.injEq] at hu
    subst hu
    apply popFront_inv s lo (i + 1) n k hpen hQ hin
    exact h.push (by norm_num) hpen hQ (by omega) hlo _ back hback (dominates_iff s back i k) _
      (fun b => dominatesRight_iff s b i k)

/-- One position of the linear split. -/
theorem linearStep_opt (n k w lo : ℕ) (s s' : Split ℚ) (q q' : List ℕ) (i : ℕ) (hpen : 0 ≤ s.pen)
    (hQ : ∀ a b, a ≤ b → b < n → s.cumLoad a ≤ s.cumLoad b) (hin : i < n) (hlo : lo ≤ i)
    (hinv : QInv (gval s k) s.cumLoad s.pen s.cap (1 / 1000000) lo i n q)
    (hhead : Head (gval s k) s.cumLoad s.pen s.cap (s.cumLoad i) q)
    (h : linearStep n k w s q i = some (s', q')) :
    ∃ front, lo ≤ front ∧ front < i ∧ s'.preds = setCell s.preds w i front ∧
      s'.pathCost = setCell s.pathCost w i (propagate s front i k) ∧ SameData s s' ∧
      (∀ c, lo ≤ c → c < i → propagate s front i k
        ≤ propagate s c i k + ((i - 1 - c : ℕ) : ℚ) * (1 / 1000000)) ∧
      (i + 1 < n → QInv (gval s' k) s'.cumLoad s'.pen s'.cap (1 / 1000000) lo (i + 1) n q' ∧
        Head (gval s' k) s'.cumLoad s'.pen s'.cap (s'.cumLoad (i + 1)) q') := by
  have hd := (linearStep_data n k w s q i s' q' h).1
  unfold linearStep at h
  split at h
  · simp at h
  · rename_i front rest
    have hf := hinv.rng front (by simp)
    dsimp only at h
    have hnear : ∀ c, lo ≤ c → c < i → propagate s front i k
        ≤ propagate s c i k + ((i - 1 - c : ℕ) : ℚ) * (1 / 1000000) := by
      intro c h1 h2
      rw [propagate_H, propagate_H]
      have := hinv.front_near (by norm_num) hQ hin hhead rfl c h1 h2
      linarith
    have hinv' : QInv (gval { s with
          pathCost := setCell s.pathCost w i (propagate s front i k)
          preds := setCell s.preds w i front } k) s.cumLoad s.pen s.cap (1 / 1000000) lo i n
          (front :: rest) := by
      apply hinv.congr
      intro a ha
      unfold gval
      simp only [setCell]
      rw [if_neg (by omega)]
    split at h
    · rw [Option.map_eq_some_iff] at h
      obtain ⟨q1, h1, h2⟩ := h
      simp only [Prod.mk.injEq] at h2
      obtain ⟨rfl, rfl⟩ := h2
      refine ⟨front, hf.1, hf.2, rfl, rfl, hd, hnear, fun hi1 => ?_⟩
      exact updateQueue_inv { s with
          pathCost := setCell s.pathCost w i (propagate s front i k)
          preds := setCell s.preds w i front } lo i n k hpen hQ hi1 hlo _ _ hinv' h1
    · rename_i hlast
      simp only [Option.some.injEq, Prod.mk.injEq] at h
      obtain ⟨rfl, rfl⟩ := h
      refine ⟨front, hf.1, hf.2, rfl, rfl, hd, hnear, fun hi1 => ?_⟩
      omega

theorem gval_congr {s s' : Split ℚ} (hd : SameData s s') {k a : ℕ}
    (h : s'.pathCost k a = s.pathCost k a) : gval s' k a = gval s k a := by
  obtain ⟨a1, a2, a3, a4, a5, a6, a7⟩ := hd
  unfold gval; rw [h, a2, a4]

theorem propagate_congr {s s' : Split ℚ} (hd : SameData s s') {k a j : ℕ}
    (h : s'.pathCost k a = s.pathCost k a) : propagate s' a j k = propagate s a j k := by
  rw [propagate_H, propagate_H]
  unfold H
  rw [gval_congr hd h]
  obtain ⟨a1, a2, a3, a4, a5, a6, a7⟩ := hd
  rw [a2, a4, a5, a6, a7]

/-- What the linear loops establish for the positions `i … i + m - 1` of row `w`. -/
def RowOpt (s : Split ℚ) (k w lo i m : ℕ) : Prop :=
  ∀ j, i ≤ j → j < i + m → lo ≤ s.preds w j ∧ s.preds w j < j ∧
    s.pathCost w j = propagate s (s.preds w j) j k ∧
    ∀ c, lo ≤ c → c < j →
      s.pathCost w j ≤ propagate s c j k + ((j - 1 - c : ℕ) : ℚ) * (1 / 1000000)

theorem linearLoop_opt (n lo : ℕ) :
    ∀ (m i : ℕ) (s s' : Split ℚ) (q : List ℕ), 0 ≤ s.pen →
      (∀ a b, a ≤ b → b < n → s.cumLoad a ≤ s.cumLoad b) → i + m = n → lo ≤ i →
      (i < n → QInv (gval s 0) s.cumLoad s.pen s.cap (1 / 1000000) lo i n q ∧
        Head (gval s 0) s.cumLoad s.pen s.cap (s.cumLoad i) q) →
      linearLoop n (List.range' i m) s q = some s' →
      SameData s s' ∧ (∀ j, j < i → s'.pathCost 0 j = s.pathCost 0 j ∧ s'.preds 0 j = s.preds 0 j) ∧
      RowOpt s' 0 0 lo i m := by
  intro m
  induction m with
  | zero =>
    intro i s s' q _ _ _ _ _ h
    simp only [List.range'_zero, linearLoop, Option.some.injEq] at h
    subst h
    exact ⟨.refl _, fun _ _ => ⟨rfl, rfl⟩, fun j h1 h2 => by omega⟩
  | succ m ih =>
    intro i s s' q hpen hQ hn hlo hinv h
    rw [List.range'_succ] at h
    unfold linearLoop at h
    split at h
    · simp at h
    · rename_i s1 q1 h1
      obtain ⟨hq, hh⟩ := hinv (by omega)
      obtain ⟨front, f1, f2, f3, f4, f5, f6, f7⟩ := linearStep_opt n 0 0 lo s s1 q q1 i hpen hQ
        (by omega) hlo hq hh h1
      have hd := f5
      obtain ⟨a1, a2, a3, a4, a5, a6, a7⟩ := f5
      obtain ⟨g1, g2, g3⟩ := ih (i + 1) s1 s' q1 (by rw [a7]; exact hpen) (by rw [a5]; exact hQ)
        (by omega) (by omega) (fun hi => f7 hi) h
      refine ⟨hd.trans g1, ?_, ?_⟩
      · intro j hj
        obtain ⟨e1, e2⟩ := g2 j (by omega)
        rw [e1, e2, f4, f3]
        simp only [setCell]
        rw [if_neg (by omega), if_neg (by omega)]; exact ⟨rfl, rfl⟩
      · intro j hj1 hj2
        by_cases hji : j = i
        · subst hji
          obtain ⟨e1, e2⟩ := g2 j (by omega)
          have hlow : ∀ c, c < j → s'.pathCost 0 c = s.pathCost 0 c := by
            intro c hc
            rw [(g2 c (by omega)).1, f4]
            simp only [setCell]
            rw [if_neg (by omega)]
          rw [e1, e2, f3, f4]
          simp only [setCell, and_self, if_true]
          refine ⟨f1, f2, (propagate_congr (hd.trans g1) (hlow _ f2)).symm, ?_⟩
          intro c hc1 hc2
          rw [propagate_congr (hd.trans g1) (hlow c hc2)]
          exact f6 c hc1 hc2
        · exact g3 j (by omega) (by omega)

theorem linearLimLoop_opt (n k : ℕ) :
    ∀ (m i : ℕ) (s s' : Split ℚ) (q : List ℕ), 0 ≤ s.pen →
      (∀ a b, a ≤ b → b < n → s.cumLoad a ≤ s.cumLoad b) → (i + m = n ∨ m = 0) → k < i → q ≠ [] →
      (i < n → QInv (gval s k) s.cumLoad s.pen s.cap (1 / 1000000) k i n q ∧
        Head (gval s k) s.cumLoad s.pen s.cap (s.cumLoad i) q) →
      linearLimLoop n k (List.range' i m) s q = some s' →
      SameData s s' ∧ (∀ r j, (r ≠ k + 1 ∨ j < i ∨ i + m ≤ j) →
        s'.pathCost r j = s.pathCost r j ∧ s'.preds r j = s.preds r j) ∧
      RowOpt s' k (k + 1) k i m := by
  intro m
  induction m with
  | zero =>
    intro i s s' q _ _ _ _ _ _ h
    simp only [List.range'_zero, linearLimLoop, Option.some.injEq] at h
    subst h
    exact ⟨.refl _, fun _ _ _ => ⟨rfl, rfl⟩, fun j h1 h2 => by omega⟩
  | succ m ih =>
    intro i s s' q hpen hQ hn hlo hne hinv h
    rw [List.range'_succ] at h
    unfold linearLimLoop at h
    rw [if_neg hne] at h
    split at h
    · simp at h
    · rename_i s1 q1 h1
      obtain ⟨hq, hh⟩ := hinv (by omega)
      obtain ⟨front, f1, f2, f3, f4, f5, f6, f7⟩ := linearStep_opt n k (k + 1) k s s1 q q1 i hpen hQ
        (by omega) (by omega) hq hh h1
      have hne1 : q1 ≠ [] := by
        obtain ⟨s2, q2, fr, e1, e2, -⟩ := linearStep_some n k (k + 1) s q i k hne hq.rng (by omega)
        rw [h1] at e1
        simp only [Option.some.injEq, Prod.mk.injEq] at e1
        rw [e1.2]; exact e2
      have hd := f5
      obtain ⟨a1, a2, a3, a4, a5, a6, a7⟩ := f5
      obtain ⟨g1, g2, g3⟩ := ih (i + 1) s1 s' q1 (by rw [a7]; exact hpen) (by rw [a5]; exact hQ)
        (by omega) (by omega) hne1 (fun hi => f7 hi) h
      refine ⟨hd.trans g1, ?_, ?_⟩
      · intro r j hj
        obtain ⟨e1, e2⟩ := g2 r j (by omega)
        rw [e1, e2, f4, f3]
        simp only [setCell]
        rw [if_neg (by omega), if_neg (by omega)]; exact ⟨rfl, rfl⟩
      · intro j hj1 hj2
        by_cases hji : j = i
        · subst hji
          obtain ⟨e1, e2⟩ := g2 (k + 1) j (by omega)
          have hlow : ∀ c, s'.pathCost k c = s.pathCost k c := by
            intro c
            rw [(g2 k c (by omega)).1, f4]
            simp only [setCell]
            rw [if_neg (by omega)]
          rw [e1, e2, f3, f4]
          simp only [setCell, and_self, if_true]
          refine ⟨f1, f2, (propagate_congr (hd.trans g1) (hlow _)).symm, ?_⟩
          intro c hc1 hc2
          rw [propagate_congr (hd.trans g1) (hlow c)]
          exact f6 c hc1 hc2
        · exact g3 j (by omega) (by omega)

/-- The initial queue `[k]` before position `k + 1`. -/
theorem queue_init (s : Split ℚ) (k n : ℕ) :
    QInv (gval s k) s.cumLoad s.pen s.cap (1 / 1000000) k (k + 1) n [k] ∧
      Head (gval s k) s.cumLoad s.pen s.cap (s.cumLoad (k + 1)) [k] := by
  refine ⟨⟨by simp, by simp, by simp, by simp, by simp, ?_⟩, ?_⟩
  · intro c h1 h2
    obtain rfl : c = k := by omega
    exact ⟨c, by simp, Or.inl ⟨le_refl _, fun j _ _ => by simp⟩⟩
  · intro a b t h; simp at h

/-- Every row of the limited linear split. -/
theorem linearLimRows_opt (n : ℕ) :
    ∀ (m k : ℕ) (s s' : Split ℚ), 0 ≤ s.pen →
      (∀ a b, a ≤ b → b < n → s.cumLoad a ≤ s.cumLoad b) →
      linearLimRows n (List.range' k m) s = some s' →
      SameData s s' ∧ (∀ r j, (r ≤ k ∨ j < r) →
        s'.pathCost r j = s.pathCost r j ∧ s'.preds r j = s.preds r j) ∧
      ∀ r, k ≤ r → r < k + m → RowOpt s' r (r + 1) r (r + 1) (n - (r + 1)) := by
  intro m
  induction m with
  | zero =>
    intro k s s' _ _ h
    simp only [List.range'_zero, linearLimRows, Option.some.injEq] at h
    subst h
    exact ⟨.refl _, fun _ _ _ => ⟨rfl, rfl⟩, fun j h1 h2 => by omega⟩
  | succ m ih =>
    intro k s s' hpen hQ h
    rw [List.range'_succ] at h
    unfold linearLimRows at h
    split at h
    · simp at h
    · rename_i s1 h1
      obtain ⟨f1, f2, f3⟩ := linearLimLoop_opt n k (n - (k + 1)) (k + 1) s s1 [k] hpen hQ (by omega)
        (by omega) (by simp) (fun _ => queue_init s k n) h1
      have hd := f1
      obtain ⟨a1, a2, a3, a4, a5, a6, a7⟩ := f1
      obtain ⟨g1, g2, g3⟩ := ih (k + 1) s1 s' (by rw [a7]; exact hpen) (by rw [a5]; exact hQ) h
      refine ⟨hd.trans g1, ?_, ?_⟩
      · intro r j hr
        rw [(g2 r j (by omega)).1, (g2 r j (by omega)).2]
        exact f2 r j (by omega)
      · intro r hr1 hr2
        by_cases hrk : r = k
        · subst hrk
          intro j hj1 hj2
          obtain ⟨b1, b2, b3, b4⟩ := f3 j hj1 hj2
          have e1 := g2 (r + 1) j (by omega)
          rw [e1.1, e1.2]
          refine ⟨b1, b2, ?_, ?_⟩
          · rw [propagate_congr g1 (g2 r _ (by omega)).1]; exact b3
          · intro c hc1 hc2
            rw [propagate_congr g1 (g2 r _ (by omega)).1]; exact b4 c hc1 hc2
        · exact g3 r (by omega) (by omega)

end Split
end Verif
