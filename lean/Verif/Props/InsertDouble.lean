import Verif.Lemmas.DblRoute
import Verif.Props.RecreateOrder
import Verif.Props.ComparisonDouble

/-!
# C24 in double precision: customers that fit

With whole distances and demands the position chosen for a customer that fits is cheapest without any tolerance.
-/

namespace Verif
open F64 Dbl

namespace RRSol

variable {ρ : Rounding}

/-- The best place so far among the candidates `P route position length`. -/
def OkIns (P : ℕ → ℕ → ℤ → Prop) (b : BestIns (Dbl ρ)) : Prop :=
  (b.route = none ∧ b.value = maxv ∧ ∀ r i v, ¬ P r i v) ∨
  ∃ r v, b.route = some r ∧ b.value = ofInt v ∧ |v| < 2 ^ 52 ∧ P r b.index v ∧ ∀ r' i' v', P r' i' v' → v ≤ v'

theorem OkIns.congr {P P' : ℕ → ℕ → ℤ → Prop} {b : BestIns (Dbl ρ)} (h : OkIns P b) (hP : ∀ r i v, P r i v ↔ P' r i v) :
    OkIns P' b := by
  have : P = P' := by
    funext r i v
    exact propext (hP r i v)
  exact this ▸ h

theorem lt_maxv {x : ℤ} (hx : |x| < 2 ^ 52) : approxLt (ofInt x : Dbl ρ) maxv = true := by
  obtain ⟨e, he, e0, e1, er, el⟩ := eps_double (ρ := ρ)
  have hq : |(x : ℚ)| < 2 ^ 52 := by exact_mod_cast hx
  have hl : |(x : ℚ)| < limit := hq.trans (pow_lt_limit (by norm_num))
  have hm : (maxv : Dbl ρ) = fin ((2 ^ 53 - 1) * 2 ^ 971) := rfl
  unfold ofInt
  rw [hm, (approx_fin he el hl).1, decide_eq_true_eq]
  have h1 : (2 : ℚ) ^ 53 ≤ (2 ^ 53 - 1) * 2 ^ 971 - e := by
    have : (2 : ℚ) ^ 54 ≤ 2 ^ 971 := pow_le_pow_right₀ (by norm_num) (by norm_num)
    generalize (2 : ℚ) ^ 971 = z at *
    norm_num at this ⊢
    linarith
  have h2 := ρ.pow_le h1
  have h3 := (abs_lt.mp hq).2
  have h4 : (2 : ℚ) ^ 52 < 2 ^ 53 := by norm_num
  linarith

theorem OkIns.step {P : ℕ → ℕ → ℤ → Prop} {b : BestIns (Dbl ρ)} (h : OkIns P b) {x : ℤ} (hx : |x| < 2 ^ 52) (r i : ℕ) :
    OkIns (fun r' i' v => P r' i' v ∨ (r' = r ∧ i' = i ∧ v = x))
      (if approxLt (ofInt x : Dbl ρ) b.value then ⟨some r, ofInt x, i⟩ else b) := by
  rcases h with ⟨h1, h2, h3⟩ | ⟨r0, v0, h1, h2, h3, h4, h5⟩
  · rw [h2, if_pos (lt_maxv hx)]
    refine Or.inr ⟨r, x, rfl, rfl, hx, Or.inr ⟨rfl, rfl, rfl⟩, ?_⟩
    rintro r' i' v' (h | ⟨-, -, rfl⟩)
    · exact absurd h (h3 _ _ _)
    · exact le_refl _
  · rw [h2]
    have hc := (C53_double_int (ρ := ρ) hx h3).1
    split
    · next h =>
      have := hc.mp h
      refine Or.inr ⟨r, x, rfl, rfl, hx, Or.inr ⟨rfl, rfl, rfl⟩, ?_⟩
      rintro r' i' v' (h | ⟨-, -, rfl⟩)
      · exact this.le.trans (h5 _ _ _ h)
      · exact le_refl _
    · next h =>
      have : v0 ≤ x := by
        by_contra hlt
        exact h (hc.mpr (by omega))
      refine Or.inr ⟨r0, v0, h1, h2, h3, Or.inl h4, ?_⟩
      rintro r' i' v' (h | ⟨-, -, rfl⟩)
      · exact h5 _ _ _ h
      · exact this

theorem scanPositions_int {ctx : Ctx (Dbl ρ)} {c r : ℕ} {rt : RRoute (Dbl ρ)} {e : ℕ → ℤ} :
    ∀ (is : List ℕ) (P : ℕ → ℕ → ℤ → Prop) (b : BestIns (Dbl ρ)), OkIns P b →
      (∀ i ∈ is, rt.deltaDistance ctx i c = some (ofInt (e i)) ∧ |e i| < 2 ^ 52) →
      ∃ b', scanPositions ctx c id r rt is b = some b' ∧
        OkIns (fun r' i v => P r' i v ∨ (r' = r ∧ i ∈ is ∧ v = e i)) b'
  | [], P, b, h, _ => ⟨b, rfl, h.congr fun _ _ _ => by simp⟩
  | i :: is, P, b, h, hi => by
    obtain ⟨h1, h2⟩ := hi i List.mem_cons_self
    obtain ⟨b', e1, e2⟩ := scanPositions_int is _ _ (h.step h2 r i) fun j hj => hi j (List.mem_cons_of_mem _ hj)
    refine ⟨b', ?_, e2.congr fun r' i' v => ?_⟩
    · rw [scanPositions, h1, Option.bind_some]
      exact e1
    · constructor
      · rintro ((h | ⟨a, rfl, c⟩) | ⟨a, b, c⟩)
        · exact Or.inl h
        · exact Or.inr ⟨a, List.mem_cons_self, c⟩
        · exact Or.inr ⟨a, List.mem_cons_of_mem _ b, c⟩
      · rintro (h | ⟨a, b, c⟩)
        · exact Or.inl (Or.inl h)
        · rcases List.mem_cons.mp b with rfl | b
          · exact Or.inl (Or.inr ⟨a, rfl, c⟩)
          · exact Or.inr ⟨a, b, c⟩

/-- Extra length in whole numbers. -/
def extraZ (d : ℕ → ℕ → ℤ) (l : List ℕ) (i c : ℕ) : ℤ := tripZ d (l.insertIdx i c) - tripZ d l

theorem delta_int {ctx : Ctx (Dbl ρ)} {d : ℕ → ℕ → ℤ} {M : ℤ} (h : WholeDist ctx d M) (hn : 2 ≤ ctx.n)
    (rt : RRoute (Dbl ρ)) {i : ℕ} (hi : i ≤ rt.nodes.length) (c : ℕ) :
    rt.deltaDistance ctx i c = some (ofInt (extraZ d rt.nodes i c)) ∧ |extraZ d rt.nodes i c| < 2 ^ 52 := by
  obtain ⟨l, a, b⟩ := rt
  dsimp only at hi ⊢
  obtain ⟨p, r, rfl, rfl⟩ : ∃ p r, l = p ++ r ∧ i = p.length :=
    ⟨l.take i, l.drop i, (List.take_append_drop i l).symm, by simp [hi]⟩
  have hM := h.M_nonneg
  have m3 := h.mul_le (k := 2) hn
  have a0 := h.nonneg (p.getLastD 0) (r.headD 0)
  have a1 := h.nonneg (p.getLastD 0) c
  have a2 := h.nonneg c (r.headD 0)
  have b0 := h.le (p.getLastD 0) (r.headD 0)
  have b1 := h.le (p.getLastD 0) c
  have b2 := h.le c (r.headD 0)
  have hins : (p ++ r).insertIdx p.length c = p ++ c :: r := by simp [insertIdx_at]
  have hx : extraZ d (p ++ r) p.length c = d (p.getLastD 0) c + d c (r.headD 0) - d (p.getLastD 0) (r.headD 0) := by
    unfold extraZ
    rw [hins, tripZ_insert]
    ring
  rw [RRoute.deltaDistance_append, hx]
  simp only [h.dist]
  generalize d (p.getLastD 0) (r.headD 0) = u at *
  generalize d (p.getLastD 0) c = v at *
  generalize d c (r.headD 0) = w at *
  push_cast at m3
  refine ⟨?_, by rw [abs_lt]; constructor <;> omega⟩
  rw [ofInt_neg, ofInt_add (by rw [abs_le]; constructor <;> omega), ofInt_add (by rw [abs_le]; constructor <;> omega)]
  congr 2
  ring

theorem room_int {ctx : Ctx (Dbl ρ)} {q : ℕ → ℤ} {Q D : ℤ} (hw : Whole ctx q Q D) (hQ : Q < 2 ^ 52)
    {rt : RRoute (Dbl ρ)} (he : LoadExact q Q rt) (hl : rt.nodes.length + 1 ≤ ctx.n) (c : ℕ) :
    approxLte (rt.overload +. ctx.demand c) (lit 0) = true ↔ loadZ q rt.nodes + q c ≤ Q := by
  have hb := hw.bound (l := c :: rt.nodes) (by simpa using hl)
  have hb2 := hw.bound (l := rt.nodes) (by omega)
  rw [loadZ_cons] at hb
  have := hw.nonneg c
  have := hw.capPos
  rw [he, hw.demand, ofInt_add (by rw [abs_le]; constructor <;> omega), lit_zero',
    (C53_double_int (ρ := ρ) (by rw [abs_lt]; constructor <;> omega) (by norm_num)).2.2.2.1]
  omega

section

variable {ctx : Ctx (Dbl ρ)} {q : ℕ → ℤ} {Q D M : ℤ} {d : ℕ → ℕ → ℤ} (hw : Whole ctx q Q D) (hQ : Q < 2 ^ 52)
  (hd : WholeDist ctx d M) (hn : 2 ≤ ctx.n) {routes : List (RRoute (Dbl ρ))}
  (he : ∀ rt ∈ routes, LoadExact q Q rt ∧ rt.nodes.length + 1 ≤ ctx.n)
include hw hQ hd hn he

theorem scanFeasible_int (c : ℕ) : ∀ (rs : List ℕ) (P : ℕ → ℕ → ℤ → Prop) (b : BestIns (Dbl ρ)), OkIns P b →
    (∀ r ∈ rs, r < routes.length) →
    ∃ b', scanFeasible ctx c routes rs b = some b' ∧
      OkIns (fun r i v => P r i v ∨ (r ∈ rs ∧ ∃ rt, routes[r]? = some rt ∧ loadZ q rt.nodes + q c ≤ Q ∧
        i ≤ rt.nodes.length ∧ v = extraZ d rt.nodes i c)) b'
  | [], P, b, h, _ => ⟨b, rfl, h.congr fun _ _ _ => by simp⟩
  | r :: rs, P, b, h, hr => by
    have hrt := List.getElem?_eq_getElem (hr r List.mem_cons_self)
    generalize routes[r]'(hr r List.mem_cons_self) = rt at hrt
    obtain ⟨x1, x2⟩ := he rt (List.mem_of_getElem? hrt)
    have hroom := room_int hw hQ x1 x2 c
    have hrs : ∀ r ∈ rs, r < routes.length := fun y hy => hr y (List.mem_cons_of_mem _ hy)
    rw [scanFeasible, hrt, Option.bind_some]
    split
    · next hfit =>
      have hfit := hroom.mp hfit
      obtain ⟨b1, e1, o1⟩ := scanPositions_int (r := r) (List.range (rt.nodes.length + 1)) P b h
        fun i hi => delta_int hd hn rt (by have := List.mem_range.mp hi; omega) c
      obtain ⟨b2, e2, o2⟩ := scanFeasible_int c rs _ b1 o1 hrs
      refine ⟨b2, by rw [e1, Option.bind_some, e2], o2.congr fun r' i v => ?_⟩
      constructor
      · rintro ((hp | ⟨rfl, hi, rfl⟩) | ⟨a1, a2⟩)
        · exact Or.inl hp
        · exact Or.inr ⟨List.mem_cons_self, rt, hrt, hfit, by have := List.mem_range.mp hi; omega, rfl⟩
        · exact Or.inr ⟨List.mem_cons_of_mem _ a1, a2⟩
      · rintro (hp | ⟨a1, rt', a2, a3, a4, a5⟩)
        · exact Or.inl (Or.inl hp)
        · rcases List.mem_cons.mp a1 with rfl | a1
          · rw [hrt, Option.some.injEq] at a2
            subst a2
            exact Or.inl (Or.inr ⟨rfl, List.mem_range.mpr (by omega), a5⟩)
          · exact Or.inr ⟨a1, rt', a2, a3, a4, a5⟩
    · next hfit =>
      obtain ⟨b2, e2, o2⟩ := scanFeasible_int c rs P b h hrs
      refine ⟨b2, e2, o2.congr fun r' i v => ?_⟩
      constructor
      · rintro (hp | ⟨a1, a2⟩)
        · exact Or.inl hp
        · exact Or.inr ⟨List.mem_cons_of_mem _ a1, a2⟩
      · rintro (hp | ⟨a1, rt', a2, a3, a4⟩)
        · exact Or.inl hp
        · rcases List.mem_cons.mp a1 with rfl | a1
          · rw [hrt, Option.some.injEq] at a2
            subst a2
            exact absurd (hroom.mpr a3) hfit
          · exact Or.inr ⟨a1, rt', a2, a3, a4⟩

/-- **C24** in double precision, for whole distances and demands, when an open route has room: the customer goes to
exactly one place, into an open route with room, at a position whose extra length is minimal among all positions of
all such routes; no tolerance is left. Missing: the place chosen when no open route has room,
which is `C24_double_fallback`. -/
theorem C24_double_partial (order : List ℕ → List ℕ) (hord : ∀ l, (order l).Perm l) (c : ℕ) (updated : List ℕ)
    (hup : ∀ r ∈ updated, r < routes.length)
    (hroom : ∃ r ∈ updated, ∃ rt, routes[r]? = some rt ∧ Spec.routeLoad (fun a => (q a : ℚ)) rt.nodes + q c ≤ Q) :
    ∃ r rt i rt', r ∈ updated ∧ routes[r]? = some rt ∧ i ≤ rt.nodes.length ∧
      insertCustomer ctx order c routes updated = some (routes.set r rt', setInsert updated r) ∧
      rt'.nodes = rt.nodes.insertIdx i c ∧ Spec.routeLoad (fun a => (q a : ℚ)) rt'.nodes ≤ Q ∧
      ∀ r2 ∈ updated, ∀ rt2, routes[r2]? = some rt2 →
        Spec.routeLoad (fun a => (q a : ℚ)) rt2.nodes + q c ≤ Q → ∀ j ≤ rt2.nodes.length,
          Spec.extraDist (fun a b => (d a b : ℚ)) rt.nodes i c ≤ Spec.extraDist (fun a b => (d a b : ℚ)) rt2.nodes j c := by
  have hex : ∀ l i, Spec.extraDist (fun a b => (d a b : ℚ)) l i c = extraZ d l i c := fun l i => by
    unfold Spec.extraDist extraZ
    rw [tripZ_cast, tripZ_cast]
    push_cast
    rfl
  simp only [loadZ_cast, hex] at hroom ⊢
  obtain ⟨b, e1, o⟩ := scanFeasible_int hw hQ hd hn he c (order updated) (fun _ _ _ => False) ⟨none, maxv, 0⟩
    (Or.inl ⟨rfl, rfl, fun _ _ _ h => h⟩) fun r hr => hup r ((hord updated).mem_iff.mp hr)
  simp only [false_or] at o
  rcases o with ⟨-, -, o⟩ | ⟨r, v, h1, -, -, ⟨hr, rt, hrt, hfit, hi, rfl⟩, hmin⟩
  · obtain ⟨r, hr, rt, hrt, hfit⟩ := hroom
    exact absurd ⟨(hord updated).mem_iff.mpr hr, rt, hrt, by exact_mod_cast hfit, Nat.zero_le _, rfl⟩ (o r 0 _)
  · have hdel := (delta_int hd hn rt hi c).1
    refine ⟨r, rt, b.index, ⟨rt.nodes.insertIdx b.index c, rt.distance +. ofInt (extraZ d rt.nodes b.index c), rt.overload +. ctx.demand c⟩, (hord updated).mem_iff.mp hr, hrt, hi, ?_, rfl, ?_, ?_⟩
    · unfold insertCustomer insertAt RRoute.add
      rw [e1, Option.bind_some, h1]
      dsimp only
      rw [hrt, Option.bind_some, hdel]
      rfl
    · dsimp only
      have : (rt.nodes.insertIdx b.index c).Perm (c :: rt.nodes) := List.perm_insertIdx c rt.nodes hi
      have hl : loadZ q (rt.nodes.insertIdx b.index c) = loadZ q (c :: rt.nodes) := (this.map q).sum_eq
      rw [hl, loadZ_cons]
      exact_mod_cast (by omega : q c + loadZ q rt.nodes ≤ Q)
    · intro r2 hr2 rt2 hrt2 hfit2 j hj
      exact_mod_cast hmin r2 j _ ⟨(hord updated).mem_iff.mpr hr2, rt2, hrt2, by exact_mod_cast hfit2, hj, rfl⟩

end

end RRSol

namespace InsertDoubleEx

abbrev F := Dbl nearestEven

/-- Five nodes on a line, demand 1 each, capacity 3. -/
def ctx : Ctx F :=
  ⟨5, fun a b => ofInt |(a : ℤ) % 5 - (b : ℤ) % 5|, fun c => ofInt (if c = 0 then 0 else 1), ofInt 3, fin (5 / 2),
    fun _ => fin 0, fun _ => fin 0⟩

theorem whole : Whole ctx (fun c => if c = 0 then 0 else 1) 3 1 where
  demand := fun _ => rfl
  nonneg := fun c => by split <;> norm_num
  le := fun c => by split <;> norm_num
  cap := rfl
  capPos := by norm_num
  small := by show ((5 : ℕ) : ℤ) * 1 + 3 ≤ 2 ^ 52; norm_num

theorem wholeDist : WholeDist ctx (fun a b => |(a : ℤ) % 5 - (b : ℤ) % 5|) 4 where
  dist := fun _ _ => rfl
  nonneg := fun _ _ => abs_nonneg _
  le := fun a b => by rw [abs_le]; constructor <;> omega
  depot := by norm_num
  small := by show 4 * (((5 : ℕ) : ℤ) * 4) ≤ 2 ^ 53; norm_num

/-- Customer 2 is inserted; routes `[1, 3]` and `[4]` are open. -/
example := RRSol.C24_double_partial whole (by norm_num) wholeDist (by decide)
  (routes := [⟨[1, 3], ofInt 6, ofInt (-1)⟩, ⟨[4], ofInt 8, ofInt (-2)⟩]) (by
    intro rt hrt
    simp only [List.mem_cons, List.not_mem_nil, or_false] at hrt
    rcases hrt with rfl | rfl
    · exact ⟨by unfold LoadExact; congr 1, by decide⟩
    · exact ⟨by unfold LoadExact; congr 1, by decide⟩) id (fun _ => .refl _) 2 [1, 0] (by
    intro r hr
    simp only [List.mem_cons, List.not_mem_nil, or_false] at hr
    rcases hr with rfl | rfl <;> decide)
  ⟨1, by decide, _, rfl, by norm_num [Spec.routeLoad]⟩

end InsertDoubleEx

end Verif
