import Verif.Props.InsertDouble

/-!
# C24 in double precision: customers that fit nowhere
-/

namespace Verif
open F64 Dbl

namespace RRSol

variable {ρ : Rounding}

/-- The best place so far among the candidates `P route position value`, `e` being the tolerance. -/
def OkVal (e : ℚ) (P : ℕ → ℕ → ℚ → Prop) (b : BestIns (Dbl ρ)) : Prop :=
  (b.route = none ∧ b.value = maxv ∧ ∀ r i v, ¬ P r i v) ∨
  ∃ r v, b.route = some r ∧ b.value = fin v ∧ ρ.fl v = v ∧ |v| ≤ 2 ^ 100 ∧ P r b.index v ∧
    ∀ r' i' w, P r' i' w → ρ.fl (v - e) ≤ w

theorem OkVal.congr {e : ℚ} {P P' : ℕ → ℕ → ℚ → Prop} {b : BestIns (Dbl ρ)} (h : OkVal e P b)
    (hP : ∀ r i v, P r i v ↔ P' r i v) : OkVal e P' b := by
  have : P = P' := by
    funext r i v
    exact propext (hP r i v)
  exact this ▸ h

theorem lt_limit100 {x : ℚ} (hx : |x| ≤ 2 ^ 100) : |x| < limit := lt_of_le_of_lt hx (pow_lt_limit (by norm_num))

theorem lt_maxv' {x : ℚ} (hx : |x| ≤ 2 ^ 100) : approxLt (fin x : Dbl ρ) maxv = true := by
  obtain ⟨e, he, e0, e1, er, el⟩ := eps_double (ρ := ρ)
  have hm : (maxv : Dbl ρ) = fin ((2 ^ 53 - 1) * 2 ^ 971) := rfl
  rw [hm, (approx_fin he el (lt_limit100 hx)).1, decide_eq_true_eq]
  have h1 : (2 : ℚ) ^ 101 ≤ (2 ^ 53 - 1) * 2 ^ 971 - e := by
    have : (2 : ℚ) ^ 102 ≤ 2 ^ 971 := pow_le_pow_right₀ (by norm_num) (by norm_num)
    generalize (2 : ℚ) ^ 971 = z at *
    norm_num at this ⊢
    linarith
  have h2 := ρ.pow_le h1
  have h3 := (abs_le.mp hx).2
  have h4 : (2 : ℚ) ^ 100 < 2 ^ 101 := by norm_num
  linarith

theorem OkVal.step {e : ℚ} (he : (eps : Dbl ρ) = fin e) (e0 : 0 < e) (el : |e| < limit) {P : ℕ → ℕ → ℚ → Prop}
    {b : BestIns (Dbl ρ)} (h : OkVal e P b) {x : ℚ} (hx : |x| ≤ 2 ^ 100) (hf : ρ.fl x = x) (r i : ℕ) :
    OkVal e (fun r' i' v => P r' i' v ∨ (r' = r ∧ i' = i ∧ v = x))
      (if approxLt (fin x : Dbl ρ) b.value then ⟨some r, fin x, i⟩ else b) := by
  have hself : ρ.fl (x - e) ≤ x := by
    have := ρ.mono (x - e) x (by linarith)
    rwa [hf] at this
  rcases h with ⟨h1, h2, h3⟩ | ⟨r0, v0, h1, h2, hv, h3, h4, h5⟩
  · rw [h2, if_pos (lt_maxv' hx)]
    refine Or.inr ⟨r, x, rfl, rfl, hf, hx, Or.inr ⟨rfl, rfl, rfl⟩, ?_⟩
    rintro r' i' v' (h | ⟨-, -, rfl⟩)
    · exact absurd h (h3 _ _ _)
    · exact hself
  · rw [h2, (approx_fin he el (lt_limit100 hx)).1]
    split
    · next h =>
      rw [decide_eq_true_eq] at h
      have hle : x ≤ v0 := by
        have := ρ.mono (v0 - e) v0 (by linarith)
        rw [hv] at this
        linarith
      refine Or.inr ⟨r, x, rfl, rfl, hf, hx, Or.inr ⟨rfl, rfl, rfl⟩, ?_⟩
      rintro r' i' v' (h | ⟨-, -, rfl⟩)
      · exact (ρ.mono _ _ (by linarith)).trans (h5 _ _ _ h)
      · exact hself
    · next h =>
      rw [decide_eq_true_eq, not_lt] at h
      refine Or.inr ⟨r0, v0, h1, h2, hv, h3, Or.inl h4, ?_⟩
      rintro r' i' v' (h' | ⟨-, -, rfl⟩)
      · exact h5 _ _ _ h'
      · exact h

theorem scanPositions_val {e : ℚ} (he : (eps : Dbl ρ) = fin e) (e0 : 0 < e) (el : |e| < limit) {ctx : Ctx (Dbl ρ)}
    {c r : ℕ} {rt : RRoute (Dbl ρ)} {f : Dbl ρ → Dbl ρ} {g : ℕ → ℚ} :
    ∀ (is : List ℕ) (P : ℕ → ℕ → ℚ → Prop) (b : BestIns (Dbl ρ)), OkVal e P b →
      (∀ i ∈ is, (∃ x, rt.deltaDistance ctx i c = some x ∧ f x = fin (g i)) ∧ ρ.fl (g i) = g i ∧ |g i| ≤ 2 ^ 100) →
      ∃ b', scanPositions ctx c f r rt is b = some b' ∧
        OkVal e (fun r' i v => P r' i v ∨ (r' = r ∧ i ∈ is ∧ v = g i)) b'
  | [], P, b, h, _ => ⟨b, rfl, h.congr fun _ _ _ => by simp⟩
  | i :: is, P, b, h, hi => by
    obtain ⟨⟨x, h1, h1'⟩, h2, h3⟩ := hi i List.mem_cons_self
    obtain ⟨b', e1, e2⟩ := scanPositions_val he e0 el is _ _ (h.step he e0 el h3 h2 r i)
      fun j hj => hi j (List.mem_cons_of_mem _ hj)
    refine ⟨b', ?_, e2.congr fun r' i' v => ?_⟩
    · rw [scanPositions, h1, Option.bind_some, h1']
      exact e1
    · constructor
      · rintro ((h | ⟨a, rfl, c⟩) | ⟨a, b, c⟩)
        · exact Or.inl h
        · exact Or.inr ⟨a, List.mem_cons_self, c⟩
        · exact Or.inr ⟨a, List.mem_cons_of_mem _ b, c⟩
      · rintro (h | ⟨a, b, c⟩)
        · exact Or.inl (Or.inl h)
        · rcases List.mem_cons.mp b with rfl | b
          · exact Or.inl (Or.inr ⟨a, rfl, c⟩)
          · exact Or.inr ⟨a, b, c⟩

end RRSol

namespace Spec

/-- Extra length plus penalty as the program rounds it: the penalty first, then the sum. -/
def roundedCost (ρ : Rounding) (dist : ℕ → ℕ → ℚ) (demand : ℕ → ℚ) (cap pen : ℚ) (t : List ℕ) (i c : ℕ) : ℚ :=
  ρ.fl (extraDist dist t i c + ρ.fl (max 0 (routeLoad demand t + demand c - cap) * pen))

end Spec

namespace RRSol

section

variable {ρ : Rounding} {ctx : Ctx (Dbl ρ)} {q : ℕ → ℤ} {Q D M : ℤ} {d : ℕ → ℕ → ℤ} {p : ℚ} (hw : Whole ctx q Q D)
  (hQ : Q < 2 ^ 52) (hd : WholeDist ctx d M) (hn : 2 ≤ ctx.n) (hp : ctx.pen = fin p) (hp0 : 0 ≤ p) (hp1 : p ≤ 2 ^ 44)

theorem extraDist_int (d : ℕ → ℕ → ℤ) (l : List ℕ) (i c : ℕ) :
    Spec.extraDist (fun a b => (d a b : ℚ)) l i c = extraZ d l i c := by
  unfold Spec.extraDist extraZ
  rw [tripZ_cast, tripZ_cast]
  push_cast
  rfl

include hw hd hn hp hp0 hp1

theorem value_dbl {rt : RRoute (Dbl ρ)} (he : LoadExact q Q rt) (hl : rt.nodes.length + 1 ≤ ctx.n) (c : ℕ) {i : ℕ}
    (hi : i ≤ rt.nodes.length) :
    (∃ x, rt.deltaDistance ctx i c = some x ∧ x +. F64.max (lit 0) (rt.overload +. ctx.demand c) *. ctx.pen =
      fin (Spec.roundedCost ρ (fun a b => (d a b : ℚ)) (fun a => (q a : ℚ)) Q p rt.nodes i c)) ∧
    ρ.fl (Spec.roundedCost ρ (fun a b => (d a b : ℚ)) (fun a => (q a : ℚ)) Q p rt.nodes i c) =
      Spec.roundedCost ρ (fun a b => (d a b : ℚ)) (fun a => (q a : ℚ)) Q p rt.nodes i c ∧
    |Spec.roundedCost ρ (fun a b => (d a b : ℚ)) (fun a => (q a : ℚ)) Q p rt.nodes i c| ≤ 2 ^ 100 := by
  obtain ⟨h1, h2⟩ := delta_int hd hn rt hi c
  have hb := hw.bound (l := c :: rt.nodes) (by simpa using hl)
  have hb2 := hw.bound (l := rt.nodes) (by omega)
  rw [loadZ_cons] at hb
  have := hw.nonneg c
  have := hw.capPos
  unfold Spec.roundedCost
  rw [extraDist_int, loadZ_cast]
  have eo : F64.max (lit 0) (rt.overload +. ctx.demand c) = (fin (max 0 ((loadZ q rt.nodes : ℚ) + q c - Q)) : Dbl ρ) := by
    rw [he, hw.demand, ofInt_add (by rw [abs_le]; constructor <;> omega), lit_zero']
    unfold ofInt
    rw [max_fin]
    push_cast
    congr 2
    ring
  have o0 : (0 : ℚ) ≤ max 0 ((loadZ q rt.nodes : ℚ) + q c - Q) := le_max_left _ _
  have o1 : max 0 ((loadZ q rt.nodes : ℚ) + q c - Q) ≤ 2 ^ 52 := by
    refine max_le (by positivity) ?_
    exact_mod_cast (by omega : loadZ q rt.nodes + q c - Q ≤ 2 ^ 52)
  generalize max 0 ((loadZ q rt.nodes : ℚ) + q c - Q) = o at *
  have m0 : 0 ≤ o * p := mul_nonneg o0 hp0
  have m1 : o * p ≤ 2 ^ 96 := by
    calc o * p ≤ 2 ^ 52 * 2 ^ 44 := mul_le_mul o1 hp1 hp0 (by positivity)
      _ = 2 ^ 96 := by norm_num
  have m2 := ρ.nonneg m0
  have m3 := ρ.le_pow m1
  have x1 : |((extraZ d rt.nodes i c : ℤ) : ℚ)| < 2 ^ 52 := by exact_mod_cast h2
  obtain ⟨x2, x3⟩ := abs_lt.mp x1
  have s1 : |(extraZ d rt.nodes i c : ℚ) + ρ.fl (o * p)| ≤ 2 ^ 100 := by
    rw [abs_le]
    norm_num at m3 x2 x3 ⊢
    constructor <;> linarith
  refine ⟨⟨_, h1, ?_⟩, ρ.idem _, fl_abs_le s1⟩
  rw [eo, hp, mul_fin, ofRat_le (m := 96) (by norm_num) (by rw [abs_of_nonneg m0]; exact m1)]
  unfold ofInt
  rw [add_fin, ofRat_le (m := 100) (by norm_num) s1]

theorem scanAll_val {e : ℚ} (hε : (eps : Dbl ρ) = fin e) (e0 : 0 < e) (el : |e| < limit) (c : ℕ) :
    ∀ (routes : List (RRoute (Dbl ρ))) (k : ℕ) (P : ℕ → ℕ → ℚ → Prop) (b : BestIns (Dbl ρ)), OkVal e P b →
      (∀ rt ∈ routes, LoadExact q Q rt ∧ rt.nodes.length + 1 ≤ ctx.n) →
      ∃ b', scanAll ctx c k routes b = some b' ∧
        OkVal e (fun r i v => P r i v ∨ ∃ j rt, r = k + j ∧ routes[j]? = some rt ∧ i ≤ rt.nodes.length ∧
          v = Spec.roundedCost ρ (fun a b => (d a b : ℚ)) (fun a => (q a : ℚ)) Q p rt.nodes i c) b'
  | [], k, P, b, h, _ => ⟨b, rfl, h.congr fun _ _ _ => by simp⟩
  | rt :: rts, k, P, b, h, he => by
    obtain ⟨x1, x2⟩ := he rt List.mem_cons_self
    obtain ⟨b1, e1, o1⟩ := scanPositions_val hε e0 el (r := k) (List.range (rt.nodes.length + 1)) P b h
      fun i hi => value_dbl hw hd hn hp hp0 hp1 x1 x2 c (by have := List.mem_range.mp hi; omega)
    obtain ⟨b2, e2, o2⟩ := scanAll_val hε e0 el c rts (k + 1) _ b1 o1 fun y hy => he y (List.mem_cons_of_mem _ hy)
    refine ⟨b2, by rw [scanAll, e1, Option.bind_some, e2], o2.congr fun r i v => ?_⟩
    constructor
    · rintro ((hP | ⟨rfl, hi, rfl⟩) | ⟨j, rt', rfl, a2, a3, a4⟩)
      · exact Or.inl hP
      · exact Or.inr ⟨0, rt, rfl, rfl, by have := List.mem_range.mp hi; omega, rfl⟩
      · exact Or.inr ⟨j + 1, rt', by omega, a2, a3, a4⟩
    · rintro (hP | ⟨j, rt', rfl, a2, a3, a4⟩)
      · exact Or.inl (Or.inl hP)
      · cases j with
        | zero =>
          simp only [List.getElem?_cons_zero, Option.some.injEq] at a2
          subst a2
          exact Or.inl (Or.inr ⟨rfl, List.mem_range.mpr (by omega), a4⟩)
        | succ j => exact Or.inr ⟨j, rt', by omega, by simpa using a2, a3, a4⟩

include hQ in
/-- **C24** in double precision, for whole distances and demands and any finite penalty up to `2^44`, when no open route
has room: the customer goes to exactly one place, and no place of any route is cheaper beyond the tolerance, the costs
being those the program rounds. -/
theorem C24_double_fallback {routes : List (RRoute (Dbl ρ))}
    (he : ∀ rt ∈ routes, LoadExact q Q rt ∧ rt.nodes.length + 1 ≤ ctx.n) (hne : routes ≠ [])
    (order : List ℕ → List ℕ) (hord : ∀ l, (order l).Perm l) (c : ℕ) (updated : List ℕ)
    (hup : ∀ r ∈ updated, r < routes.length)
    (hroom : ∀ r ∈ updated, ∀ rt, routes[r]? = some rt → (Q : ℚ) < Spec.routeLoad (fun a => (q a : ℚ)) rt.nodes + q c) :
    ∃ r rt i rt', routes[r]? = some rt ∧ i ≤ rt.nodes.length ∧
      insertCustomer ctx order c routes updated = some (routes.set r rt', setInsert updated r) ∧
      rt'.nodes = rt.nodes.insertIdx i c ∧
      ∀ rt2 ∈ routes, ∀ j ≤ rt2.nodes.length,
        approxLt (fin (Spec.roundedCost ρ (fun a b => (d a b : ℚ)) (fun a => (q a : ℚ)) Q p rt2.nodes j c) : Dbl ρ)
          (fin (Spec.roundedCost ρ (fun a b => (d a b : ℚ)) (fun a => (q a : ℚ)) Q p rt.nodes i c)) = false := by
  obtain ⟨e, hε, e0, e1, er, el⟩ := eps_double (ρ := ρ)
  obtain ⟨b, s1, o⟩ := scanFeasible_int hw hQ hd hn he c (order updated) (fun _ _ _ => False) ⟨none, maxv, 0⟩
    (Or.inl ⟨rfl, rfl, fun _ _ _ h => h⟩) fun r hr => hup r ((hord updated).mem_iff.mp hr)
  have hb : b.route = none := by
    rcases o with ⟨h, -, -⟩ | ⟨r, v, -, -, -, h, -⟩
    · exact h
    · rcases h with h | ⟨hr, rt, hrt, hfit, -, -⟩
      · exact h.elim
      · have := hroom r ((hord updated).mem_iff.mp hr) rt hrt
        rw [loadZ_cast] at this
        have : Q < loadZ q rt.nodes + q c := by exact_mod_cast this
        omega
  obtain ⟨b', s2, o'⟩ := scanAll_val hw hd hn hp hp0 hp1 hε e0 el c routes 0 (fun _ _ _ => False) ⟨none, maxv, 0⟩
    (Or.inl ⟨rfl, rfl, fun _ _ _ h => h⟩) he
  simp only [false_or, Nat.zero_add] at o'
  rcases o' with ⟨-, -, o'⟩ | ⟨r, v, h1, -, -, -, ⟨r', rt, rfl, hrt, hi, rfl⟩, hmin⟩
  · cases routes with
    | nil => exact absurd rfl hne
    | cons rt rts => exact absurd ⟨0, rt, rfl, rfl, Nat.zero_le _, rfl⟩ (o' 0 0 _)
  · have hdel := (delta_int hd hn rt hi c).1
    refine ⟨r, rt, b'.index, ⟨rt.nodes.insertIdx b'.index c, rt.distance +. ofInt (extraZ d rt.nodes b'.index c),
      rt.overload +. ctx.demand c⟩, hrt, hi, ?_, rfl, ?_⟩
    · unfold insertCustomer
      rw [s1, Option.bind_some, hb]
      dsimp only
      rw [s2, Option.bind_some, h1, Option.bind_some]
      unfold insertAt RRoute.add
      rw [hrt, Option.bind_some, hdel]
      rfl
    · intro rt2 hrt2 j hj
      obtain ⟨r2, hr2⟩ := List.getElem?_of_mem hrt2
      obtain ⟨y1, y2⟩ := he rt2 hrt2
      have hv := (value_dbl hw hd hn hp hp0 hp1 y1 y2 c hj).2.2
      rw [(approx_fin hε el (lt_limit100 hv)).1, decide_eq_false_iff_not, not_lt]
      exact hmin r2 j _ ⟨r2, rt2, rfl, hr2, hj, rfl⟩

end

end RRSol

namespace InsertDoubleEx

/-- Customer 2 is inserted; the open route `[1, 3, 4]` is full, and the penalty is `5 / 2`. -/
example := RRSol.C24_double_fallback whole (by norm_num) wholeDist (by decide) (p := 5 / 2) rfl (by norm_num) (by norm_num)
  (routes := [⟨[1, 3, 4], ofInt 8, ofInt 0⟩, ⟨[], ofInt 0, ofInt (-3)⟩]) (by
    intro rt hrt
    simp only [List.mem_cons, List.not_mem_nil, or_false] at hrt
    rcases hrt with rfl | rfl
    · exact ⟨by unfold LoadExact; congr 1, by decide⟩
    · exact ⟨by unfold LoadExact; congr 1, by decide⟩) (by simp) id (fun _ => .refl _) 2 [0] (by
    intro r hr
    simp only [List.mem_cons, List.not_mem_nil, or_false] at hr
    subst hr
    decide) (by
    intro r hr rt hrt
    simp only [List.mem_cons, List.not_mem_nil, or_false] at hr
    subst hr
    simp only [List.getElem?_cons_zero, Option.some.injEq] at hrt
    subst hrt
    norm_num [Spec.routeLoad])

end InsertDoubleEx

end Verif
