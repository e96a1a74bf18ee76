import Verif.Lemmas.MoveDelta
import Verif.Lemmas.Spec
import Mathlib.Tactic.Linarith
import Mathlib.Tactic.Ring

/-!
# Over the rationals, `delta` is the change of the penalized cost
-/

namespace Verif
open F64 LS Spec

set_option linter.unusedSectionVars false

/-- Length of a path of nodes. -/
def pdR (d : ℕ → ℕ → ℚ) (L : List Ref) : ℚ := pathDist d (L.map Ref.number)

@[simp] theorem pdR_nil (d : ℕ → ℕ → ℚ) : pdR d [] = 0 := rfl
@[simp] theorem pdR_single (d : ℕ → ℕ → ℚ) (x : Ref) : pdR d [x] = 0 := rfl
@[simp] theorem pdR_cons_cons (d : ℕ → ℕ → ℚ) (x y : Ref) (L : List Ref) :
    pdR d (x :: y :: L) = d x.number y.number + pdR d (y :: L) := by simp [pdR]

theorem pdR_join {d : ℕ → ℕ → ℚ} {A B : List Ref} {a b : Ref} (ha : A.getLast? = some a)
    (hb : B.head? = some b) : pdR d (A ++ B) = pdR d A + d a.number b.number + pdR d B := by
  obtain ⟨A, rfl⟩ := List.getLast?_eq_some_iff.mp ha
  obtain ⟨B, rfl⟩ := List.head?_eq_some_iff.mp hb
  have := pathDist_append_cons_cons d (A.map Ref.number) (B.map Ref.number) a.number b.number
  simpa [pdR] using this

theorem pdR_reverse {d : ℕ → ℕ → ℚ} (hsym : ∀ a b, d a b = d b a) (L : List Ref) :
    pdR d L.reverse = pdR d L := by
  rw [pdR, List.map_reverse, pathDist_reverse d hsym]; rfl

theorem pdR_routeRefs (d : ℕ → ℕ → ℚ) (r : ℕ) (l : List ℕ) : pdR d (routeRefs r l) = routeDist d l := by
  have : (routeRefs r l).map Ref.number = 0 :: (l ++ [0]) := by
    simp [routeRefs, Function.comp_def]
  rw [pdR, this, routeDist]

theorem distFrom_rat (ctx : Ctx ℚ) (L : List Ref) : ∀ (x : Ref) (acc : ℚ),
    distFrom ctx x acc L = acc + pdR ctx.dist (x :: L) := by
  induction L with
  | nil => intro x acc; simp [distFrom]
  | cons y L ih =>
    intro x acc
    rw [distFrom, ih, pdR_cons_cons]
    simp only [rat_add]; ring

theorem loadFrom_rat (ctx : Ctx ℚ) (L : List Ref) : ∀ acc : ℚ,
    loadFrom ctx acc L = acc + routeLoad ctx.demand (L.map Ref.number) := by
  induction L with
  | nil => intro acc; simp [loadFrom]
  | cons y L ih =>
    intro acc
    have := ih (acc + ctx.demand y.number)
    rw [loadFrom] at this ⊢
    rw [List.foldl_cons]
    simp only [rat_add] at this ⊢
    rw [this]; simp; ring

theorem solCost_set_one {d : ℕ → ℕ → ℚ} {q : ℕ → ℚ} {cap pen : ℚ} {R : List (List ℕ)} {r : ℕ}
    {l l' : List ℕ} (hr : R[r]? = some l) :
    solCost d q cap pen (R.set r l') - solCost d q cap pen R =
      Spec.routeCost d q cap pen l' - Spec.routeCost d q cap pen l := by
  obtain ⟨hlt, e⟩ := List.getElem?_eq_some_iff.mp hr
  obtain ⟨rest, h1, h2⟩ := perm_set_one hlt
  rw [e] at h1
  rw [solCost_perm d q cap pen h1, solCost_perm d q cap pen (h2 l')]
  simp

theorem solCost_set_two {d : ℕ → ℕ → ℚ} {q : ℕ → ℚ} {cap pen : ℚ} {R : List (List ℕ)} {r1 r2 : ℕ}
    {l1 l2 l1' l2' : List ℕ} (hne : r1 ≠ r2) (hr1 : R[r1]? = some l1) (hr2 : R[r2]? = some l2) :
    solCost d q cap pen ((R.set r1 l1').set r2 l2') - solCost d q cap pen R =
      Spec.routeCost d q cap pen l1' + Spec.routeCost d q cap pen l2' -
        (Spec.routeCost d q cap pen l1 + Spec.routeCost d q cap pen l2) := by
  obtain ⟨hlt1, e1⟩ := List.getElem?_eq_some_iff.mp hr1
  obtain ⟨hlt2, e2⟩ := List.getElem?_eq_some_iff.mp hr2
  obtain ⟨rest, h1, h2⟩ := perm_set_two hlt1 hlt2 hne
  rw [e1, e2] at h1
  rw [solCost_perm d q cap pen h1, solCost_perm d q cap pen (h2 l1' l2')]
  simp; ring

section
variable {ctx : Ctx ℚ} {s : LS ℚ} {R R' : List (List ℕ)}

theorem route_dist (h : Repr ctx s R) {r : ℕ} {l : List ℕ} (hr : R[r]? = some l) :
    (s.route r).distance = pdR ctx.dist (routeRefs r l) := by
  rw [(h.data r l trivial hr).distance, distFrom_rat]; simp [routeRefs]

theorem route_load (h : Repr ctx s R) (h0 : ctx.demand 0 = 0) {r : ℕ} {l : List ℕ}
    (hr : R[r]? = some l) : (s.route r).load = routeLoad ctx.demand l := by
  rw [(h.data r l trivial hr).load, loadFrom_rat]
  simp [Function.comp_def, h0]

theorem route_over (h : Repr ctx s R) (h0 : ctx.demand 0 = 0) {r : ℕ} {l : List ℕ}
    (hr : R[r]? = some l) : (s.route r).overload = routeLoad ctx.demand l - ctx.cap := by
  rw [(h.data r l trivial hr).overload, route_load h h0 hr]; simp

theorem route_cost (h : Repr ctx s R) (h0 : ctx.demand 0 = 0) {r : ℕ} {l : List ℕ}
    (hr : R[r]? = some l) :
    (s.route r).cost = Spec.routeCost ctx.dist ctx.demand ctx.cap s.pen l := by
  rw [(h.data r l trivial hr).cost, route_dist h hr, route_over h h0 hr, pdR_routeRefs, routeCost,
    Spec.routeCost]
  simp

theorem cum_last (h : Repr ctx s R) {r : ℕ} {p q : List ℕ} (hr : R[r]? = some (p ++ q)) :
    s.cumD (lastRef r p) = pdR ctx.dist (.start r :: p.map Ref.cust) ∧
      s.cumL (lastRef r p) = routeLoad ctx.demand p := by
  have hd := h.data r _ trivial hr
  rcases List.eq_nil_or_concat p with rfl | ⟨p', c, rfl⟩
  · have := hd.start
    simp [this]
  · rw [List.concat_eq_append] at hd ⊢
    rw [lastRef_concat]
    have := hd.node (p'.map Ref.cust) (.cust c) (q.map Ref.cust ++ [Ref.fin r]) (by simp)
    rw [distFrom_rat, loadFrom_rat] at this
    refine ⟨by rw [this.2.1]; simp, by rw [this.2.2]; simp [Function.comp_def]⟩

theorem cumD_head (h : Repr ctx s R) {r : ℕ} {p q : List ℕ} (hr : R[r]? = some (p ++ q)) :
    s.cumD (headRef r q) = pdR ctx.dist (.start r :: p.map Ref.cust) +
      ctx.dist (lastRef r p).number (headRef r q).number := by
  have hd := h.data r _ trivial hr
  obtain ⟨Q, hQ⟩ := List.head?_eq_some_iff.mp (head_fin r q)
  have := (hd.node (p.map Ref.cust) (headRef r q) Q (by
    rw [List.map_append, List.append_assoc, hQ])).2.1
  rw [this, distFrom_rat, ← List.cons_append, pdR_join (getLast_start r p) rfl]
  simp

/-- The form of `costDelta` over the rationals. -/
theorem costDelta_rat (h : Repr ctx s R) (h0 : ctx.demand 0 = 0) {r1 r2 : ℕ} {l1 l2 : List ℕ}
    (h1 : R[r1]? = some l1) (h2 : R[r2]? = some l2) (d1 o1 d2 o2 : ℚ) :
    costDelta s r1 r2 d1 o1 d2 o2 = (d1 + s.pen * max 0 o1) + (d2 + s.pen * max 0 o2) -
      (Spec.routeCost ctx.dist ctx.demand ctx.cap s.pen l1 +
        Spec.routeCost ctx.dist ctx.demand ctx.cap s.pen l2) := by
  rw [costDelta, route_cost h h0 h1, route_cost h h0 h2]
  simp [routeCost]

theorem specCost (d : ℕ → ℕ → ℚ) (q : ℕ → ℚ) (cap pen : ℚ) (r : ℕ) (l : List ℕ) :
    Spec.routeCost d q cap pen l =
      pdR d (routeRefs r l) + pen * max 0 (routeLoad q l - cap) := by
  rw [pdR_routeRefs, Spec.routeCost]

theorem inj_some {β : Type} {o : Option β} {a b : β} (h1 : o = some a) (h2 : o = some b) : a = b := by
  rw [h1] at h2; exact Option.some.inj h2

/-- The cost change of a relocation. -/
theorem Relocated.cost (h : Repr ctx s R) (h0 : ctx.demand 0 = 0) {S S' : List ℕ} {v : Ref}
    (hr : Relocated R S S' v R') {sf sl sf' sl' : ℕ} (hf : S.head? = some sf)
    (hl : S.getLast? = some sl) (hf' : S'.head? = some sf') (hl' : S'.getLast? = some sl')
    (hload : routeLoad ctx.demand S' = routeLoad ctx.demand S)
    {r1 r2 : ℕ} {a x y : Ref} (rd : RelocReads s S v r1 r2 a x y) :
    costDelta s r1 r2
      ((s.route r1).distance - ctx.dist a.number sf - pdR ctx.dist (S.map Ref.cust)
        - ctx.dist sl x.number + ctx.dist a.number x.number)
      (if r1 ≠ r2 then (s.route r1).overload - routeLoad ctx.demand S else (s.route r1).overload)
      ((s.route r2).distance - ctx.dist v.number y.number + ctx.dist v.number sf'
        + pdR ctx.dist (S'.map Ref.cust) + ctx.dist sl' y.number)
      (if r1 ≠ r2 then (s.route r2).overload + routeLoad ctx.demand S else (s.route r2).overload) =
    solCost ctx.dist ctx.demand ctx.cap s.pen R' - solCost ctx.dist ctx.demand ctx.cap s.pen R := by
  have hS : sf ∈ S := List.mem_of_head? hf
  cases hr with
  | inter k1 k2 p q p2 q2 hne h1 h2 hv =>
    subst hv
    have e1 := inj_some (rd.pred sf hf) (h.enc.pred_seg h1 hf)
    have e2 := inj_some (rd.succ sl hl) (h.enc.succ_seg h1 hl)
    have e3 := inj_some rd.succV (h.enc.succ_last h2)
    have e4 := inj_some (rd.rtS sf hS) (h.rt_cust h1 (by simp [hS]))
    have e5 := inj_some rd.rtV (h.rt_last h2)
    subst e1 e2 e3 e4 e5
    rw [costDelta_rat h h0 h1 h2, solCost_set_two hne h1 h2, if_pos hne, if_pos hne,
      route_dist h h1, route_dist h h2, route_over h h0 h1, route_over h h0 h2,
      specCost _ _ _ _ r1 (p ++ q), specCost _ _ _ _ r2 (p2 ++ S' ++ q2),
      routeRefs_split3, routeRefs_split, routeRefs_split, routeRefs_split3,
      pdR_join (getLast_append_some (last_map_cust hl)) (head_fin r1 q),
      pdR_join (getLast_start r1 p) (head_map_cust hf), pdR_join (getLast_start r2 p2) (head_fin r2 q2),
      pdR_join (getLast_start r1 p) (head_fin r1 q),
      pdR_join (getLast_append_some (last_map_cust hl')) (head_fin r2 q2),
      pdR_join (getLast_start r2 p2) (head_map_cust hf')]
    simp only [routeLoad_append, number_cust, hload]
    have t1 : routeLoad ctx.demand p + routeLoad ctx.demand S + routeLoad ctx.demand q - ctx.cap
      - routeLoad ctx.demand S = routeLoad ctx.demand p + routeLoad ctx.demand q - ctx.cap := by ring
    have t2 : routeLoad ctx.demand p2 + routeLoad ctx.demand q2 - ctx.cap + routeLoad ctx.demand S =
      routeLoad ctx.demand p2 + routeLoad ctx.demand S + routeLoad ctx.demand q2 - ctx.cap := by ring
    rw [t1, t2]
    ring
  | after k p m q hm h1 hv =>
    subst hv
    have hx := h.enc.succ_seg (p := p) (S := S) (q := m ++ q) (by simpa using h1) hl
    rw [headRef_append hm] at hx
    have hy := h.enc.succ_last (p := p ++ S ++ m) (q := q) h1
    have hrv := h.rt_last (p := p ++ S ++ m) (q := q) h1
    rw [lastRef_append hm] at hy hrv
    have e1 := inj_some (rd.pred sf hf) (h.enc.pred_seg (q := m ++ q) (by simpa using h1) hf)
    have e2 := inj_some (rd.succ sl hl) hx
    have e3 := inj_some rd.succV hy
    have e4 := inj_some (rd.rtS sf hS) (h.rt_cust h1 (by simp [hS]))
    have e5 := inj_some rd.rtV hrv
    subst e1 e2 e3 e4 e5
    rw [costDelta_rat h h0 h1 h1, solCost_set_one h1, if_neg (by simp), if_neg (by simp),
      route_dist h h1, route_over h h0 h1, specCost _ _ _ _ r2 (p ++ m ++ S' ++ q),
      specCost _ _ _ _ r2 (p ++ S ++ m ++ q),
      routeRefs_split4, routeRefs_split4,
      pdR_join (getLast_append_some (getLast_custs r2 hm)) (head_fin r2 q),
      pdR_join (getLast_append_some (last_map_cust hl)) (head_custs r2 hm),
      pdR_join (getLast_start r2 p) (head_map_cust hf),
      pdR_join (getLast_append_some (last_map_cust hl')) (head_fin r2 q),
      pdR_join (getLast_append_some (getLast_custs r2 hm)) (head_map_cust hf'),
      pdR_join (getLast_start r2 p) (head_custs r2 hm)]
    simp only [routeLoad_append, number_cust, hload]
    have t1 : routeLoad ctx.demand p + routeLoad ctx.demand m + routeLoad ctx.demand S +
        routeLoad ctx.demand q = routeLoad ctx.demand p + routeLoad ctx.demand S +
        routeLoad ctx.demand m + routeLoad ctx.demand q := by ring
    rw [t1]
    ring
  | before k p m q hm h1 hv =>
    subst hv
    have ha := h.enc.pred_seg h1 hf
    rw [lastRef_append hm] at ha
    have hy := h.enc.succ_last (p := p) (q := m ++ (S ++ q)) (by simpa using h1)
    rw [headRef_append hm] at hy
    have e1 := inj_some (rd.pred sf hf) ha
    have e2 := inj_some (rd.succ sl hl) (h.enc.succ_seg h1 hl)
    have e3 := inj_some rd.succV hy
    have e4 := inj_some (rd.rtS sf hS) (h.rt_cust h1 (by simp [hS]))
    have e5 := inj_some rd.rtV (h.rt_last (p := p) (q := m ++ (S ++ q)) (by simpa using h1))
    subst e1 e2 e3 e4 e5
    rw [costDelta_rat h h0 h1 h1, solCost_set_one h1, if_neg (by simp), if_neg (by simp),
      route_dist h h1, route_over h h0 h1, specCost _ _ _ _ r2 (p ++ S' ++ m ++ q),
      specCost _ _ _ _ r2 (p ++ m ++ S ++ q),
      routeRefs_split4, routeRefs_split4,
      pdR_join (getLast_append_some (last_map_cust hl)) (head_fin r2 q),
      pdR_join (getLast_append_some (getLast_custs r2 hm)) (head_map_cust hf),
      pdR_join (getLast_start r2 p) (head_custs r2 hm),
      pdR_join (getLast_append_some (getLast_custs r2 hm)) (head_fin r2 q),
      pdR_join (getLast_append_some (last_map_cust hl')) (head_custs r2 hm),
      pdR_join (getLast_start r2 p) (head_map_cust hf')]
    simp only [routeLoad_append, number_cust, hload]
    have t1 : routeLoad ctx.demand p + routeLoad ctx.demand S + routeLoad ctx.demand m +
        routeLoad ctx.demand q = routeLoad ctx.demand p + routeLoad ctx.demand m +
        routeLoad ctx.demand S + routeLoad ctx.demand q := by ring
    rw [t1]
    ring

/-- The cost change of a swap. -/
theorem Swapped.cost (h : Repr ctx s R) (h0 : ctx.demand 0 = 0) {S T : List ℕ}
    (hr : Swapped R S T R') {sf sl tf tl : ℕ} (hf : S.head? = some sf)
    (hl : S.getLast? = some sl) (hf' : T.head? = some tf) (hl' : T.getLast? = some tl)
    {r1 r2 : ℕ} {a x c y : Ref} (rd : SwapReads s S T r1 r2 a x c y) :
    costDelta s r1 r2
      ((s.route r1).distance - ctx.dist a.number sf - pdR ctx.dist (S.map Ref.cust)
        - ctx.dist sl x.number + ctx.dist a.number tf + pdR ctx.dist (T.map Ref.cust)
        + ctx.dist tl x.number)
      (if r1 ≠ r2 then (s.route r1).overload + (routeLoad ctx.demand T - routeLoad ctx.demand S)
        else (s.route r1).overload)
      ((s.route r2).distance - ctx.dist c.number tf - pdR ctx.dist (T.map Ref.cust)
        - ctx.dist tl y.number + ctx.dist c.number sf + pdR ctx.dist (S.map Ref.cust)
        + ctx.dist sl y.number)
      (if r1 ≠ r2 then (s.route r2).overload + (routeLoad ctx.demand S - routeLoad ctx.demand T)
        else (s.route r2).overload) =
    solCost ctx.dist ctx.demand ctx.cap s.pen R' - solCost ctx.dist ctx.demand ctx.cap s.pen R := by
  have hS : sf ∈ S := List.mem_of_head? hf
  have hT : tf ∈ T := List.mem_of_head? hf'
  cases hr with
  | inter k1 k2 p q p2 q2 hne h1 h2 =>
    have e1 := inj_some (rd.pred sf hf) (h.enc.pred_seg h1 hf)
    have e2 := inj_some (rd.succ sl hl) (h.enc.succ_seg h1 hl)
    have e3 := inj_some (rd.predT tf hf') (h.enc.pred_seg h2 hf')
    have e4 := inj_some (rd.succT tl hl') (h.enc.succ_seg h2 hl')
    have e5 := inj_some (rd.rtS sf hS) (h.rt_cust h1 (by simp [hS]))
    have e6 := inj_some (rd.rtT tf hT) (h.rt_cust h2 (by simp [hT]))
    subst e1 e2 e3 e4 e5 e6
    rw [costDelta_rat h h0 h1 h2, solCost_set_two hne h1 h2, if_pos hne, if_pos hne,
      route_dist h h1, route_dist h h2, route_over h h0 h1, route_over h h0 h2,
      specCost _ _ _ _ r1 (p ++ T ++ q), specCost _ _ _ _ r2 (p2 ++ S ++ q2),
      routeRefs_split3, routeRefs_split3, routeRefs_split3, routeRefs_split3,
      pdR_join (getLast_append_some (last_map_cust hl)) (head_fin r1 q),
      pdR_join (getLast_start r1 p) (head_map_cust hf),
      pdR_join (getLast_append_some (last_map_cust hl')) (head_fin r2 q2),
      pdR_join (getLast_start r2 p2) (head_map_cust hf'),
      pdR_join (getLast_append_some (last_map_cust hl')) (head_fin r1 q),
      pdR_join (getLast_start r1 p) (head_map_cust hf'),
      pdR_join (getLast_append_some (last_map_cust hl)) (head_fin r2 q2),
      pdR_join (getLast_start r2 p2) (head_map_cust hf)]
    simp only [routeLoad_append, number_cust]
    have t1 : routeLoad ctx.demand p + routeLoad ctx.demand S + routeLoad ctx.demand q - ctx.cap
      + (routeLoad ctx.demand T - routeLoad ctx.demand S) =
      routeLoad ctx.demand p + routeLoad ctx.demand T + routeLoad ctx.demand q - ctx.cap := by ring
    have t2 : routeLoad ctx.demand p2 + routeLoad ctx.demand T + routeLoad ctx.demand q2 - ctx.cap
      + (routeLoad ctx.demand S - routeLoad ctx.demand T) =
      routeLoad ctx.demand p2 + routeLoad ctx.demand S + routeLoad ctx.demand q2 - ctx.cap := by ring
    rw [t1, t2]
    ring
  | fwd k p m q hm h1 =>
    have hx := h.enc.succ_seg (p := p) (S := S) (q := m ++ (T ++ q)) (by simpa using h1) hl
    rw [headRef_append hm] at hx
    have hc := h.enc.pred_seg h1 hf'
    rw [lastRef_append hm] at hc
    have e1 := inj_some (rd.pred sf hf) (h.enc.pred_seg (q := m ++ T ++ q) (by simpa using h1) hf)
    have e2 := inj_some (rd.succ sl hl) hx
    have e3 := inj_some (rd.predT tf hf') hc
    have e4 := inj_some (rd.succT tl hl') (h.enc.succ_seg h1 hl')
    have e5 := inj_some (rd.rtS sf hS) (h.rt_cust h1 (by simp [hS]))
    have e6 := inj_some (rd.rtT tf hT) (h.rt_cust h1 (by simp [hT]))
    subst e1 e2 e3 e4 e5 e6
    rw [costDelta_rat h h0 h1 h1, solCost_set_one h1, if_neg (by simp), if_neg (by simp),
      route_dist h h1, route_over h h0 h1, specCost _ _ _ _ r2 (p ++ T ++ m ++ S ++ q),
      specCost _ _ _ _ r2 (p ++ S ++ m ++ T ++ q),
      routeRefs_split5, routeRefs_split5,
      pdR_join (getLast_append_some (last_map_cust hl')) (head_fin r2 q),
      pdR_join (getLast_append_some (getLast_custs r2 hm)) (head_map_cust hf'),
      pdR_join (getLast_append_some (last_map_cust hl)) (head_custs r2 hm),
      pdR_join (getLast_start r2 p) (head_map_cust hf),
      pdR_join (getLast_append_some (last_map_cust hl)) (head_fin r2 q),
      pdR_join (getLast_append_some (getLast_custs r2 hm)) (head_map_cust hf),
      pdR_join (getLast_append_some (last_map_cust hl')) (head_custs r2 hm),
      pdR_join (getLast_start r2 p) (head_map_cust hf')]
    simp only [routeLoad_append, number_cust]
    have t1 : routeLoad ctx.demand p + routeLoad ctx.demand T + routeLoad ctx.demand m +
        routeLoad ctx.demand S + routeLoad ctx.demand q = routeLoad ctx.demand p +
        routeLoad ctx.demand S + routeLoad ctx.demand m + routeLoad ctx.demand T +
        routeLoad ctx.demand q := by ring
    rw [t1]
    ring
  | bwd k p m q hm h1 =>
    have hy := h.enc.succ_seg (p := p) (S := T) (q := m ++ (S ++ q)) (by simpa using h1) hl'
    rw [headRef_append hm] at hy
    have ha := h.enc.pred_seg h1 hf
    rw [lastRef_append hm] at ha
    have e1 := inj_some (rd.pred sf hf) ha
    have e2 := inj_some (rd.succ sl hl) (h.enc.succ_seg h1 hl)
    have e3 := inj_some (rd.predT tf hf') (h.enc.pred_seg (q := m ++ S ++ q) (by simpa using h1) hf')
    have e4 := inj_some (rd.succT tl hl') hy
    have e5 := inj_some (rd.rtS sf hS) (h.rt_cust h1 (by simp [hS]))
    have e6 := inj_some (rd.rtT tf hT) (h.rt_cust h1 (by simp [hT]))
    subst e1 e2 e3 e4 e5 e6
    rw [costDelta_rat h h0 h1 h1, solCost_set_one h1, if_neg (by simp), if_neg (by simp),
      route_dist h h1, route_over h h0 h1, specCost _ _ _ _ r2 (p ++ S ++ m ++ T ++ q),
      specCost _ _ _ _ r2 (p ++ T ++ m ++ S ++ q),
      routeRefs_split5, routeRefs_split5,
      pdR_join (getLast_append_some (last_map_cust hl)) (head_fin r2 q),
      pdR_join (getLast_append_some (getLast_custs r2 hm)) (head_map_cust hf),
      pdR_join (getLast_append_some (last_map_cust hl')) (head_custs r2 hm),
      pdR_join (getLast_start r2 p) (head_map_cust hf'),
      pdR_join (getLast_append_some (last_map_cust hl')) (head_fin r2 q),
      pdR_join (getLast_append_some (getLast_custs r2 hm)) (head_map_cust hf'),
      pdR_join (getLast_append_some (last_map_cust hl)) (head_custs r2 hm),
      pdR_join (getLast_start r2 p) (head_map_cust hf)]
    simp only [routeLoad_append, number_cust]
    have t1 : routeLoad ctx.demand p + routeLoad ctx.demand S + routeLoad ctx.demand m +
        routeLoad ctx.demand T + routeLoad ctx.demand q = routeLoad ctx.demand p +
        routeLoad ctx.demand T + routeLoad ctx.demand m + routeLoad ctx.demand S +
        routeLoad ctx.demand q := by ring
    rw [t1]
    ring

/-- `delta` is the change of the penalized cost of the whole solution. -/
theorem MoveEffect.delta (h : Repr ctx s R) (h0 : ctx.demand 0 = 0)
    (hsym : ∀ a b, ctx.dist a b = ctx.dist b a) {u : ℕ} {v : Ref} {m : MoveKind}
    (hm : MoveEffect R u v m R') :
    m.delta ctx s (.cust u) v = some (solCost ctx.dist ctx.demand ctx.cap s.pen R' -
      solCost ctx.dist ctx.demand ctx.cap s.pen R) := by
  cases hm with
  | relocateSingle hr =>
    obtain ⟨r1, r2, a, x, y, rd, -⟩ := hr.step h (.refl _)
    rw [MoveKind.delta, relocateSingle_delta h hr rd,
      ← hr.cost h h0 (sf := u) (sl := u) (sf' := u) (sl' := u) rfl rfl rfl rfl rfl rd]
    simp only [rat_sub, rat_add, rat_neg, List.map_cons, List.map_nil, pdR_single, sub_zero, add_zero,
      routeLoad_cons, routeLoad_nil, sub_eq_add_neg, neg_zero]
  | relocateDouble w hr =>
    obtain ⟨r1, r2, a, x, y, rd, -⟩ := hr.step h (.refl _)
    rw [MoveKind.delta, relocateDouble_delta h hr rd,
      ← hr.cost h h0 (sf := u) (sl := w) (sf' := u) (sl' := w) rfl rfl rfl rfl rfl rd]
    simp only [rat_sub, rat_add, rat_neg, List.map_cons, List.map_nil, pdR_single, pdR_cons_cons,
      number_cust, add_zero, routeLoad_cons, routeLoad_nil]
    have t : ∀ o : ℚ, o + (-ctx.demand u - ctx.demand w) = o - (ctx.demand u + ctx.demand w) :=
      fun o => by ring
    rw [t]
  | relocateDoubleReverse w hr =>
    obtain ⟨r1, r2, a, x, y, rd, -⟩ := hr.step h (.swap _ _ _)
    rw [MoveKind.delta, relocateDoubleReverse_delta h hr rd,
      ← hr.cost h h0 (sf := u) (sl := w) (sf' := w) (sl' := u) rfl rfl rfl rfl
        (routeLoad_perm _ (.swap _ _ _)) rd]
    simp only [rat_sub, rat_add, rat_neg, List.map_cons, List.map_nil, pdR_single, pdR_cons_cons,
      number_cust, add_zero, routeLoad_cons, routeLoad_nil]
    have t : ∀ o : ℚ, o + (-ctx.demand u - ctx.demand w) = o - (ctx.demand u + ctx.demand w) :=
      fun o => by ring
    rw [t]
  | swapOneWithOne c hv hr =>
    subst hv
    obtain ⟨r1, r2, a, x, cp, y, rd, -⟩ := hr.step h
    rw [MoveKind.delta, swapOne_delta h hr rd,
      ← hr.cost h h0 (sf := u) (sl := u) (tf := c) (tl := c) rfl rfl rfl rfl rd]
    simp only [rat_sub, rat_add, rat_neg, List.map_cons, List.map_nil, pdR_single,
      add_zero, sub_zero, routeLoad_cons, routeLoad_nil]
    have t : -ctx.demand u + ctx.demand c = ctx.demand c - ctx.demand u := by ring
    rw [t]
  | swapTwoWithOne c w hv hr =>
    subst hv
    obtain ⟨r1, r2, a, x, cp, y, rd, -⟩ := hr.step h
    rw [MoveKind.delta, swapTwoOne_delta h hr rd,
      ← hr.cost h h0 (sf := u) (sl := w) (tf := c) (tl := c) rfl rfl rfl rfl rd]
    simp only [rat_sub, rat_add, rat_neg, List.map_cons, List.map_nil, pdR_single, pdR_cons_cons,
      number_cust, add_zero, sub_zero, routeLoad_cons, routeLoad_nil]
    have t : -ctx.demand u - ctx.demand w + ctx.demand c =
      ctx.demand c - (ctx.demand u + ctx.demand w) := by ring
    rw [t]
  | swapTwoWithTwo c w z hv hr =>
    subst hv
    obtain ⟨r1, r2, a, x, cp, y, rd, -⟩ := hr.step h
    rw [MoveKind.delta, swapTwoTwo_delta h hr rd,
      ← hr.cost h h0 (sf := u) (sl := w) (tf := c) (tl := z) rfl rfl rfl rfl rd]
    simp only [rat_sub, rat_add, rat_neg, List.map_cons, List.map_nil, pdR_single, pdR_cons_cons,
      number_cust, add_zero, sub_zero, routeLoad_cons, routeLoad_nil]
    have t : -ctx.demand u - ctx.demand w + ctx.demand c + ctx.demand z =
      ctx.demand c + ctx.demand z - (ctx.demand u + ctx.demand w) := by ring
    have t' : ctx.demand u + ctx.demand w - ctx.demand c - ctx.demand z =
      ctx.demand u + ctx.demand w - (ctx.demand c + ctx.demand z) := by ring
    rw [t, t']
  | twoOptIntraReverse c r p m q hv hm hr =>
    subst hv
    rw [MoveKind.delta, twoOptIntraReverse_delta h hm hr, solCost_set_one hr,
      specCost _ _ _ _ r (p ++ [u] ++ (m ++ [c]).reverse ++ q),
      specCost _ _ _ _ r (p ++ [u] ++ (m ++ [c]) ++ q),
      routeRefs_split3, routeRefs_split3]
    have hl1 : ((m ++ [c]).map Ref.cust).getLast? = some (.cust c) := by simp
    have hh1 : ((m ++ [c]).map Ref.cust).head? = some (headRef r m) := by
      rw [List.map_append]; exact head_append_some (head_custs r hm)
    have hl2 : ((m ++ [c]).reverse.map Ref.cust).getLast? = some (headRef r m) := by
      rw [List.map_reverse, List.getLast?_reverse]; exact hh1
    have hh2 : ((m ++ [c]).reverse.map Ref.cust).head? = some (.cust c) := by
      rw [List.map_reverse, List.head?_reverse]; exact hl1
    rw [pdR_join (getLast_append_some hl1) (head_fin r q), pdR_join (getLast_start r _) hh1,
      pdR_join (getLast_append_some hl2) (head_fin r q), pdR_join (getLast_start r _) hh2,
      List.map_reverse, pdR_reverse hsym, lastRef_concat]
    simp only [routeLoad_append, routeLoad_reverse, number_cust, rat_sub, rat_add, rat_neg]
    congr 1; ring
  | twoOptInterReverse c r1 r2 p q p2 q2 hv hne h1 h2 =>
    subst hv
    have cu := cum_last h h1
    have cv := cum_last h h2
    rw [lastRef_concat] at cu cv
    have cx := cumD_head h h1
    have cy := cumD_head h h2
    rw [lastRef_concat] at cx cy
    rw [MoveKind.delta, twoOptInterReverse_delta h hne h1 h2, solCost_set_two hne h1 h2,
      costDelta_rat h h0 h1 h2, cu.1, cu.2, cv.1, cv.2, cx, cy, route_dist h h1, route_dist h h2,
      route_load h h0 h1, route_load h h0 h2]
    simp only [rat_sub, rat_add]
    have t1 : pdR ctx.dist (routeRefs r1 (p ++ [u] ++ (p2 ++ [c]).reverse)) =
        pdR ctx.dist (.start r1 :: (p ++ [u]).map Ref.cust) + ctx.dist u c +
          pdR ctx.dist (.start r2 :: (p2 ++ [c]).map Ref.cust) := by
      rw [routeRefs_split]
      have e : ((p2 ++ [c]).reverse.map Ref.cust ++ [Ref.fin r1]).map Ref.number =
          (Ref.start r2 :: (p2 ++ [c]).map Ref.cust).reverse.map Ref.number := by
        simp [Function.comp_def]
      have hh : ((p2 ++ [c]).reverse.map Ref.cust ++ [Ref.fin r1]).head? = some (.cust c) := by simp
      rw [pdR_join (getLast_start r1 _) hh, lastRef_concat]
      have : pdR ctx.dist ((p2 ++ [c]).reverse.map Ref.cust ++ [Ref.fin r1]) =
          pdR ctx.dist (.start r2 :: (p2 ++ [c]).map Ref.cust) := by
        rw [← pdR_reverse hsym (.start r2 :: (p2 ++ [c]).map Ref.cust), pdR, pdR, e]
      rw [this]; rfl
    have t2 : pdR ctx.dist (routeRefs r2 (q.reverse ++ q2)) =
        pdR ctx.dist (q.map Ref.cust ++ [Ref.fin r1]) +
          ctx.dist (headRef r1 q).number (headRef r2 q2).number +
          pdR ctx.dist (q2.map Ref.cust ++ [Ref.fin r2]) := by
      rw [routeRefs_split, pdR_join (getLast_start r2 _) (head_fin r2 q2)]
      have e : (Ref.start r2 :: q.reverse.map Ref.cust).map Ref.number =
          (q.map Ref.cust ++ [Ref.fin r1]).reverse.map Ref.number := by
        simp [Function.comp_def]
      have e' : pdR ctx.dist (.start r2 :: q.reverse.map Ref.cust) =
          pdR ctx.dist (q.map Ref.cust ++ [Ref.fin r1]) := by
        rw [← pdR_reverse hsym (q.map Ref.cust ++ [Ref.fin r1]), pdR, pdR, e]
      have e'' : (lastRef r2 q.reverse).number = (headRef r1 q).number := by
        cases q <;> simp
      rw [e', e'']
    rw [specCost _ _ _ _ r1 (p ++ [u] ++ (p2 ++ [c]).reverse), specCost _ _ _ _ r2 (q.reverse ++ q2),
      t1, t2, routeRefs_split r1 (p ++ [u]) q, pdR_join (getLast_start r1 _) (head_fin r1 q),
      routeRefs_split r2 (p2 ++ [c]) q2, pdR_join (getLast_start r2 _) (head_fin r2 q2)]
    simp only [lastRef_concat, number_cust, routeLoad_append, routeLoad_reverse]
    have t3 : routeLoad ctx.demand p + routeLoad ctx.demand [u] + routeLoad ctx.demand q -
        (routeLoad ctx.demand p + routeLoad ctx.demand [u]) + (routeLoad ctx.demand p2 +
        routeLoad ctx.demand [c] + routeLoad ctx.demand q2) - (routeLoad ctx.demand p2 +
        routeLoad ctx.demand [c]) = routeLoad ctx.demand q + routeLoad ctx.demand q2 := by ring
    rw [t3]
    congr 1; ring
  | twoOptInter r1 r2 p q p2 q2 hne h1 h2 hv =>
    subst hv
    have cu := cum_last h h1
    have cv := cum_last h h2
    rw [lastRef_concat] at cu
    have cx := cumD_head h h1
    have cy := cumD_head h h2
    rw [lastRef_concat] at cx
    rw [MoveKind.delta, twoOptInter_delta h hne h1 h2, solCost_set_two hne h1 h2,
      costDelta_rat h h0 h1 h2, cu.1, cu.2, cv.1, cv.2, cx, cy, route_dist h h1, route_dist h h2,
      route_load h h0 h1, route_load h h0 h2]
    simp only [rat_sub, rat_add]
    have hfin : ∀ (q : List ℕ), (q.map Ref.cust ++ [Ref.fin r1]).map Ref.number =
        (q.map Ref.cust ++ [Ref.fin r2]).map Ref.number := by
      intro q; simp
    have hhd : ∀ (q : List ℕ), (headRef r1 q).number = (headRef r2 q).number := by
      intro q; cases q <;> simp
    have t1 : pdR ctx.dist (routeRefs r1 (p ++ [u] ++ q2)) =
        pdR ctx.dist (.start r1 :: (p ++ [u]).map Ref.cust) + ctx.dist u (headRef r2 q2).number +
          pdR ctx.dist (q2.map Ref.cust ++ [Ref.fin r2]) := by
      rw [routeRefs_split, pdR_join (getLast_start r1 _) (head_fin r1 q2), lastRef_concat, hhd,
        number_cust]
      rw [pdR, pdR, pdR, hfin]
    have t2 : pdR ctx.dist (routeRefs r2 (p2 ++ q)) =
        pdR ctx.dist (.start r2 :: p2.map Ref.cust) +
          ctx.dist (lastRef r2 p2).number (headRef r1 q).number +
          pdR ctx.dist (q.map Ref.cust ++ [Ref.fin r1]) := by
      rw [routeRefs_split, pdR_join (getLast_start r2 _) (head_fin r2 q), hhd]
      rw [pdR, pdR, pdR, ← hfin]
    rw [specCost _ _ _ _ r1 (p ++ [u] ++ q2), specCost _ _ _ _ r2 (p2 ++ q),
      t1, t2, routeRefs_split r1 (p ++ [u]) q, pdR_join (getLast_start r1 _) (head_fin r1 q),
      routeRefs_split r2 p2 q2, pdR_join (getLast_start r2 _) (head_fin r2 q2)]
    simp only [lastRef_concat, number_cust, routeLoad_append]
    have t3 : routeLoad ctx.demand p + routeLoad ctx.demand [u] + (routeLoad ctx.demand p2 +
        routeLoad ctx.demand q2) - routeLoad ctx.demand p2 = routeLoad ctx.demand p +
        routeLoad ctx.demand [u] + routeLoad ctx.demand q2 := by ring
    have t4 : routeLoad ctx.demand p2 + (routeLoad ctx.demand p + routeLoad ctx.demand [u] +
        routeLoad ctx.demand q) - (routeLoad ctx.demand p + routeLoad ctx.demand [u]) =
        routeLoad ctx.demand p2 + routeLoad ctx.demand q := by ring
    rw [t3, t4]
    congr 1; ring

end
end Verif
