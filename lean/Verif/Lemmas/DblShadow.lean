import Verif.Lemmas.DblNearby
import Verif.Lemmas.SwapStarCost
import Verif.Lemmas.Search

/-! # The local search in double precision beside the exact one

To every state of the local search belongs a state with the same lists and exact numbers. Every computed
`delta` is close to the exact one. -/

namespace Verif
open F64 LS Spec Dbl

set_option linter.unusedSectionVars false

variable {ρ : Rounding}

/-- The data `ctx` in double precision are of moderate size: `cq` are their exact values, demands and
capacity are whole numbers, the sum of the demands of a route is at most `T`, and a computed length of a path
is off by at most `ed`. `p` is the penalty factor. -/
structure Modest (ctx : Ctx (Dbl ρ)) (cq : Ctx ℚ) (p : ℚ) (K : ℕ) (ed M : ℚ) (T : ℤ) : Prop where
  budget : Budget K ed M
  n : cq.n = ctx.n
  dist : ∀ a b, ctx.dist a b = fin (cq.dist a b)
  dist0 : ∀ a b, 0 ≤ cq.dist a b
  distM : ∀ a b, cq.dist a b ≤ M
  sym : ∀ a b, cq.dist a b = cq.dist b a
  demand : ∀ c, ∃ k : ℤ, ctx.demand c = ofInt k ∧ cq.demand c = k ∧ 0 ≤ k
  depot : cq.demand 0 = 0
  cap : ∃ k : ℤ, ctx.cap = ofInt k ∧ cq.cap = k ∧ 0 ≤ k ∧ k ≤ T
  load : ∀ l : List ℕ, l.length ≤ ctx.n - 1 → routeLoad cq.demand l ≤ T
  T0 : 0 ≤ T
  T1 : T ≤ 2 ^ 49
  path : ∀ (r : ℕ) (l : List ℕ) (P Q : List Ref), l.length ≤ ctx.n - 1 → l.map Ref.cust ++ [Ref.fin r] = P ++ Q →
    ∃ v, distFrom ctx (.start r) (lit 0) P = fin v ∧ |v - distFrom cq (.start r) (lit 0) P| ≤ ed ∧
      |distFrom cq (.start r) (lit 0) P| ≤ M
  pen0 : 0 ≤ p
  penM : p * T ≤ M

/-- The exact state with the same lists. -/
def shadow (cq : Ctx ℚ) (p : ℚ) (R : List (List ℕ)) (s : LS (Dbl ρ)) : LS ℚ where
  heap := s.heap
  rt := s.rt
  pos := s.pos
  lastTested := s.lastTested
  cumD x := match s.rt x with
    | none => lit 0
    | some r => distFrom cq (.start r) (lit 0) (((R[r]?.getD []).map Ref.cust ++ [Ref.fin r]).take (s.pos x))
  cumL x := match s.rt x with
    | none => lit 0
    | some r => loadFrom cq (lit 0) (((R[r]?.getD []).map Ref.cust ++ [Ref.fin r]).take (s.pos x))
  delRem _ := lit 0
  angle := s.angle
  route r :=
    let l := (R[r]?.getD []).map Ref.cust ++ [Ref.fin r]
    let d := distFrom cq (.start r) (lit 0) l
    let q := loadFrom cq (lit 0) l
    ⟨(s.route r).num, (s.route r).lastModified, (s.route r).lastTestedSwapStar, (s.route r).sector,
      d, q, q -. cq.cap, routeCost d (q -. cq.cap) p⟩
  numRoutes := s.numRoutes
  inserts r _ := ⟨Loc.new, Loc.new, Loc.new, (s.route r).lastModified - 1⟩
  moveCount := s.moveCount
  empty := s.empty
  customers := s.customers
  corr := s.corr
  corrCols := s.corrCols
  granularity := s.granularity
  pen := p

theorem shadow_repr {ctx : Ctx (Dbl ρ)} {cq : Ctx ℚ} (hn : cq.n = ctx.n) (p : ℚ) {R : List (List ℕ)}
    {s : LS (Dbl ρ)} (h : Repr ctx s R) : Repr cq (shadow cq p R s) R := by
  have hstart : ∀ r < R.length, s.rt (.start r) = some r ∧ s.pos (.start r) = 0 := by
    intro r hr
    have hd := h.data r _ trivial (List.getElem?_eq_getElem hr)
    exact ⟨hd.rt _ (by simp [routeRefs]), hd.start.1⟩
  have hcum : ∀ r < R.length, (shadow cq p R s).cumD (.start r) = lit 0 ∧
      (shadow cq p R s).cumL (.start r) = lit 0 := by
    intro r hr
    obtain ⟨a, b⟩ := hstart r hr
    simp only [shadow, a, b, List.take_zero]
    exact ⟨rfl, rfl⟩
  refine ⟨h.enc, h.len, by rw [hn]; exact h.part, hcum, ?_, h.empty, h.stamps, ?_, ?_, ?_⟩
  · intro r l _ hr
    have hd := h.data r l trivial hr
    have hlt := (List.getElem?_eq_some_iff.mp hr).1
    refine ⟨hd.rt, ⟨hd.start.1, hcum r hlt⟩, ?_, hd.num, ?_, ?_, rfl, rfl, hd.sector⟩
    · intro P x Q e
      have hp := (hd.node P x Q e).1
      have hx : s.rt x = some r := hd.rt x (by
        rw [routeRefs, e]; simp)
      refine ⟨hp, ?_, ?_⟩
      all_goals
        simp only [shadow, hx, hr, Option.getD_some, hp, e]
        congr 1
        rw [show P ++ x :: Q = (P ++ [x]) ++ Q by simp]
        exact List.take_left' (by simp)
    · simp only [shadow, hr, Option.getD_some]
    · simp only [shadow, hr, Option.getD_some]
  · intro r hr u
    have := h.stamps r hr
    show (s.route r).lastModified - 1 ≤ s.moveCount
    omega
  · intro r l u _ hr hle
    change (s.route r).lastModified ≤ (s.route r).lastModified - 1 at hle
    omega
  · intro r _ hD
    exact absurd trivial hD

theorem part_short {n : ℕ} {R : List (List ℕ)} (hp : IsPartition n R) {r : ℕ} {l : List ℕ}
    (hr : R[r]? = some l) : l.length ≤ n - 1 := by
  have h1 : l.length ≤ R.flatten.length :=
    (List.sublist_flatten_of_mem (List.mem_of_getElem? hr)).length_le
  have h2 : R.flatten.length ≤ (List.range' 1 (n - 1)).length := by
    apply List.Subperm.length_le
    refine hp.nodup.subperm ?_
    intro c hc
    have := hp.mem_iff.mp hc
    rw [List.mem_range'_1]
    omega
  rw [List.length_range'] at h2
  omega

section
variable {ctx : Ctx (Dbl ρ)} {cq : Ctx ℚ} {p : ℚ} {K : ℕ} {ed M : ℚ} {T : ℤ}
  (hm : Modest ctx cq p K ed M T)
include hm

theorem Modest.demandT (c : ℕ) (h1 : 1 ≤ ctx.n - 1) : Exact T 1 (ctx.demand c) (cq.demand c) := by
  obtain ⟨k, e1, e2, k0⟩ := hm.demand c
  refine ⟨k, e1, e2, ?_⟩
  have := hm.load [c] h1
  rw [abs_of_nonneg k0]
  simp only [routeLoad_cons, routeLoad_nil, add_zero, e2] at this
  push_cast
  rw [one_mul]
  exact_mod_cast this

theorem Modest.capT : Exact T 1 ctx.cap cq.cap := by
  obtain ⟨k, e1, e2, k0, k1⟩ := hm.cap
  exact ⟨k, e1, e2, by rw [abs_of_nonneg k0]; simpa using k1⟩

theorem Modest.distOff (a b : ℕ) : Off K ed M 0 0 1 (ctx.dist a b) (cq.dist a b) :=
  ⟨_, hm.dist a b, by simp, by rw [abs_of_nonneg (hm.dist0 a b)]; simpa using hm.distM a b⟩

theorem Modest.load_nonneg (l : List ℕ) : 0 ≤ routeLoad cq.demand l := by
  induction l with
  | nil => simp
  | cons c l ih =>
    obtain ⟨k, -, e, k0⟩ := hm.demand c
    have : (0 : ℚ) ≤ k := by exact_mod_cast k0
    rw [routeLoad_cons, e]
    linarith

/-- The loads along a path of nodes are exact. -/
theorem Modest.loadFrom_exact : ∀ (L : List Ref) (k : ℤ), 0 ≤ k →
    k + routeLoad cq.demand (L.map Ref.number) ≤ T →
    ∃ i : ℤ, loadFrom ctx (ofInt k) L = ofInt i ∧ (i : ℚ) = k + routeLoad cq.demand (L.map Ref.number)
  | [], k, _, _ => ⟨k, rfl, by simp⟩
  | x :: L, k, hk, h => by
    obtain ⟨i, e1, e2, i0⟩ := hm.demand x.number
    have hl := hm.load_nonneg (L.map Ref.number)
    simp only [List.map_cons, routeLoad_cons, e2] at h
    have hT := hm.T1
    have hki : k + i ≤ T := by
      have : ((k + i : ℤ) : ℚ) ≤ T := by push_cast; linarith
      exact_mod_cast this
    obtain ⟨j, j1, j2⟩ := Modest.loadFrom_exact L (k + i) (by omega) (by push_cast; linarith)
    refine ⟨j, ?_, ?_⟩
    · rw [← j1]
      show loadFrom ctx (ofInt k +. ctx.demand x.number) L = _
      rw [e1, ofInt_add (by rw [abs_of_nonneg (by omega)]; omega)]
    · rw [j2]
      simp only [List.map_cons, routeLoad_cons, e2]
      push_cast
      ring

theorem Modest.pathLoad {r : ℕ} {l : List ℕ} {P Q : List Ref} (hl : l.length ≤ ctx.n - 1)
    (e : l.map Ref.cust ++ [Ref.fin r] = P ++ Q) :
    Exact T 1 (loadFrom ctx (lit 0) P) (loadFrom cq (lit 0) P) := by
  have h1 := hm.load l hl
  have h2 : routeLoad cq.demand ((l.map Ref.cust ++ [Ref.fin r]).map Ref.number) = routeLoad cq.demand l := by
    simp [Function.comp_def, hm.depot]
  rw [e, List.map_append, routeLoad_append] at h2
  have h3 := hm.load_nonneg (Q.map Ref.number)
  have h4 := hm.load_nonneg (P.map Ref.number)
  obtain ⟨i, e1, e2⟩ := hm.loadFrom_exact P 0 (le_refl _) (by push_cast; linarith)
  push_cast at e2
  rw [zero_add] at e2
  refine ⟨i, by rw [lit_zero', e1], ?_, ?_⟩
  · rw [loadFrom_rat, e2]; simp
  · rw [abs_le]
    push_cast
    have a : ((0 : ℤ) : ℚ) ≤ i := by rw [e2]; exact_mod_cast h4
    have b : (i : ℚ) ≤ (T : ℚ) := by rw [e2]; linarith
    have a' : 0 ≤ i := by exact_mod_cast a
    have b' : i ≤ T := by exact_mod_cast b
    constructor <;> omega

variable {R : List (List ℕ)} {s : LS (Dbl ρ)} (h : Repr ctx s R) (hp : s.pen = fin p)
include h

theorem Modest.cumOff {r : ℕ} {l : List ℕ} (hr : R[r]? = some l) {x : Ref} (hx : x ∈ routeRefs r l) :
    Off K ed M 1 0 1 (s.cumD x) ((shadow cq p R s).cumD x) ∧
      Exact T 1 (s.cumL x) ((shadow cq p R s).cumL x) := by
  have ht := shadow_repr hm.n p h
  have d1 := h.data r l trivial hr
  have d2 := ht.data r l trivial hr
  rw [routeRefs, List.mem_cons] at hx
  rcases hx with rfl | hx
  · rw [d1.start.2.1, d1.start.2.2, d2.start.2.1, d2.start.2.2]
    refine ⟨⟨0, lit_zero, ?_, ?_⟩, ⟨0, lit_zero', by simp, ?_⟩⟩
    · have := hm.budget.ed0
      simpa using this
    · have := hm.budget.M0
      simpa using this
    · have := hm.T0
      simpa using this
  · obtain ⟨P, Q, e⟩ := List.append_of_mem hx
    obtain ⟨-, a1, a2⟩ := d1.node P x Q e
    obtain ⟨-, b1, b2⟩ := d2.node P x Q e
    have e' : l.map Ref.cust ++ [Ref.fin r] = (P ++ [x]) ++ Q := by rw [e]; simp
    have hs := part_short h.part hr
    rw [a1, a2, b1, b2]
    refine ⟨?_, hm.pathLoad hs e'⟩
    obtain ⟨v, v1, v2, v3⟩ := hm.path r l _ _ hs e'
    exact ⟨v, v1, by simpa using v2, by simpa using v3⟩

theorem Modest.routeOff {r : ℕ} (hr : r < R.length) :
    Off K ed M 1 0 1 (s.route r).distance ((shadow cq p R s).route r).distance ∧
      Exact T 1 (s.route r).load ((shadow cq p R s).route r).load ∧
      Exact T 2 (s.route r).overload ((shadow cq p R s).route r).overload := by
  have hr' := List.getElem?_eq_getElem hr
  have d1 := h.data r _ trivial hr'
  have d2 := (shadow_repr hm.n p h).data r _ trivial hr'
  have hs := part_short h.part hr'
  have e : R[r].map Ref.cust ++ [Ref.fin r] = (R[r].map Ref.cust ++ [Ref.fin r]) ++ [] := by simp
  obtain ⟨v, v1, v2, v3⟩ := hm.path r _ _ _ hs e
  have hl := hm.pathLoad hs e
  rw [d1.overload, d2.overload, d1.distance, d2.distance, d1.load, d2.load]
  exact ⟨⟨v, v1, by simpa using v2, by simpa using v3⟩, hl, hl.sub hm.T0 hm.T1 hm.capT⟩

include hp

omit h in
/-- The cost computed from a distance and an overload. -/
theorem Modest.costOff {a b j i : ℕ} {d o : Dbl ρ} {dq oq : ℚ} (hd : Off K ed M a b j d dq)
    (ho : Exact T i o oq) (h1 : a ≤ 16 := by decide) (h2 : b + 1 ≤ 32 := by decide)
    (h3 : j + i ≤ 32 := by decide) :
    Off K ed M (a + 0) (b + 1 + 1) (j + i) (routeCost d o s.pen) (routeCost dq oq (shadow cq p R s).pen) := by
  rw [hp]
  exact hd.add hm.budget (ho.penalty hm.budget hm.T0 hm.pen0 hm.penM (by omega)).1 h1 h2 h3

theorem Modest.storedOff {r : ℕ} (hr : r < R.length) :
    Off K ed M 1 2 3 (s.route r).cost ((shadow cq p R s).route r).cost := by
  have hr' := List.getElem?_eq_getElem hr
  have d1 := h.data r _ trivial hr'
  have d2 := (shadow_repr hm.n p h).data r _ trivial hr'
  obtain ⟨a, -, b⟩ := hm.routeOff h hr
  rw [d1.cost, d2.cost]
  exact hm.costOff hp a b

theorem Modest.deltaOff {r1 r2 : ℕ} (h1 : r1 < R.length) (h2 : r2 < R.length) {a b j i a' b' j' i' : ℕ}
    {d1 o1 d2 o2 : Dbl ρ} {e1 p1 e2 p2 : ℚ} (hd1 : Off K ed M a b j d1 e1) (ho1 : Exact T i o1 p1)
    (hd2 : Off K ed M a' b' j' d2 e2) (ho2 : Exact T i' o2 p2)
    (c1 : a + a' + 2 ≤ 16 := by decide) (c2 : b + b' + 10 ≤ 32 := by decide)
    (c3 : j + i + j' + i' + 6 ≤ 32 := by decide) :
    Off K ed M (a + a' + 2) (b + b' + 11) (j + i + j' + i' + 6) (costDelta s r1 r2 d1 o1 d2 o2)
      (costDelta (shadow cq p R s) r1 r2 e1 p1 e2 p2) := by
  have t1 := hm.costOff (R := R) hp hd1 ho1 (by omega) (by omega) (by omega)
  have t2 := hm.costOff (R := R) hp hd2 ho2 (by omega) (by omega) (by omega)
  have t3 := (hm.storedOff h hp h1).add hm.budget (hm.storedOff h hp h2)
  have t4 := (t1.add hm.budget t2 (by omega) (by omega) (by omega)).sub hm.budget t3 (by omega) (by omega) (by omega)
  have e1 : a + 0 + (a' + 0) + (1 + 1) = a + a' + 2 := by omega
  have e2 : b + 1 + 1 + (b' + 1 + 1) + 1 + (2 + 2 + 1) + 1 = b + b' + 11 := by omega
  have e3 : j + i + (j' + i') + (3 + 3) = j + i + j' + i' + 6 := by omega
  rw [e1, e2, e3] at t4
  exact t4

end
end Verif
