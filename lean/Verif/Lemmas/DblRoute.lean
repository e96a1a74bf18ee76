import Verif.Lemmas.DblArith

/-! # Loads and lengths of routes that are computed exactly in double precision -/

namespace Verif
open F64 Dbl

variable {ρ : Rounding}

/-- Load of a list of stops. -/
def loadZ (q : ℕ → ℤ) (l : List ℕ) : ℤ := (l.map q).sum

/-- Length of a path. -/
def pathZ (d : ℕ → ℕ → ℤ) : List ℕ → ℤ
  | a :: b :: l => d a b + pathZ d (b :: l)
  | _ => 0

/-- Length of a route. -/
def tripZ (d : ℕ → ℕ → ℤ) (l : List ℕ) : ℤ := pathZ d (0 :: (l ++ [0]))

theorem pathZ_cast (d : ℕ → ℕ → ℤ) : ∀ l, Spec.pathDist (fun a b => (d a b : ℚ)) l = pathZ d l
  | [] => by simp [pathZ, Spec.pathDist]
  | [_] => by simp [pathZ, Spec.pathDist]
  | a :: b :: l => by
    rw [Spec.pathDist, pathZ, pathZ_cast d (b :: l)]
    push_cast
    rfl

theorem tripZ_cast (d : ℕ → ℕ → ℤ) (l : List ℕ) : Spec.routeDist (fun a b => (d a b : ℚ)) l = tripZ d l :=
  pathZ_cast d _

theorem loadZ_cast (q : ℕ → ℤ) (l : List ℕ) : Spec.routeLoad (fun a => (q a : ℚ)) l = loadZ q l := by
  unfold Spec.routeLoad loadZ
  induction l with
  | nil => simp
  | cons a l ih => simp [ih]

theorem tripZ_insert (d : ℕ → ℕ → ℤ) (p q : List ℕ) (c : ℕ) : tripZ d (p ++ c :: q) =
    tripZ d (p ++ q) + (d (p.getLastD 0) c + d c (q.headD 0) - d (p.getLastD 0) (q.headD 0)) := by
  have h := routeDist_detour (fun a b => (d a b : ℚ)) p q c
  rw [tripZ_cast, tripZ_cast, detour] at h
  exact_mod_cast h

/-- Demands and capacity are whole numbers of moderate size. -/
structure Whole (ctx : Ctx (Dbl ρ)) (q : ℕ → ℤ) (Q D : ℤ) : Prop where
  demand : ∀ c, ctx.demand c = ofInt (q c)
  nonneg : ∀ c, 0 ≤ q c
  le : ∀ c, q c ≤ D
  cap : ctx.cap = ofInt Q
  capPos : 0 < Q
  small : ctx.n * D + Q ≤ 2 ^ 52

theorem loadZ_bounds {q : ℕ → ℤ} {D : ℤ} (h0 : ∀ c, 0 ≤ q c) (h1 : ∀ c, q c ≤ D) :
    ∀ l : List ℕ, 0 ≤ loadZ q l ∧ loadZ q l ≤ l.length * D
  | [] => by simp [loadZ]
  | c :: l => by
    obtain ⟨a, b⟩ := loadZ_bounds h0 h1 l
    have := h0 c
    have := h1 c
    have e : loadZ q (c :: l) = q c + loadZ q l := by simp [loadZ]
    rw [e, List.length_cons]
    push_cast
    constructor
    · omega
    · linarith [add_mul (l.length : ℤ) 1 D]

theorem loadAlong_int {ctx : Ctx (Dbl ρ)} {q : ℕ → ℤ} {D : ℤ} (hq : ∀ c, ctx.demand c = ofInt (q c))
    (h0 : ∀ c, 0 ≤ q c) (h1 : ∀ c, q c ≤ D) : ∀ (l : List ℕ) (a : ℤ), 0 ≤ a → a + l.length * D ≤ 2 ^ 53 →
      loadAlong ctx (ofInt a) l = ofInt (a + loadZ q l)
  | [], a, _, _ => by simp [loadAlong, loadZ]
  | c :: l, a, ha, h => by
    have c0 := h0 c
    have c1 := h1 c
    have b := (loadZ_bounds h0 h1 l).2
    have b0 := (loadZ_bounds h0 h1 l).1
    have hlen : ((c :: l).length : ℤ) * D = l.length * D + D := by push_cast [List.length_cons]; ring
    have e : loadZ q (c :: l) = q c + loadZ q l := by simp [loadZ]
    unfold loadAlong
    rw [List.foldl_cons, hq c, ofInt_add (by rw [abs_of_nonneg (by omega)]; nlinarith)]
    have := loadAlong_int hq h0 h1 l (a + q c) (by omega) (by linarith)
    unfold loadAlong at this
    rw [this, e, add_assoc]

namespace Whole

variable {ctx : Ctx (Dbl ρ)} {q : ℕ → ℤ} {Q D : ℤ}

theorem at_ {p : Dbl ρ} (h : Whole ctx q Q D) : Whole (RR.ctxAt ctx p) q Q D :=
  ⟨h.demand, h.nonneg, h.le, h.cap, h.capPos, h.small⟩

theorem D_nonneg (h : Whole ctx q Q D) : 0 ≤ D := (h.nonneg 0).trans (h.le 0)

theorem bound (h : Whole ctx q Q D) {l : List ℕ} (hl : l.length ≤ ctx.n) :
    0 ≤ loadZ q l ∧ loadZ q l + Q ≤ 2 ^ 52 := by
  obtain ⟨a, b⟩ := loadZ_bounds h.nonneg h.le l
  refine ⟨a, ?_⟩
  have h1 : (l.length : ℤ) * D ≤ ctx.n * D :=
    mul_le_mul_of_nonneg_right (by exact_mod_cast hl) h.D_nonneg
  have := h.small
  omega

/-- The overload computed for a route. -/
theorem overload (h : Whole ctx q Q D) {l : List ℕ} (hl : l.length ≤ ctx.n) :
    (routeVal ctx l).overload = ofInt (loadZ q l - Q) := by
  obtain ⟨a, b⟩ := h.bound hl
  have h1 : (l.length : ℤ) * D ≤ ctx.n * D :=
    mul_le_mul_of_nonneg_right (by exact_mod_cast hl) h.D_nonneg
  have := h.small
  have := h.capPos
  show loadAlong ctx (lit 0) l -. ctx.cap = _
  rw [lit_zero', loadAlong_int h.demand h.nonneg h.le l 0 (le_refl _) (by omega), h.cap, zero_add,
    ofInt_sub (by rw [abs_le]; constructor <;> omega)]

end Whole

/-- The recorded overload is the true one. -/
def LoadExact (q : ℕ → ℤ) (Q : ℤ) (rt : RRoute (Dbl ρ)) : Prop := rt.overload = ofInt (loadZ q rt.nodes - Q)

theorem loadZ_append (q : ℕ → ℤ) (a b : List ℕ) : loadZ q (a ++ b) = loadZ q a + loadZ q b := by simp [loadZ]

theorem loadZ_cons (q : ℕ → ℤ) (c : ℕ) (b : List ℕ) : loadZ q (c :: b) = q c + loadZ q b := by simp [loadZ]

theorem loadExact_laws {ctx : Ctx (Dbl ρ)} {q : ℕ → ℤ} {Q D : ℤ} (h : Whole ctx q Q D) :
    RouteLaws ctx (LoadExact q Q) := by
  have hQ := h.capPos
  refine ⟨?_, ?_, ?_⟩
  · intro p x hx j l ev h1 h2
    rw [hx.vals.2.2, List.getElem?_map, h1, Option.map_some, Option.some.injEq] at h2
    subst h2
    have hs : l.length ≤ ctx.n - 1 := hx.short (List.mem_of_getElem? h1)
    exact (h.at_ (p := p)).overload (show l.length ≤ ctx.n by omega)
  · intro rt rt' i c hn he ha
    obtain ⟨p, r, h1, h2, h3⟩ := RRoute.add_some ha
    obtain ⟨l, a, b⟩ := rt
    dsimp only at h1
    subst h1 h2
    rw [RRoute.add_append, Option.some.injEq] at ha
    subst ha
    unfold LoadExact at he ⊢
    dsimp only at he hn ⊢
    have b1 := h.bound (l := p ++ c :: r) (by simp at hn ⊢; omega)
    have b2 := h.bound (l := p ++ r) (by omega)
    simp only [loadZ_append, loadZ_cons] at he b1 b2 ⊢
    rw [he, h.demand, ofInt_add (by rw [abs_le]; constructor <;> omega)]
    congr 1
    ring
  · intro rt i y hn he ha
    obtain ⟨p, r, h1, h2, h3⟩ := RRoute.remove_some ha
    obtain ⟨l, a, b⟩ := rt
    obtain ⟨y, x⟩ := y
    dsimp only at h1
    subst h1 h2
    rw [RRoute.remove_append, Option.some.injEq, Prod.mk.injEq] at ha
    obtain ⟨ha, -⟩ := ha
    subst ha
    unfold LoadExact at he ⊢
    dsimp only at he hn ⊢
    have b1 := h.bound (l := p ++ x :: r) (by omega)
    have b2 := h.bound (l := p ++ r) (by simp at hn ⊢; omega)
    simp only [loadZ_append, loadZ_cons] at he b1 b2 ⊢
    rw [he, h.demand, ofInt_sub (by rw [abs_le]; constructor <;> omega)]
    congr 1
    ring

/-- Distances are whole numbers of moderate size. -/
structure WholeDist (ctx : Ctx (Dbl ρ)) (d : ℕ → ℕ → ℤ) (M : ℤ) : Prop where
  dist : ∀ a b, ctx.dist a b = ofInt (d a b)
  nonneg : ∀ a b, 0 ≤ d a b
  le : ∀ a b, d a b ≤ M
  depot : d 0 0 = 0
  small : 4 * (ctx.n * M) ≤ 2 ^ 53

theorem pathZ_bounds {d : ℕ → ℕ → ℤ} {M : ℤ} (h0 : ∀ a b, 0 ≤ d a b) (h1 : ∀ a b, d a b ≤ M) :
    ∀ (l : List ℕ) (a : ℕ), 0 ≤ pathZ d (a :: l) ∧ pathZ d (a :: l) ≤ l.length * M
  | [], a => by simp [pathZ]
  | b :: l, a => by
    obtain ⟨x, y⟩ := pathZ_bounds h0 h1 l b
    have := h0 a b
    have := h1 a b
    rw [pathZ]
    push_cast [List.length_cons]
    constructor
    · omega
    · linarith [add_mul (l.length : ℤ) 1 M]

theorem tripAlong_int {ctx : Ctx (Dbl ρ)} {d : ℕ → ℕ → ℤ} {M : ℤ} (hd : ∀ a b, ctx.dist a b = ofInt (d a b))
    (h0 : ∀ a b, 0 ≤ d a b) (h1 : ∀ a b, d a b ≤ M) : ∀ (l : List ℕ) (last : ℕ) (a : ℤ), 0 ≤ a →
      a + (l.length + 1) * M ≤ 2 ^ 53 →
      tripAlong ctx last (ofInt a) l = ofInt (a + pathZ d (last :: (l ++ [0])))
  | [], last, a, ha, h => by
    have c0 := h0 last 0
    have c1 := h1 last 0
    simp only [List.length_nil, Nat.cast_zero, zero_add, one_mul] at h
    rw [tripAlong, hd, ofInt_add (by rw [abs_of_nonneg (by omega)]; omega)]
    simp [pathZ]
  | c :: l, last, a, ha, h => by
    have c0 := h0 last c
    have c1 := h1 last c
    have hM : 0 ≤ M := c0.trans c1
    push_cast [List.length_cons] at h
    have hl : (0 : ℤ) ≤ l.length * M := mul_nonneg (by positivity) hM
    have h' : a + M + (l.length + 1) * M ≤ 2 ^ 53 := by linarith
    have h'' : a + M ≤ 2 ^ 53 := by linarith
    rw [tripAlong, hd, ofInt_add (by rw [abs_of_nonneg (by omega)]; omega),
      tripAlong_int hd h0 h1 l c (a + d last c) (by omega) (by linarith), List.cons_append, pathZ, add_assoc]

namespace WholeDist

variable {ctx : Ctx (Dbl ρ)} {d : ℕ → ℕ → ℤ} {M : ℤ}

theorem at_ {p : Dbl ρ} (h : WholeDist ctx d M) : WholeDist (RR.ctxAt ctx p) d M :=
  ⟨h.dist, h.nonneg, h.le, h.depot, h.small⟩

theorem M_nonneg (h : WholeDist ctx d M) : 0 ≤ M := (h.nonneg 0 0).trans (h.le 0 0)

/-- The length of a route is at most twice the largest distance for every stop. -/
theorem trip_le (h : WholeDist ctx d M) (l : List ℕ) : 0 ≤ tripZ d l ∧ tripZ d l ≤ 2 * (l.length * M) := by
  have hM := h.M_nonneg
  cases l with
  | nil => simp [tripZ, pathZ, h.depot]
  | cons c l =>
    obtain ⟨a, b⟩ := pathZ_bounds h.nonneg h.le ((c :: l) ++ [0]) 0
    refine ⟨a, b.trans ?_⟩
    push_cast [List.length_append, List.length_cons, List.length_nil]
    have : (0 : ℤ) ≤ l.length * M := mul_nonneg (by positivity) hM
    linarith

theorem mul_le (h : WholeDist ctx d M) {k : ℕ} (hk : k ≤ ctx.n) : 4 * (k * M) ≤ 2 ^ 53 := by
  have h1 : (k : ℤ) * M ≤ ctx.n * M := mul_le_mul_of_nonneg_right (by exact_mod_cast hk) h.M_nonneg
  have := h.small
  omega

/-- The length computed for a route. -/
theorem distance (h : WholeDist ctx d M) {l : List ℕ} (hl : l.length + 1 ≤ ctx.n) :
    (routeVal ctx l).distance = ofInt (tripZ d l) := by
  have h1 := h.mul_le hl
  have h2 : (0 : ℤ) ≤ ((l.length + 1 : ℕ) : ℤ) * M := mul_nonneg (by positivity) h.M_nonneg
  push_cast at h1 h2
  show tripAlong ctx 0 (lit 0) l = _
  rw [lit_zero', tripAlong_int h.dist h.nonneg h.le l 0 0 (le_refl _) (by omega), zero_add]
  rfl

end WholeDist

/-- The recorded length is the true one. -/
def DistExact (d : ℕ → ℕ → ℤ) (rt : RRoute (Dbl ρ)) : Prop := rt.distance = ofInt (tripZ d rt.nodes)

theorem distExact_laws {ctx : Ctx (Dbl ρ)} {d : ℕ → ℕ → ℤ} {M : ℤ} (h : WholeDist ctx d M) :
    RouteLaws ctx (DistExact d) := by
  have hM := h.M_nonneg
  refine ⟨?_, ?_, ?_⟩
  · intro p x hx j l ev h1 h2
    rw [hx.vals.2.2, List.getElem?_map, h1, Option.map_some, Option.some.injEq] at h2
    subst h2
    have hs : l.length ≤ ctx.n - 1 := hx.short (List.mem_of_getElem? h1)
    cases l with
    | nil =>
      show tripAlong (RR.ctxAt ctx p) 0 (lit 0) [] = _
      rw [tripAlong, lit_zero', h.at_.dist, h.depot, ofInt_add (by norm_num)]
      simp [tripZ, pathZ, h.depot]
    | cons c l =>
      rw [List.length_cons] at hs
      exact (h.at_ (p := p)).distance (show (c :: l).length + 1 ≤ ctx.n by rw [List.length_cons]; omega)
  · intro rt rt' i c hn he ha
    obtain ⟨p, r, h1, h2, h3⟩ := RRoute.add_some ha
    obtain ⟨l, a, b⟩ := rt
    dsimp only at h1
    subst h1 h2
    rw [RRoute.add_append, Option.some.injEq] at ha
    subst ha
    unfold DistExact at he ⊢
    dsimp only at he hn ⊢
    have t1 := h.trip_le (p ++ c :: r)
    have t2 := h.trip_le (p ++ r)
    have m1 := h.mul_le (k := (p ++ c :: r).length) (by simp at hn ⊢; omega)
    have m2 := h.mul_le (k := (p ++ r).length) (by omega)
    have m3 := h.mul_le (k := 1) (by omega)
    have a0 := h.nonneg (p.getLastD 0) (r.headD 0)
    have a1 := h.nonneg (p.getLastD 0) c
    have a2 := h.nonneg c (r.headD 0)
    have b0 := h.le (p.getLastD 0) (r.headD 0)
    have b1 := h.le (p.getLastD 0) c
    have b2 := h.le c (r.headD 0)
    rw [tripZ_insert] at t1 ⊢
    simp only [h.dist] at he ⊢
    rw [he]
    generalize d (p.getLastD 0) (r.headD 0) = u at *
    generalize d (p.getLastD 0) c = v at *
    generalize d c (r.headD 0) = w at *
    generalize ((p ++ c :: r).length : ℤ) * M = m at *
    generalize ((p ++ r).length : ℤ) * M = m' at *
    push_cast at m3
    rw [ofInt_neg, ofInt_add (by rw [abs_le]; constructor <;> omega),
      ofInt_add (by rw [abs_le]; constructor <;> omega), ofInt_add (by rw [abs_le]; constructor <;> omega)]
    congr 1
    ring
  · intro rt i y hn he ha
    obtain ⟨p, r, h1, h2, h3⟩ := RRoute.remove_some ha
    obtain ⟨l, a, b⟩ := rt
    obtain ⟨y, x⟩ := y
    dsimp only at h1
    subst h1 h2
    rw [RRoute.remove_append, Option.some.injEq, Prod.mk.injEq] at ha
    obtain ⟨ha, -⟩ := ha
    subst ha
    unfold DistExact at he ⊢
    dsimp only at he hn ⊢
    have t1 := h.trip_le (p ++ x :: r)
    have t2 := h.trip_le (p ++ r)
    have m1 := h.mul_le (k := (p ++ x :: r).length) (by omega)
    have m2 := h.mul_le (k := (p ++ r).length) (by simp at hn ⊢; omega)
    have m3 := h.mul_le (k := 1) (by omega)
    have a0 := h.nonneg (p.getLastD 0) (r.headD 0)
    have a1 := h.nonneg (p.getLastD 0) x
    have a2 := h.nonneg x (r.headD 0)
    have b0 := h.le (p.getLastD 0) (r.headD 0)
    have b1 := h.le (p.getLastD 0) x
    have b2 := h.le x (r.headD 0)
    rw [tripZ_insert] at t1 he
    simp only [h.dist] at he ⊢
    rw [he]
    generalize d (p.getLastD 0) (r.headD 0) = u at *
    generalize d (p.getLastD 0) x = v at *
    generalize d x (r.headD 0) = w at *
    generalize ((p ++ x :: r).length : ℤ) * M = m at *
    generalize ((p ++ r).length : ℤ) * M = m' at *
    push_cast at m3
    rw [ofInt_neg, ofInt_sub (by rw [abs_le]; constructor <;> omega),
      ofInt_add (by rw [abs_le]; constructor <;> omega), ofInt_add (by rw [abs_le]; constructor <;> omega)]
    congr 1
    ring

theorem RouteLaws.and {α : Type} [F64 α] {ctx : Ctx α} {E E' : RRoute α → Prop} (h : RouteLaws ctx E)
    (h' : RouteLaws ctx E') : RouteLaws ctx fun rt => E rt ∧ E' rt :=
  ⟨fun p x hx j l ev a b => ⟨h.load p x hx j l ev a b, h'.load p x hx j l ev a b⟩,
    fun rt rt' i c hn he ha => ⟨h.add rt rt' i c hn he.1 ha, h'.add rt rt' i c hn he.2 ha⟩,
    fun rt i y hn he ha => ⟨h.remove rt i y hn he.1 ha, h'.remove rt i y hn he.2 ha⟩⟩

end Verif
