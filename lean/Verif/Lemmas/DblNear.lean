import Verif.Lemmas.DblMain

/-! # The rounding error of the cost line -/

namespace Verif
open F64 Dbl

variable {ρ : Rounding}

/-- Below `2 ^ m` a rounding moves a number by at most `2 ^ (m - 53)`. -/
theorem fl_near (ρ : Rounding) {m : ℕ} {x : ℚ} (h0 : 0 ≤ x) (h : x ≤ 2 ^ m) : |ρ.fl x - x| ≤ 2 ^ m / 2 ^ 53 := by
  have hg : (2 : ℚ) ^ ((m : ℤ) - 53) = 2 ^ m / 2 ^ 53 := by
    rw [zpow_sub₀ (by norm_num), zpow_natCast]; norm_num
  obtain ⟨g, hgd⟩ : ∃ g : ℚ, g = 2 ^ m / 2 ^ 53 := ⟨_, rfl⟩
  have hgp : 0 < g := by rw [hgd]; positivity
  have htop : (2 : ℚ) ^ 53 * g = 2 ^ m := by rw [hgd]; field_simp
  have hrep : ∀ k : ℤ, 0 ≤ k → k ≤ 2 ^ 53 → ρ.fl (k * g) = k * g := by
    intro k a b
    have := ρ.rep k ((m : ℤ) - 53) (by rw [abs_of_nonneg a]; exact b) (by omega)
    rwa [hg, ← hgd] at this
  rw [← hgd]
  have k0 : 0 ≤ ⌊x / g⌋ := Int.floor_nonneg.mpr (by positivity)
  have k1 : (⌊x / g⌋ : ℚ) * g ≤ x := by
    have := Int.floor_le (x / g)
    rwa [le_div_iff₀ hgp] at this
  have k2 : x < (⌊x / g⌋ + 1) * g := by
    have := Int.lt_floor_add_one (x / g)
    rwa [div_lt_iff₀ hgp] at this
  generalize ⌊x / g⌋ = k at *
  have hk : k ≤ 2 ^ 53 := by
    have : (k : ℚ) * g ≤ 2 ^ 53 * g := by linarith
    have : (k : ℚ) ≤ 2 ^ 53 := le_of_mul_le_mul_right this hgp
    exact_mod_cast this
  rcases hk.lt_or_eq with hk' | rfl
  · have a := ρ.mono _ _ k1
    have b := ρ.mono _ _ k2.le
    rw [hrep k k0 hk] at a
    have := hrep (k + 1) (by omega) (by omega)
    push_cast at this
    rw [this] at b
    rw [abs_le]
    constructor <;> linarith
  · have : x = ((2 ^ 53 : ℤ) : ℚ) * g := by
      push_cast at k1 ⊢
      linarith
    rw [this, hrep _ k0 hk, sub_self, abs_zero]
    exact hgp.le

/-- A computed number `x` that is off the exact `t` by at most `j` roundings of size `u`. -/
def Near (u t : ℚ) (j : ℕ) (x : Dbl ρ) : Prop := ∃ v, x = fin v ∧ 0 ≤ v ∧ |v - t| ≤ j * u

theorem Near.add {m : ℕ} (hm : m < 1024) {t t' : ℚ} {j j' : ℕ} {x y : Dbl ρ} (hx : Near (2 ^ m / 2 ^ 53) t j x)
    (hy : Near (2 ^ m / 2 ^ 53) t' j' y) (hb : t + t' + (j + j') * (2 ^ m / 2 ^ 53) ≤ 2 ^ m) :
    Near (2 ^ m / 2 ^ 53) (t + t') (j + j' + 1) (x +. y) ∧ ∃ v, x +. y = fin v ∧ ρ.fl v = v := by
  obtain ⟨v, rfl, v0, hv⟩ := hx
  obtain ⟨w, rfl, w0, hw⟩ := hy
  obtain ⟨v1, v2⟩ := abs_le.mp hv
  obtain ⟨w1, w2⟩ := abs_le.mp hw
  have hs : v + w ≤ 2 ^ m := by linarith
  have hs0 : 0 ≤ v + w := by linarith
  obtain ⟨n1, n2⟩ := abs_le.mp (fl_near ρ hs0 hs)
  rw [add_fin, ofRat_le hm (by rw [abs_of_nonneg hs0]; exact hs)]
  refine ⟨⟨_, rfl, ρ.nonneg hs0, ?_⟩, _, rfl, ρ.idem _⟩
  push_cast
  rw [abs_le]
  constructor <;> linarith

theorem Near.exact {u t : ℚ} (h : 0 ≤ t) : Near (ρ := ρ) u t 0 (fin t) := ⟨t, rfl, h, by simp⟩

theorem Near.mono {u t : ℚ} (hu : 0 ≤ u) {j k : ℕ} {x : Dbl ρ} (h : Near u t j x) (hk : j ≤ k) : Near u t k x := by
  obtain ⟨v, e, v0, hv⟩ := h
  exact ⟨v, e, v0, hv.trans (mul_le_mul_of_nonneg_right (by exact_mod_cast hk) hu)⟩

/-- Distances are finite, from 0 to `M`, and 0 at the depot. -/
structure BoundedDist (ctx : Ctx (Dbl ρ)) (d : ℕ → ℕ → ℚ) (M : ℚ) : Prop where
  dist : ∀ a b, ctx.dist a b = fin (d a b)
  nonneg : ∀ a b, 0 ≤ d a b
  le : ∀ a b, d a b ≤ M
  depot : d 0 0 = 0

variable {ctx : Ctx (Dbl ρ)} {d : ℕ → ℕ → ℚ} {M : ℚ}

theorem BoundedDist.M_nonneg (h : BoundedDist ctx d M) : 0 ≤ M := (h.nonneg 0 0).trans (h.le 0 0)

theorem pathDist_bounds (h0 : ∀ a b, 0 ≤ d a b) (h1 : ∀ a b, d a b ≤ M) :
    ∀ (l : List ℕ) (a : ℕ), 0 ≤ Spec.pathDist d (a :: l) ∧ Spec.pathDist d (a :: l) ≤ l.length * M
  | [], a => by simp [Spec.pathDist]
  | b :: l, a => by
    obtain ⟨x, y⟩ := pathDist_bounds h0 h1 l b
    have := h0 a b
    have := h1 a b
    rw [Spec.pathDist]
    push_cast [List.length_cons]
    constructor <;> linarith

theorem tripAlong_near {m : ℕ} (hm : m < 1024) (hd : BoundedDist ctx d M) :
    ∀ (l : List ℕ) (last : ℕ) (x : Dbl ρ) (t : ℚ) (j : ℕ), Near (2 ^ m / 2 ^ 53) t j x →
      t + (l.length + 1) * M + (j + l.length + 1) * (2 ^ m / 2 ^ 53) ≤ 2 ^ m →
      Near (2 ^ m / 2 ^ 53) (t + Spec.pathDist d (last :: (l ++ [0]))) (j + l.length + 1) (tripAlong ctx last x l) ∧
        ∃ v, tripAlong ctx last x l = fin v ∧ ρ.fl v = v
  | [], last, x, t, j, hx, h => by
    have hu : (0 : ℚ) < 2 ^ m / 2 ^ 53 := by positivity
    have := hd.le last 0
    simp only [List.length_nil, Nat.cast_zero, zero_add, one_mul, add_zero] at h
    rw [tripAlong, hd.dist]
    have := hx.add hm (Near.exact (ρ := ρ) (hd.nonneg last 0)) (by push_cast; linarith)
    simpa [Spec.pathDist] using this
  | c :: l, last, x, t, j, hx, h => by
    have hu : (0 : ℚ) < 2 ^ m / 2 ^ 53 := by positivity
    have h1 := hd.le last c
    have hM := hd.M_nonneg
    have hl : (0 : ℚ) ≤ l.length * M := mul_nonneg (by positivity) hM
    have hl' : (0 : ℚ) ≤ l.length * (2 ^ m / 2 ^ 53) := by positivity
    push_cast [List.length_cons] at h
    rw [tripAlong, hd.dist]
    have h2 := (hx.add hm (Near.exact (ρ := ρ) (hd.nonneg last c)) (by push_cast; linarith)).1
    have h3 := tripAlong_near hm hd l c _ _ _ h2 (by push_cast; linarith)
    rw [List.cons_append, Spec.pathDist, ← add_assoc, List.length_cons,
      show j + (l.length + 1) + 1 = j + 0 + 1 + l.length + 1 by omega]
    exact h3

theorem routeDist_bounds (hd : BoundedDist ctx d M) (l : List ℕ) :
    0 ≤ Spec.routeDist d l ∧ Spec.routeDist d l ≤ 2 * (l.length * M) := by
  have hM := hd.M_nonneg
  cases l with
  | nil => simp [Spec.routeDist, Spec.pathDist, hd.depot]
  | cons c l =>
    obtain ⟨a, b⟩ := pathDist_bounds hd.nonneg hd.le ((c :: l) ++ [0]) 0
    refine ⟨a, b.trans ?_⟩
    push_cast [List.length_append, List.length_cons, List.length_nil]
    have : (0 : ℚ) ≤ l.length * M := mul_nonneg (by positivity) hM
    linarith

variable {q : ℕ → ℤ} {Q D : ℤ}

/-- The cost of a recorded solution is its length, up to three roundings for every customer. -/
theorem recorded_near {E : RRoute (Dbl ρ) → Prop} (hw : Whole ctx q Q D) (hE : ∀ rt, E rt → LoadExact q Q rt)
    (hd : BoundedDist ctx d M) {m : ℕ} (hm : m < 1024) (hM : 4 * (ctx.n * M) ≤ 2 ^ m) (hn : ctx.n ≤ 2 ^ 50)
    (hn1 : 1 ≤ ctx.n)     {nv : ℕ} {p : Dbl ρ} {x : Individual (Dbl ρ)} (h : Recorded ctx E nv p x) :
    Near (2 ^ m / 2 ^ 53) (x.phenotype.map (Spec.routeDist d)).sum (3 * ctx.n) x.cost := by
  obtain ⟨u, hu⟩ : ∃ u : ℚ, u = 2 ^ m / 2 ^ 53 := ⟨_, rfl⟩
  have hup : 0 < u := by rw [hu]; positivity
  have hload := recorded_loads hw hE h
  have hM0 := hd.M_nonneg
  -- all sums stay below `2 ^ m`
  have hroom : ∀ k : ℕ, k ≤ ctx.n → 2 * (k * M) + 3 * k * u ≤ 2 ^ m := by
    intro k hk
    have hk' : (k : ℚ) ≤ ctx.n := by exact_mod_cast hk
    have a : (k : ℚ) * M ≤ ctx.n * M := mul_le_mul_of_nonneg_right hk' hM0
    have hn' : (k : ℚ) ≤ 2 ^ 50 := hk'.trans (by exact_mod_cast hn)
    have b : (k : ℚ) * u ≤ 2 ^ 50 * u := mul_le_mul_of_nonneg_right hn' hup.le
    have c : (2 : ℚ) ^ 50 * u = 2 ^ m / 8 := by rw [hu]; norm_num; ring
    have e : (0 : ℚ) < 2 ^ m := by positivity
    linarith
  have zi : (ofInt 0 : Dbl ρ) = fin 0 := by simp [ofInt]
  have add0 : ∀ y : Dbl ρ, (∃ v, y = fin v ∧ 0 ≤ v ∧ v ≤ 2 ^ m ∧ ρ.fl v = v) → y +. fin 0 = y := by
    rintro _ ⟨v, rfl, v0, v1, hv⟩
    rw [add_fin, add_zero, ofRat_le hm (by rw [abs_of_nonneg v0]; exact v1), hv]
  have hd' : BoundedDist (RR.ctxAt ctx p) d M := ⟨hd.dist, hd.nonneg, hd.le, hd.depot⟩
  have hroute : ∀ l ∈ x.phenotype,
      Near u (Spec.routeDist d l) (l.length + 1) (routeVal (RR.ctxAt ctx p) l).cost ∧
      (l = [] → (routeVal (RR.ctxAt ctx p) l).cost = fin 0) := by
    intro l hl
    have hs : l.length ≤ ctx.n - 1 := h.good.short hl
    have hc : (routeVal (RR.ctxAt ctx p) l).cost = tripAlong (RR.ctxAt ctx p) 0 (lit 0) l +. fin 0 := by
      show tripAlong (RR.ctxAt ctx p) 0 (lit 0) l +. p *. F64.max (lit 0) (routeVal (RR.ctxAt ctx p) l).overload = _
      rw [(hw.at_ (p := p)).overload (show l.length ≤ ctx.n by omega), max_zero,
        max_eq_left (by have := hload l hl; omega), recorded_pen hw hE h (List.ne_nil_of_mem hl), zi]
    have r := hroom (l.length + 1) (by omega)
    push_cast at r
    have e1 : (0 : ℚ) ≤ l.length * M := mul_nonneg (by positivity) hM0
    have e2 : (0 : ℚ) ≤ l.length * u := by positivity
    obtain ⟨t, v, hv, hfix⟩ := tripAlong_near hm hd' l 0 (lit 0) 0 0 (by rw [lit_zero]; exact Near.exact (le_refl _))
      (by rw [← hu]; push_cast; linarith)
    rw [← hu, zero_add, Nat.zero_add] at t
    obtain ⟨b0, b1⟩ := pathDist_bounds hd.nonneg hd.le (l ++ [0]) 0
    push_cast [List.length_append, List.length_cons, List.length_nil] at b1
    have hv2 : 0 ≤ v ∧ v ≤ 2 ^ m := by
      obtain ⟨v', e, v0, hv'⟩ := t
      obtain rfl : v = v' := by rw [hv] at e; exact Dbl.fin.inj e
      refine ⟨v0, ?_⟩
      have := (abs_le.mp hv').2
      push_cast at this
      linarith
    rw [hc, add0 _ ⟨v, hv, hv2.1, hv2.2, hfix⟩]
    refine ⟨t, ?_⟩
    rintro rfl
    rw [tripAlong, hd'.dist, hd.depot, lit_zero, add_fin, add_zero]
    exact lit_zero
  have hsum : ∀ L : List (List ℕ), 0 ≤ (L.map (Spec.routeDist d)).sum ∧
      (L.map (Spec.routeDist d)).sum ≤ 2 * (L.flatten.length * M) := by
    intro L
    induction L with
    | nil => simp
    | cons l L ih =>
      have t := routeDist_bounds hd l
      simp only [List.map_cons, List.sum_cons, List.flatten_cons, List.length_append]
      push_cast
      constructor <;> linarith
  have hlen : x.phenotype.flatten.length ≤ ctx.n := by
    have := h.good.part.length_eq
    simp only [Spec.customers, List.length_range'] at this
    have h2 : (RR.ctxAt ctx p).n = ctx.n := rfl
    omega
  have hfold : ∀ (L : List (List ℕ)) (y : Dbl ρ) (t : ℚ) (k : ℕ), Near u t (3 * k) y → 0 ≤ t → t ≤ 2 * (k * M) →
      (∃ v, y = fin v ∧ ρ.fl v = v) → k + L.flatten.length ≤ ctx.n →
      (∀ l ∈ L, Near u (Spec.routeDist d l) (l.length + 1) (routeVal (RR.ctxAt ctx p) l).cost ∧
        (l = [] → (routeVal (RR.ctxAt ctx p) l).cost = fin 0)) →
      Near u (t + (L.map (Spec.routeDist d)).sum) (3 * (k + L.flatten.length))
        (L.foldl (fun c r => c +. (routeVal (RR.ctxAt ctx p) r).cost) y) := by
    intro L
    induction L with
    | nil => intro y t k hy _ _ _ _ _; simpa using hy
    | cons l L ih =>
      intro y t k hy ht0 ht hfix hk hL
      obtain ⟨c1, c2⟩ := hL l (by simp)
      simp only [List.flatten_cons, List.length_append] at hk
      rw [List.foldl_cons]
      by_cases hl : l = []
      · subst hl
        have hy' : y +. (routeVal (RR.ctxAt ctx p) []).cost = y := by
          rw [c2 rfl]
          obtain ⟨v, hv, hf⟩ := hfix
          obtain ⟨v', e, v0, hv'⟩ := hy
          obtain rfl : v = v' := by rw [hv] at e; exact Dbl.fin.inj e
          refine add0 _ ⟨v, hv, v0, ?_, hf⟩
          have r := hroom k (by omega)
          have := (abs_le.mp hv').2
          push_cast at this
          linarith
        have z : Spec.routeDist d [] = 0 := by simp [Spec.routeDist, Spec.pathDist, hd.depot]
        rw [hy']
        simpa [z] using ih y t k hy ht0 ht hfix (by simpa using hk) fun r hr => hL r (by simp [hr])
      · have hl1 : 1 ≤ l.length := List.length_pos_iff.mpr hl
        have tb := routeDist_bounds hd l
        have r := hroom (k + l.length) (by omega)
        push_cast at r
        have hl1' : (1 : ℚ) * u ≤ l.length * u := mul_le_mul_of_nonneg_right (by exact_mod_cast hl1) hup.le
        obtain ⟨a1, a2⟩ := Near.add hm (hu ▸ hy) (hu ▸ c1) (by rw [← hu]; push_cast; linarith)
        rw [← hu] at a1
        have := ih _ _ (k + l.length) (a1.mono hup.le (by omega)) (by linarith) (by push_cast; linarith) a2
          (by omega) fun r hr => hL r (by simp [hr])
        simp only [List.map_cons, List.sum_cons, List.flatten_cons, List.length_append]
        rw [← add_assoc, ← add_assoc]
        exact this
  have := hfold x.phenotype (lit 0) 0 0 (by rw [lit_zero]; exact Near.exact (le_refl _)) (le_refl _) (by simp)
    ⟨0, lit_zero, ρ.zero⟩ (by omega) hroute
  rw [h.good.vals.1, ← hu]
  rw [zero_add, Nat.zero_add] at this
  exact this.mono hup.le (by omega)

theorem toNat_near {v : ℚ} (h0 : 0 ≤ v) (h : v ≤ 2 ^ 61) :
    |((toNat (F64.round (fin v : Dbl ρ)) : ℕ) : ℚ) - v| ≤ 1 / 2 := by
  have e : (toNat (F64.round (fin v : Dbl ρ)) : ℤ) = ⌊v + 1 / 2⌋ := by
    show ((sat ⌊ratRound v⌋ : ℕ) : ℤ) = _
    rw [ratRound, if_pos h0, Int.floor_intCast, sat]
    have k0 : 0 ≤ ⌊v + 1 / 2⌋ := Int.floor_nonneg.mpr (by linarith)
    have k1 : ⌊v + 1 / 2⌋ < 2 ^ 62 := by
      rw [Int.floor_lt]; push_cast; linarith
    rw [min_eq_left (by omega)]
    omega
  have e' : ((toNat (F64.round (fin v : Dbl ρ)) : ℕ) : ℚ) = (⌊v + 1 / 2⌋ : ℤ) := by exact_mod_cast e
  rw [e']
  have := Int.floor_le (v + 1 / 2)
  have := Int.lt_floor_add_one (v + 1 / 2)
  rw [abs_le]
  constructor <;> linarith

namespace Program

variable {lib : Lib (Dbl ρ)} {cfg : Settings (Dbl ρ)} {nodes : List (ℚ × ℚ × ℚ)} {cap : ℚ} {dist : ℕ → ℕ → ℚ}
  {mat : Option (List (List (Dbl ρ)))} {text file : List Char} {ω : Oracle} {chs : List (GAChoice (Dbl ρ))}
  {dchs : List (DGAChoice (Dbl ρ))}

/-- The stated cost of a recorded solution, for distances from 0 to `M`. -/
theorem near_stated {d : DistMatrix (Dbl ρ)} {M : ℚ} {m : ℕ} (hn : 3 ≤ nodes.length)
    (hz : ∀ a < nodes.length, ∀ b < nodes.length, 0 ≤ dist a b ∧ dist a b ≤ M)
    (h00 : dist 0 0 = 0) (hM : 4 * (nodes.length * M) ≤ 2 ^ m) (hm : m ≤ 60)
    (hn50 : nodes.length ≤ 2 ^ 50) (hb : Built lib nodes.length (fun a b => fin (dist a b)) d)
    {q : ℕ → ℤ} {Q D : ℤ} (hw : Whole (context lib (parsed (dblNodes ρ nodes) (fin cap) mat) d) q Q D)
    {E : RRoute (Dbl ρ) → Prop} (hEl : ∀ rt, E rt → LoadExact q Q rt) {nv : ℕ} {p : Dbl ρ}
    {x : Individual (Dbl ρ)} (hx : Recorded (context lib (parsed (dblNodes ρ nodes) (fin cap) mat) d) E nv p x) :
    |((toNat (F64.round x.cost) : ℕ) : ℚ) - ((x.phenotype.filter fun r => r ≠ []).map (Spec.routeDist dist)).sum| ≤
      1 / 2 + 3 * nodes.length * (2 ^ m / 2 ^ 53) := by
  have hM0 : 0 ≤ M := (hz 0 (by omega) 0 (by omega)).1.trans (hz 0 (by omega) 0 (by omega)).2
  obtain ⟨d', hdef⟩ : ∃ d' : ℕ → ℕ → ℚ, ∀ a b, d' a b =
      if a < nodes.length ∧ b < nodes.length then dist a b else 0 := ⟨_, fun _ _ => rfl⟩
  have hd' : ∀ a b, 0 ≤ d' a b ∧ d' a b ≤ M := by
    intro a b
    rw [hdef]
    split
    · rename_i h; exact hz a h.1 b h.2
    · exact ⟨le_refl _, hM0⟩
  have hbd : BoundedDist (context lib (parsed (dblNodes ρ nodes) (fin cap) mat) d) d' M := by
    refine ⟨fun a b => ?_, fun a b => (hd' a b).1, fun a b => (hd' a b).2, ?_⟩
    · rw [dbl_dist (dist := dist) hb, hdef]
    · rw [hdef, h00, ite_self]
  have hcn : (context lib (parsed (dblNodes ρ nodes) (fin cap) mat) d).n = nodes.length := dbl_n
  obtain ⟨v, hv, v0, hnear⟩ := recorded_near hw hEl hbd (m := m) (by omega) (by rw [hcn]; exact hM)
    (by rw [hcn]; exact hn50) (by rw [hcn]; omega) hx
  rw [hcn] at hnear
  have hpart := hx.good.part
  have hin : ∀ r ∈ x.phenotype, ∀ c ∈ r, c < nodes.length := by
    intro r hr c hc
    have : c ∈ Spec.customers (RR.ctxAt (context lib (parsed (dblNodes ρ nodes) (fin cap) mat) d) p).n :=
      hpart.subset (List.mem_flatten.mpr ⟨r, hr, hc⟩)
    have e : (RR.ctxAt (context lib (parsed (dblNodes ρ nodes) (fin cap) mat) d) p).n = nodes.length := hcn
    rw [e, Spec.customers, List.mem_range'_1] at this
    omega
  have hlen : x.phenotype.flatten.length ≤ nodes.length := by
    have := hpart.length_eq
    have e : (RR.ctxAt (context lib (parsed (dblNodes ρ nodes) (fin cap) mat) d) p).n = nodes.length := hcn
    rw [e] at this
    simp only [Spec.customers, List.length_range'] at this
    omega
  have hsum : (x.phenotype.map (Spec.routeDist d')).sum =
      ((x.phenotype.filter fun r => r ≠ []).map (Spec.routeDist dist)).sum := by
    clear hnear hlen hpart
    generalize x.phenotype = P at hin
    induction P with
    | nil => rfl
    | cons r L ih =>
      have ih := ih fun s hs => hin s (by simp [hs])
      have e1 : Spec.routeDist d' r = Spec.routeDist dist r := by
        refine pathDist_congr (n := nodes.length) (fun a ha b hb => ?_) _ fun c hc => ?_
        · rw [hdef, if_pos ⟨ha, hb⟩]
        · simp only [List.mem_cons, List.mem_append, List.not_mem_nil, or_false] at hc
          rcases hc with rfl | hc | rfl
          · omega
          · exact hin r (by simp) c hc
          · omega
      by_cases hr : r = []
      · subst hr
        have : Spec.routeDist d' [] = 0 := by simp [Spec.routeDist, Spec.pathDist, hbd.depot]
        simpa [this] using ih
      · rw [List.filter_cons_of_pos (by simpa using hr), List.map_cons, List.map_cons, List.sum_cons, List.sum_cons,
          ih, e1]
  have hbound : (x.phenotype.map (Spec.routeDist d')).sum ≤ 2 * (x.phenotype.flatten.length * M) := by
    clear hnear hlen hpart hin hsum
    induction x.phenotype with
    | nil => simp
    | cons r L ih =>
      have t := routeDist_bounds hbd r
      simp only [List.map_cons, List.sum_cons, List.flatten_cons, List.length_append]
      push_cast
      linarith
  have hv61 : v ≤ 2 ^ 61 := by
    have a : (x.phenotype.flatten.length : ℚ) * M ≤ nodes.length * M :=
      mul_le_mul_of_nonneg_right (by exact_mod_cast hlen) hM0
    have b := (abs_le.mp hnear).2
    have c : (2 : ℚ) ^ m ≤ 2 ^ 60 := pow_le_pow_right₀ (by norm_num) hm
    have n1 : (nodes.length : ℚ) ≤ 2 ^ 50 := by exact_mod_cast hn50
    have g : (nodes.length : ℚ) * (2 ^ m / 2 ^ 53) ≤ 2 ^ 50 * (2 ^ 60 / 2 ^ 53) :=
      mul_le_mul n1 (div_le_div_of_nonneg_right c (by norm_num)) (by positivity) (by norm_num)
    push_cast at b
    norm_num at g c ⊢
    linarith
  rw [← hsum, hv]
  have := toNat_near (ρ := ρ) v0 hv61
  push_cast at hnear
  obtain ⟨a1, a2⟩ := abs_le.mp this
  obtain ⟨b1, b2⟩ := abs_le.mp hnear
  rw [abs_le]
  constructor <;> linarith

/-- The stated cost, for distances from 0 to `M`. -/
theorem main_near (hr : DblRun lib cfg nodes.length chs dchs) (hd : DblLoads nodes cap) {M : ℚ} {m : ℕ}
    (hz : ∀ a < nodes.length, ∀ b < nodes.length, 0 ≤ dist a b ∧ dist a b ≤ M)
    (h00 : dist 0 0 = 0) (h43 : M ≤ 2 ^ 43) (hM : 4 * (nodes.length * M) ≤ 2 ^ m) (hm : m ≤ 60)
    (hn50 : nodes.length ≤ 2 ^ 50)
    (hp : parseInstance lib.num text = some (parsed (dblNodes ρ nodes) (fin cap) mat))
    (hb : ∃ d, buildDist lib.sqrt (locations (parsed (dblNodes ρ nodes) (fin cap) mat))
      (decide ((parsed (dblNodes ρ nodes) (fin cap) mat).nodes.length - 1 < cfg.precomputeLimit)) cfg.rounded mat =
        some d ∧ Built lib nodes.length (fun a b => fin (dist a b)) d)
    (hmain : main lib cfg text ω chs dchs = some (some file)) (hne : file ≠ []) :
    Spec.NearFile nodes cap dist (3 * nodes.length * (2 ^ m / 2 ^ 53)) file := by
  obtain ⟨d, e, hb⟩ := hb
  obtain ⟨c, h, h1, h2, h3⟩ := main_parts hp e hmain
  obtain ⟨Q, D, hQ, hw⟩ := dbl_whole (lib := lib) (m := mat) (d := d) (ρ := ρ) hd
  have hgran := hr.settings.gran
  have hn : 3 ≤ nodes.length := by have := hgran.1; have := hgran.2; omega
  have hx : DblDist nodes.length dist := fun a ha b hb =>
    ⟨(hz a ha b hb).1, (hz a ha b hb).2.trans h43⟩
  exact dbl_written hr.fleet hr.lib hr.settings hd hx hb h1 hr.choices hr.dchoices (loadExact_laws hw) hQ
    (fun _ h => h) h2 h3 hne fun p x hx => near_stated hn hz h00 hM hm hn50 hb hw (fun _ h => h) hx

end Program
end Verif
