import Verif.Lemmas.DblFleet

/-! # Recorded solutions in double precision -/

namespace Verif
open F64 Dbl RRSol

variable {ρ : Rounding} {ctx : Ctx (Dbl ρ)} {q : ℕ → ℤ} {Q D : ℤ}

/-- At least one, or infinite. -/
def GeOne (x : Dbl ρ) : Prop := x = .inf false ∨ ∃ r : ℚ, x = fin r ∧ 1 ≤ r

/-- Not negative. -/
def GeZero (x : Dbl ρ) : Prop := x = .inf false ∨ ∃ r : ℚ, x = fin r ∧ 0 ≤ r

theorem ofRat_geZero {r : ℚ} (h : 0 ≤ r) : GeZero (ofRat r : Dbl ρ) := by
  have := ρ.nonneg h
  have h2 := limit_pos
  unfold ofRat
  split
  · exact Or.inl rfl
  · rw [if_neg (by linarith)]
    exact Or.inr ⟨_, rfl, this⟩

theorem ofRat_geOne {r : ℚ} (h : 1 ≤ r) : GeOne (ofRat r : Dbl ρ) := by
  have := ρ.nat_le (x := r) (k := 1) (by norm_num) (by exact_mod_cast h)
  have h2 := limit_pos
  push_cast at this
  unfold ofRat
  split
  · exact Or.inl rfl
  · rw [if_neg (by linarith)]
    exact Or.inr ⟨_, rfl, this⟩

theorem GeZero.add {x y : Dbl ρ} (hx : GeZero x) (hy : GeZero y) : GeZero (x +. y) := by
  rcases hx with rfl | ⟨a, rfl, ha⟩ <;> rcases hy with rfl | ⟨b, rfl, hb⟩
  · exact Or.inl rfl
  · exact Or.inl rfl
  · exact Or.inl rfl
  · rw [add_fin]; exact ofRat_geZero (by linarith)

theorem GeOne.add {x y : Dbl ρ} (hx : GeOne x) (hy : GeZero y) : GeOne (x +. y) := by
  rcases hx with rfl | ⟨a, rfl, ha⟩ <;> rcases hy with rfl | ⟨b, rfl, hb⟩
  · exact Or.inl rfl
  · exact Or.inl rfl
  · exact Or.inl rfl
  · rw [add_fin]; exact ofRat_geOne (by linarith)

theorem GeZero.add_one {x y : Dbl ρ} (hx : GeZero x) (hy : GeOne y) : GeOne (x +. y) := by
  rcases hx with rfl | ⟨a, rfl, ha⟩ <;> rcases hy with rfl | ⟨b, rfl, hb⟩
  · exact Or.inl rfl
  · exact Or.inl rfl
  · exact Or.inl rfl
  · rw [add_fin]; exact ofRat_geOne (by linarith)

theorem GeOne.not_zero {x : Dbl ρ} (h : GeOne x) : approxEq x (lit 0) = false := by
  obtain ⟨e, he, e0, e1⟩ := eps_small (ρ := ρ)
  unfold approxEq
  rw [lit_zero, he]
  rcases h with rfl | ⟨a, rfl, ha⟩
  · rfl
  · rw [sub_fin, sub_zero]
    rcases ofRat_geOne (ρ := ρ) ha with h | ⟨b, h, hb⟩
    · rw [h]; rfl
    · rw [h, abs_fin, lt_fin, decide_eq_false_iff_not]
      have := le_abs_self b
      linarith

theorem max_zero (k : ℤ) : F64.max (lit 0) (ofInt k : Dbl ρ) = ofInt (max 0 k) := by
  rw [lit_zero]
  unfold ofInt
  rw [max_fin]
  congr 1
  push_cast
  rfl

/-- The sum of the positive overloads. -/
theorem overloads (routes : List (RRoute (Dbl ρ))) (h : ∀ rt ∈ routes, LoadExact q Q rt) :
    ∀ t : Dbl ρ, GeZero t → GeOne t ∨ (∃ rt ∈ routes, Q < loadZ q rt.nodes) →
      GeOne (routes.foldl (fun t r => t +. F64.max (lit 0) r.overload) t) := by
  induction routes with
  | nil =>
    intro t _ h1
    rcases h1 with h1 | ⟨rt, h1, -⟩
    · exact h1
    · cases h1
  | cons r rs ih =>
    intro t h0 h1
    have hr := h r (by simp)
    unfold LoadExact at hr
    rw [List.foldl_cons, hr, max_zero]
    have hz : GeZero (ofInt (max 0 (loadZ q r.nodes - Q)) : Dbl ρ) :=
      Or.inr ⟨_, rfl, by exact_mod_cast le_max_left _ _⟩
    refine ih (fun rt hrt => h rt (by simp [hrt])) _ (h0.add hz) ?_
    rcases h1 with h1 | ⟨rt, h1, h2⟩
    · exact Or.inl (h1.add hz)
    · rcases List.mem_cons.mp h1 with rfl | h1
      · refine Or.inl (h0.add_one (Or.inr ⟨_, rfl, ?_⟩))
        rw [max_eq_right (by omega)]
        exact_mod_cast (by omega : (1 : ℤ) ≤ _)
      · exact Or.inr ⟨rt, h1, h2⟩

/-- Recorded solutions respect the capacity. -/
theorem recorded_loads {E : RRoute (Dbl ρ) → Prop} (hw : Whole ctx q Q D) (hE : ∀ rt, E rt → LoadExact q Q rt)
    {nv : ℕ} {p : Dbl ρ} {x : Individual (Dbl ρ)} (h : Recorded ctx E nv p x) :
    ∀ l ∈ x.phenotype, loadZ q l ≤ Q := by
  intro l hl
  rcases h.fits with ⟨h1, -⟩ | ⟨s, h1, h2, h3, -⟩
  · have := h.good.vals.2.1.mp h1 l hl
    have hs : l.length ≤ ctx.n - 1 := h.good.short hl
    rw [(hw.at_ (p := p)).overload (show l.length ≤ ctx.n by omega), approxGt_int, decide_eq_false_iff_not] at this
    omega
  · by_contra hc
    have hm := h3.mem_iff.mp hl
    unfold RRSol.stops at hm
    obtain ⟨rt, hrt, rfl⟩ := List.mem_map.mp hm
    have := overloads s.routes (fun rt hrt => hE rt (h1 rt hrt)) (lit 0)
      (by rw [lit_zero]; exact Or.inr ⟨0, rfl, le_refl _⟩) (Or.inr ⟨rt, hrt, by omega⟩)
    unfold RRSol.isFeasible at h2
    rw [this.not_zero] at h2
    cases h2

/-- A penalty times no overload is nothing, or the penalty is not finite. -/
theorem pen_zero (p : Dbl ρ) : (p *. ofInt 0 = ofInt 0 ∧ ofInt 0 *. p = ofInt 0) ∨
    (p *. ofInt 0 = nan ∧ ofInt 0 *. p = nan) := by
  have hz : (ofRat 0 : Dbl ρ) = ofInt 0 := lit_zero'
  cases p with
  | nan => exact Or.inr ⟨rfl, rfl⟩
  | inf b =>
    right
    unfold ofInt
    push_cast
    constructor
    · show Dbl.mul (.inf b) (fin 0) = nan
      simp [Dbl.mul]
    · show Dbl.mul (fin 0) (.inf b) = nan
      simp [Dbl.mul]
  | fin x =>
    left
    unfold ofInt at hz ⊢
    push_cast at hz ⊢
    rw [mul_fin, mul_fin, mul_zero, zero_mul, hz]
    exact ⟨rfl, rfl⟩

theorem foldl_nan {β : Type} (f : β → Dbl ρ) : ∀ l : List β, l.foldl (fun c r => c +. f r) nan = nan
  | [] => rfl
  | a :: l => by rw [List.foldl_cons, nan_add, foldl_nan f l]

theorem foldl_is_nan {β : Type} (f : β → Dbl ρ) {l : List β} (hl : l ≠ []) (h : ∀ r ∈ l, f r = nan) (c : Dbl ρ) :
    l.foldl (fun c r => c +. f r) c = nan := by
  cases l with
  | nil => exact absurd rfl hl
  | cons a l => rw [List.foldl_cons, h a (by simp), add_nan, foldl_nan]

theorem approxLt_nan (b : Dbl ρ) : approxLt nan b = false := nan_lt _

/-- Recording needs a finite penalty. -/
theorem recorded_pen {E : RRoute (Dbl ρ) → Prop} (hw : Whole ctx q Q D) (hE : ∀ rt, E rt → LoadExact q Q rt)
    {nv : ℕ} {p : Dbl ρ} {x : Individual (Dbl ρ)} (h : Recorded ctx E nv p x) (hne : x.phenotype ≠ []) :
    p *. ofInt 0 = ofInt 0 := by
  have hload := recorded_loads hw hE h
  rcases pen_zero p with hp | ⟨hp1, hp2⟩
  · exact hp.1
  · exfalso
    rcases h.fits with ⟨-, b, hb⟩ | ⟨s, h1, -, h3, b, hb⟩
    · rw [h.good.vals.1, foldl_is_nan _ hne ?_, approxLt_nan] at hb
      · cases hb
      · intro l hl
        have hs : l.length ≤ ctx.n - 1 := h.good.short hl
        show _ +. p *. F64.max (lit 0) (routeVal (RR.ctxAt ctx p) l).overload = nan
        rw [(hw.at_ (p := p)).overload (show l.length ≤ ctx.n by omega), max_zero,
          max_eq_left (by have := hload l hl; omega), hp1, add_nan]
    · unfold RRSol.costOf at hb
      have hsr : s.routes ≠ [] := by
        intro e
        rw [RRSol.stops, e] at h3
        exact hne (List.perm_nil.mp h3)
      rw [foldl_is_nan _ hsr ?_, approxLt_nan] at hb
      · cases hb
      · intro rt hrt
        have he := hE rt (h1 rt hrt)
        unfold LoadExact at he
        have hl : rt.nodes ∈ x.phenotype := h3.mem_iff.mpr (List.mem_map.mpr ⟨rt, hrt, rfl⟩)
        show _ +. F64.max (lit 0) rt.overload *. p = nan
        rw [he, max_zero, max_eq_left (by have := hload _ hl; omega), hp2, add_nan]

/-- The cost of an evaluated solution within the capacity is its length, if the penalty is finite. -/
theorem whole_cost (hw : Whole ctx q Q D) {d : ℕ → ℕ → ℤ} {M : ℤ} (hd : WholeDist ctx d M) {p : Dbl ρ}
    {x : Individual (Dbl ρ)} (hg : x.Good (RR.ctxAt ctx p)) (hload : ∀ l ∈ x.phenotype, loadZ q l ≤ Q)
    (hp0 : x.phenotype ≠ [] → p *. ofInt 0 = ofInt 0) :
    x.cost = ofInt (x.phenotype.map (tripZ d)).sum ∧ 0 ≤ (x.phenotype.map (tripZ d)).sum ∧
      (x.phenotype.map (tripZ d)).sum ≤ 2 ^ 52 := by
  have hM := hd.M_nonneg
  have hpen : ∀ l ∈ x.phenotype, (routeVal (RR.ctxAt ctx p) l).cost = ofInt (tripZ d l) := by
    intro l hl
    have hs : l.length ≤ ctx.n - 1 := hg.short hl
    have hdist : (routeVal (RR.ctxAt ctx p) l).distance = ofInt (tripZ d l) := by
      obtain ⟨j, hj⟩ := List.mem_iff_getElem?.mp hl
      exact (distExact_laws hd).load p x hg j l _ hj (by rw [hg.vals.2.2, List.getElem?_map, hj]; rfl)
    show (routeVal (RR.ctxAt ctx p) l).distance +. p *. F64.max (lit 0) (routeVal (RR.ctxAt ctx p) l).overload = _
    rw [(hw.at_ (p := p)).overload (show l.length ≤ ctx.n by omega), max_zero, max_eq_left (by have := hload l hl; omega),
      hp0 (List.ne_nil_of_mem hl), hdist]
    have t := hd.trip_le l
    have m := hd.mul_le (k := l.length) (by omega)
    rw [ofInt_add (by rw [add_zero, abs_of_nonneg t.1]; omega), add_zero]
  have hsum : ∀ L : List (List ℕ), 0 ≤ (L.map (tripZ d)).sum ∧ (L.map (tripZ d)).sum ≤ 2 * (L.flatten.length * M) := by
    intro L
    induction L with
    | nil => simp
    | cons l L ih =>
      have t := hd.trip_le l
      simp only [List.map_cons, List.sum_cons, List.flatten_cons, List.length_append]
      push_cast
      rw [add_mul]
      omega
  have hlen : x.phenotype.flatten.length ≤ ctx.n := by
    have := hg.part.length_eq
    simp only [Spec.customers, List.length_range'] at this
    have h2 : (RR.ctxAt ctx p).n = ctx.n := rfl
    omega
  have htot := hd.mul_le hlen
  have hfold : ∀ (L : List (List ℕ)) (a : ℤ), 0 ≤ a → (∀ l ∈ L, (routeVal (RR.ctxAt ctx p) l).cost = ofInt (tripZ d l)) →
      a + 2 * (L.flatten.length * M) ≤ 2 ^ 53 →
      L.foldl (fun c r => c +. (routeVal (RR.ctxAt ctx p) r).cost) (ofInt a : Dbl ρ) = ofInt (a + (L.map (tripZ d)).sum) := by
    intro L
    induction L with
    | nil => intro a _ _ _; simp
    | cons l L ih =>
      intro a ha hL hb
      have t := hd.trip_le l
      have tL := hsum L
      simp only [List.flatten_cons, List.length_append] at hb
      push_cast at hb
      rw [add_mul] at hb
      rw [List.foldl_cons, hL l (by simp), ofInt_add (by rw [abs_of_nonneg (by omega)]; omega),
        ih (a + tripZ d l) (by omega) (fun r hr => hL r (by simp [hr])) (by omega)]
      simp only [List.map_cons, List.sum_cons, add_assoc]
  have hb := hsum x.phenotype
  refine ⟨?_, hb.1, by omega⟩
  rw [hg.vals.1, lit_zero', hfold _ 0 (le_refl _) hpen (by omega), zero_add]

/-- The cost of a recorded solution is its length. -/
theorem recorded_cost {E : RRoute (Dbl ρ) → Prop} (hw : Whole ctx q Q D) (hE : ∀ rt, E rt → LoadExact q Q rt)
    {d : ℕ → ℕ → ℤ} {M : ℤ} (hd : WholeDist ctx d M)
    {nv : ℕ} {p : Dbl ρ} {x : Individual (Dbl ρ)} (h : Recorded ctx E nv p x) :
    x.cost = ofInt (x.phenotype.map (tripZ d)).sum ∧ 0 ≤ (x.phenotype.map (tripZ d)).sum ∧
      (x.phenotype.map (tripZ d)).sum ≤ 2 ^ 52 :=
  whole_cost hw hd h.good (recorded_loads hw hE h) (recorded_pen hw hE h)

/-- What is found feasible is within the capacity, and its cost is its length or no number. -/
theorem feasible_cost (hw : Whole ctx q Q D) {d : ℕ → ℕ → ℤ} {M : ℤ} (hd : WholeDist ctx d M) {p : Dbl ρ}
    {x : Individual (Dbl ρ)} (hg : x.Good (RR.ctxAt ctx p)) (hf : x.isFeasible = true) :
    (∀ l ∈ x.phenotype, loadZ q l ≤ Q) ∧ (x.cost = nan ∨ x.cost = ofInt (x.phenotype.map (tripZ d)).sum ∧
      0 ≤ (x.phenotype.map (tripZ d)).sum ∧ (x.phenotype.map (tripZ d)).sum ≤ 2 ^ 52) := by
  have hload : ∀ l ∈ x.phenotype, loadZ q l ≤ Q := by
    intro l hl
    have := hg.vals.2.1.mp hf l hl
    have hs : l.length ≤ ctx.n - 1 := hg.short hl
    rw [(hw.at_ (p := p)).overload (show l.length ≤ ctx.n by omega), approxGt_int, decide_eq_false_iff_not] at this
    omega
  refine ⟨hload, ?_⟩
  by_cases hne : x.phenotype = []
  · exact Or.inr (whole_cost hw hd hg hload fun h => absurd hne h)
  rcases pen_zero p with hp | ⟨hp1, -⟩
  · exact Or.inr (whole_cost hw hd hg hload fun _ => hp.1)
  · left
    rw [hg.vals.1, foldl_is_nan _ hne ?_]
    intro l hl
    have hs : l.length ≤ ctx.n - 1 := hg.short hl
    show _ +. p *. F64.max (lit 0) (routeVal (RR.ctxAt ctx p) l).overload = nan
    rw [(hw.at_ (p := p)).overload (show l.length ≤ ctx.n by omega), max_zero,
      max_eq_left (by have := hload l hl; omega), hp1, add_nan]

end Verif
