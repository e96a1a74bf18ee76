import Verif.Lemmas.AnyEnds
import Verif.Lemmas.DblProgram
import Verif.Lemmas.DblModest

/-! # What `GA.Calm` asks for, in double precision -/

namespace Verif
open F64 Dbl

variable {ρ : Rounding}

/-! ### Costs are numbers -/

theorem Dbl.Nn.geZero {m : ℕ} {x : Dbl ρ} (h : Nn m x) : GeZero x := by
  obtain ⟨q, h1, h2, -⟩ := h
  exact Or.inr ⟨q, h1, h2⟩

theorem tripAlong_geZero {ctx : Ctx (Dbl ρ)} (hd : ∀ a b, GeZero (ctx.dist a b)) : ∀ (l : List ℕ) (a : ℕ)
    {x : Dbl ρ}, GeZero x → GeZero (tripAlong ctx a x l)
  | [], a, _, hx => hx.add (hd a 0)
  | c :: l, a, _, hx => tripAlong_geZero hd l c (hx.add (hd a c))

theorem foldl_geZero {β : Type} {f : β → Dbl ρ} : ∀ (l : List β) {x : Dbl ρ}, GeZero x →
    (∀ r ∈ l, GeZero (f r)) → GeZero (l.foldl (fun c r => c +. f r) x)
  | [], _, hx, _ => hx
  | r :: l, _, hx, h => by
    rw [List.foldl_cons]
    exact foldl_geZero l (hx.add (h r (by simp))) fun y hy => h y (by simp [hy])

/-- The cost of a complete individual is a number or infinite, never NaN. -/
theorem good_geZero {ctx : Ctx (Dbl ρ)} {q : ℕ → ℤ} {Q D : ℤ} {m : ℕ} (hw : Whole ctx q Q D)
    (hm : Moderate ctx m) {k : ℕ} {p : Dbl ρ} (hp : Nn k p) {x : Individual (Dbl ρ)}
    (hx : x.Good (RR.ctxAt ctx p)) : GeZero x.cost := by
  rw [hx.vals.1]
  refine foldl_geZero _ (Nn.zero 0).geZero fun r hr => ?_
  have hs : r.length ≤ ctx.n - 1 := hx.short hr
  have ht : GeZero (tripAlong (RR.ctxAt ctx p) 0 (lit 0) r) :=
    tripAlong_geZero (ctx := RR.ctxAt ctx p) (fun a b => (hm.dist a b).geZero) r 0 (Nn.zero 0).geZero
  show GeZero (tripAlong (RR.ctxAt ctx p) 0 (lit 0) r +. p *. F64.max (lit 0) (routeVal (RR.ctxAt ctx p) r).overload)
  refine ht.add ?_
  rw [(hw.at_ (p := p)).overload (show r.length ≤ ctx.n by omega), max_zero]
  obtain ⟨v, rfl, v0, -⟩ := hp
  unfold ofInt
  rw [mul_fin]
  exact ofRat_geZero (mul_nonneg v0 (by exact_mod_cast le_max_left _ _))

/-- Numbers that are not NaN can be compared. -/
theorem cmp_geZero {x y : Individual (Dbl ρ)} (hx : GeZero x.cost) (hy : GeZero y.cost) :
    (Individual.cmp x y).isSome = true := by
  unfold Individual.cmp
  split
  · rfl
  split
  · rfl
  split
  · rfl
  rename_i h1 h2
  have : (x.cost ≤. y.cost) = true := by
    rcases hx with hx | ⟨a, hx, -⟩
    · rcases hy with hy | ⟨b, hy, -⟩
      · rw [hx, hy]; rfl
      · rw [hx, hy] at h2
        exact absurd (show ((fin b : Dbl ρ) <. Dbl.inf false) = true from rfl) h2
    · rcases hy with hy | ⟨b, hy, -⟩
      · rw [hx, hy]; rfl
      · rw [hx, hy, lt_fin, decide_eq_true_eq] at h2
        rw [hx, hy, le_fin, decide_eq_true_eq]
        linarith
  rw [if_pos this]
  rfl

/-- Averages of at most `2 ^ 53` distances are no NaN. -/
theorem avgOK_dbl {K : ℕ} (hK : K ≤ 2 ^ 53) : SubPop.AvgOK (Dbl ρ) K := by
  refine ⟨by rw [lit_zero, le_fin]; simp, fun a k h1 h2 => ?_⟩
  have hk : (lit (k : ℚ) : Dbl ρ) = fin k := ofRat_nat (by omega)
  have k0 : (0 : ℚ) < k := by exact_mod_cast h1
  rw [hk]
  have self : ∀ q : ℚ, ((ofRat q : Dbl ρ) ≤. ofRat q) = true := by
    intro q
    unfold ofRat
    split
    · rfl
    split
    · rfl
    · rw [le_fin]; simp
  have ha : (lit (a : ℚ) : Dbl ρ) = .inf false ∨ ∃ v, (lit (a : ℚ) : Dbl ρ) = fin v := by
    rcases ofRat_geZero (ρ := ρ) (show (0 : ℚ) ≤ a by positivity) with h | ⟨v, h, -⟩
    · exact Or.inl h
    · exact Or.inr ⟨v, h⟩
  rcases ha with ha | ⟨v, ha⟩
  · rw [ha]
    show ((Dbl.inf (false != decide ((k : ℚ) < 0)) : Dbl ρ) ≤. Dbl.inf (false != decide ((k : ℚ) < 0))) = true
    rw [decide_eq_false (by linarith)]
    rfl
  · rw [ha, div_fin _ _ k0.ne']
    exact self _

/-! ### The string length -/

theorem toNat_le {x : Dbl ρ} {k : ℕ} (h : x = nan ∨ x = .inf true ∨ ∃ v, x = fin v ∧ v < k) (hk : 1 ≤ k) :
    F64.toNat x + 1 ≤ k := by
  rcases h with rfl | rfl | ⟨v, rfl, hv⟩
  · show 0 + 1 ≤ k
    omega
  · show 0 + 1 ≤ k
    omega
  · show sat ⌊v⌋ + 1 ≤ k
    have : ⌊v⌋ < (k : ℤ) := by
      rw [Int.floor_lt]
      exact_mod_cast hv
    unfold sat
    omega

theorem string_below {u v : ℚ} {len : ℕ} (h1 : 1 ≤ len) (h2 : len < 2 ^ 53) (u0 : 0 ≤ u)
    (u1 : u ≤ 1 - 1 / 2 ^ 52) (hv : v ≤ len) : ρ.fl (u * v) < len := by
  obtain ⟨e, he1, he2⟩ : ∃ e : ℕ, 2 ^ e ≤ len ∧ len < 2 ^ (e + 1) :=
    ⟨Nat.log 2 len, Nat.pow_log_le_self 2 (by omega), Nat.lt_pow_succ_log_self (by norm_num) len⟩
  have he : e ≤ 52 := by
    by_contra hc
    have : 2 ^ 53 ≤ 2 ^ e := Nat.pow_le_pow_right (by norm_num) (by omega)
    omega
  have l0 : (0 : ℚ) ≤ len := by positivity
  obtain ⟨j, hj⟩ : ∃ j : ℕ, e + j = 52 := ⟨52 - e, by omega⟩
  have hpow : (2 : ℚ) ^ e * 2 ^ j = 2 ^ 52 := by rw [← pow_add, hj]
  have hj0 : (0 : ℚ) < 2 ^ j := by positivity
  have hB : u * v ≤ len - 1 / 2 ^ j := by
    have a1 : u * v ≤ u * len := mul_le_mul_of_nonneg_left hv u0
    have a2 : u * len ≤ (1 - 1 / 2 ^ 52) * len := mul_le_mul_of_nonneg_right u1 l0
    have a3 : (1 : ℚ) / 2 ^ j ≤ len / 2 ^ 52 := by
      rw [← hpow, div_le_div_iff₀ hj0 (by positivity)]
      have : (2 : ℚ) ^ e ≤ len := by exact_mod_cast he1
      nlinarith
    have a4 : (1 - 1 / 2 ^ 52) * (len : ℚ) = len - len / 2 ^ 52 := by ring
    linarith
  have hrep : ρ.fl (len - 1 / 2 ^ j) = len - 1 / 2 ^ j := by
    have hk : |((len * 2 ^ j - 1 : ℤ))| ≤ 2 ^ 53 := by
      have b1 : (len : ℤ) * 2 ^ j < 2 ^ 53 := by
        have : len * 2 ^ j < 2 ^ (e + 1) * 2 ^ j := Nat.mul_lt_mul_of_pos_right he2 (by positivity)
        have h5 : 2 ^ (e + 1) * 2 ^ j = 2 ^ 53 := by rw [← pow_add]; congr 1; omega
        rw [h5] at this
        exact_mod_cast this
      have b2 : (1 : ℤ) ≤ len * 2 ^ j := by
        have : 0 < len * 2 ^ j := Nat.mul_pos (by omega) (by positivity)
        exact_mod_cast this
      rw [abs_of_nonneg (by omega)]
      omega
    have := ρ.rep (len * 2 ^ j - 1) (-j) hk (by omega)
    have e1 : ((len * 2 ^ j - 1 : ℤ) : ℚ) * 2 ^ (-(j : ℤ)) = len - 1 / 2 ^ j := by
      push_cast
      rw [zpow_neg, zpow_natCast]
      field_simp
    rw [e1] at this
    exact this
  have := ρ.mono _ _ hB
  rw [hrep] at this
  have : (0 : ℚ) < 1 / 2 ^ j := by positivity
  linarith

/-- The drawn length of a string is at most that of the route. -/
theorem stringLen_le (w : ℕ) (lsmax : Dbl ρ) {len : ℕ} (h1 : 1 ≤ len) (h2 : len < 2 ^ 53) :
    RRSol.stringLen w lsmax len ≤ len := by
  unfold RRSol.stringLen
  have hmod : w % 2 ^ 52 < 2 ^ 52 := Nat.mod_lt _ (by positivity)
  generalize hk : w % 2 ^ 52 = k at hmod
  have hu : realDraw w = (k : ℚ) / 2 ^ 52 := by
    unfold realDraw
    rw [hk]
    norm_num
  have u0 : (0 : ℚ) ≤ realDraw w := by rw [hu]; positivity
  have u1 : realDraw w ≤ 1 - 1 / 2 ^ 52 := by
    rw [hu]
    have : (k : ℚ) + 1 ≤ 2 ^ 52 := by exact_mod_cast hmod
    rw [div_le_iff₀ (by positivity)]
    norm_num at this ⊢
    linarith
  have hlu : (lit (realDraw w) : Dbl ρ) = fin (realDraw w) := by
    have h3 : ρ.fl (realDraw w) = realDraw w := by
      have := ρ.rep k (-52) (by rw [abs_of_nonneg (by positivity)]; norm_cast; omega) (by norm_num)
      have e1 : ((k : ℤ) : ℚ) * 2 ^ (-52 : ℤ) = realDraw w := by
        rw [hu, zpow_neg, ← div_eq_mul_inv]
        norm_num
      rwa [e1] at this
    rw [lit_eq, ofRat_le (m := 0) (by norm_num) (by rw [abs_of_nonneg u0, pow_zero]; linarith [show (0 : ℚ) < 1 / 2 ^ 52 by positivity]), h3]
  have hll : (lit (len : ℚ) : Dbl ρ) = fin len := ofRat_nat (by omega)
  rw [hlu, hll]
  generalize realDraw w = u at *
  have fine : ∀ v : ℚ, v ≤ len → F64.toNat ((fin u : Dbl ρ) *. fin v) + 1 ≤ len := by
    intro v hv
    refine toNat_le ?_ h1
    rw [mul_fin]
    have hlt := string_below (ρ := ρ) h1 h2 u0 u1 hv
    unfold ofRat
    have hlim : (len : ℚ) < limit := by
      have : (len : ℚ) < 2 ^ 53 := by exact_mod_cast h2
      exact this.trans (pow_lt_limit (by norm_num))
    rw [if_neg (by linarith)]
    split
    · exact Or.inr (Or.inl rfl)
    · exact Or.inr (Or.inr ⟨_, rfl, hlt⟩)
  cases lsmax with
  | nan => exact fine len (le_refl _)
  | fin v =>
    rw [min_fin]
    exact fine _ (min_le_right _ _)
  | inf b =>
    cases b with
    | false => exact fine len (le_refl _)
    | true =>
      refine toNat_le ?_ h1
      show (if u = 0 then (nan : Dbl ρ) else .inf (decide (u < 0) != true)) = nan ∨ _
      by_cases hz : u = 0
      · exact Or.inl (if_pos hz)
      · refine Or.inr (Or.inl ?_)
        show (if u = 0 then (nan : Dbl ρ) else .inf (decide (u < 0) != true)) = .inf true
        rw [if_neg hz, decide_eq_false (by linarith)]
        rfl

/-! ### The cost of an insertion -/

theorem below_maxv {x : Dbl ρ} (h : ∃ v, x = fin v ∧ v ≤ 2 ^ 960) : approxLt x maxv = true := by
  obtain ⟨e, he, e0, e1⟩ := eps_small (ρ := ρ)
  obtain ⟨v, rfl, hv⟩ := h
  unfold approxLt
  show ((fin v : Dbl ρ) <. ((fin ((2 ^ 53 - 1) * 2 ^ 971) : Dbl ρ) -. eps)) = true
  have p1 : (2 : ℚ) ^ 961 ≤ 2 ^ 971 := pow_le_pow_right₀ (by norm_num) (by norm_num)
  have p2 : (2 : ℚ) ^ 960 < 2 ^ 961 := pow_lt_pow_right₀ (by norm_num) (by norm_num)
  have p3 : (1 : ℚ) ≤ 2 ^ 971 := one_le_pow₀ (by norm_num)
  have hmax : ρ.fl ((2 ^ 53 - 1) * 2 ^ 971) = (2 ^ 53 - 1) * 2 ^ 971 := by
    have := ρ.mul_two_pow (k := 2 ^ 53 - 1) (m := 971) (by norm_num)
    have e1 : ((2 ^ 53 - 1 : ℕ) : ℚ) = 2 ^ 53 - 1 := by norm_num
    rw [e1] at this
    exact this
  have hlim : ((2 ^ 53 - 1) * 2 ^ 971 : ℚ) < limit := by
    unfold limit
    have : (2 : ℚ) ^ 1024 = 2 ^ 53 * 2 ^ 971 := by rw [← pow_add]
    rw [this]
    exact mul_lt_mul_of_pos_right (by norm_num) (by positivity)
  have h1 : (2 : ℚ) ^ 961 ≤ (2 ^ 53 - 1) * 2 ^ 971 - e := by
    have : (2 : ℚ) * 2 ^ 971 ≤ (2 ^ 53 - 1) * 2 ^ 971 := mul_le_mul_of_nonneg_right (by norm_num) (by positivity)
    clear hv p2
    generalize (2 : ℚ) ^ 971 = A at *
    generalize (2 : ℚ) ^ 961 = B at *
    linarith
  have h2 := ρ.pow_le h1
  have h3 : ρ.fl ((2 ^ 53 - 1) * 2 ^ 971 - e) ≤ (2 ^ 53 - 1) * 2 ^ 971 := by
    have := ρ.mono ((2 ^ 53 - 1) * 2 ^ 971 - e) ((2 ^ 53 - 1) * 2 ^ 971) (by linarith)
    rwa [hmax] at this
  rw [he, sub_fin, ofRat_fin (by
    rw [abs_of_nonneg (le_trans (by positivity) h2)]
    exact lt_of_le_of_lt h3 hlim)]
  show decide _ = true
  rw [decide_eq_true_eq]
  generalize (2 : ℚ) ^ 961 = B at *
  generalize (2 : ℚ) ^ 960 = C at *
  linarith

/-- Inserting a customer first costs less than the largest number. -/
theorem insert_below {ctx : Ctx (Dbl ρ)} {q : ℕ → ℤ} {Q D : ℤ} {m : ℕ} (hw : Whole ctx q Q D)
    (hm : Moderate ctx m) {p : Dbl ρ} (hp : Nn 900 p) {rt : RRoute (Dbl ρ)} (he : LoadExact q Q rt)
    (hl : rt.nodes.length + 1 < ctx.n) (c : ℕ) {dl : Dbl ρ} (hd : rt.deltaDistance ctx 0 c = some dl) :
    approxLt (dl +. F64.max (lit 0) (rt.overload +. ctx.demand c) *. p) maxv = true := by
  have hsz := hm.size
  unfold RRoute.deltaDistance at hd
  obtain ⟨a, ha, hd⟩ := Option.bind_eq_some_iff.mp hd
  obtain ⟨b, hb, rfl⟩ := Option.map_eq_some_iff.mp hd
  have mono : ∀ a b, Nn 95 (ctx.dist a b) := fun a b => (hm.dist a b).mono hsz
  obtain ⟨x, hx, x0, x1⟩ := mono a b
  obtain ⟨y, hy, y0, y1⟩ := mono a c
  obtain ⟨z, hz, z0, z1⟩ := mono c b
  have b1 := hw.bound (l := c :: rt.nodes) (by simp; omega)
  have b2 := hw.bound (l := rt.nodes) (by omega)
  have hQ := hw.capPos
  rw [loadZ_cons] at b1
  unfold LoadExact at he
  have hld : Nn 52 (F64.max (lit 0) (rt.overload +. ctx.demand c)) := by
    rw [he, hw.demand, ofInt_add (by rw [abs_le]; constructor <;> omega), max_zero]
    refine ⟨_, rfl, by exact_mod_cast le_max_left _ _, ?_⟩
    have : max 0 (loadZ q rt.nodes - Q + q c) ≤ 2 ^ 52 := by
      rw [max_le_iff]
      constructor
      · norm_num
      · omega
    exact_mod_cast this
  obtain ⟨w, hw', w0, w1⟩ := Nn.mul (by norm_num) hld hp
  rw [hw', hx, hy, hz]
  have s1 : |-x + y| ≤ 2 ^ 96 := by
    rw [abs_le]
    have : (2 : ℚ) ^ 96 = 2 * 2 ^ 95 := by norm_num
    constructor <;> linarith
  have e1 : F64.neg (fin x : Dbl ρ) +. fin y = fin (ρ.fl (-x + y)) := by
    show (fin (-x) : Dbl ρ) +. fin y = _
    rw [add_fin, ofRat_le (by norm_num) s1]
  have f1 := abs_le.mp (fl_abs_le (ρ := ρ) s1)
  have s2 : |ρ.fl (-x + y) + z| ≤ 2 ^ 97 := by
    rw [abs_le]
    have : (2 : ℚ) ^ 97 = 2 * 2 ^ 96 := by norm_num
    have : (2 : ℚ) ^ 95 ≤ 2 ^ 96 := by norm_num
    constructor <;> linarith
  have f2 := abs_le.mp (fl_abs_le (ρ := ρ) s2)
  have s3 : |ρ.fl (ρ.fl (-x + y) + z) + w| ≤ 2 ^ 953 := by
    rw [abs_le]
    have t1 : (2 : ℚ) ^ 953 = 2 ^ 952 * 2 := pow_succ _ _
    have t2 : (2 : ℚ) ^ 97 ≤ 2 ^ 952 := pow_le_pow_right₀ (by norm_num) (by norm_num)
    have t3 : w ≤ 2 ^ 952 := w1
    generalize (2 : ℚ) ^ 953 = A at *
    generalize (2 : ℚ) ^ 952 = B at *
    constructor <;> linarith
  have f3 := abs_le.mp (fl_abs_le (ρ := ρ) s3)
  rw [e1, add_fin, ofRat_le (by norm_num) s2, add_fin, ofRat_le (by norm_num) s3]
  refine below_maxv ⟨_, rfl, f3.2.trans ?_⟩
  exact pow_le_pow_right₀ (by norm_num) (by norm_num)

theorem fin_self (q : ℚ) : ((fin q : Dbl ρ) ≤. fin q) = true := by rw [le_fin]; simp

/-- What is asked of the arithmetic for ruin and recreate. -/
theorem rrCalm_dbl {env : RREnv (Dbl ρ)} {ctx : Ctx (Dbl ρ)} {q : ℕ → ℤ} {Q D : ℤ} {m : ℕ}
    (hn : 2 ≤ ctx.n) (hw : Whole ctx q Q D) (hm : Moderate ctx m) (hnb : RR.NbrsOK ctx.n env.nbrs)
    {la ln : ℕ → ℚ} {b : ℕ} (hb : b ≤ 900) (hlat : ∀ c, ctx.lat c = fin (la c)) (hlng : ∀ c, ctx.lng c = fin (ln c))
    (hla : ∀ c, |la c| ≤ 2 ^ b) (hln : ∀ c, |ln c| ≤ 2 ^ b)
    (hat : ∀ y x, (env.atan2 (fin y) (fin x) ≤. env.atan2 (fin y) (fin x)) = true) :
    RR.Calm env ctx (Nn 900) (LoadExact q Q) := by
  have h53 := hm.nodes
  refine ⟨hn, hnb, fun r hr => routeAngle_self hb hlat hlng hla hln hat r (by omega),
    fun w lsmax len h1 h2 => stringLen_le w lsmax h1 (by omega), fun c _ _ => ?_, fun c _ _ => ?_,
    fun p hp rt he hl c _ _ d hd => insert_below hw hm hp he hl c hd⟩
  · rw [hw.demand]
    exact fin_self _
  · obtain ⟨v, hv, -⟩ := hm.dist c 0
    rw [hv]
    exact fin_self _

end Verif
