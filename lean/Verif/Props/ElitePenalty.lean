import Verif.Lemmas.Overload
import Verif.Props.Progress

/-!
# C63: the penalty of elite education grows beyond all bounds

Exact arithmetic. `RuinRecreate::search` multiplies the penalty every 1000 rounds of elite education and,
unlike `Genetic::update_penalty`, does not clamp the result.
-/

namespace Verif
open F64 RRSol

namespace GA

variable {env : GAEnv ℚ} {ctx : Ctx ℚ}

/-- Elite education after `j` searches on an instance that stays infeasible. -/
structure Rising (env : GAEnv ℚ) (ctx : Ctx ℚ) (j : ℕ) (g : GA ℚ) : Prop where
  state : g.state = .elite
  inv : Inv env ctx 10000000 g
  count : g.ctxIteration = 0
  pen : 1 / 10000 * env.rr.incMultiplier ^ j ≤ g.rr.pen
  sched : ∃ s, g.rr.acceptance = .iteration s ∧ s.total = env.eliteIterations ∧ s.iteration = 1000 * j

theorem rising_step (hv : Valid env ctx) {D : ℚ} (hl : TooLarge ctx D) {j : ℕ} {g g' : GA ℚ}
    (hg : Rising env ctx j g) (hj : 1000 * (j + 1) ≤ env.eliteIterations) {ch : GAChoice ℚ} (hch : ChOK ch)
    (ht : ¬ terminateNow env.timeLimit env.maxIterations ch.elapsed 0 = true)
    (h : iterate env ctx ch g = some g') : Rising env ctx (j + 1) g' := by
  have hinv := (iterate_inv hv hch hg.inv h).1
  obtain ⟨s, e1, e2, e3⟩ := hg.sched
  obtain ⟨i0, -, hpos, hup, -⟩ := hg.inv.elite hg.state
  unfold iterate at h
  rw [hg.count, if_neg ht, hg.state] at h
  dsimp only at h
  unfold stepElite at h
  rw [if_neg (by
    rw [e1]
    show ¬ decide (s.total ≤ s.iteration) = true
    rw [decide_eq_true_eq]
    omega)] at h
  obtain ⟨r, h1, rfl⟩ := Option.map_eq_some_iff.mp h
  obtain ⟨p1, s', a1, a2, a3⟩ := RR.searchLoop_raises hl hv.n (hch 0) hv.vehicles 1000 (by decide) i0 hup e1
    (by omega) h1
  refine ⟨hg.state, hinv, hg.count, ?_, s', a1, a2.trans e2, by omega⟩
  show _ ≤ r.pen
  rw [p1, pow_succ, ← mul_assoc]
  exact mul_le_mul_of_nonneg_right hg.pen hv.mult.1.le

theorem rising_stop {D : ℚ} (hl : TooLarge ctx D)
    (hnb : ∀ c vs, env.rr.nbrs c = some vs → vs ≠ []) {K : ℕ}
    (hK : (maxv : ℚ) + D ≤ 1 / 10000 * env.rr.incMultiplier ^ K) (hE : 1000 * K < env.eliteIterations)
    {g : GA ℚ} (hg : Rising env ctx K g) {ch : GAChoice ℚ}
    (ht : ¬ terminateNow env.timeLimit env.maxIterations ch.elapsed 0 = true) :
    iterate env ctx ch g = none := by
  obtain ⟨s, e1, e2, e3⟩ := hg.sched
  obtain ⟨i0, -⟩ := hg.inv.elite hg.state
  unfold iterate
  rw [hg.count, if_neg ht, hg.state]
  dsimp only
  unfold stepElite
  rw [if_neg (by
    rw [e1]
    show ¬ decide (s.total ≤ s.iteration) = true
    rw [decide_eq_true_eq]
    omega), RR.search_none hl i0 hnb (hK.trans hg.pen)]
  rfl

theorem rising_first (hv : Valid env ctx) (he : env.eliteEducation = true)
    (hlim : env.eliteLimit < ctx.n - 1) (htb : env.eliteTimeBased = false) {ω : Oracle} {ch : GAChoice ℚ}
    (hch : ChOK ch) (ht : ¬ terminateNow env.timeLimit env.maxIterations ch.elapsed 0 = true) {g' : GA ℚ}
    (h : iterate env ctx ch (GA.new env ctx ω) = some g') : Rising env ctx 0 g' := by
  have hg := GA.new_inv hv ω
  have hm := hg.mu (Or.inl rfl)
  have hinv := (GA.iterate_inv hv hch hg h).1
  have hc0 := GA.step_counts (by simp [GA.new]) h
  unfold GA.iterate at h
  rw [show (GA.new env ctx ω).ctxIteration = 0 from rfl, if_neg ht] at h
  have h : GA.stepCreated env ctx ch (GA.new env ctx ω) = some g' := h
  unfold GA.stepCreated at h
  rw [if_pos (by rw [he, Bool.true_and, decide_eq_true_eq]; exact hlim)] at h
  obtain ⟨g1, h1, h⟩ := Option.bind_eq_some_iff.mp h
  obtain ⟨g2, h2, h⟩ := Option.bind_eq_some_iff.mp h
  obtain ⟨r, h3, rfl⟩ := Option.map_eq_some_iff.mp h
  obtain ⟨i1, -⟩ := GA.runSplit_edu hv (g := { GA.new env ctx ω with state := .elite }) (le_refl _)
    hv.fleet ⟨hg.base.pop, hg.base.len, hg.base.ready, hg.base.nbr, hg.base.lsLen, hg.base.split⟩ hm
    hg.geno h1
  obtain ⟨i2, -⟩ := GA.educate_edu hv hch i1 h2
  have fs : g2.state = .elite := (GA.educate_frame h2).state.trans (GA.runSplit_frame h1).state
  have hid := i2.mu.idle
  obtain ⟨r', e1, -, p1, -, -, a1, -⟩ := RR.load_inv (now := ch.clock 2)
    (st := GA.setupElite env (ch.clock 1) g2.rr) i2.child.good i2.child.len
    hid.routes hid.locs hid.unassigned hid.ruined
  rw [h3, Option.some.injEq] at e1
  subst e1
  refine ⟨fs, hinv, hc0, ?_, _, a1.trans (by unfold GA.setupElite; rw [htb]; rfl), rfl, rfl⟩
  show _ ≤ r.pen
  rw [p1, pow_zero, mul_one]
  exact i2.mu.pen.1

theorem rising_none (hv : Valid env ctx) {D : ℚ} (hl : TooLarge ctx D)
    (hnb : ∀ c vs, env.rr.nbrs c = some vs → vs ≠ []) {K : ℕ}
    (hK : (maxv : ℚ) + D ≤ 1 / 10000 * env.rr.incMultiplier ^ K) (hE : 1000 * K < env.eliteIterations) :
    ∀ (d : ℕ) {j : ℕ} {g : GA ℚ} (chs : List (GAChoice ℚ)), j + d = K → Rising env ctx j g → d < chs.length →
      (∀ ch ∈ chs, ChOK ch ∧ ¬ terminateNow env.timeLimit env.maxIterations ch.elapsed 0 = true) →
      steps env ctx chs g = none
  | d, j, g, [], _, _, hlen, _ => by simp at hlen
  | 0, j, g, ch :: chs, hj, hg, _, hok => by
    have hjK : j = K := by omega
    subst hjK
    unfold steps
    rw [if_neg (by rw [hg.state]; decide), rising_stop hl hnb hK hE hg (hok ch (by simp)).2]
    rfl
  | d + 1, j, g, ch :: chs, hj, hg, hlen, hok => by
    unfold steps
    rw [if_neg (by rw [hg.state]; decide)]
    cases h : iterate env ctx ch g with
    | none => rfl
    | some g' =>
      rw [Option.bind_some]
      exact rising_none hv hl hnb hK hE d chs (by omega : j + 1 + d = K)
        (rising_step hv hl hg (by omega) (hok ch (by simp)).1 (hok ch (by simp)).2 h)
        (by simpa using hlen) fun c hc => hok c (by simp [hc])

end GA

/-- **C63**, what the unclamped update does. Let every customer be larger than a vehicle (or the instance
infeasible in this way), and elite education be on with more than `1000 * K` rounds, where `K` raises bring
the penalty above `f64::MAX`. Then no run gets past elite education: whatever is drawn, after `K + 2` calls
the program has panicked (unless the time was up before). -/
theorem C63_elite_penalty_panics (env : GAEnv ℚ) (ctx : Ctx ℚ) (hv : GA.Valid env ctx) (D : ℚ)
    (hl : TooLarge ctx D) (hnb : ∀ c vs, env.rr.nbrs c = some vs → vs ≠ [])
    (he : env.eliteEducation = true) (hlim : env.eliteLimit < ctx.n - 1) (htb : env.eliteTimeBased = false)
    (K : ℕ) (hK : (maxv : ℚ) + D ≤ 1 / 10000 * env.rr.incMultiplier ^ K)
    (hE : 1000 * K < env.eliteIterations) (hmax : ∀ m, env.maxIterations = some m → 0 < m) (ω : Oracle)
    (chs : List (GAChoice ℚ)) (hlen : K + 2 ≤ chs.length)
    (hok : ∀ ch ∈ chs, GA.ChOK ch ∧ ch.elapsed < env.timeLimit) :
    GA.steps env ctx chs (GA.new env ctx ω) = none := by
  have hgo : ∀ ch ∈ chs, GA.ChOK ch ∧
      ¬ terminateNow env.timeLimit env.maxIterations ch.elapsed 0 = true := by
    intro ch hch
    refine ⟨(hok ch hch).1, ?_⟩
    unfold terminateNow
    rw [Bool.or_eq_true, decide_eq_true_eq]
    rintro (h | h)
    · have := (hok ch hch).2
      omega
    · cases hm : env.maxIterations with
      | none => rw [hm] at h; simp at h
      | some m =>
        rw [hm] at h
        have h : decide (m ≤ 0) = true := h
        rw [decide_eq_true_eq] at h
        have := hmax m hm
        omega
  cases chs with
  | nil => simp at hlen
  | cons ch chs =>
    obtain ⟨hch, ht⟩ := hgo ch (by simp)
    unfold GA.steps
    rw [if_neg (by simp [GA.new])]
    cases h : GA.iterate env ctx ch (GA.new env ctx ω) with
    | none => rfl
    | some g' =>
      rw [Option.bind_some]
      exact GA.rising_none hv hl hnb hK hE K (j := 0) chs (by omega) (GA.rising_first hv he hlim htb hch ht h)
        (by simp only [List.length_cons] at hlen; omega) fun c hc => hgo c (by simp [hc])

namespace EliteEx

/-- Two customers of demand 2 and vehicles of capacity 1. -/
def ctx : Ctx ℚ where
  n := 3
  dist a b := if a = b then 0 else 10
  demand c := if c = 0 then 0 else 2
  cap := 1
  pen := 10
  lng c := c
  lat c := c

/-- Six vehicles, the default multipliers, and elite education of 4301 times 1000 rounds (with the default
`elite_education_gamma` of 1000 these are the rounds for 4301 customers). -/
def env : GAEnv ℚ where
  rr := ⟨10, 10, 6, 1.2, 0.85, fun c => some (if c = 1 then [2] else [1]), fun _ _ => 0, fun _ => 1, fun _ => -1⟩
  split := ⟨true, 1.5, 6⟩
  pop := ⟨2, 2, 1, 1, 2⟩
  moves := ⟨true, true, true, true, true, true, true, true, true, true⟩
  lowerBound := 4
  bs := bsearchNew
  sort := some
  granularity := 1
  angle := fun _ => 0
  corr := [0, 2, 1]
  corrCols := 1
  lsEnabled := true
  rrMutation := true
  rrProbability := 1
  rrStartTemp := 1
  rrIterations := 1
  repairProbability := 1 / 2
  target := 1 / 4
  penaltyInterval := 1
  logInterval := 1
  initialIndividuals := 2
  maxStagnation := 3
  maxIterations := some 5
  timeLimit := 100
  initialPen := 10
  eliteEducation := true
  eliteLimit := 1
  eliteTemp := 1
  eliteIterations := 4301000
  eliteTimeBased := false
  eliteDuration := 1

theorem valid : GA.Valid env ctx where
  n := by decide
  dist a b := by
    have h : (10 : ℚ) ≤ (maxv : ℚ) := by
      show (10 : ℚ) ≤ 2 ^ 1023
      calc (10 : ℚ) ≤ 2 ^ 4 := by norm_num
        _ ≤ 2 ^ 1023 := pow_le_pow_right₀ (by norm_num) (by norm_num)
    simp only [ctx]
    split
    · exact ⟨le_refl _, by linarith⟩
    · exact ⟨by norm_num, h⟩
  fleet := by decide
  bound := by decide
  vehicles := rfl
  bs := bsearchNew_ok
  sort := fun l l' h => by
    simp only [env, Option.some.injEq] at h
    exact h ▸ List.Perm.refl _
  pen := by norm_num [env]
  mult := by norm_num [env]
  lim := le_refl _
  mag := fun _ => by
    refine ⟨10, 2, ?_, ?_, ?_, ?_⟩
    · intro a b
      simp only [RR.ctxAt, ctx]
      split <;> norm_num
    · intro c
      simp only [RR.ctxAt, ctx]
      split <;> norm_num
    · norm_num [RR.ctxAt]
    · norm_num [RR.ctxAt, ctx]
  nbr := by
    refine ⟨by decide, by decide, by decide, ?_, ?_⟩
    · intro u i h1 h2 h3 v hv
      have hu : u < 3 := h2
      have hi : i < 1 := h3
      have hv' : ([0, 2, 1] : List ℕ)[u * 1 + i]? = some v := hv
      show 0 < v ∧ v < 3 ∧ v ≠ u
      interval_cases u <;> interval_cases i <;> simp at hv' <;> omega
    · decide

theorem tooLarge : TooLarge ctx 10 where
  demand a := by simp only [ctx]; split <;> norm_num
  large c h1 _ := by
    simp only [ctx]
    rw [if_neg (by omega)]
    norm_num
  dist a b := by simp only [ctx]; split <;> norm_num

theorem tame {p : ℚ} (h0 : 0 ≤ p) (h1 : p ≤ 2 ^ 30) : Tame (RR.ctxAt ctx p) where
  dist a b := by
    simp only [RR.ctxAt, ctx]
    split
    · exact ⟨le_refl _, ProgressEx.small_pow (by norm_num)⟩
    · exact ⟨by norm_num, ProgressEx.small_pow (by norm_num)⟩
  demand c := by
    simp only [RR.ctxAt, ctx]
    split <;> norm_num
  cap := by norm_num [RR.ctxAt, ctx]
  pen := h0
  bound := by
    refine ProgressEx.small_pow ?_
    have : Spec.routeLoad ctx.demand (Spec.customers 3) = 4 := by decide +kernel
    show Spec.routeLoad ctx.demand (Spec.customers 3) * p ≤ _
    rw [this]
    norm_num at h1 ⊢
    linarith

/-- Without elite education nothing would be wrong with this instance and these settings. -/
theorem robust_without : GA.Robust { env with eliteEducation := false } ctx 10000000 where
  n := by decide
  sym a b := by simp only [ctx, eq_comm]
  depot := rfl
  tame := tame (by norm_num) (by norm_num)
  nbrs := by
    intro c h1 h2
    refine ⟨_, rfl, fun v hv => ?_⟩
    show 1 ≤ v ∧ v < 3
    by_cases h : c = 1
    · rw [if_pos h] at hv
      simp at hv
      omega
    · rw [if_neg h] at hv
      simp at hv
      omega
  sort l := ⟨l, rfl⟩
  closest := by decide
  minSize := by decide
  tournament := by decide
  initial := by decide
  elite h := by simp at h

theorem grows : (maxv : ℚ) + 10 ≤ 1 / 10000 * env.rr.incMultiplier ^ 4300 := by
  have h1 : (2 : ℚ) ^ 1075 ≤ env.rr.incMultiplier ^ 4300 := by
    have : env.rr.incMultiplier ^ 4300 = (env.rr.incMultiplier ^ 4) ^ 1075 := by rw [← pow_mul]
    rw [this]
    exact pow_le_pow_left₀ (by norm_num) (by norm_num [env]) _
  have h2 : (2 : ℚ) ^ 1075 = 2 ^ 1023 * 2 ^ 52 := by rw [← pow_add]
  have h3 : (1 : ℚ) ≤ 2 ^ 1023 := one_le_pow₀ (by norm_num)
  show (2 : ℚ) ^ 1023 + 10 ≤ _
  rw [h2] at h1
  clear h2
  generalize (2 : ℚ) ^ 1023 = z at *
  generalize env.rr.incMultiplier ^ 4300 = w at *
  have h4 : (1000000 : ℚ) * z ≤ z * 2 ^ 52 := by
    rw [mul_comm]
    exact mul_le_mul_of_nonneg_left (by norm_num) (by linarith)
  have h5 : 1000000 * z ≤ w := h4.trans h1
  clear h1 h4
  linarith

theorem lists (c : ℕ) (vs : List ℕ) (h : env.rr.nbrs c = some vs) : vs ≠ [] := by
  simp only [env, Option.some.injEq] at h
  subst h
  split <;> simp

/-- **C63** is false with elite education: this run panics for all draws, within 4302 calls. -/
theorem C63_elite_penalty_refuted (ω : Oracle) (chs : List (GAChoice ℚ)) (hlen : 4302 ≤ chs.length)
    (hok : ∀ ch ∈ chs, GA.ChOK ch ∧ ch.elapsed < 100) :
    GA.steps env ctx chs (GA.new env ctx ω) = none :=
  C63_elite_penalty_panics env ctx valid 10 tooLarge
    lists rfl (by decide) rfl 4300 grows (by decide) (fun m hm => by
      simp only [env, Option.some.injEq] at hm
      omega) ω chs hlen hok

/-- The panic is one: some call in the middle of elite education has no result with any amount of fuel,
and there the program has no loop without a bound. -/
theorem C63_elite_call_refuted : ∃ g, GA.Reach env ctx GA.ChOK g ∧ g.state = .elite ∧
    ∃ ch, GA.ChOK ch ∧ GA.Fair ctx.n ch ∧ ch.elapsed < 100 ∧
      ∀ f, GA.iterate env ctx { ch with fuel := f } g = none := by
  have hch := GeneticEx.choice_ok 5 7
  have hel : (GeneticEx.choice 5 7).elapsed < 100 := by decide
  generalize hc : GeneticEx.choice 5 7 = ch at hch hel
  have hf : GA.Fair ctx.n ch := hc ▸ ⟨10, by decide, by decide +kernel⟩
  have ht : ¬ terminateNow env.timeLimit env.maxIterations ch.elapsed 0 = true := by
    unfold terminateNow
    rw [Bool.or_eq_true, decide_eq_true_eq]
    rintro (h | h)
    · have : (100 : ℕ) ≤ ch.elapsed := h
      omega
    · simp [env] at h
  -- the first call returns
  have first : ∃ f g', GA.iterate env ctx { ch with fuel := f } (GA.new env ctx fun _ => 0) = some g' := by
    have hv : GA.Valid { env with eliteEducation := false } ctx := ⟨valid.n, valid.dist, valid.fleet,
      valid.bound, valid.vehicles, valid.bs, valid.sort, valid.pen, valid.mult, valid.lim, valid.mag, valid.nbr⟩
    have hg := GA.new_inv hv fun _ => 0
    obtain ⟨g1, e1, i1, -⟩ := GA.runSplit_ok hv (g := { GA.new env ctx (fun _ => 0) with state := .elite })
      (le_refl _) hv.fleet
      ⟨hg.base.pop, hg.base.len, hg.base.ready, hg.base.nbr, hg.base.lsLen, hg.base.split⟩
      (hg.mu (Or.inl rfl)) hg.geno
    obtain ⟨g2, e2⟩ := GA.educate_ends hv robust_without hch ch.ω i1
    obtain ⟨f, hf⟩ := e2.some_of
    obtain ⟨i2, -⟩ := GA.educate_edu hv (ch := { ch with fuel := f }) hch i1 hf
    have hi' := i2.mu.idle
    obtain ⟨r, e3, -⟩ := RR.load_inv (now := ch.clock 2)
      (st := GA.setupElite env (ch.clock 1) g2.rr) i2.child.good i2.child.len
      hi'.routes hi'.locs hi'.unassigned hi'.ruined
    refine ⟨f, { g2 with rr := r }, ?_⟩
    unfold GA.iterate
    rw [show (GA.new env ctx fun _ => 0).ctxIteration = 0 from rfl, if_neg ht]
    show GA.stepCreated env ctx { ch with fuel := f } (GA.new env ctx fun _ => 0) = _
    unfold GA.stepCreated
    rw [if_pos (by decide)]
    have e1 : GA.runSplit env ctx env.split.numVehicles
        { GA.new env ctx (fun _ => 0) with state := .elite } = some g1 := e1
    have hf : GA.educate env ctx { ch with fuel := f } ch.ω g1 = some g2 := hf
    rw [e1, Option.bind_some, hf, Option.bind_some, e3]
    rfl
  obtain ⟨f, g1, h1⟩ := first
  by_contra hno
  push Not at hno
  -- otherwise the run goes on
  have go : ∀ k, k ≤ 4300 → ∃ g, GA.Reach env ctx GA.ChOK g ∧ GA.Rising env ctx k g := by
    intro k
    induction k with
    | zero =>
      intro _
      exact ⟨g1, .step (.new _) (ch := { ch with fuel := f }) hch h1,
        GA.rising_first valid rfl (by decide) rfl (ch := { ch with fuel := f }) hch ht h1⟩
    | succ k ih =>
      intro hk
      obtain ⟨g, r, hg⟩ := ih (by omega)
      obtain ⟨f, hne⟩ := hno g r hg.state ch hch hf hel
      obtain ⟨g', h⟩ := Option.ne_none_iff_exists'.mp hne
      exact ⟨g', .step r (ch := { ch with fuel := f }) hch h, GA.rising_step valid tooLarge hg
        (by show 1000 * (k + 1) ≤ 4301000; omega) (ch := { ch with fuel := f }) hch ht h⟩
  obtain ⟨g, r, hg⟩ := go 4300 (le_refl _)
  obtain ⟨f, hne⟩ := hno g r hg.state ch hch hf hel
  exact hne (GA.rising_stop tooLarge lists grows (by decide) hg (ch := { ch with fuel := f }) ht)

end EliteEx
end Verif
