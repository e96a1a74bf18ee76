import Verif.Props.ProgramExamples
import Verif.Props.Progress

/-!
# C66: the program ends with a correct file

The whole program on instances below the limit for decomposition: it reads the instance, does not panic,
ends at the iteration limit or the time limit, and writes the file that C62 describes. Exact arithmetic;
all hash orders and clock readings, and all random draws that do not repeat one position of the crossover
zone forever.
-/

namespace Verif
open F64 RRSol

namespace Program

/-- What is asked of the settings for `n` nodes beyond `SettingsOK`: no decomposition, counts that are not
zero, and elite education switched off, not used for this size, or with a number of rounds after which the
penalty is far below `f64::MAX`. -/
structure EndsOK (cfg : Settings ℚ) (n : ℕ) : Prop where
  whole : n - 1 < cfg.decomposeLimit
  closest : 1 ≤ cfg.pop.numClosest
  minSize : 1 ≤ cfg.pop.minSize
  tournament : 1 ≤ cfg.pop.tournamentSize
  initial : 1 ≤ cfg.initialIndividuals
  elite : cfg.eliteEducation = true → cfg.eliteLimit < n - 1 → cfg.eliteTimeBased = false ∧
    10 ^ 7 * max 1 (max cfg.incMultiplier cfg.decMultiplier) ^
      (toNat (F64.round (cfg.eliteGamma * (n - 1 : ℕ))) / 1000) ≤ (2 : ℚ) ^ 900

/-- The rounds of elite education. -/
def eliteRounds (cfg : Settings ℚ) (n : ℕ) : ℕ := toNat (F64.round (cfg.eliteGamma * (n - 1 : ℕ)))

/-- The choices suffice for the run: one per call of `iterate` up to the iteration limit, or one at which the
clock shows the time limit. -/
def LongEnough (cfg : Settings ℚ) (n : ℕ) (chs : List (GAChoice ℚ)) : Prop :=
  (∃ m, cfg.maxIterations = some m ∧
    (m + 1) * (eliteRounds cfg n + cfg.initialIndividuals + 4) ≤ chs.length) ∨
  ∃ ch ∈ chs, cfg.timeLimit ≤ ch.elapsed

variable {lib : Lib ℚ} {cfg : Settings ℚ} {nodes : List (ℚ × ℚ × ℚ)} {cap : ℚ} {dist : ℕ → ℕ → ℚ}
  {d : DistMatrix ℚ} {c : Correlation} {m : Option (List (List ℚ))}

theorem load_le {ctx : Ctx ℚ} {Q : ℚ} (h : ∀ a, ctx.demand a ≤ Q) (hQ : 0 ≤ Q) :
    Spec.routeLoad ctx.demand (Spec.customers ctx.n) ≤ ctx.n * Q := by
  have h1 : Spec.routeLoad ctx.demand (Spec.customers ctx.n) ≤ (Spec.customers ctx.n).length * Q := by
    generalize Spec.customers ctx.n = l
    induction l with
    | nil => simp [Spec.routeLoad]
    | cons a l ih =>
      simp only [Spec.routeLoad, List.map_cons, List.sum_cons, List.length_cons] at ih ⊢
      push_cast
      linarith [h a]
  refine h1.trans (mul_le_mul_of_nonneg_right ?_ hQ)
  have : (Spec.customers ctx.n).length ≤ ctx.n := by simp [Spec.customers]
  exact_mod_cast this

theorem ctx_tame (hd : DataOK nodes cap dist) (hb : Built lib nodes.length dist d) (hn : 0 < nodes.length)
    {p : ℚ} (h0 : 0 ≤ p) (h1 : p ≤ 2 ^ 900) : Tame (RR.ctxAt (context lib (parsed nodes cap m) d) p) := by
  obtain ⟨D, Q, hD, hQ, hM⟩ := hd.bound
  have hD0 : 0 ≤ D := (hD 0 hn 0 hn).1.trans (hD 0 hn 0 hn).2
  have hQ0 : 0 ≤ Q := by
    obtain ⟨q, hq⟩ := List.exists_mem_of_length_pos hn
    exact (hQ q hq).1.trans (hQ q hq).2
  have hn1 : (1 : ℚ) ≤ nodes.length := by exact_mod_cast hn
  have hnQ : 0 ≤ (nodes.length : ℚ) * Q := mul_nonneg (by linarith) hQ0
  have hnD : D ≤ (nodes.length : ℚ) * D := by nlinarith
  have hDm : D ≤ 10 ^ 30 := by nlinarith
  have hQm : (nodes.length : ℚ) * Q ≤ 10 ^ 17 := by nlinarith
  have b1 : (10 : ℚ) ^ 30 ≤ 2 ^ 1000 :=
    (show (10 : ℚ) ^ 30 ≤ 2 ^ 100 by norm_num).trans (pow_le_pow_right₀ (by norm_num) (by norm_num))
  have hdem : ∀ a, 0 ≤ (context lib (parsed nodes cap m) d).demand a ∧
      (context lib (parsed nodes cap m) d).demand a ≤ Q := by
    intro a
    rw [ctx_demand, Spec.nodeDemand]
    cases h : nodes[a]? with
    | none => exact ⟨le_refl _, hQ0⟩
    | some p => exact hQ p (List.mem_of_getElem? h)
  have hl := load_le (fun a => (hdem a).2) hQ0
  rw [ctx_n] at hl
  refine ⟨fun a b => ?_, fun a => (hdem a).1, hd.cap.le, h0, ?_⟩
  · show 0 ≤ (context lib (parsed nodes cap m) d).dist a b ∧ (context lib (parsed nodes cap m) d).dist a b ≤ _
    by_cases h : a < nodes.length ∧ b < nodes.length
    · rw [ctx_dist hb h.1 h.2]
      exact ⟨(hD a h.1 b h.2).1, (hD a h.1 b h.2).2.trans (hDm.trans b1)⟩
    · rw [ctx_dist_out h]
      exact ⟨le_refl _, by positivity⟩
  · show Spec.routeLoad _ (Spec.customers (context lib (parsed nodes cap m) d).n) * p ≤ 2 ^ 1000
    rw [ctx_n]
    have h2 := hl.trans hQm
    have b2 : (10 : ℚ) ^ 17 * 2 ^ 900 ≤ 2 ^ 1000 := by
      rw [show (2 : ℚ) ^ 1000 = 2 ^ 100 * 2 ^ 900 by rw [← pow_add]]
      exact mul_le_mul_of_nonneg_right (by norm_num) (by positivity)
    exact (mul_le_mul h2 h1 h0 (by positivity)).trans b2

theorem robust (hl : LibOK lib) (htot : ∀ l, ∃ l', lib.sort l = some l') (hs : SettingsOK cfg nodes.length)
    (he : EndsOK cfg nodes.length) (hd : DataOK nodes cap dist) (hb : Built lib nodes.length dist d)
    (hsym : ∀ a b, dist a b = dist b a) (hdem : Spec.nodeDemand nodes 0 = 0)
    (hc : buildCorr lib.sqrt lib.corrSort d = some c) :
    GA.Robust (gaEnv lib cfg (context lib (parsed nodes cap m) d) d c)
      (context lib (parsed nodes cap m) d) 10000000 := by
  have hgran := hs.gran
  have hn : 3 ≤ nodes.length := by have := hgran.1; have := hgran.2; omega
  refine ⟨by rw [ctx_n]; exact hn, fun a b => ?_, by rw [ctx_demand]; exact hdem,
    ctx_tame hd hb (by omega) (by norm_num) ?_, ?_, htot, he.closest, he.minSize, he.tournament, he.initial,
    fun h1 h2 => ?_⟩
  · by_cases h : a < nodes.length ∧ b < nodes.length
    · rw [ctx_dist hb h.1 h.2, ctx_dist hb h.2 h.1, hsym]
    · rw [ctx_dist_out h, ctx_dist_out fun h' => h ⟨h'.2, h'.1⟩]
  · exact (show (10000000 : ℚ) ≤ 2 ^ 30 by norm_num).trans (pow_le_pow_right₀ (by norm_num) (by norm_num))
  · intro a h1 h2
    rw [ctx_n] at h2
    obtain ⟨c', e, -, -, -, hh⟩ := C17_nearest lib.sqrt lib.corrSort d (by rw [hb.len]; omega)
      (fun i => (List.range nodes.length).map (dist i))
      (fun i hi => by rw [hb.len] at hi ⊢; exact ⟨hb.rows i hi, by simp⟩) hl.perm
      (fun L => (hl.sorted L).imp fun h => by simpa using h)
    rw [hc, Option.some.injEq] at e
    subst e
    rw [hb.len] at hh
    obtain ⟨l, g1, -, -, g2, -⟩ := hh a h2
    refine ⟨l, g1, fun v hv => ?_⟩
    obtain ⟨v1, v2, -⟩ := g2 v hv
    rw [ctx_n]
    exact ⟨v1, v2⟩
  · have h2' : cfg.eliteLimit < nodes.length - 1 := by rw [ctx_n] at h2; exact h2
    obtain ⟨a1, a2⟩ := he.elite h1 h2'
    refine ⟨a1, ctx_tame hd hb (by omega) ?_ ?_⟩
    · have : 0 ≤ GA.growth (gaEnv lib cfg (context lib (parsed nodes cap m) d) d c) :=
        le_trans (by norm_num) (le_max_left _ _)
      positivity
    · have e1 : (gaEnv lib cfg (context lib (parsed nodes cap m) d) d c).eliteIterations =
          toNat (F64.round (cfg.eliteGamma * (nodes.length - 1 : ℕ))) := by
        simp only [gaEnv, ctx_n, rat_mul, rat_lit]
      rw [e1]
      refine le_trans (le_of_eq ?_) a2
      norm_num [GA.growth, gaEnv]

theorem main_ends {text : List Char} {ω : Oracle} {chs : List (GAChoice ℚ)}
    (hr : RunOK lib cfg nodes.length chs []) (htot : ∀ l, ∃ l', lib.sort l = some l')
    (he : EndsOK cfg nodes.length) (hd : DataOK nodes cap dist) (hsym : ∀ a b, dist a b = dist b a)
    (hdem : Spec.nodeDemand nodes 0 = 0)
    (hfair : ∀ ch ∈ chs, GA.Fair nodes.length ch) (hlong : LongEnough cfg nodes.length chs)
    (hp : parseInstance lib.num text = some (parsed nodes cap m))
    (hb : ∃ d, buildDist lib.sqrt (locations (parsed nodes cap m))
      (decide ((parsed nodes cap m).nodes.length - 1 < cfg.precomputeLimit)) cfg.rounded m = some d ∧
      Built lib nodes.length dist d) :
    ∃ out N, (out.isSome = true ↔ cfg.hasPath = true) ∧ ∀ f, N ≤ f →
      main lib cfg text ω (chs.map fun ch => { ch with fuel := f }) [] = some out := by
  obtain ⟨d, e, hb⟩ := hb
  have hgran := hr.settings.gran
  have hn : 3 ≤ nodes.length := by have := hgran.1; have := hgran.2; omega
  obtain ⟨c, hc, -⟩ := C17_nearest lib.sqrt lib.corrSort d (by rw [hb.len]; omega)
    (fun i => (List.range nodes.length).map (dist i))
    (fun i hi => by rw [hb.len] at hi ⊢; exact ⟨hb.rows i hi, by simp⟩) hr.lib.perm
    (fun L => (hr.lib.sorted L).imp fun h => by simpa using h)
  have hv := gaValid (m := m) hr.lib hr.settings hd hb hc (hi := 10000000) (le_refl _) (by norm_num)
  have hrob := robust (m := m) hr.lib htot hr.settings he hd hb hsym hdem hc
  obtain ⟨g, ⟨N, hN⟩, -, h1, h2⟩ := GA.steps_end hv hrob chs
    (fun ch hch => ⟨hr.choices ch hch, by rw [ctx_n]; exact hfair ch hch⟩) (GA.new_inv hv ω) (GA.new_extra ω)
  have ht : g.state = .terminated := by
    rcases hlong with ⟨k, hk, hl⟩ | h
    · refine h1 k hk ?_
      show (k - 0) * GA.perCycle _ + GA.perCycle _ ≤ _
      rw [Nat.sub_zero, ← Nat.succ_mul]
      refine le_trans (le_of_eq ?_) hl
      simp only [GA.perCycle, gaEnv, ctx_n, rat_mul, rat_lit, eliteRounds, Nat.succ_eq_add_one]
    · exact h2 h
  have hsolve : ∀ f, N ≤ f → solve lib cfg (context lib (parsed nodes cap m) d) d c ω
      (chs.map fun ch => { ch with fuel := f }) [] = some g.rr.hist := by
    intro f hf
    have hw := he.whole
    unfold solve
    rw [if_neg (by rw [ctx_n]; omega)]
    have := hN f hf
    dsimp only at this
    unfold GA.refuel at this
    rw [this, Option.bind_some, if_pos ht]
  refine ⟨written cfg g.rr.hist, N, ?_, fun f hf => ?_⟩
  · unfold written
    cases hpth : cfg.hasPath with
    | false => simp [solutionFile]
    | true =>
      cases g.rr.hist.entries.getLast? with
      | none => simp [solutionFile]
      | some x =>
        obtain ⟨t, h, -⟩ := C41_solution_text_round_trip x.routes x.cost
        simp [h]
  · unfold main
    rw [hp, Option.bind_some]
    unfold matrices
    rw [if_neg (by simp only [parsed, List.length_mapIdx]; omega)]
    have hm : (parsed nodes cap m).matrix = m := rfl
    rw [hm, e, Option.bind_some, hc, Option.map_some, Option.bind_some]
    dsimp only
    rw [hsolve f hf, Option.map_some]

end Program

open Program Spec

theorem planeDist_symm (sqrt : ℚ → ℚ) (rounded : Bool) (nodes : List (ℚ × ℚ × ℚ)) (a b : ℕ) :
    planeDist sqrt rounded nodes a b = planeDist sqrt rounded nodes b a := by
  unfold planeDist
  cases nodes[a]? with
  | none => cases nodes[b]? <;> rfl
  | some p =>
    cases nodes[b]? with
    | none => rfl
    | some q =>
      dsimp only
      rw [show (p.1 - q.1) ^ 2 + (p.2.1 - q.2.1) ^ 2 = (q.1 - p.1) ^ 2 + (q.2.1 - p.2.1) ^ 2 by ring]

theorem lowerRowDist_symm (rounded : Bool) (rows : List (List ℚ)) (a b : ℕ) :
    lowerRowDist rounded rows a b = lowerRowDist rounded rows b a := by
  unfold lowerRowDist
  rw [max_comm, min_comm]
  by_cases h : a = b
  · rw [if_pos h, if_pos h.symm]
  · rw [if_neg h, if_neg (Ne.symm h)]

/-- **C66**, instances in the plane. On the text of a well-formed instance file with at least two
customers the program returns, without a panic, and the file it writes, if a path is set, is empty or
lists complete routes within the capacity and their length (the statement of C62). -/
theorem C66_ends_plane {lib : Lib ℚ} {cfg : Settings ℚ} {nodes : List (ℚ × ℚ × ℚ)} {cap : ℚ}
    {text : List Char} {raw : List (List Char)} {lines pre : List (List (List Char))} {blocks : List Block}
    {ω : Oracle} {chs : List (GAChoice ℚ)} (ht : TextOf text raw)
    (hl : List.Forall₂ LaidOut raw lines) (hf : BlockFile lines pre blocks)
    (hd : Describes (fun w x => lib.num w = some x) (fun w n => parseUsize w = some n) blocks cap nodes)
    (he : Euclidean blocks) (hr : RunOK lib cfg nodes.length chs [])
    (hdata : DataOK nodes cap (planeDist lib.sqrt cfg.rounded nodes))
    (htot : ∀ l, ∃ l', lib.sort l = some l') (hend : EndsOK cfg nodes.length) (hdem : nodeDemand nodes 0 = 0)
    (hfair : ∀ ch ∈ chs, GA.Fair nodes.length ch) (hlong : LongEnough cfg nodes.length chs) :
    ∃ out N, (out.isSome = true ↔ cfg.hasPath = true) ∧
      (∀ f, N ≤ f → Program.main lib cfg text ω (chs.map fun ch => { ch with fuel := f }) [] = some out) ∧
      ∀ file, out = some file → file ≠ [] →
        CorrectFile nodes cap (planeDist lib.sqrt cfg.rounded nodes) (1 / 1000000) file := by
  obtain ⟨out, N, h1, h2⟩ := main_ends (ω := ω) hr htot hend hdata (planeDist_symm _ _ _) hdem hfair hlong
    (C51_parse_euclidean lib.num ht hl hf hd he) (built_plane hr.lib _ cfg.rounded)
  refine ⟨out, N, h1, h2, fun file ho hne => ?_⟩
  refine (C62_file_plane ht hl hf hd he ⟨hr.lib, hr.settings, fun ch hch => ?_, hr.dchoices⟩ hdata
    ((h2 N (le_refl _)).trans (by rw [ho])) hne).1
  obtain ⟨ch', h, rfl⟩ := List.mem_map.mp hch
  exact hr.choices ch' h

/-- **C66**, instances with an explicit lower-row matrix. -/
theorem C66_ends_explicit {lib : Lib ℚ} {cfg : Settings ℚ} {nodes : List (ℚ × ℚ × ℚ)} {cap : ℚ}
    {text : List Char} {raw : List (List Char)} {lines pre : List (List (List Char))} {blocks : List Block}
    {rows : List (List ℚ)} {ω : Oracle} {chs : List (GAChoice ℚ)} (ht : TextOf text raw)
    (hl : List.Forall₂ LaidOut raw lines) (hf : BlockFile lines pre blocks)
    (hd : Describes (fun w x => lib.num w = some x) (fun w n => parseUsize w = some n) blocks cap nodes)
    (he : ExplicitRows (fun w x => lib.num w = some x) blocks rows) (hlen : rows.length + 1 = nodes.length)
    (hrow : ∀ (i : ℕ) (row : List ℚ), rows[i]? = some row → row.length = i + 1)
    (hnn : ∀ row ∈ rows, ∀ x ∈ row, 0 ≤ x) (hr : RunOK lib cfg nodes.length chs [])
    (hdata : DataOK nodes cap (lowerRowDist cfg.rounded rows))
    (htot : ∀ l, ∃ l', lib.sort l = some l') (hend : EndsOK cfg nodes.length) (hdem : nodeDemand nodes 0 = 0)
    (hfair : ∀ ch ∈ chs, GA.Fair nodes.length ch) (hlong : LongEnough cfg nodes.length chs) :
    ∃ out N, (out.isSome = true ↔ cfg.hasPath = true) ∧
      (∀ f, N ≤ f → Program.main lib cfg text ω (chs.map fun ch => { ch with fuel := f }) [] = some out) ∧
      ∀ file, out = some file → file ≠ [] →
        CorrectFile nodes cap (lowerRowDist cfg.rounded rows) (1 / 1000000) file := by
  obtain ⟨out, N, h1, h2⟩ := main_ends (ω := ω) hr htot hend hdata (lowerRowDist_symm _ _) hdem hfair hlong
    (C51_parse_explicit lib.num ht hl hf hd he hlen) (built_lowerRow hlen hrow hnn _ cfg.rounded)
  refine ⟨out, N, h1, h2, fun file ho hne => ?_⟩
  refine (C62_file_explicit ht hl hf hd he hlen hrow hnn
    ⟨hr.lib, hr.settings, fun ch hch => ?_, hr.dchoices⟩ hdata ((h2 N (le_refl _)).trans (by rw [ho])) hne).1
  obtain ⟨ch', h, rfl⟩ := List.mem_map.mp hch
  exact hr.choices ch' h

namespace ProgramEx

/-- The settings with an iteration limit and with elite education. -/
def cfgMax : Settings ℚ := { cfg with maxIterations := some 5, eliteEducation := true, eliteLimit := 1 }

theorem ends_ok : EndsOK cfgMax nodes.length where
  whole := by decide
  closest := by decide
  minSize := by decide
  tournament := by decide
  initial := by decide
  elite _ _ := by
    refine ⟨rfl, ?_⟩
    have : toNat (F64.round (cfgMax.eliteGamma * (nodes.length - 1 : ℕ))) / 1000 = 0 := by decide +kernel
    rw [this, pow_zero, mul_one]
    exact (show (10 : ℚ) ^ 7 ≤ 2 ^ 30 by norm_num).trans (pow_le_pow_right₀ (by norm_num) (by norm_num))

/-- C66 applies to this instance, with five iterations and 54 calls, whatever is drawn at the start. -/
example (ω : Oracle) : ∃ out N, (out.isSome = true ↔ cfgMax.hasPath = true) ∧
    (∀ f, N ≤ f → Program.main lib cfgMax text ω
      ((List.replicate 54 (GeneticEx.choice 5 7)).map fun ch => { ch with fuel := f }) [] = some out) ∧
    ∀ file, out = some file → file ≠ [] →
      CorrectFile nodes 20 (planeDist lib.sqrt cfgMax.rounded nodes) (1 / 1000000) file := by
  have hrep : ∀ ch ∈ List.replicate 54 (GeneticEx.choice 5 7), ch = GeneticEx.choice 5 7 :=
    fun ch hch => List.eq_of_mem_replicate hch
  refine C66_ends_plane (textOf_lf raw (by decide)) (forall₂_lineWords _) blockFile describes euclidean
    ⟨lib_ok, ⟨by decide, by norm_num [cfgMax, cfg], fun h => absurd h (by decide)⟩, fun ch hch => ?_, by simp⟩
    data_ok (fun l => ⟨l, rfl⟩) ends_ok rfl (fun ch hch => ?_) (Or.inl ⟨5, rfl, ?_⟩)
  · rw [hrep ch hch]; exact GeneticEx.choice_ok 5 7
  · rw [hrep ch hch]; exact ProgressEx.fair
  · have : eliteRounds cfgMax nodes.length = 3 := by decide +kernel
    rw [this]
    decide

end ProgramEx
end Verif
