import Verif.Props.LogLine
import Verif.Props.PopOrderDoubleExamples
import Verif.Props.ElitesRun

/-!
# C90: the costs and the fraction of the log line in double precision
-/

namespace Verif
open F64 Dbl

variable {ρ : Rounding}

/-- The sum of whole numbers is exact as long as it stays below `2 ^ 53`. -/
theorem foldl_costs (len : Individual (Dbl ρ) → ℤ) : ∀ (l : List (Individual (Dbl ρ))) (a B : ℤ), 0 ≤ a →
    (∀ x ∈ l, x.cost = ofInt (len x) ∧ 0 ≤ len x ∧ len x ≤ B) → a + l.length * B ≤ 2 ^ 53 →
    l.foldl (fun t x => t +. x.cost) (ofInt a : Dbl ρ) = ofInt (a + (l.map len).sum) ∧
      a + (l.map len).sum ≤ a + l.length * B ∧ 0 ≤ (l.map len).sum
  | [], a, B, _, _, _ => by simp
  | x :: l, a, B, ha, h, hb => by
    obtain ⟨h1, h2, h3⟩ := h x (by simp)
    have hl : ((x :: l).length : ℤ) * B = B + l.length * B := by push_cast [List.length_cons]; ring
    rw [hl] at hb ⊢
    have hlB : 0 ≤ (l.length : ℤ) * B := mul_nonneg (by positivity) (h2.trans h3)
    obtain ⟨k1, k2, k3⟩ := foldl_costs len l (a + len x) B (by omega) (fun y hy => h y (by simp [hy])) (by omega)
    rw [List.foldl_cons, h1, ofInt_add (by rw [abs_of_nonneg (by omega)]; omega), k1, List.map_cons, List.sum_cons, add_assoc]
    exact ⟨rfl, by omega, by omega⟩

/-- The length of a complete plan is at most twice the number of nodes times the longest distance. -/
theorem whole_length_le {ctx : Ctx (Dbl ρ)} {d : ℕ → ℕ → ℤ} {M : ℤ} (hd : WholeDist ctx d M) {p : Dbl ρ}
    {x : Individual (Dbl ρ)} (hg : x.Good (RR.ctxAt ctx p)) : (x.phenotype.map (tripZ d)).sum ≤ 2 * (ctx.n * M) := by
  have hM := hd.M_nonneg
  have hsum : ∀ L : List (List ℕ), (L.map (tripZ d)).sum ≤ 2 * (L.flatten.length * M) := by
    intro L
    induction L with
    | nil => simp
    | cons l L ih =>
      have t := hd.trip_le l
      simp only [List.map_cons, List.sum_cons, List.flatten_cons, List.length_append]
      push_cast
      rw [add_mul]
      omega
  have hlen : x.phenotype.flatten.length ≤ ctx.n := by
    have := hg.part.length_eq
    simp only [Spec.customers, List.length_range'] at this
    have h2 : (RR.ctxAt ctx p).n = ctx.n := rfl
    omega
  have : (x.phenotype.flatten.length : ℤ) * M ≤ ctx.n * M := mul_le_mul_of_nonneg_right (by exact_mod_cast hlen) hM
  have := hsum x.phenotype
  omega

/-- **C90, the average in double precision.** With whole distances and demands the average cost of the feasible
subpopulation in the log is the mean length of its first `minSize` members, rounded once; it is no less than the best
cost. -/
theorem C90_average_double {ctx : Ctx (Dbl ρ)} {q : ℕ → ℤ} {Q D M : ℤ} {d : ℕ → ℕ → ℤ} (hw : Whole ctx q Q D)
    (hd : WholeDist ctx d M) (cfg : PopCfg) (hk : 1 ≤ cfg.minSize) (hsmall : cfg.minSize * (2 * (ctx.n * M)) ≤ 2 ^ 53)
    (hk53 : cfg.minSize ≤ 2 ^ 53) (bs : BSearch) (hbs : BSearchOK bs)
    (sort : List (Individual (Dbl ρ)) → Option (List (Individual (Dbl ρ)))) (hsort : Population.SortPerm sort)
    (p : Population (Dbl ρ)) (hs : List Bool) (h : p.Run ctx cfg bs sort (fun _ => True) hs)
    (hn : ∀ y ∈ p.feasible.pop, y.cost ≠ nan) (lens : List ℚ)
    (hlens : lens = p.feasible.pop.map fun x => (x.phenotype.map (Spec.routeDist fun a b => (d a b : ℚ))).sum)
    (hne : lens ≠ []) :
    ∃ b ∈ lens, (∀ v ∈ lens, b ≤ v) ∧ p.feasible.bestCost = fin b ∧
      p.feasible.averageCost cfg = fin (ρ.fl (Spec.mean (lens.take cfg.minSize))) ∧
      b ≤ ρ.fl (Spec.mean (lens.take cfg.minSize)) := by
  have hI := (h.inv hbs hsort).feasible
  have hM := hd.M_nonneg
  have e3 : ∀ L : List (List ℕ), (L.map (Spec.routeDist fun a b => (d a b : ℚ))).sum = ((L.map (tripZ d)).sum : ℤ) := by
    intro L
    induction L with
    | nil => simp
    | cons r L ih => simp only [List.map_cons, List.sum_cons, ih, Int.cast_add]; rw [← tripZ_cast]
  obtain ⟨x0, rest, hp⟩ := List.exists_cons_of_ne_nil (l := p.feasible.pop) (by rintro e; rw [e] at hlens; exact hne hlens)
  have hcost : ∀ x ∈ p.feasible.pop, x.cost = ofInt (x.phenotype.map (tripZ d)).sum ∧
      0 ≤ (x.phenotype.map (tripZ d)).sum ∧ (x.phenotype.map (tripZ d)).sum ≤ 2 * (ctx.n * M) := by
    intro x hx
    obtain ⟨pen, hg⟩ := hI.good x hx
    obtain ⟨c1, c2, -⟩ := (feasible_cost hw hd hg (hI.class_ x hx)).2.resolve_left (hn x hx)
    exact ⟨c1, c2, whole_length_le hd hg⟩
  have hx0 : x0 ∈ p.feasible.pop := by simp [hp]
  have hasc := (C92_sorted hw hd cfg bs hbs sort hsort p hs h).2
  rw [← hlens] at hasc
  have hb0 : ∀ v ∈ lens, (((x0.phenotype.map (tripZ d)).sum : ℤ) : ℚ) ≤ v := by
    intro v hv
    rw [hlens, hp, List.map_cons] at hasc hv
    rw [← e3]
    rcases List.mem_cons.mp hv with rfl | hv
    · exact le_refl _
    · exact (List.pairwise_cons.mp hasc).1 v hv
  have hmin : Nat.min p.feasible.pop.length cfg.minSize = (p.feasible.pop.take cfg.minSize).length := by
    rw [List.length_take]; exact Nat.min_comm _ _
  have htk : p.feasible.pop.take (Nat.min p.feasible.pop.length cfg.minSize) = p.feasible.pop.take cfg.minSize := by
    rw [hmin, List.length_take, ← List.take_take, List.take_length]
  have hpos : 0 < (p.feasible.pop.take cfg.minSize).length := by
    rw [List.length_take, hp, List.length_cons]; omega
  have hlt : (p.feasible.pop.take cfg.minSize).length ≤ cfg.minSize := by rw [List.length_take]; omega
  have hB : 0 ≤ 2 * ((ctx.n : ℤ) * M) := by positivity
  have hle : ((p.feasible.pop.take cfg.minSize).length : ℤ) * (2 * (ctx.n * M)) ≤ cfg.minSize * (2 * (ctx.n * M)) :=
    mul_le_mul_of_nonneg_right (by exact_mod_cast hlt) hB
  obtain ⟨f1, f2, f3⟩ := foldl_costs (fun x => (x.phenotype.map (tripZ d)).sum) (p.feasible.pop.take cfg.minSize) 0
    (2 * (ctx.n * M)) (le_refl _) (fun x hx => hcost x (List.mem_of_mem_take hx)) (by omega)
  rw [zero_add] at f1 f2
  have hmean : Spec.mean (lens.take cfg.minSize) =
      ((((p.feasible.pop.take cfg.minSize).map fun x => (x.phenotype.map (tripZ d)).sum).sum : ℤ) : ℚ) /
        (p.feasible.pop.take cfg.minSize).length := by
    unfold Spec.mean
    rw [hlens, ← List.map_take, List.length_map]
    congr 1
    generalize p.feasible.pop.take cfg.minSize = L
    induction L with
    | nil => simp
    | cons x L ih => simp only [List.map_cons, List.sum_cons, ih, Int.cast_add]; rw [e3]
  have hq : (1 : ℚ) ≤ (p.feasible.pop.take cfg.minSize).length := by exact_mod_cast hpos
  have hbm : (((x0.phenotype.map (tripZ d)).sum : ℤ) : ℚ) ≤ Spec.mean (lens.take cfg.minSize) := by
    refine Spec.le_mean ?_ fun v hv => hb0 v (List.mem_of_mem_take hv)
    intro e
    have := congrArg List.length e
    rw [hlens, ← List.map_take, List.length_map, List.length_nil] at this
    omega
  refine ⟨((x0.phenotype.map (tripZ d)).sum : ℤ), ?_, hb0, ?_, ?_, ?_⟩
  · rw [hlens, hp, List.map_cons, ← e3]; simp
  · unfold SubPop.bestCost
    rw [hp]
    exact (hcost x0 hx0).1
  · unfold SubPop.averageCost
    dsimp only
    rw [if_pos (by rw [hmin]; exact hpos), htk, hmin, hmean]
    have e0 : (lit 0 : Dbl ρ) = ofInt 0 := by rw [lit_zero]; simp [ofInt]
    have e1 : (lit (((p.feasible.pop.take cfg.minSize).length : ℕ) : ℚ) : Dbl ρ) =
        fin (((p.feasible.pop.take cfg.minSize).length : ℕ) : ℚ) := ofRat_nat (by omega)
    rw [e0, f1, e1]
    unfold ofInt
    have e2 : (((p.feasible.pop.take cfg.minSize).length : ℕ) : ℚ) ≠ 0 := by
      intro e
      rw [e] at hq
      norm_num at hq
    rw [div_fin _ _ e2, ofRat_le (m := 53) (by norm_num)]
    rw [abs_of_nonneg (div_nonneg (by exact_mod_cast f3) (by positivity)), div_le_iff₀ (by positivity)]
    have : ((((p.feasible.pop.take cfg.minSize).map fun x => (x.phenotype.map (tripZ d)).sum).sum : ℤ) : ℚ) ≤ 2 ^ 53 := by
      exact_mod_cast (by omega : ((p.feasible.pop.take cfg.minSize).map fun x => (x.phenotype.map (tripZ d)).sum).sum ≤ 2 ^ 53)
    nlinarith
  · have hi : |(x0.phenotype.map (tripZ d)).sum| ≤ 2 ^ 53 := by
      obtain ⟨-, a, b⟩ := hcost x0 hx0
      rw [abs_of_nonneg a]
      have h4 := hd.small
      omega
    rw [← ρ.int hi]
    exact ρ.mono _ _ hbm

/-- **C90 in double precision (partial).** In every state of every run of the program on whole distances the log line can
be written. The two sizes are right; the fraction of feasible individuals is the share of the latest 100, rounded once;
the best cost is the length of a shortest feasible member, exactly, and the average cost the mean length of the first
`minSize` members, rounded once.

Missing, as in exact arithmetic: the range of the diversities, which is false. -/
theorem C90_log_double_partial {lib : Lib (Dbl ρ)} {cfg : Settings (Dbl ρ)} {nodes : List (ℚ × ℚ × ℚ)} {cap : ℚ}
    {dm : DistMatrix (Dbl ρ)} {c : Correlation} {dz : ℕ → ℕ → ℤ} {M : ℤ} {m : Option (List (List (Dbl ρ)))}
    (hl : Program.DblLib lib) (htot : Program.DblTotal lib) (hset : Program.DblSettings cfg nodes.length)
    (hends : Program.DblEndsOK cfg nodes.length) (hload : Program.DblLoads nodes cap)
    (hz : ∀ a < nodes.length, ∀ b < nodes.length, 0 ≤ dz a b ∧ dz a b ≤ M) (h00 : dz 0 0 = 0) (h43 : M ≤ 2 ^ 43)
    (hM : 4 * (nodes.length * M) ≤ 2 ^ 53) (hsmall : cfg.pop.minSize * (2 * (nodes.length * M)) ≤ 2 ^ 53)
    (hk53 : cfg.pop.minSize ≤ 2 ^ 53) (hco : Program.DblCoords nodes)
    (hb : Program.Built lib nodes.length (fun a b => fin (dz a b : ℚ)) dm)
    (hc : buildCorr lib.sqrt lib.corrSort dm = some c) {ctx : Ctx (Dbl ρ)}
    (hctx : ctx = Program.context lib (Program.parsed (Program.dblNodes ρ nodes) (fin cap) m) dm) {g : GA (Dbl ρ)}
    (hg : GA.Reach (Program.gaEnv lib cfg ctx dm c) ctx GA.ChOK g) :
    ∃ l, GA.logLine (Program.gaEnv lib cfg ctx dm c) ctx g = some l ∧ l.iterations = g.iterations ∧
      l.sinceBest + g.bestIteration = g.iterations ∧ l.feasSize = g.pop.feasible.pop.length ∧
      l.infSize = g.pop.infeasible.pop.length ∧ l.pen = g.rr.pen ∧
      l.fraction = fin (ρ.fl (g.pop.history.count true / 100)) ∧
      ∀ lens : List ℚ, (lens = g.pop.feasible.pop.map fun x =>
          (x.phenotype.map (Spec.routeDist fun a b => (dz a b : ℚ))).sum) → lens ≠ [] →
        ∃ b ∈ lens, (∀ v ∈ lens, b ≤ v) ∧ l.feasBest = fin b ∧
          l.feasAverage = fin (ρ.fl (Spec.mean (lens.take cfg.pop.minSize))) ∧
          b ≤ ρ.fl (Spec.mean (lens.take cfg.pop.minSize)) := by
  have hxd : Program.DblDist nodes.length fun a b => (dz a b : ℚ) := by
    intro a ha b hb
    obtain ⟨x, y⟩ := hz a ha b hb
    have y' : dz a b ≤ 2 ^ 43 := y.trans h43
    dsimp only
    exact ⟨by exact_mod_cast x, by exact_mod_cast y'⟩
  have hn : 3 ≤ nodes.length := by have := hset.gran; omega
  have hnum := C88_numbers (m := m) hl htot hset hends hload hxd hco hb hc ctx hctx g hg
  subst hctx
  obtain ⟨Q, D, -, hw⟩ := Program.dbl_whole (lib := lib) (m := m) (d := dm) (ρ := ρ) hload
  have hv := Program.dbl_gaLaws (m := m) hl hset hload hxd hb hc (loadExact_laws hw)
  obtain ⟨hs, hrun⟩ := (hg.any hv).base.pop
  have hI := hrun.inv hv.bs hv.sort
  obtain ⟨a, ha⟩ := SubPop.getDiversity_total hI.feasible.table cfg.pop
  obtain ⟨b, hb'⟩ := SubPop.getDiversity_total hI.infeasible.table cfg.pop
  have hk := C55_best_iteration _ _ _ g hg
  have hlen := (C36_classes _ _ _ hv.bs _ hv.sort g.pop hs hrun).2.2.2.2.2.1
  unfold GA.logLine
  rw [if_pos hk, show (Program.gaEnv lib cfg _ dm c).pop = cfg.pop from rfl, ha, Option.bind_some, hb']
  refine ⟨_, rfl, rfl, Nat.sub_add_cancel hk, rfl, rfl, rfl, ?_, ?_⟩
  · have hc100 : g.pop.history.count true ≤ 100 := hlen ▸ List.count_le_length
    dsimp only
    rw [hlen]
    have e1 : (lit ((g.pop.history.count true : ℕ) : ℚ) : Dbl ρ) = fin ((g.pop.history.count true : ℕ) : ℚ) :=
      ofRat_nat (by omega)
    have e2 : (lit ((100 : ℕ) : ℚ) : Dbl ρ) = fin ((100 : ℕ) : ℚ) := ofRat_nat (by norm_num)
    have hq : ((g.pop.history.count true : ℕ) : ℚ) ≤ 100 := by exact_mod_cast hc100
    rw [e1, e2, div_fin _ _ (by norm_num), ofRat_le (m := 0) (by norm_num)]
    · norm_num
    · rw [abs_of_nonneg (by positivity), div_le_iff₀ (by norm_num)]
      norm_num
      exact hc100
  · intro lens hlens hne
    obtain ⟨dz', hdef, hwd⟩ := Program.exact_dist (m := m) (cap := cap) (by omega) hz h00 hM hb
    refine C90_average_double hw hwd cfg.pop hends.minSize ?_ hk53 _ hv.bs _ hv.sort g.pop hs hrun
      (fun y hy => hnum y (List.mem_append_left _ hy)) lens ?_ hne
    · rw [Program.dbl_n (lib := lib) (cap := cap) (d := dm) (m := m)]
      exact hsmall
    · rw [hlens]
      refine List.map_congr_left fun x hx => ?_
      obtain ⟨p, hgood⟩ := hI.feasible.good x hx
      rw [Program.exact_length (by omega) hdef hgood,
        Program.exact_length (dz := dz') (dz' := dz') (by omega) (fun _ _ _ _ => rfl) hgood]

namespace DimacsDoubleEx
open DoubleEx Spec

/-- C90 applies to the state with two feasible members after four calls of the program. -/
example : ∃ (env : GAEnv F) (ctx : Ctx F) (g : GA F) (l : LogLine F), GA.logLine env ctx g = some l ∧ l.feasSize = 2 ∧
    ∃ b v : ℚ, l.feasBest = fin b ∧ l.feasAverage = fin v ∧ b ≤ v := by
  obtain ⟨xs, hh, hx⟩ := Option.map_eq_some_iff.mp held_four
  obtain ⟨h00, d, ed, hb⟩ := exactPlane_data (lib := lib) (cfg := cfg) (cap := 20) root_ok
    (nodes := ProgramEx.nodes) (by decide) rfl coords_ok
  have hp : parseInstance lib.num ProgramEx.text =
      some (Program.parsed (Program.dblNodes _ ProgramEx.nodes) (fin 20) none) := C51_parse_euclidean lib.num (textOf_lf ProgramEx.raw (by decide)) (forall₂_lineWords _)
    ProgramEx.blockFile describes ProgramEx.euclidean
  obtain ⟨c, hc, hm⟩ : ∃ c, buildCorr lib.sqrt lib.corrSort d = some c ∧
      Program.matrices lib cfg (Program.parsed (Program.dblNodes _ ProgramEx.nodes) (fin 20) none) = some (d, c) := by
    unfold Program.held at hh
    rw [hp, Option.bind_some] at hh
    obtain ⟨mm, h1, -⟩ := Option.bind_eq_some_iff.mp hh
    have h1' := h1
    unfold Program.matrices at h1
    split at h1
    · cases h1
    · rw [show (Program.parsed (Program.dblNodes _ ProgramEx.nodes) (fin 20) none).matrix = none from rfl, ed,
        Option.bind_some] at h1
      obtain ⟨c, h5, rfl⟩ := Option.map_eq_some_iff.mp h1
      exact ⟨c, h5, h1'⟩
  obtain ⟨g, hg, rfl⟩ := Program.held_parts hp hm hh
  have hr := GA.steps_reach (chs ++ more.take 2) (fun ch h => run_ok.choices ch (by
      rw [List.mem_append] at h ⊢
      exact h.imp id List.mem_of_mem_take)) (.new _) hg
  obtain ⟨l, e1, -, -, e2, -, -, -, e3⟩ := C90_log_double_partial (m := none) (M := 2 ^ 24) lib_ok total run_ok.settings
    total_ok loads_ok (fun a ha b hb => (Program.plane_nearest root_ok coords_ok ha hb).2) h00 (by norm_num)
    (by decide) (by decide) (by decide) (ending DoubleEx.cfg (.inl rfl) 20 loads_ok).coords hb hc rfl hr
  have hlen : g.pop.feasible.pop.length = 2 := by
    have := congrArg List.length hx
    simpa using this
  obtain ⟨b, -, -, h1, h2, h3⟩ := e3 _ rfl (by
    intro e
    have := congrArg List.length e
    rw [List.length_map, hlen] at this
    simp at this)
  exact ⟨_, _, g, l, e1, e2.trans hlen, b, _, h1, h2, h3⟩

end DimacsDoubleEx
end Verif
