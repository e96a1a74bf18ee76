import Verif.Lemmas.AnySeen
import Verif.Props.DblEnds
import Verif.Props.DimacsDoubleExamples

/-!
# C88: no feasible solution is lost, in double precision

Whole demands and distances; `ρ` is any monotone rounding. All random draws, hash orders and clock readings.
-/

namespace Verif
open F64 Dbl

variable {ρ : Rounding}

/-- A whole number that is less is found less. -/
theorem int_approxLt {a b : ℤ} (ha : |a| ≤ 2 ^ 52) (hb : |b| ≤ 2 ^ 52) (h : a < b) :
    approxLt (ofInt a : Dbl ρ) (ofInt b) = true := by
  obtain ⟨e, he, e0, e1⟩ := eps_small (ρ := ρ)
  obtain ⟨a1, a2⟩ := abs_le.mp ha
  obtain ⟨b1, b2⟩ := abs_le.mp (show |(b : ℚ)| ≤ 2 ^ 52 by exact_mod_cast hb)
  have hs : (ofInt b : Dbl ρ) -. eps = fin (ρ.fl (b - e)) := by
    rw [he, ofInt, sub_fin]
    refine ofRat_le (m := 53) (by norm_num) ?_
    rw [abs_le]
    norm_num at b1 b2 ⊢
    constructor <;> linarith
  unfold approxLt
  rw [hs, ofInt, lt_fin, decide_eq_true_eq]
  have h1 : (a : ℚ) + 1 ≤ b := by exact_mod_cast h
  have h2 := ρ.rep (2 * a + 1) (-1) (by
    obtain ⟨b1, b2⟩ := abs_le.mp hb
    rw [abs_le]
    constructor <;> omega) (by norm_num)
  have e3 : ((2 * a + 1 : ℤ) : ℚ) * 2 ^ (-1 : ℤ) = a + 1 / 2 := by
    push_cast
    rw [zpow_neg_one]
    ring
  rw [e3] at h2
  have h3 := ρ.mono (a + 1 / 2) (b - e) (by linarith)
  rw [h2] at h3
  linarith

/-- A cost that is a whole number or infinite. -/
def WholeCost (a : Dbl ρ) : Prop := a = .inf false ∨ ∃ k : ℤ, a = ofInt k ∧ |k| ≤ 2 ^ 52

theorem le_int {a b : ℤ} : ((ofInt a : Dbl ρ) ≤. ofInt b) = true ↔ a ≤ b := by
  unfold ofInt
  rw [le_fin, decide_eq_true_eq]
  exact_mod_cast Iff.rfl

theorem fin_le_inf (r : ℚ) : ((fin r : Dbl ρ) ≤. .inf false) = true := rfl

theorem inf_le_inf : ((.inf false : Dbl ρ) ≤. .inf false) = true := rfl

theorem inf_le_fin (r : ℚ) : ((.inf false : Dbl ρ) ≤. fin r) = false := rfl

theorem inf_approxLt (b : Dbl ρ) : approxLt (.inf false : Dbl ρ) b = false := by
  unfold approxLt
  cases b -. eps with
  | nan => rfl
  | inf s => cases s <;> rfl
  | fin r => rfl

theorem fin_approxLt_inf (r : ℚ) : approxLt (fin r : Dbl ρ) (.inf false) = true := by
  obtain ⟨e, he, -⟩ := eps_small (ρ := ρ)
  unfold approxLt
  rw [he]
  rfl

/-- The costs of recorded solutions. -/
theorem costLaws_dbl {ctx : Ctx (Dbl ρ)} {q : ℕ → ℤ} {Q D M : ℤ} {d : ℕ → ℕ → ℤ} (hw : Whole ctx q Q D)
    (hd : WholeDist ctx d M) (nv : ℕ) :
    CostLaws ctx (fun rt => LoadExact q Q rt ∧ DistExact d rt) nv (WholeCost (ρ := ρ)) where
  inf := Or.inl rfl
  le_inf a ha := by
    rcases ha with rfl | ⟨k, rfl, -⟩ <;> rfl
  refl a ha := by
    rcases ha with rfl | ⟨k, rfl, -⟩
    · rfl
    · exact le_int.mpr (le_refl _)
  trans a b c ha hb hc h1 h2 := by
    rcases hc with rfl | ⟨k, rfl, -⟩
    · rcases ha with rfl | ⟨j, rfl, -⟩ <;> rfl
    · rcases hb with rfl | ⟨j, rfl, -⟩
      · exact absurd h2 (by rw [ofInt, inf_le_fin]; decide)
      · rcases ha with rfl | ⟨i, rfl, -⟩
        · exact absurd h1 (by rw [ofInt, inf_le_fin]; decide)
        · exact le_int.mpr ((le_int.mp h1).trans (le_int.mp h2))
  less a b ha hb h := by
    rcases ha with rfl | ⟨i, rfl, hi⟩
    · rw [inf_approxLt] at h
      cases h
    · rcases hb with rfl | ⟨j, rfl, hj⟩
      · rfl
      · exact le_int.mpr (approxLt_int hj h).le
  not_less a b ha hb h := by
    rcases ha with rfl | ⟨i, rfl, hi⟩
    · rcases hb with rfl | ⟨j, rfl, hj⟩ <;> rfl
    · rcases hb with rfl | ⟨j, rfl, hj⟩
      · rw [ofInt, fin_approxLt_inf] at h
        cases h
      · refine le_int.mpr (not_lt.mp fun hlt => ?_)
        rw [int_approxLt hi hj hlt] at h
        cases h
  cost p x h := by
    obtain ⟨c1, c2, c3⟩ := recorded_cost hw (fun _ h => h.1) hd h
    exact Or.inr ⟨_, c1, by rw [abs_of_nonneg c2]; exact c3⟩
  beats p x b h hb hbt := by
    obtain ⟨c1, c2, c3⟩ := recorded_cost hw (fun _ h => h.1) hd h
    rcases hb with rfl | ⟨j, rfl, hj⟩
    · rw [c1]
      rfl
    · rw [c1]
      exact le_int.mpr (beats_less hw hd h hj hbt).le

namespace Program

/-- The feasible subpopulation after the listed calls of `iterate`, without decomposition; models
`/repo/src/main.rs:10-52` and `/repo/src/solver/genetic/population.rs:44-55`. -/
def held {α : Type} [F64 α] (lib : Lib α) (cfg : Settings α) (text : List Char) (ω : Oracle)
    (chs : List (GAChoice α)) : Option (List (Individual α)) :=
  (parseInstance lib.num text).bind fun p =>
  (matrices lib cfg p).bind fun m =>
  (GA.steps (gaEnv lib cfg (context lib p m.1) m.1 m.2) (context lib p m.1) chs
    (GA.new (gaEnv lib cfg (context lib p m.1) m.1 m.2) (context lib p m.1) ω)).map fun g => g.pop.feasible.pop

variable {lib : Lib (Dbl ρ)} {cfg : Settings (Dbl ρ)} {nodes : List (ℚ × ℚ × ℚ)} {cap : ℚ}
  {m : Option (List (List (Dbl ρ)))} {text : List Char} {ω : Oracle} {chs chs' : List (GAChoice (Dbl ρ))}
  {dchs : List (DGAChoice (Dbl ρ))} {out : List (List Char)} {xs : List (Individual (Dbl ρ))}

/-- The length of a complete solution. -/
theorem exact_length {d : DistMatrix (Dbl ρ)} (hn : 0 < nodes.length) {dz dz' : ℕ → ℕ → ℤ}
    (hdef : ∀ a < nodes.length, ∀ b < nodes.length, dz' a b = dz a b) {p : Dbl ρ} {x : Individual (Dbl ρ)}
    (hx : x.Good (RR.ctxAt (context lib (parsed (dblNodes ρ nodes) (fin cap) m) d) p)) :
    (x.phenotype.map (Spec.routeDist fun a b => (dz a b : ℚ))).sum = ((x.phenotype.map (tripZ dz')).sum : ℤ) := by
  have hin : ∀ r ∈ x.phenotype, ∀ c ∈ r, c < nodes.length := by
    intro r hr c hc
    have : c ∈ Spec.customers (RR.ctxAt (context lib (parsed (dblNodes ρ nodes) (fin cap) m) d) p).n :=
      hx.part.subset (List.mem_flatten.mpr ⟨r, hr, hc⟩)
    have e : (RR.ctxAt (context lib (parsed (dblNodes ρ nodes) (fin cap) m) d) p).n = nodes.length :=
      dbl_n (lib := lib) (cap := cap) (d := d) (m := m)
    rw [e, Spec.customers, List.mem_range'_1] at this
    omega
  have hcongr : ∀ r ∈ x.phenotype, Spec.routeDist (fun a b => (dz a b : ℚ)) r = (tripZ dz' r : ℤ) := by
    intro r hr
    rw [← tripZ_cast]
    refine pathDist_congr (n := nodes.length) (fun a ha b hb => ?_) _ fun c hc => ?_
    · rw [hdef a ha b hb]
    · simp only [List.mem_cons, List.mem_append, List.not_mem_nil, or_false] at hc
      rcases hc with rfl | hc | rfl
      · omega
      · exact hin r hr c hc
      · omega
  rw [List.map_congr_left hcongr]
  have e3 : ∀ L : List (List ℕ), (L.map fun r => ((tripZ dz' r : ℤ) : ℚ)).sum = ((L.map (tripZ dz')).sum : ℤ) := by
    intro L
    induction L with
    | nil => simp
    | cons r L ih => simp only [List.map_cons, List.sum_cons, ih]; push_cast; rfl
  exact e3 _

/-- What a call of `held` goes through. -/
theorem held_parts {α : Type} [F64 α] {lib : Lib α} {cfg : Settings α} {P : Parsed α} {text : List Char}
    {ω : Oracle} {chs : List (GAChoice α)} {xs : List (Individual α)}
    (hp : parseInstance lib.num text = some P) {d : DistMatrix α} {c : Correlation}
    (hm : matrices lib cfg P = some (d, c)) (h : held lib cfg text ω chs = some xs) :
    ∃ g, GA.steps (gaEnv lib cfg (context lib P d) d c) (context lib P d) chs
      (GA.new (gaEnv lib cfg (context lib P d) d c) (context lib P d) ω) = some g ∧ xs = g.pop.feasible.pop := by
  unfold held at h
  rw [hp, Option.bind_some, hm, Option.bind_some] at h
  obtain ⟨g, h1, rfl⟩ := Option.map_eq_some_iff.mp h
  exact ⟨g, h1, rfl⟩

/-- C88 for distances given as whole numbers. -/
theorem held_exact (hr : DblRun lib cfg nodes.length (chs ++ chs') dchs) (hd : DblLoads nodes cap)
    (hlim : nodes.length - 1 < cfg.decomposeLimit)
    {dz : ℕ → ℕ → ℤ} {M : ℤ} (hz : ∀ a < nodes.length, ∀ b < nodes.length, 0 ≤ dz a b ∧ dz a b ≤ M)
    (h00 : dz 0 0 = 0) (h43 : M ≤ 2 ^ 43) (hM : 4 * (nodes.length * M) ≤ 2 ^ 53)
    (hp : parseInstance lib.num text = some (parsed (dblNodes ρ nodes) (fin cap) m))
    (hb : ∃ d, buildDist lib.sqrt (locations (parsed (dblNodes ρ nodes) (fin cap) m))
      (decide ((parsed (dblNodes ρ nodes) (fin cap) m).nodes.length - 1 < cfg.precomputeLimit)) cfg.rounded m = some d ∧
      Built lib nodes.length (fun a b => fin (dz a b : ℚ)) d)
    (hh : held lib cfg text ω chs = some xs) {x : Individual (Dbl ρ)} (hx : x ∈ xs) (hnum : x.cost ≠ nan)
    (hout : output lib cfg text ω (chs ++ chs') dchs = some out) :
    Spec.IsPartition nodes.length x.phenotype ∧ Spec.CapFeasible (Spec.nodeDemand nodes) cap 0 x.phenotype ∧
    ∃ t R N, out.getLast? = some t ∧ Spec.readSolution t = some (R, N) ∧
      (N : ℚ) ≤ (x.phenotype.map (Spec.routeDist fun a b => (dz a b : ℚ))).sum := by
  obtain ⟨d, e, hb⟩ := hb
  obtain ⟨c, h, h1, h2, h3, rfl⟩ := output_parts hp e hout
  obtain ⟨g, hg, rfl⟩ := held_parts hp h2 hh
  obtain ⟨Q, D, hQ, hw⟩ := dbl_whole (lib := lib) (m := m) (d := d) (ρ := ρ) hd
  have hgran := hr.settings.gran
  have hn : 3 ≤ nodes.length := by have := hgran.1; have := hgran.2; omega
  have hxd : DblDist nodes.length fun a b => (dz a b : ℚ) := by
    intro a ha b hb
    obtain ⟨x, y⟩ := hz a ha b hb
    have y' : dz a b ≤ 2 ^ 43 := y.trans h43
    constructor
    · show (0 : ℚ) ≤ (dz a b : ℚ)
      exact_mod_cast x
    · show (dz a b : ℚ) ≤ 2 ^ 43
      exact_mod_cast y'
  obtain ⟨dz', hdef, hwd⟩ := exact_dist (m := m) (cap := cap) (by omega) hz h00 hM hb
  have hE := (loadExact_laws hw).and (distExact_laws hwd)
  have hv := dbl_gaLaws (m := m) hr.lib hr.settings hd hxd hb h1 hE
  have hk := costLaws_dbl hw hwd
    (gaEnv lib cfg (context lib (parsed (dblNodes ρ nodes) (fin cap) m) d) d c).split.numVehicles
  have hc1 : ∀ ch ∈ chs, GA.ChOK ch := fun ch hch => hr.choices ch (List.mem_append_left _ hch)
  have hc2 : ∀ ch ∈ chs', GA.ChOK ch := fun ch hch => hr.choices ch (List.mem_append_right _ hch)
  have i1 := GA.steps_any hv chs hc1 (GA.new_any hv ω) hg
  have s1 := GA.steps_anySeen hv hk chs hc1 (GA.new_any hv ω) (GA.new_anySeen hk ω) hg
  unfold progress at h3
  rw [if_neg (by rw [dbl_n]; omega), GA.steps_append, hg, Option.bind_some] at h3
  obtain ⟨g', hg', rfl⟩ := Option.map_eq_some_iff.mp h3
  have i2 := GA.steps_any hv chs' hc2 i1 hg'
  have hlog := GA.steps_log_any chs' hg'
  obtain ⟨hs, hrun⟩ := i1.base.pop
  have hI := (hrun.inv hv.bs hv.sort).feasible
  obtain ⟨p, hgood⟩ := hI.good x hx
  have hf := hI.class_ x hx
  obtain ⟨hload, hcost⟩ := feasible_cost hw hwd hgood hf
  obtain ⟨c1, c2, c3⟩ := hcost.resolve_left hnum
  have hkx : WholeCost x.cost := Or.inr ⟨_, c1, by rw [abs_of_nonneg c2]; exact c3⟩
  have hle := s1.all x (List.mem_append_left _ hx) hf hkx
  have hle' := hk.trans _ _ _ (i2.hist.2.2.best hk) (i1.hist.2.2.best hk) hkx
    (HistOK.descends hk i1.hist i2.hist hlog) hle
  refine ⟨?_, ?_, ?_⟩
  · have : (RR.ctxAt (context lib (parsed (dblNodes ρ nodes) (fin cap) m) d) p).n = nodes.length :=
      dbl_n (lib := lib) (cap := cap) (d := d) (m := m)
    rw [← this]
    exact hgood.part
  · intro r hr
    have := hload r hr
    have e : Spec.nodeDemand nodes = fun a => (demandZ nodes a : ℚ) := funext (demandZ_cast hd)
    rw [e, loadZ_cast, hQ, add_zero]
    exact_mod_cast this
  · rw [exact_length (by omega) hdef hgood]
    have hl2 := i2.hist.2.2
    generalize hb : g'.rr.hist.bestCost = b at hl2 hle'
    generalize hl : g'.rr.hist.log = l at hl2
    rw [c1] at hle'
    cases hl2 with
    | new => exact absurd hle' (by rw [ofInt, show (F64.inf : Dbl ρ) = .inf false from rfl, inf_le_fin]; decide)
    | @add l b p y _ hy _ =>
      obtain ⟨y1, y2, y3⟩ := recorded_cost hw (fun _ h => h.1) hwd hy
      rw [y1] at hle'
      obtain ⟨t, ht, h4⟩ := C41_solution_text_round_trip y.phenotype y.cost
      cases ht
      refine ⟨_, _, _, by rw [History.printed, hl, List.map_append, List.map_singleton, List.getLast?_concat], h4, ?_⟩
      have e1 := toNat_int (ρ := ρ) y2 y3
      rw [← y1] at e1
      have e2 : ((toNat (F64.round y.cost) : ℕ) : ℤ) ≤ (x.phenotype.map (tripZ dz')).sum := by
        rw [e1]
        exact le_int.mp hle'
      exact_mod_cast e2

end Program

open Program Spec

variable {lib : Lib (Dbl ρ)} {cfg : Settings (Dbl ρ)} {nodes : List (ℚ × ℚ × ℚ)} {cap : ℚ}
  {text : List Char} {raw : List (List Char)} {lines pre : List (List (List Char))} {blocks : List Block}
  {rows : List (List ℚ)} {ω : Oracle} {chs chs' : List (GAChoice (Dbl ρ))} {dchs : List (DGAChoice (Dbl ρ))}
  {out : List (List Char)} {xs : List (Individual (Dbl ρ))}

/-- **C88**. In double precision, with whole coordinates and rounded distances, without decomposition: whatever the
feasible subpopulation holds after the calls `chs` is within the capacity, and if its cost is a number then after any
further calls `chs'` the cost stated in the last printed solution, which is the one in the solution file, is at most
its length. -/
theorem C88_kept_plane (hroot : SqrtOK lib.sqrt) (ht : TextOf text raw)
    (hl : List.Forall₂ LaidOut raw lines) (hf : BlockFile lines pre blocks)
    (hd : Describes (fun w x => lib.num w = some x) (fun w n => parseUsize w = some n) blocks (fin cap)
      (dblNodes ρ nodes))
    (he : Euclidean blocks) (hr : DblRun lib cfg nodes.length (chs ++ chs') dchs) (hload : DblLoads nodes cap)
    (hrd : cfg.rounded = true) (hco : WholeCoords nodes) (hn27 : nodes.length ≤ 2 ^ 27)
    (hlim : nodes.length - 1 < cfg.decomposeLimit) (hh : Program.held lib cfg text ω chs = some xs)
    {x : Individual (Dbl ρ)} (hx : x ∈ xs) (hnum : x.cost ≠ nan)
    (hout : Program.output lib cfg text ω (chs ++ chs') dchs = some out) :
    IsPartition nodes.length x.phenotype ∧ CapFeasible (nodeDemand nodes) cap 0 x.phenotype ∧
    ∃ t R N, out.getLast? = some t ∧ readSolution t = some (R, N) ∧
      (N : ℚ) ≤ (x.phenotype.map (routeDist (nearestDist nodes))).sum := by
  obtain ⟨h00, hb⟩ := exactPlane_data (lib := lib) (cap := cap) hroot (by have := hr.settings.gran; omega) hrd hco
  refine held_exact (dz := fun a b => ⌊realDist nodes a b + 1 / 2⌋) (M := 2 ^ 24) hr hload hlim
    (fun a ha b hb => (plane_nearest hroot hco ha hb).2) h00 (by norm_num) ?_
    (C51_parse_euclidean lib.num ht hl hf hd he) hb hh hx hnum hout
  have : (nodes.length : ℤ) ≤ 2 ^ 27 := by exact_mod_cast hn27
  linarith

/-- **C88**, an explicit matrix of whole numbers, or of any numbers that are rounded. -/
theorem C88_kept_explicit (ht : TextOf text raw)
    (hl : List.Forall₂ LaidOut raw lines) (hf : BlockFile lines pre blocks)
    (hd : Describes (fun w x => lib.num w = some x) (fun w n => parseUsize w = some n) blocks (fin cap)
      (dblNodes ρ nodes))
    (he : ExplicitRows (fun w x => lib.num w = some x) blocks (dblRows ρ rows)) (hlen : rows.length + 1 = nodes.length)
    (hrow : ∀ (i : ℕ) (row : List ℚ), rows[i]? = some row → row.length = i + 1) {M : ℤ}
    (hnn : ∀ row ∈ rows, ∀ x ∈ row, 0 ≤ x ∧ x ≤ M ∧ (cfg.rounded = true ∨ ∃ k : ℤ, x = k)) (h43 : M ≤ 2 ^ 43)
    (hM : 4 * (nodes.length * M) ≤ 2 ^ 53) (hr : DblRun lib cfg nodes.length (chs ++ chs') dchs)
    (hload : DblLoads nodes cap) (hlim : nodes.length - 1 < cfg.decomposeLimit)
    (hh : Program.held lib cfg text ω chs = some xs)
    {x : Individual (Dbl ρ)} (hx : x ∈ xs) (hnum : x.cost ≠ nan)
    (hout : Program.output lib cfg text ω (chs ++ chs') dchs = some out) :
    IsPartition nodes.length x.phenotype ∧ CapFeasible (nodeDemand nodes) cap 0 x.phenotype ∧
    ∃ t R N, out.getLast? = some t ∧ readSolution t = some (R, N) ∧
      (N : ℚ) ≤ (x.phenotype.map (routeDist (lowerRowDist cfg.rounded rows))).sum := by
  obtain ⟨dz, e, hz, h00, hb⟩ := exactExplicit_data (lib := lib) (cap := cap) hlen
    (by have := hr.settings.gran; omega) hrow hnn
  rw [e]
  exact held_exact (M := M) hr hload hlim hz h00 h43 hM
    (C51_parse_explicit lib.num ht hl hf hd he (by rw [dblNodes_length]; simpa [dblRows] using hlen)) hb hh hx hnum hout

/-- **C88**, the costs are numbers: no member of the population of a run has a cost that is not a number, under the
conditions on the settings of C78. -/
theorem C88_numbers {d : DistMatrix (Dbl ρ)} {c : Correlation} {dist : ℕ → ℕ → ℚ}
    {m : Option (List (List (Dbl ρ)))} (hl : DblLib lib) (ht : DblTotal lib) (hs : DblSettings cfg nodes.length)
    (he : DblEndsOK cfg nodes.length) (hd : DblLoads nodes cap) (hx : DblDist nodes.length dist)
    (hco : DblCoords nodes) (hb : Built lib nodes.length (fun a b => fin (dist a b)) d)
    (hc : buildCorr lib.sqrt lib.corrSort d = some c) (ctx : Ctx (Dbl ρ))
    (hctx : ctx = context lib (parsed (dblNodes ρ nodes) (fin cap) m) d)
    (g : GA (Dbl ρ)) (hg : GA.Reach (gaEnv lib cfg ctx d c) ctx GA.ChOK g) :
    ∀ x ∈ g.pop.feasible.pop ++ g.pop.infeasible.pop, x.cost ≠ nan := by
  subst hctx
  obtain ⟨Q, D, -, hw⟩ := dbl_whole (lib := lib) (m := m) (d := d) (ρ := ρ) hd
  have hv := dbl_gaLaws (m := m) hl hs hd hx hb hc (loadExact_laws hw)
  obtain ⟨W, hcalm⟩ := dbl_gaCalm (m := m) hl ht hs he hd hx hco hb hc hw
  have hinv : GA.AnyInv (gaEnv lib cfg (context lib (parsed (dblNodes ρ nodes) (fin cap) m) d) d c)
      (context lib (parsed (dblNodes ρ nodes) (fin cap) m) d) (Nn 44) (LoadExact (demandZ nodes) Q) g ∧
      GA.AnyExtra (gaEnv lib cfg (context lib (parsed (dblNodes ρ nodes) (fin cap) m) d) d c)
        (context lib (parsed (dblNodes ρ nodes) (fin cap) m) d) W g := by
    induction hg with
    | new ω => exact ⟨GA.new_any hv ω, GA.new_anyExtra ω⟩
    | step _ hok h ih => exact ⟨GA.iterate_any hv hok ih.1 h, GA.iterate_anyExtra hv hcalm hok ih.1 ih.2 h⟩
  intro x hx hn
  obtain ⟨p, hp, hgood⟩ := hinv.2.tidy.members x hx
  have := hcalm.cmp p p x x hp hp hgood hgood
  unfold Individual.cmp at this
  rw [hn] at this
  rw [show approxEq (nan : Dbl ρ) nan = false from rfl, show ((nan : Dbl ρ) <. nan) = false from rfl,
    show ((nan : Dbl ρ) ≤. nan) = false from rfl] at this
  simp at this

/-- **C88**, instances in the plane under the conditions on the settings of C78: the last printed solution is at
most as long as anything the feasible subpopulation ever held. -/
theorem C88_all_plane (hroot : SqrtOK lib.sqrt) (ht : TextOf text raw)
    (hl : List.Forall₂ LaidOut raw lines) (hf : BlockFile lines pre blocks)
    (hd : Describes (fun w x => lib.num w = some x) (fun w n => parseUsize w = some n) blocks (fin cap)
      (dblNodes ρ nodes))
    (he : Euclidean blocks) (hr : DblRun lib cfg nodes.length (chs ++ chs') dchs) (htot : DblTotal lib)
    (hends : DblEndsOK cfg nodes.length) (hload : DblLoads nodes cap) (hrd : cfg.rounded = true)
    (hco : WholeCoords nodes) (hcd : DblCoords nodes) (hn27 : nodes.length ≤ 2 ^ 27)
    (hh : Program.held lib cfg text ω chs = some xs) {x : Individual (Dbl ρ)} (hx : x ∈ xs)
    (hout : Program.output lib cfg text ω (chs ++ chs') dchs = some out) :
    ∃ t R N, out.getLast? = some t ∧ readSolution t = some (R, N) ∧
      (N : ℚ) ≤ (x.phenotype.map (routeDist (nearestDist nodes))).sum := by
  refine (C88_kept_plane hroot ht hl hf hd he hr hload hrd hco hn27 hends.whole hh hx ?_ hout).2.2
  obtain ⟨-, d, e, hb⟩ := exactPlane_data (lib := lib) (cap := cap) hroot
    (by have := hr.settings.gran; omega) hrd hco
  have hp := C51_parse_euclidean lib.num ht hl hf hd he
  obtain ⟨c, h, h1, h2, -, -⟩ := output_parts hp e hout
  obtain ⟨g, hg, rfl⟩ := held_parts hp h2 hh
  refine C88_numbers hr.lib htot hr.settings hends hload
    (fun a ha b hb => ?_) hcd hb h1 _ rfl g
    (GA.steps_reach chs (fun ch hch => hr.choices ch (List.mem_append_left _ hch)) (.new ω) hg) x
    (List.mem_append_left _ hx)
  obtain ⟨x1, x2⟩ := (plane_nearest hroot hco ha hb).2
  constructor
  · exact_mod_cast x1
  · have : ⌊realDist nodes a b + 1 / 2⌋ ≤ 2 ^ 43 := x2.trans (by norm_num)
    exact_mod_cast this

/-- **C88**, with decomposition. A cycle of the decomposed algorithm puts together a solution from a solved
subproblem and improves it by ruin and recreate. Both, if found feasible at a cost that is a number, are
no cheaper than the recorded best afterwards. -/
theorem C88_decomposed {d : DistMatrix (Dbl ρ)} {c : Correlation} {dz : ℕ → ℕ → ℤ} {M : ℤ}
    {m : Option (List (List (Dbl ρ)))} (hl : DblLib lib) (hs : DblSettings cfg nodes.length) (hd : DblLoads nodes cap)
    (hz : ∀ a < nodes.length, ∀ b < nodes.length, 0 ≤ dz a b ∧ dz a b ≤ M) (h00 : dz 0 0 = 0) (h43 : M ≤ 2 ^ 43)
    (hM : 4 * (nodes.length * M) ≤ 2 ^ 53) (hb : Built lib nodes.length (fun a b => fin (dz a b : ℚ)) d)
    (hc : buildCorr lib.sqrt lib.corrSort d = some c) (hdec : cfg.decomposeLimit ≤ nodes.length - 1)
    (ctx : Ctx (Dbl ρ)) (hctx : ctx = context lib (parsed (dblNodes ρ nodes) (fin cap) m) d)
    (hch : ∀ ch ∈ dchs, DGA.ChOK ch) {s s' : DGA (Dbl ρ)}
    (hrun : DGA.steps (decompEnv lib cfg ctx d c) ctx dchs (DGA.new (decompEnv lib cfg ctx d c) ctx ω) = some s)
    {ch : DGAChoice (Dbl ρ)} (hok : DGA.ChOK ch) (hst : s.state = .cycle)
    {x : Individual (Dbl ρ)} (hx : DGA.solveSub (decompEnv lib cfg ctx d c) ctx ch s = some x)
    (hs' : DGA.improve (decompEnv lib cfg ctx d c) ctx ch x s = some s') :
    ∀ y, (y = x ∨ y = s'.global) → y.isFeasible = true → y.cost ≠ nan →
      CapFeasible (nodeDemand nodes) cap 0 y.phenotype ∧
      ∃ e, s'.ga.rr.hist.entries.getLast? = some e ∧
        (e.routes.map (routeDist fun a b => (dz a b : ℚ))).sum ≤
          (y.phenotype.map (routeDist fun a b => (dz a b : ℚ))).sum := by
  subst hctx
  obtain ⟨Q, D, hQ, hw⟩ := dbl_whole (lib := lib) (m := m) (d := d) (ρ := ρ) hd
  have hgran := hs.gran
  have hn : 3 ≤ nodes.length := by have := hgran.1; have := hgran.2; omega
  have hxd : DblDist nodes.length fun a b => (dz a b : ℚ) := by
    intro a ha b hb
    obtain ⟨x, y⟩ := hz a ha b hb
    have y' : dz a b ≤ 2 ^ 43 := y.trans h43
    constructor
    · show (0 : ℚ) ≤ (dz a b : ℚ)
      exact_mod_cast x
    · show (dz a b : ℚ) ≤ 2 ^ 43
      exact_mod_cast y'
  obtain ⟨dz', hdef, hwd⟩ := exact_dist (m := m) (cap := cap) (by omega) hz h00 hM hb
  have hE := (loadExact_laws hw).and (distExact_laws hwd)
  have hv := dbl_dgaLaws (m := m) hl hs hd hxd hb hc hdec hE
  have hk := costLaws_dbl hw hwd
    (decompEnv lib cfg (context lib (parsed (dblNodes ρ nodes) (fin cap) m) d) d c).ga.split.numVehicles
  have i1 := DGA.steps_any hv dchs hch (DGA.new_any hv ω) hrun
  have n1 := DGA.steps_anySeen hv hk dchs hch (DGA.new_any hv ω) (GA.new_anySeen hk (ω.sub 1)) hrun
  obtain ⟨g1, g2⟩ := i1.global hst
  have hxg := DGA.solveSub_any hv hok i1.mu.pen g1 (GA.nonempty_le g2) hx
  have i2 := DGA.improve_any hv hok i1 hst hxg hs'
  obtain ⟨-, w1, w2⟩ := DGA.improve_anySeen hv hk hok i1 n1 hxg hs'
  have key : ∀ p y, Individual.Good (RR.ctxAt (context lib (parsed (dblNodes ρ nodes) (fin cap) m) d) p) y →
      GA.NoWorse WholeCost s'.ga.rr.hist.bestCost y → y.isFeasible = true → y.cost ≠ nan →
      CapFeasible (nodeDemand nodes) cap 0 y.phenotype ∧
      ∃ e, s'.ga.rr.hist.entries.getLast? = some e ∧
        (e.routes.map (routeDist fun a b => (dz a b : ℚ))).sum ≤
          (y.phenotype.map (routeDist fun a b => (dz a b : ℚ))).sum := by
    intro p y hgood hnw hf hnum
    obtain ⟨hload, hcost⟩ := feasible_cost hw hwd hgood hf
    obtain ⟨c1, c2, c3⟩ := hcost.resolve_left hnum
    have hle := hnw hf (Or.inr ⟨_, c1, by rw [abs_of_nonneg c2]; exact c3⟩)
    refine ⟨fun r hr => ?_, ?_⟩
    · have := hload r hr
      have e : Spec.nodeDemand nodes = fun a => (demandZ nodes a : ℚ) := funext (demandZ_cast hd)
      rw [e, loadZ_cast, hQ, add_zero]
      exact_mod_cast this
    · rw [exact_length (by omega) hdef hgood]
      obtain ⟨hlast, -, hl2⟩ := i2.mu.hist
      generalize hb : s'.ga.rr.hist.bestCost = b at hl2 hle
      generalize hl : s'.ga.rr.hist.log = l at hl2 hlast
      rw [c1] at hle
      cases hl2 with
      | new => exact absurd hle (by rw [ofInt, show (F64.inf : Dbl ρ) = .inf false from rfl, inf_le_fin]; decide)
      | @add l b p z _ hz _ =>
        obtain ⟨y1, y2, y3⟩ := recorded_cost hw (fun _ h => h.1) hwd hz
        rw [y1] at hle
        refine ⟨_, by rw [hlast, List.getLast?_concat], ?_⟩
        rw [exact_length (by omega) hdef hz.good]
        exact_mod_cast le_int.mp hle
  intro y hy
  rcases hy with rfl | rfl
  · exact key _ _ hxg w1
  · refine key s'.ga.rr.pen _ (i2.global ?_).1 w2
    unfold DGA.improve at hs'
    dsimp only at hs'
    obtain ⟨_, -, hs'⟩ := Option.bind_eq_some_iff.mp hs'
    obtain ⟨_, -, hs'⟩ := Option.bind_eq_some_iff.mp hs'
    obtain ⟨_, -, rfl⟩ := Option.map_eq_some_iff.mp hs'
    exact hst

end Verif
