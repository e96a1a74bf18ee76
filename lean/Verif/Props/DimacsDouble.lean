import Verif.Lemmas.LogGrows
import Verif.Props.Dimacs
import Verif.Props.ProgramDouble

/-!
# C84: the solutions printed by the `dimacs` build, in double precision

`ρ` is any rounding that does not round 1.2 up; `nearestEven`, the rounding of the machine, is one
(`nearestEven_fleet`). All random draws, hash orders and clock readings.
-/

namespace Verif
open F64 Dbl

variable {ρ : Rounding}

/-- A whole number that is found less is less. -/
theorem approxLt_int {a b : ℤ} (hb : |b| ≤ 2 ^ 52) (h : approxLt (ofInt a : Dbl ρ) (ofInt b) = true) : a < b := by
  obtain ⟨e, he, e0, e1⟩ := eps_small (ρ := ρ)
  have hb' : |(b : ℚ)| ≤ 2 ^ 52 := by exact_mod_cast hb
  obtain ⟨b1, b2⟩ := abs_le.mp hb'
  have hs : (ofInt b : Dbl ρ) -. eps = fin (ρ.fl (b - e)) := by
    rw [he, ofInt, sub_fin]
    refine ofRat_le (m := 53) (by norm_num) ?_
    rw [abs_le]
    norm_num at b1 b2 ⊢
    constructor <;> linarith
  unfold approxLt at h
  rw [hs, ofInt, lt_fin, decide_eq_true_eq] at h
  have h1 := ρ.mono (b - e) b (by linarith)
  have h2 : ρ.fl (b : ℚ) = b := by
    have := ρ.rep b 0 (by linarith) (by norm_num)
    simpa using this
  rw [h2] at h1
  exact_mod_cast lt_of_lt_of_le h h1

variable {ctx : Ctx (Dbl ρ)} {q : ℕ → ℤ} {Q D M : ℤ} {d : ℕ → ℕ → ℤ}

/-- With whole demands and distances, what beats a cost is shorter. -/
theorem beats_less (hw : Whole ctx q Q D) (hd : WholeDist ctx d M) {nv : ℕ} {p : Dbl ρ} {x : Individual (Dbl ρ)}
    (h : Recorded ctx (fun rt => LoadExact q Q rt ∧ DistExact d rt) nv p x) {b : ℤ} (hb0 : |b| ≤ 2 ^ 52)
    (hb : Beats ctx (fun rt => LoadExact q Q rt ∧ DistExact d rt) p x (ofInt b)) :
    (x.phenotype.map (tripZ d)).sum < b := by
  obtain ⟨c1, c2, c3⟩ := recorded_cost hw (fun _ h => h.1) hd h
  rcases hb with ⟨-, hb⟩ | ⟨s, h1, -, h3, hb⟩
  · rw [c1] at hb
    exact approxLt_int hb0 hb
  · have hM := hd.M_nonneg
    have hload := recorded_loads hw (fun _ h => h.1) h
    have hlen : x.phenotype.flatten.length ≤ ctx.n := by
      have := h.good.part.length_eq
      simp only [Spec.customers, List.length_range'] at this
      have h2 : (RR.ctxAt ctx p).n = ctx.n := rfl
      omega
    have hroute : ∀ rt ∈ s.routes, rt.distance +. F64.max (lit 0) rt.overload *. p = ofInt (tripZ d rt.nodes) := by
      intro rt hrt
      have hl : rt.nodes ∈ x.phenotype := h3.mem_iff.mpr (List.mem_map.mpr ⟨rt, hrt, rfl⟩)
      obtain ⟨e1, e2⟩ := h1 rt hrt
      unfold LoadExact at e1
      unfold DistExact at e2
      have hp : (ofInt 0 : Dbl ρ) *. p = ofInt 0 := by
        have := recorded_pen hw (fun _ h => h.1) h (List.ne_nil_of_mem hl)
        rcases pen_zero p with hp | ⟨hp, -⟩
        · exact hp.2
        · rw [hp] at this
          cases this
      rw [e1, max_zero, max_eq_left (by have := hload _ hl; omega), hp, e2]
      have hs : rt.nodes.length ≤ ctx.n - 1 := h.good.short hl
      have t := hd.trip_le rt.nodes
      have m := hd.mul_le (k := rt.nodes.length) (by omega)
      rw [ofInt_add (by rw [add_zero, abs_of_nonneg t.1]; omega), add_zero]
    have hsum : ∀ L : List (RRoute (Dbl ρ)), 0 ≤ (L.map fun rt => tripZ d rt.nodes).sum ∧
        (L.map fun rt => tripZ d rt.nodes).sum ≤ 2 * ((L.map (·.nodes)).flatten.length * M) := by
      intro L
      induction L with
      | nil => simp
      | cons l L ih =>
        have t := hd.trip_le l.nodes
        simp only [List.map_cons, List.sum_cons, List.flatten_cons, List.length_append]
        push_cast
        rw [add_mul]
        omega
    have hfold : ∀ (L : List (RRoute (Dbl ρ))) (a : ℤ), 0 ≤ a →
        (∀ rt ∈ L, rt.distance +. F64.max (lit 0) rt.overload *. p = ofInt (tripZ d rt.nodes)) →
        a + 2 * ((L.map (·.nodes)).flatten.length * M) ≤ 2 ^ 53 →
        L.foldl (fun c r => c +. (r.distance +. F64.max (lit 0) r.overload *. p)) (ofInt a : Dbl ρ) =
          ofInt (a + (L.map fun rt => tripZ d rt.nodes).sum) := by
      intro L
      induction L with
      | nil => intro a _ _ _; simp
      | cons l L ih =>
        intro a ha hL hb
        have t := hd.trip_le l.nodes
        have tL := hsum L
        simp only [List.map_cons, List.flatten_cons, List.length_append] at hb
        push_cast at hb
        rw [add_mul] at hb
        rw [List.foldl_cons, hL l (by simp), ofInt_add (by rw [abs_of_nonneg (by omega)]; omega),
          ih (a + tripZ d l.nodes) (by omega) (fun r hr => hL r (by simp [hr])) (by omega)]
        simp only [List.map_cons, List.sum_cons, add_assoc]
    have hperm : (s.routes.map fun rt => tripZ d rt.nodes).sum = (x.phenotype.map (tripZ d)).sum := by
      have := (h3.map (tripZ d)).sum_eq
      rw [this, RRSol.stops, List.map_map]
      rfl
    have hfl : (s.routes.map (·.nodes)).flatten.length = x.phenotype.flatten.length := h3.flatten.length_eq.symm
    have htot := hd.mul_le hlen
    have : RRSol.costOf (RR.ctxAt ctx p) s.routes = ofInt (x.phenotype.map (tripZ d)).sum := by
      have := hfold s.routes 0 (le_refl _) hroute (by rw [hfl]; omega)
      rw [zero_add, hperm, ← lit_zero'] at this
      exact this
    rw [this] at hb
    exact approxLt_int hb0 hb

/-- The recorded costs go down. -/
theorem log_descends (hw : Whole ctx q Q D) (hd : WholeDist ctx d M) {nv : ℕ} {l : List (HistEntry (Dbl ρ))}
    {b : Dbl ρ} (h : HistLog ctx (fun rt => LoadExact q Q rt ∧ DistExact d rt) nv l b) :
    (∀ e ∈ l, e.cost = ofInt (e.routes.map (tripZ d)).sum ∧ 0 ≤ (e.routes.map (tripZ d)).sum ∧
      (e.routes.map (tripZ d)).sum ≤ 2 ^ 52) ∧
    l.Pairwise (fun e e' => (e'.routes.map (tripZ d)).sum < (e.routes.map (tripZ d)).sum) ∧
    (l = [] ∨ ∃ k, b = ofInt k ∧ |k| ≤ 2 ^ 52 ∧ ∀ e ∈ l, k ≤ (e.routes.map (tripZ d)).sum) := by
  induction h with
  | new => exact ⟨by simp, .nil, .inl rfl⟩
  | @add l b p x hl hr hb ih =>
    obtain ⟨i1, i2, i3⟩ := ih
    obtain ⟨c1, c2, c3⟩ := recorded_cost hw (fun _ h => h.1) hd hr
    have hlt : ∀ e ∈ l, (x.phenotype.map (tripZ d)).sum < (e.routes.map (tripZ d)).sum := by
      intro e he
      rcases i3 with rfl | ⟨k, rfl, hk, hall⟩
      · cases he
      · exact lt_of_lt_of_le (beats_less hw hd hr hk hb) (hall e he)
    refine ⟨?_, ?_, .inr ⟨_, c1, by rw [abs_of_nonneg c2]; exact c3, ?_⟩⟩
    · intro e he
      rcases List.mem_append.mp he with he | he
      · exact i1 e he
      · rw [List.mem_singleton] at he
        subst he
        exact ⟨c1, c2, c3⟩
    · rw [List.pairwise_append]
      refine ⟨i2, List.pairwise_singleton _ _, fun e he e' he' => ?_⟩
      rw [List.mem_singleton] at he'
      subst he'
      exact hlt e he
    · intro e he
      rcases List.mem_append.mp he with he | he
      · exact (hlt e he).le
      · rw [List.mem_singleton] at he
        subst he
        exact le_refl _

namespace Program

variable {lib : Lib (Dbl ρ)} {cfg : Settings (Dbl ρ)} {nodes : List (ℚ × ℚ × ℚ)} {cap : ℚ} {dist : ℕ → ℕ → ℚ}
  {m : Option (List (List (Dbl ρ)))} {text : List Char} {ω : Oracle} {chs chs' : List (GAChoice (Dbl ρ))}
  {dchs dchs' : List (DGAChoice (Dbl ρ))} {out : List (List Char)}

/-- What a run has in its history at any time. -/
theorem dbl_progress (hr : DblRun lib cfg nodes.length chs dchs) (hd : DblLoads nodes cap)
    (hx : DblDist nodes.length dist) {d : DistMatrix (Dbl ρ)} {c : Correlation}
    (hb : Built lib nodes.length (fun a b => fin (dist a b)) d)
    (hc : buildCorr lib.sqrt lib.corrSort d = some c)
    {E : RRoute (Dbl ρ) → Prop} (hE : RouteLaws (context lib (parsed (dblNodes ρ nodes) (fin cap) m) d) E)
    {h : History (Dbl ρ)}
    (hp : progress lib cfg (context lib (parsed (dblNodes ρ nodes) (fin cap) m) d) d c ω chs dchs = some h) :
    HistOK (context lib (parsed (dblNodes ρ nodes) (fin cap) m) d) E
      (initialNumVehicles (context lib (parsed (dblNodes ρ nodes) (fin cap) m) d)) h := by
  unfold progress at hp
  split at hp
  · rename_i hdec
    rw [dbl_n] at hdec
    obtain ⟨s, h1, rfl⟩ := Option.map_eq_some_iff.mp hp
    have hv := dbl_dgaLaws (m := m) hr.lib hr.settings hd hx hb hc hdec hE
    exact (DGA.steps_any hv dchs hr.dchoices (DGA.new_any hv ω) h1).mu.hist
  · obtain ⟨g, h1, rfl⟩ := Option.map_eq_some_iff.mp hp
    have hv := dbl_gaLaws (m := m) hr.lib hr.settings hd hx hb hc hE
    exact (GA.steps_any hv chs hr.choices (GA.new_any hv ω) h1).hist

/-- What a call of `output` goes through. -/
theorem output_parts {α : Type} [F64 α] {lib : Lib α} {cfg : Settings α} {P : Parsed α} {text : List Char}
    {ω : Oracle} {chs : List (GAChoice α)} {dchs : List (DGAChoice α)} {out : List (List Char)}
    (hp : parseInstance lib.num text = some P) {d : DistMatrix α}
    (e : buildDist lib.sqrt (locations P) (decide (P.nodes.length - 1 < cfg.precomputeLimit)) cfg.rounded P.matrix =
      some d)
    (hout : output lib cfg text ω chs dchs = some out) :
    ∃ c h, buildCorr lib.sqrt lib.corrSort d = some c ∧ matrices lib cfg P = some (d, c) ∧
      progress lib cfg (context lib P d) d c ω chs dchs = some h ∧ out = h.printed := by
  unfold output at hout
  rw [hp, Option.bind_some] at hout
  obtain ⟨x, h1, h2⟩ := Option.bind_eq_some_iff.mp hout
  obtain ⟨h, h3, rfl⟩ := Option.map_eq_some_iff.mp h2
  have h1' := h1
  unfold matrices at h1
  split at h1
  · cases h1
  · rw [e, Option.bind_some] at h1
    obtain ⟨c, h5, rfl⟩ := Option.map_eq_some_iff.mp h1
    exact ⟨c, h, h5, h1', h3, rfl⟩

/-- The file is the last printed solution, and later calls only add to the output. -/
theorem output_rest {α : Type} [F64 α] {lib : Lib α} {cfg : Settings α} {P : Parsed α} {text : List Char}
    {ω : Oracle} {chs chs' : List (GAChoice α)} {dchs dchs' : List (DGAChoice α)}
    (hp : parseInstance lib.num text = some P) {d : DistMatrix α} {c : Correlation} {h : History α}
    (hm : matrices lib cfg P = some (d, c)) (h3 : progress lib cfg (context lib P d) d c ω chs dchs = some h)
    (hlast : h.entries.getLast? = h.log.getLast?) :
    (∀ file, main lib cfg text ω chs dchs = some (some file) → file = h.printed.getLast?.getD []) ∧
    (∀ out', output lib cfg text ω (chs ++ chs') (dchs ++ dchs') = some out' → h.printed <+: out') := by
  refine ⟨fun file hf => ?_, fun out' ho => ?_⟩
  · unfold main at hf
    rw [hp, Option.bind_some, hm, Option.bind_some] at hf
    obtain ⟨h', h6, h7⟩ := Option.map_eq_some_iff.mp hf
    dsimp only at h6
    have := solve_progress h6
    rw [h3, Option.some.injEq] at this
    subst this
    unfold written solutionFile at h7
    split at h7
    · rw [Option.some.injEq] at h7
      rw [← h7, hlast, History.printed, List.getLast?_map]
      cases h.log.getLast? <;> rfl
    · cases h7
  · unfold output at ho
    rw [hp, Option.bind_some, hm, Option.bind_some] at ho
    obtain ⟨h', h6, rfl⟩ := Option.map_eq_some_iff.mp ho
    dsimp only at h6
    refine List.IsPrefix.map _ ?_
    unfold progress at h3 h6
    split at h3
    · rename_i hdec
      rw [if_pos hdec, DGA.steps_append] at h6
      obtain ⟨s, h8, rfl⟩ := Option.map_eq_some_iff.mp h3
      obtain ⟨s', h9, rfl⟩ := Option.map_eq_some_iff.mp h6
      rw [h8, Option.bind_some] at h9
      exact DGA.steps_log_any dchs' h9
    · rename_i hdec
      rw [if_neg hdec, GA.steps_append] at h6
      obtain ⟨g, h8, rfl⟩ := Option.map_eq_some_iff.mp h3
      obtain ⟨g', h9, rfl⟩ := Option.map_eq_some_iff.mp h6
      rw [h8, Option.bind_some] at h9
      exact GA.steps_log_any chs' h9

/-- The stated costs, with whole distances. -/
theorem output_exact (hr : DblRun lib cfg nodes.length chs dchs) (hd : DblLoads nodes cap)
    {dz : ℕ → ℕ → ℤ} {M : ℤ} (hz : ∀ a < nodes.length, ∀ b < nodes.length, 0 ≤ dz a b ∧ dz a b ≤ M)
    (h00 : dz 0 0 = 0) (h43 : M ≤ 2 ^ 43) (hM : 4 * (nodes.length * M) ≤ 2 ^ 53)
    (hp : parseInstance lib.num text = some (parsed (dblNodes ρ nodes) (fin cap) m))
    (hb : ∃ d, buildDist lib.sqrt (locations (parsed (dblNodes ρ nodes) (fin cap) m))
      (decide ((parsed (dblNodes ρ nodes) (fin cap) m).nodes.length - 1 < cfg.precomputeLimit)) cfg.rounded m = some d ∧
      Built lib nodes.length (fun a b => fin (dz a b : ℚ)) d)
    (hout : output lib cfg text ω chs dchs = some out) :
    Spec.ExactStream nodes cap (fun a b => dz a b) out ∧
    (∀ file, main lib cfg text ω chs dchs = some (some file) → file = out.getLast?.getD []) ∧
    (∀ out', output lib cfg text ω (chs ++ chs') (dchs ++ dchs') = some out' → out <+: out') := by
  obtain ⟨d, e, hb⟩ := hb
  obtain ⟨c, h, h1, h2, h3, rfl⟩ := output_parts hp e hout
  obtain ⟨Q, D, hQ, hw⟩ := dbl_whole (lib := lib) (m := m) (d := d) (ρ := ρ) hd
  have hgran := hr.settings.gran
  have hn : 3 ≤ nodes.length := by have := hgran.1; have := hgran.2; omega
  have hx : DblDist nodes.length fun a b => (dz a b : ℚ) := by
    intro a ha b hb
    obtain ⟨x, y⟩ := hz a ha b hb
    have y' : dz a b ≤ 2 ^ 43 := y.trans h43
    constructor
    · show (0 : ℚ) ≤ (dz a b : ℚ)
      exact_mod_cast x
    · show (dz a b : ℚ) ≤ 2 ^ 43
      exact_mod_cast y'
  obtain ⟨dz', hdef, hwd⟩ := exact_dist (m := m) (cap := cap) (by omega) hz h00 hM hb
  have hok := dbl_progress hr hd hx hb h1 ((loadExact_laws hw).and (distExact_laws hwd)) h3
  refine ⟨⟨fun t ht => ?_, ?_⟩, output_rest hp h2 h3 hok.1⟩
  · obtain ⟨e, he, rfl⟩ := List.mem_map.mp ht
    obtain ⟨p, x, hx, rfl⟩ := hok.2.1 e he
    exact dbl_entry hr.fleet hd hQ (fun _ h => h.1) hx (exact_stated (by omega) hw (fun _ h => h.1) hdef hwd hx)
  · obtain ⟨l1, l2, -⟩ := log_descends hw hwd hok.2.2
    unfold History.printed
    rw [List.pairwise_map]
    refine List.Pairwise.imp_of_mem (fun {e e'} he he' hlt R N R' N' g1 g2 => ?_) l2
    obtain ⟨t, ht, h4⟩ := C41_solution_text_round_trip e.routes e.cost
    obtain ⟨t', ht', h5⟩ := C41_solution_text_round_trip e'.routes e'.cost
    cases ht
    cases ht'
    rw [h4] at g1
    rw [h5] at g2
    cases g1
    cases g2
    obtain ⟨a1, a2, a3⟩ := l1 e he
    obtain ⟨b1, b2, b3⟩ := l1 e' he'
    have e1 := toNat_int (ρ := ρ) a2 a3
    have e2 := toNat_int (ρ := ρ) b2 b3
    rw [← a1] at e1
    rw [← b1] at e2
    omega

/-- The stated costs, for distances from 0 to `M`. -/
theorem output_near (hr : DblRun lib cfg nodes.length chs dchs) (hd : DblLoads nodes cap) {M : ℚ} {k : ℕ}
    (hz : ∀ a < nodes.length, ∀ b < nodes.length, 0 ≤ dist a b ∧ dist a b ≤ M)
    (h00 : dist 0 0 = 0) (h43 : M ≤ 2 ^ 43) (hM : 4 * (nodes.length * M) ≤ 2 ^ k) (hk : k ≤ 60)
    (hn50 : nodes.length ≤ 2 ^ 50)
    (hp : parseInstance lib.num text = some (parsed (dblNodes ρ nodes) (fin cap) m))
    (hb : ∃ d, buildDist lib.sqrt (locations (parsed (dblNodes ρ nodes) (fin cap) m))
      (decide ((parsed (dblNodes ρ nodes) (fin cap) m).nodes.length - 1 < cfg.precomputeLimit)) cfg.rounded m =
        some d ∧ Built lib nodes.length (fun a b => fin (dist a b)) d)
    (hout : output lib cfg text ω chs dchs = some out) :
    (∀ t ∈ out, Spec.NearFile nodes cap dist (3 * nodes.length * (2 ^ k / 2 ^ 53)) t) ∧
    (∀ file, main lib cfg text ω chs dchs = some (some file) → file = out.getLast?.getD []) ∧
    (∀ out', output lib cfg text ω (chs ++ chs') (dchs ++ dchs') = some out' → out <+: out') := by
  obtain ⟨d, e, hb⟩ := hb
  obtain ⟨c, h, h1, h2, h3, rfl⟩ := output_parts hp e hout
  obtain ⟨Q, D, hQ, hw⟩ := dbl_whole (lib := lib) (m := m) (d := d) (ρ := ρ) hd
  have hgran := hr.settings.gran
  have hn : 3 ≤ nodes.length := by have := hgran.1; have := hgran.2; omega
  have hx : DblDist nodes.length dist := fun a ha b hb =>
    ⟨(hz a ha b hb).1, (hz a ha b hb).2.trans h43⟩
  have hok := dbl_progress hr hd hx hb h1 (loadExact_laws hw) h3
  refine ⟨fun t ht => ?_, output_rest hp h2 h3 hok.1⟩
  obtain ⟨e, he, rfl⟩ := List.mem_map.mp ht
  obtain ⟨p, x, hx, rfl⟩ := hok.2.1 e he
  exact dbl_entry hr.fleet hd hQ (fun _ h => h) hx (near_stated hn hz h00 hM hk hn50 hb hw (fun _ h => h) hx)

end Program

open Program Spec

variable {lib : Lib (Dbl ρ)} {cfg : Settings (Dbl ρ)} {nodes : List (ℚ × ℚ × ℚ)} {cap : ℚ}
  {text : List Char} {raw : List (List Char)} {lines pre : List (List (List Char))} {blocks : List Block}
  {rows : List (List ℚ)} {ω : Oracle} {chs chs' : List (GAChoice (Dbl ρ))} {dchs dchs' : List (DGAChoice (Dbl ρ))}
  {out : List (List Char)}

/-- **C84**. In double precision, with whole coordinates and rounded distances: after any number of calls, every
printed solution visits every customer once within the capacity, its stated cost is the total length of its routes,
and is less than all costs printed before. The solution file is the last one printed. More calls only add to the
output. -/
theorem C84_printed_plane (hroot : SqrtOK lib.sqrt) (ht : TextOf text raw)
    (hl : List.Forall₂ LaidOut raw lines) (hf : BlockFile lines pre blocks)
    (hd : Describes (fun w x => lib.num w = some x) (fun w n => parseUsize w = some n) blocks (fin cap)
      (dblNodes ρ nodes))
    (he : Euclidean blocks) (hr : DblRun lib cfg nodes.length chs dchs) (hload : DblLoads nodes cap)
    (hrd : cfg.rounded = true) (hco : WholeCoords nodes) (hn27 : nodes.length ≤ 2 ^ 27)
    (hout : Program.output lib cfg text ω chs dchs = some out) :
    ExactStream nodes cap (nearestDist nodes) out ∧
    (∀ file, Program.main lib cfg text ω chs dchs = some (some file) → file = out.getLast?.getD []) ∧
    (∀ out', Program.output lib cfg text ω (chs ++ chs') (dchs ++ dchs') = some out' → out <+: out') := by
  obtain ⟨h00, hb⟩ := exactPlane_data (lib := lib) (cap := cap) hroot (by have := hr.settings.gran; omega) hrd hco
  refine output_exact (dz := fun a b => ⌊realDist nodes a b + 1 / 2⌋) (M := 2 ^ 24) hr hload
    (fun a ha b hb => (plane_nearest hroot hco ha hb).2) h00 (by norm_num) ?_
    (C51_parse_euclidean lib.num ht hl hf hd he) hb hout
  have : (nodes.length : ℤ) ≤ 2 ^ 27 := by exact_mod_cast hn27
  linarith

/-- **C84**, an explicit matrix of whole numbers, or of any numbers that are rounded. -/
theorem C84_printed_explicit (ht : TextOf text raw)
    (hl : List.Forall₂ LaidOut raw lines) (hf : BlockFile lines pre blocks)
    (hd : Describes (fun w x => lib.num w = some x) (fun w n => parseUsize w = some n) blocks (fin cap)
      (dblNodes ρ nodes))
    (he : ExplicitRows (fun w x => lib.num w = some x) blocks (dblRows ρ rows)) (hlen : rows.length + 1 = nodes.length)
    (hrow : ∀ (i : ℕ) (row : List ℚ), rows[i]? = some row → row.length = i + 1) {M : ℤ}
    (hnn : ∀ row ∈ rows, ∀ x ∈ row, 0 ≤ x ∧ x ≤ M ∧ (cfg.rounded = true ∨ ∃ k : ℤ, x = k)) (h43 : M ≤ 2 ^ 43)
    (hM : 4 * (nodes.length * M) ≤ 2 ^ 53) (hr : DblRun lib cfg nodes.length chs dchs) (hload : DblLoads nodes cap)
    (hout : Program.output lib cfg text ω chs dchs = some out) :
    ExactStream nodes cap (lowerRowDist cfg.rounded rows) out ∧
    (∀ file, Program.main lib cfg text ω chs dchs = some (some file) → file = out.getLast?.getD []) ∧
    (∀ out', Program.output lib cfg text ω (chs ++ chs') (dchs ++ dchs') = some out' → out <+: out') := by
  obtain ⟨dz, e, hz, h00, hb⟩ := exactExplicit_data (lib := lib) (cap := cap) hlen
    (by have := hr.settings.gran; omega) hrow hnn
  rw [e]
  exact output_exact (M := M) hr hload hz h00 h43 hM
    (C51_parse_explicit lib.num ht hl hf hd he (by rw [dblNodes_length]; simpa [dblRows] using hlen)) hb hout

/-- **C84**, any coordinates up to `2 ^ 40`: every stated cost is right up to an explicit rounding error. -/
theorem C84_near_plane (hroot : SqrtOK lib.sqrt) (ht : TextOf text raw)
    (hl : List.Forall₂ LaidOut raw lines) (hf : BlockFile lines pre blocks)
    (hd : Describes (fun w x => lib.num w = some x) (fun w n => parseUsize w = some n) blocks (fin cap)
      (dblNodes ρ nodes))
    (he : Euclidean blocks) (hr : DblRun lib cfg nodes.length chs dchs) (hload : DblLoads nodes cap) {k m : ℕ}
    (hk : k ≤ 40) (hco : ∀ p ∈ nodes, |p.1| ≤ 2 ^ k ∧ |p.2.1| ≤ 2 ^ k)
    (hM : 4 * (nodes.length * 2 ^ (k + 2)) ≤ 2 ^ m) (hm : m ≤ 60) (hn50 : nodes.length ≤ 2 ^ 50)
    (hout : Program.output lib cfg text ω chs dchs = some out) :
    (∀ t ∈ out, NearFile nodes cap (planeNum lib.sqrt cfg.rounded nodes) (3 * nodes.length * (2 ^ m / 2 ^ 53)) t) ∧
    (∀ file, Program.main lib cfg text ω chs dchs = some (some file) → file = out.getLast?.getD []) ∧
    (∀ out', Program.output lib cfg text ω (chs ++ chs') (dchs ++ dchs') = some out' → out <+: out') := by
  obtain ⟨hv, h00, hb⟩ := nearPlane_data (lib := lib) (cfg := cfg) (cap := cap) hroot
    (by have := hr.settings.gran; omega) hk hco
  exact output_near (M := 2 ^ (k + 2)) (k := m) hr hload hv h00
    (pow_le_pow_right₀ (by norm_num) (by omega)) (by exact_mod_cast hM) hm hn50
    (C51_parse_euclidean lib.num ht hl hf hd he) hb hout

/-- **C84**, any explicit matrix of numbers from 0 to `M`. -/
theorem C84_near_explicit (ht : TextOf text raw)
    (hl : List.Forall₂ LaidOut raw lines) (hf : BlockFile lines pre blocks)
    (hd : Describes (fun w x => lib.num w = some x) (fun w n => parseUsize w = some n) blocks (fin cap)
      (dblNodes ρ nodes))
    (he : ExplicitRows (fun w x => lib.num w = some x) blocks (dblRows ρ rows)) (hlen : rows.length + 1 = nodes.length)
    (hrow : ∀ (i : ℕ) (row : List ℚ), rows[i]? = some row → row.length = i + 1) {M m : ℕ}
    (hnn : ∀ row ∈ rows, ∀ x ∈ row, 0 ≤ x ∧ x ≤ M) (h43 : M ≤ 2 ^ 43)
    (hM : 4 * (nodes.length * M) ≤ 2 ^ m) (hm : m ≤ 60) (hn50 : nodes.length ≤ 2 ^ 50)
    (hr : DblRun lib cfg nodes.length chs dchs) (hload : DblLoads nodes cap)
    (hout : Program.output lib cfg text ω chs dchs = some out) :
    (∀ t ∈ out, NearFile nodes cap (lowerRowDist cfg.rounded rows) (3 * nodes.length * (2 ^ m / 2 ^ 53)) t) ∧
    (∀ file, Program.main lib cfg text ω chs dchs = some (some file) → file = out.getLast?.getD []) ∧
    (∀ out', Program.output lib cfg text ω (chs ++ chs') (dchs ++ dchs') = some out' → out <+: out') := by
  obtain ⟨hz, h00, hb⟩ := nearExplicit_data (lib := lib) (cfg := cfg) (cap := cap) hlen hrow hnn
  exact output_near (M := M) (k := m) hr hload hz h00 (by exact_mod_cast h43) (by exact_mod_cast hM) hm hn50
    (C51_parse_explicit lib.num ht hl hf hd he (by rw [dblNodes_length]; simpa [dblRows] using hlen)) hb hout

end Verif
