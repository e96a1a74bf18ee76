import Verif.Lemmas.LogGrows
import Verif.Props.ProgramExamples
import Verif.Props.ExplicitExamples

/-!
# C79: the solutions printed by the `dimacs` build

Exact arithmetic; all random draws, hash orders and clock readings.
-/

namespace Verif
open F64

namespace Program

variable {lib : Lib ℚ} {cfg : Settings ℚ} {nodes : List (ℚ × ℚ × ℚ)} {cap : ℚ} {dist : ℕ → ℕ → ℚ}
  {d : DistMatrix ℚ} {c : Correlation} {m : Option (List (List ℚ))}

/-- The stated cost goes up with the cost. -/
theorem stated_mono {a b : ℚ} (h : a ≤ b) : toNat (F64.round a) ≤ toNat (F64.round b) := by
  simp only [rat_toNat, rat_round, ratRound]
  refine Int.toNat_le_toNat (Int.floor_le_floor ?_)
  split
  · rw [if_pos (by linarith)]
    exact_mod_cast Int.floor_le_floor (by linarith)
  · rename_i ha
    split
    · have h1 : 0 ≤ ⌊-a + 1 / 2⌋ := Int.floor_nonneg.2 (by linarith)
      rename_i hb
      have h2 : 0 ≤ ⌊b + 1 / 2⌋ := Int.floor_nonneg.2 (by linarith)
      exact_mod_cast (by omega : -⌊-a + 1 / 2⌋ ≤ ⌊b + 1 / 2⌋)
    · exact_mod_cast Int.neg_le_neg (Int.floor_le_floor (by linarith : -b + 1 / 2 ≤ -a + 1 / 2))

theorem progress_run (hl : LibOK lib) (hs : SettingsOK cfg nodes.length) (hd : DataOK nodes cap dist)
    (hb : Built lib nodes.length dist d) (hdep : dist 0 0 = 0)
    (hc : buildCorr lib.sqrt lib.corrSort d = some c) {ω : Oracle} {chs : List (GAChoice ℚ)}
    {dchs : List (DGAChoice ℚ)} (hch : ∀ ch ∈ chs, GA.ChOK ch) (hdch : ∀ ch ∈ dchs, DGA.ChOK ch)
    {h : History ℚ} (hp : progress lib cfg (context lib (parsed nodes cap m) d) d c ω chs dchs = some h) :
    HistRun (0 < ·) (context lib (parsed nodes cap m) d)
      (initialNumVehicles (context lib (parsed nodes cap m) d)) History.new h := by
  unfold progress at hp
  split at hp
  · rename_i hdec
    rw [ctx_n] at hdec
    obtain ⟨s, h1, rfl⟩ := Option.map_eq_some_iff.mp hp
    exact ((DGA.steps_reach dchs hdch (.new ω) h1).inv (dgaValid hl hs hd hb hdep hc hdec)).2.1
  · obtain ⟨g, h1, rfl⟩ := Option.map_eq_some_iff.mp hp
    exact ((GA.steps_reach chs hch (.new ω) h1).inv
      (gaValid (m := m) hl hs hd hb hc (hi := 10000000) (le_refl _) (by norm_num))).2.1

/-- What was printed is a correct stream. -/
theorem printed_correct (hn : 3 ≤ nodes.length) (hd : DataOK nodes cap dist) (hb : Built lib nodes.length dist d)
    (hdep : dist 0 0 = 0) {h : History ℚ}
    (r : HistRun (0 < ·) (context lib (parsed nodes cap m) d)
      (initialNumVehicles (context lib (parsed nodes cap m) d)) History.new h) :
    Spec.CorrectStream nodes cap dist (1 / 1000000) h.printed := by
  refine ⟨fun t ht => ?_, ?_⟩
  · obtain ⟨e, he, rfl⟩ := List.mem_map.mp ht
    obtain ⟨b1, b2, b3, -, b4⟩ := r.recorded e he
    exact entry_correct hn hd hb hdep b1 b2 b3 b4
  · have h1 := r.facts.1
    unfold Spec.Improving at h1
    rw [List.pairwise_map] at h1
    unfold History.printed
    rw [List.pairwise_map]
    refine h1.imp fun {e e'} hlt R N R' N' h2 h3 => ?_
    obtain ⟨t, ht, h4⟩ := C41_solution_text_round_trip e.routes e.cost
    obtain ⟨t', ht', h5⟩ := C41_solution_text_round_trip e'.routes e'.cost
    cases ht
    cases ht'
    rw [h4] at h2
    rw [h5] at h3
    cases h2
    cases h3
    exact stated_mono (by linarith)

/-- A finished run has the history it has after its calls. -/
theorem solve_progress {α : Type} [F64 α] {lib : Lib α} {cfg : Settings α} {ctx : Ctx α} {d : DistMatrix α}
    {c : Correlation} {ω : Oracle} {chs : List (GAChoice α)} {dchs : List (DGAChoice α)} {h : History α}
    (hs : solve lib cfg ctx d c ω chs dchs = some h) : progress lib cfg ctx d c ω chs dchs = some h := by
  unfold solve at hs
  unfold progress
  split at hs
  · rename_i hdec
    rw [if_pos hdec]
    obtain ⟨s, h1, h2⟩ := Option.bind_eq_some_iff.mp hs
    split at h2
    · rw [h1, Option.map_some]; exact h2
    · cases h2
  · rename_i hdec
    rw [if_neg hdec]
    obtain ⟨g, h1, h2⟩ := Option.bind_eq_some_iff.mp hs
    split at h2
    · rw [h1, Option.map_some]; exact h2
    · cases h2

/-- Recorded solutions come after those recorded before. -/
theorem _root_.Verif.HistRun.prefix {α : Type} [F64 α] {P : α → Prop} {ctx : Ctx α} {nv : ℕ} {h h' : History α}
    (r : HistRun P ctx nv h h') : h.log <+: h'.log := by
  induction r with
  | refl => exact List.prefix_refl _
  | step _ _ _ _ _ _ ih => exact ih.trans ⟨_, rfl⟩

theorem _root_.Verif.GA.steps_append {α : Type} [F64 α] {env : GAEnv α} {ctx : Ctx α} (more : List (GAChoice α)) :
    ∀ (chs : List (GAChoice α)) (g : GA α),
      GA.steps env ctx (chs ++ more) g = (GA.steps env ctx chs g).bind (GA.steps env ctx more)
  | [], g => rfl
  | ch :: chs, g => by
    rw [List.cons_append, GA.steps, GA.steps]
    split
    · rename_i ht
      cases more with
      | nil => rfl
      | cons c more => rw [Option.bind_some, GA.steps, if_pos ht]
    · rw [Option.bind_assoc]
      congr 1
      funext g'
      exact GA.steps_append more chs g'

theorem _root_.Verif.DGA.steps_append {α : Type} [F64 α] {env : DecompEnv α} {ctx : Ctx α}
    (more : List (DGAChoice α)) : ∀ (chs : List (DGAChoice α)) (s : DGA α),
      DGA.steps env ctx (chs ++ more) s = (DGA.steps env ctx chs s).bind (DGA.steps env ctx more)
  | [], s => rfl
  | ch :: chs, s => by
    rw [List.cons_append, DGA.steps, DGA.steps]
    split
    · rename_i ht
      cases more with
      | nil => rfl
      | cons c more => rw [Option.bind_some, DGA.steps, if_pos ht]
    · rw [Option.bind_assoc]
      congr 1
      funext g'
      exact DGA.steps_append more chs g'

/-- What is asked of the output. -/
structure Streamed (nodes : List (ℚ × ℚ × ℚ)) (cap : ℚ) (dist : ℕ → ℕ → ℚ)
    (main : Option (Option (List Char))) (out : List (List Char)) (later : Option (List (List Char))) : Prop where
  correct : Spec.CorrectStream nodes cap dist (1 / 1000000) out
  file : ∀ file, main = some (some file) → file = out.getLast?.getD []
  later : ∀ out', later = some out' → out <+: out' ∧ Spec.CorrectStream nodes cap dist (1 / 1000000) out'

theorem output_correct {text : List Char} {ω : Oracle} {chs chs' : List (GAChoice ℚ)}
    {dchs dchs' : List (DGAChoice ℚ)} {out : List (List Char)}
    (hr : RunOK lib cfg nodes.length (chs ++ chs') (dchs ++ dchs')) (hd : DataOK nodes cap dist)
    (hdep : dist 0 0 = 0) (hp : parseInstance lib.num text = some (parsed nodes cap m))
    (hb : ∃ d, buildDist lib.sqrt (locations (parsed nodes cap m))
      (decide ((parsed nodes cap m).nodes.length - 1 < cfg.precomputeLimit)) cfg.rounded m = some d ∧
      Built lib nodes.length dist d)
    (hout : output lib cfg text ω chs dchs = some out) :
    Streamed nodes cap dist (main lib cfg text ω chs dchs) out
      (output lib cfg text ω (chs ++ chs') (dchs ++ dchs')) := by
  obtain ⟨d, e, hb⟩ := hb
  have hn : 3 ≤ nodes.length := by have := hr.settings.gran; omega
  unfold output at hout
  rw [hp, Option.bind_some] at hout
  obtain ⟨x, h1, h2⟩ := Option.bind_eq_some_iff.mp hout
  obtain ⟨h, h3, rfl⟩ := Option.map_eq_some_iff.mp h2
  have h1' := h1
  unfold matrices at h1
  split at h1
  · cases h1
  rw [show (parsed nodes cap m).matrix = m from rfl, e, Option.bind_some] at h1
  obtain ⟨c, h5, rfl⟩ := Option.map_eq_some_iff.mp h1
  dsimp only at h3
  have r := progress_run hr.lib hr.settings hd hb hdep h5 (fun ch hch => hr.choices ch (by simp [hch]))
    (fun ch hch => hr.dchoices ch (by simp [hch])) h3
  refine ⟨printed_correct hn hd hb hdep r, fun file hf => ?_, fun out' ho => ?_⟩
  · unfold main at hf
    rw [hp, Option.bind_some, h1', Option.bind_some] at hf
    obtain ⟨h', h6, h7⟩ := Option.map_eq_some_iff.mp hf
    dsimp only at h6
    have := solve_progress h6
    rw [h3, Option.some.injEq] at this
    subst this
    unfold written solutionFile at h7
    split at h7
    · rw [Option.some.injEq] at h7
      rw [← h7, r.shape.2.2.2.2.2, History.printed, List.getLast?_map]
      cases h.log.getLast? <;> rfl
    · cases h7
  · unfold output at ho
    rw [hp, Option.bind_some, h1', Option.bind_some] at ho
    obtain ⟨h', h6, rfl⟩ := Option.map_eq_some_iff.mp ho
    dsimp only at h6
    refine ⟨List.IsPrefix.map _ ?_, printed_correct hn hd hb hdep
      (progress_run hr.lib hr.settings hd hb hdep h5 hr.choices hr.dchoices h6)⟩
    unfold progress at h3 h6
    split at h3
    · rename_i hdec
      rw [if_pos hdec, DGA.steps_append] at h6
      obtain ⟨s, h8, rfl⟩ := Option.map_eq_some_iff.mp h3
      obtain ⟨s', h9, rfl⟩ := Option.map_eq_some_iff.mp h6
      rw [h8, Option.bind_some] at h9
      exact DGA.steps_log_any dchs' h9
    · rename_i hdec
      rw [if_neg hdec, GA.steps_append] at h6
      obtain ⟨g, h8, rfl⟩ := Option.map_eq_some_iff.mp h3
      obtain ⟨g', h9, rfl⟩ := Option.map_eq_some_iff.mp h6
      rw [h8, Option.bind_some] at h9
      exact GA.steps_log_any chs' h9

end Program

open Program Spec

/-- **C79**, instances in the plane. At any time between two calls of `iterate`, every solution the `dimacs`
build has printed is one that could have been written to the solution file (C62): it lists non-empty
routes, not too many, that visit every customer of the instance file exactly once, exceed the capacity by
at most `10⁻⁶`, and if nowhere then the stated cost is right. With integral demands and capacity they exceed
it nowhere. The stated costs never go up. If the run is
over, the solution file is the last printed solution, and empty when none was printed. More calls only
add to the output. With and without decomposition; the lines that decomposition prints between the
solutions are left out. -/
theorem C79_printed_plane {lib : Lib ℚ} {cfg : Settings ℚ} {nodes : List (ℚ × ℚ × ℚ)} {cap : ℚ}
    {text : List Char} {raw : List (List Char)} {lines pre : List (List (List Char))} {blocks : List Block}
    {ω : Oracle} {chs chs' : List (GAChoice ℚ)} {dchs dchs' : List (DGAChoice ℚ)} {out : List (List Char)}
    (ht : TextOf text raw) (hl : List.Forall₂ LaidOut raw lines) (hf : BlockFile lines pre blocks)
    (hd : Describes (fun w x => lib.num w = some x) (fun w n => parseUsize w = some n) blocks cap nodes)
    (he : Euclidean blocks) (hr : RunOK lib cfg nodes.length (chs ++ chs') (dchs ++ dchs'))
    (hdata : DataOK nodes cap (planeDist lib.sqrt cfg.rounded nodes))
    (hout : Program.output lib cfg text ω chs dchs = some out) :
    CorrectStream nodes cap (planeDist lib.sqrt cfg.rounded nodes) (1 / 1000000) out ∧
    ((∀ p ∈ nodes, ∃ k : ℤ, p.2.2 = k) → (∃ k : ℤ, cap = k) →
      CorrectStream nodes cap (planeDist lib.sqrt cfg.rounded nodes) 0 out) ∧
    (∀ file, Program.main lib cfg text ω chs dchs = some (some file) → file = out.getLast?.getD []) ∧
    (∀ out', Program.output lib cfg text ω (chs ++ chs') (dchs ++ dchs') = some out' → out <+: out') := by
  have hn : 0 < nodes.length := by have := hr.settings.gran; omega
  have hdep : planeDist lib.sqrt cfg.rounded nodes 0 0 = 0 := by
    rw [planeDist, List.getElem?_eq_getElem hn]
    simp only [sub_self, ne_eq, OfNat.ofNat_ne_zero, not_false_eq_true, zero_pow, add_zero, hr.lib.root]
    cases cfg.rounded with
    | false => rfl
    | true => simp only [roundedDist, if_true]; norm_num
  have h := output_correct hr hdata hdep (C51_parse_euclidean lib.num ht hl hf hd he)
    (built_plane hr.lib _ cfg.rounded) hout
  exact ⟨h.correct, fun hq hc => ⟨fun t ht => correct_of_int (h.correct.1 t ht) hq hc, h.correct.2⟩,
    h.file, fun out' ho => (h.later out' ho).1⟩

/-- **C79**, instances with an explicit lower-row matrix. -/
theorem C79_printed_explicit {lib : Lib ℚ} {cfg : Settings ℚ} {nodes : List (ℚ × ℚ × ℚ)} {cap : ℚ}
    {text : List Char} {raw : List (List Char)} {lines pre : List (List (List Char))} {blocks : List Block}
    {rows : List (List ℚ)}
    {ω : Oracle} {chs chs' : List (GAChoice ℚ)} {dchs dchs' : List (DGAChoice ℚ)} {out : List (List Char)}
    (ht : TextOf text raw) (hl : List.Forall₂ LaidOut raw lines) (hf : BlockFile lines pre blocks)
    (hd : Describes (fun w x => lib.num w = some x) (fun w n => parseUsize w = some n) blocks cap nodes)
    (he : ExplicitRows (fun w x => lib.num w = some x) blocks rows) (hlen : rows.length + 1 = nodes.length)
    (hrow : ∀ (i : ℕ) (row : List ℚ), rows[i]? = some row → row.length = i + 1)
    (hnn : ∀ row ∈ rows, ∀ x ∈ row, 0 ≤ x)
    (hr : RunOK lib cfg nodes.length (chs ++ chs') (dchs ++ dchs'))
    (hdata : DataOK nodes cap (lowerRowDist cfg.rounded rows))
    (hout : Program.output lib cfg text ω chs dchs = some out) :
    CorrectStream nodes cap (lowerRowDist cfg.rounded rows) (1 / 1000000) out ∧
    ((∀ p ∈ nodes, ∃ k : ℤ, p.2.2 = k) → (∃ k : ℤ, cap = k) →
      CorrectStream nodes cap (lowerRowDist cfg.rounded rows) 0 out) ∧
    (∀ file, Program.main lib cfg text ω chs dchs = some (some file) → file = out.getLast?.getD []) ∧
    (∀ out', Program.output lib cfg text ω (chs ++ chs') (dchs ++ dchs') = some out' → out <+: out') := by
  have h := output_correct hr hdata (by simp [lowerRowDist])
    (C51_parse_explicit lib.num ht hl hf hd he hlen) (built_lowerRow hlen hrow hnn _ cfg.rounded) hout
  exact ⟨h.correct, fun hq hc => ⟨fun t ht => correct_of_int (h.correct.1 t ht) hq hc, h.correct.2⟩,
    h.file, fun out' ho => (h.later out' ho).1⟩

/-! ### A case -/

namespace DimacsEx
open ProgramEx

/-- No local search, no ruin and recreate: more than one solution is recorded. -/
def cfg : Settings ℚ := { ProgramEx.cfg with lsEnabled := false, rrMutation := false }

/-- The choices of call `i`. -/
def ch (i : ℕ) : GAChoice ℚ := { GeneticEx.choice (5 + i) (3 * i) with ω := fun j => (i * 7 + j) * 5 }

/-- The first two calls. -/
def chs : List (GAChoice ℚ) := [ch 0, ch 1]

/-- The next three calls; then the time is up. -/
def more : List (GAChoice ℚ) := [ch 2, ch 3, ch 4, { ch 5 with elapsed := 100 }]

/-- The draws before the first call. -/
def draws : Oracle := fun i => i * 5

/-- What is printed. -/
def printed : List (List Char) := ["Route #1: 2 3 1\nCost 16\n".toList, "Route #1: 3 2 1\nCost 14\n".toList]

/-- After two calls. -/
theorem out_two : Program.output lib cfg text draws chs [] = some (printed.take 1) := by decide +kernel

/-- At the end. -/
theorem out_all : Program.output lib cfg text draws (chs ++ more) [] = some printed := by decide +kernel

/-- The solution file. -/
theorem run : Program.main lib cfg text draws (chs ++ more) [] = some (some "Route #1: 3 2 1\nCost 14\n".toList) := by
  decide +kernel

theorem run_ok : RunOK lib cfg nodes.length (chs ++ more ++ []) ([] ++ []) where
  lib := lib_ok
  settings := ⟨by decide, by norm_num [cfg, ProgramEx.cfg], fun h => absurd h (by decide)⟩
  choices := fun ch hch => by
    simp only [chs, more, List.mem_cons, List.not_mem_nil, or_false, List.cons_append, List.nil_append,
      List.append_nil] at hch
    rcases hch with rfl | rfl | rfl | rfl | rfl | rfl <;> exact fun _ _ _ l => List.Perm.refl l
  dchoices := fun ch hch => by simp at hch

/-- C79 applies to this run, after the second call and at the end. -/
example : (CorrectStream nodes 20 (planeDist lib.sqrt cfg.rounded nodes) (1 / 1000000) (printed.take 1) ∧
      printed.take 1 <+: printed) ∧
    CorrectStream nodes 20 (planeDist lib.sqrt cfg.rounded nodes) (1 / 1000000) printed ∧
      "Route #1: 3 2 1\nCost 14\n".toList = printed.getLast?.getD [] := by
  have h1 := C79_printed_plane (lib := lib) (cfg := cfg) (blocks := blocks) (pre := []) (chs' := more) (dchs' := [])
    (textOf_lf raw (by decide)) (forall₂_lineWords _) blockFile describes euclidean
    (by simpa using run_ok) data_ok out_two
  have h2 := C79_printed_plane (lib := lib) (cfg := cfg) (blocks := blocks) (pre := []) (chs' := []) (dchs' := [])
    (textOf_lf raw (by decide)) (forall₂_lineWords _) blockFile describes euclidean run_ok data_ok out_all
  exact ⟨⟨h1.1, h1.2.2.2 printed out_all⟩, h2.1, h2.2.2.1 _ run⟩

/-- C79 for the explicit matrix. -/
example : CorrectStream nodes 10 (lowerRowDist ProgramEx.cfg.rounded ExplicitEx.rows) (1 / 1000000)
    [ExplicitEx.file] :=
  (C79_printed_explicit (lib := lib) (cfg := ProgramEx.cfg) (blocks := ExplicitEx.blocks) (pre := [])
    (chs := ProgramEx.chs) (chs' := []) (dchs := []) (dchs' := []) (ω := fun _ => 0)
    (textOf_lf ExplicitEx.raw (by decide)) (forall₂_lineWords _) ExplicitEx.blockFile ExplicitEx.describes
    ExplicitEx.explicit rfl ExplicitEx.triangular (fun row hr x hx => (ExplicitEx.entries row hr x hx).1)
    (by simpa using ProgramEx.run_ok) ExplicitEx.data_ok (by decide +kernel)).1

end DimacsEx
end Verif
