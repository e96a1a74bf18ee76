import Verif.Lemmas.SearchCycle
import Verif.Lemmas.DblMain
import Verif.Props.Progress
import Verif.Props.ProgramDouble
import Verif.Lemmas.DblModest
import Verif.Lemmas.DblGrowth

/-!
# C78: in double precision no call panics, and only accepted moves in a circle can keep one from returning
-/

namespace Verif
open F64 Dbl Spec

variable {ρ : Rounding}

namespace GA
variable {α : Type} [F64 α] {env : GAEnv α} {ctx : Ctx α} {P : α → Prop} {W : ℕ → α → Prop}
  {E : RRoute α → Prop}

/-- Without circles all searches end. -/
theorem searchesEnd_of_no_circle (hn : 0 < ctx.n) (hA : ∀ p, Arith (RR.ctxAt ctx p))
    (hang : ∀ r : List ℕ, r.length < ctx.n →
      (Individual.routeAngle env.rr.atan2 ctx r ≤. Individual.routeAngle env.rr.atan2 ctx r) = true)
    (hc : ∀ p factor, P p → (factor = lit 1 ∨ factor = lit 10) →
      ¬ Circle (RR.ctxAt ctx p) env.moves (p *. factor) env.split.numVehicles) : SearchesEnd env ctx P := by
  intro ω p factor s x hp hf hs hnb hlen hx hxl
  refine run_ends_of_no_circle (hA p) ω hn hs ⟨hnb.gran, hnb.cols, hnb.len, hnb.nbr, hnb.cust⟩ hx.part
    (hxl.trans hlen.symm) hang ?_
  rw [hlen]
  exact hc p factor hp hf

/-- A run whose clock reaches the time limit returns. -/
theorem steps_end_any (hv : Laws env ctx P E) (hc : Calm env ctx P W E)
    (hls : env.lsEnabled = true → SearchesEnd env ctx P) : ∀ (chs : List (GAChoice α)) {g : GA α},
    (∀ ch ∈ chs, ChOK ch ∧ Fair ctx.n ch) → AnyInv env ctx P E g → AnyExtra env ctx W g →
    ∃ g', EndsIn (fun f => steps env ctx (chs.map fun ch => { ch with fuel := f }) g) g' ∧
      (g.state = .terminated ∨ (∃ ch ∈ chs, env.timeLimit ≤ ch.elapsed) → g'.state = .terminated)
  | [], g, _, _, _ => ⟨g, .const rfl, by simp⟩
  | ch :: chs, g, hok, hg, hx => by
    by_cases ht : g.state = .terminated
    · refine ⟨g, ⟨0, fun f _ => ?_⟩, fun _ => ht⟩
      dsimp only
      rw [List.map_cons, steps, if_pos ht]
    · obtain ⟨h1, h2⟩ := hok ch (by simp)
      obtain ⟨g1, e1⟩ := iterate_ends_any hv hc hls h1 h2 hg hx
      obtain ⟨f, hf⟩ := e1.some_of
      have h1' : ChOK { ch with fuel := f } := h1
      have i1 := iterate_any hv h1' hg hf
      have x1 := iterate_anyExtra hv hc h1' hg hx hf
      obtain ⟨g', e2, a⟩ := steps_end_any hv hc hls chs (fun c hc => hok c (by simp [hc])) i1 x1
      refine ⟨g', ?_, fun h => a ?_⟩
      · have : (fun f => steps env ctx ((ch :: chs).map fun ch => { ch with fuel := f }) g) = fun f =>
            (iterate env ctx { ch with fuel := f } g).bind
              (steps env ctx (chs.map fun ch => { ch with fuel := f })) := by
          funext f
          rw [List.map_cons, steps, if_neg ht]
        rw [this]
        exact EndsIn.bind e1 e2
      · rcases h with h | ⟨c, hc, hcl⟩
        · exact absurd h ht
        · rcases List.mem_cons.mp hc with rfl | hc
          · left
            unfold iterate at hf
            rw [if_pos (by unfold terminateNow; rw [Bool.or_eq_true]; left; exact decide_eq_true hcl),
              Option.some.injEq] at hf
            rw [← hf]
          · exact Or.inr ⟨c, hc, hcl⟩

end GA

namespace Program

/-- What else is asked of the library routines: the arc tangent of numbers is no NaN, and the sort of individuals
does not panic when all of them can be compared. -/
structure DblTotal (lib : Lib (Dbl ρ)) : Prop where
  atan2 : ∀ y x, (lib.atan2 (fin y) (fin x) ≤. lib.atan2 (fin y) (fin x)) = true
  sort : ∀ l, (∀ x ∈ l, ∀ y ∈ l, (Individual.cmp x y).isSome = true) → ∃ l', lib.sort l = some l'

/-- Elite education of at most 3 million rounds, counted and not timed, with multipliers of the penalty up to 1.2. -/
structure EliteOK (cfg : Settings (Dbl ρ)) (n : ℕ) : Prop where
  timed : cfg.eliteTimeBased = false
  inc : ∃ a, cfg.incMultiplier = fin a ∧ 0 ≤ a ∧ a ≤ 12001 / 10000
  dec : ∃ a, cfg.decMultiplier = fin a ∧ 0 ≤ a ∧ a ≤ 12001 / 10000
  rounds : toNat (F64.round (cfg.eliteGamma *. lit (n - 1 : ℕ))) ≤ 3000000

/-- What else is asked of the settings for `n` nodes: no decomposition, elite education if any as in `EliteOK`, and
no size of zero. -/
structure DblEndsOK (cfg : Settings (Dbl ρ)) (n : ℕ) : Prop where
  whole : n - 1 < cfg.decomposeLimit
  closest : 1 ≤ cfg.pop.numClosest ∧ cfg.pop.numClosest ≤ 2 ^ 53
  minSize : 1 ≤ cfg.pop.minSize
  tournament : 1 ≤ cfg.pop.tournamentSize
  initial : 1 ≤ cfg.initialIndividuals
  elite : cfg.eliteEducation = false ∨ n - 1 ≤ cfg.eliteLimit ∨ EliteOK cfg n

/-- Coordinates up to `2 ^ 900`. -/
def DblCoords (nodes : List (ℚ × ℚ × ℚ)) : Prop := ∀ p ∈ nodes, |p.1| ≤ 2 ^ 900 ∧ |p.2.1| ≤ 2 ^ 900

variable {lib : Lib (Dbl ρ)} {cfg : Settings (Dbl ρ)} {nodes : List (ℚ × ℚ × ℚ)} {cap : ℚ} {dist : ℕ → ℕ → ℚ}
  {d : DistMatrix (Dbl ρ)} {c : Correlation} {m : Option (List (List (Dbl ρ)))}

theorem dbl_coords (hco : DblCoords nodes) : ∃ la ln : ℕ → ℚ,
    (∀ c, (context lib (parsed (dblNodes ρ nodes) (fin cap) m) d).lat c = fin (la c)) ∧
    (∀ c, (context lib (parsed (dblNodes ρ nodes) (fin cap) m) d).lng c = fin (ln c)) ∧
    (∀ c, |la c| ≤ 2 ^ 900) ∧ ∀ c, |ln c| ≤ 2 ^ 900 := by
  refine ⟨fun c => ((nodes[c]?).map fun p => p.2.1).getD 0, fun c => ((nodes[c]?).map fun p => p.1).getD 0,
    fun c => ?_, fun c => ?_, fun c => ?_, fun c => ?_⟩
  · simp only [context, parsed, dblNodes, List.getElem?_mapIdx, List.getElem?_map, Option.map_map]
    cases nodes[c]? with
    | none => simp [lit_zero]
    | some p => rfl
  · simp only [context, parsed, dblNodes, List.getElem?_mapIdx, List.getElem?_map, Option.map_map]
    cases nodes[c]? with
    | none => simp [lit_zero]
    | some p => rfl
  · have h0 : (0 : ℚ) ≤ 2 ^ 900 := by positivity
    unfold DblCoords at hco
    generalize (2 : ℚ) ^ 900 = B at *
    dsimp only
    cases h : nodes[c]? with
    | none => simpa using h0
    | some p => exact (hco p (List.mem_of_getElem? h)).2
  · have h0 : (0 : ℚ) ≤ 2 ^ 900 := by positivity
    unfold DblCoords at hco
    generalize (2 : ℚ) ^ 900 = B at *
    dsimp only
    cases h : nodes[c]? with
    | none => simpa using h0
    | some p => exact (hco p (List.mem_of_getElem? h)).1

/-- What is asked of the arithmetic by the progress of the algorithm, with all penalties at most `2 ^ 900`. -/
theorem dbl_gaCalm_of (hl : DblLib lib) (ht : DblTotal lib) (hs : DblSettings cfg nodes.length)
    (he : DblEndsOK cfg nodes.length) (hd : DblLoads nodes cap) (hx : DblDist nodes.length dist)
    (hco : DblCoords nodes) (hb : Built lib nodes.length (fun a b => fin (dist a b)) d)
    (hc : buildCorr lib.sqrt lib.corrSort d = some c) {q : ℕ → ℤ} {Q D : ℤ}
    (hw : Whole (context lib (parsed (dblNodes ρ nodes) (fin cap) m) d) q Q D) {W : ℕ → Dbl ρ → Prop}
    (h0 : ∀ p, Nn 44 p → W 0 p)
    (hW : ∀ p, GA.Priced (gaEnv lib cfg (context lib (parsed (dblNodes ρ nodes) (fin cap) m) d) d c) W p → Nn 900 p)
    (hel : (cfg.eliteEducation && decide (cfg.eliteLimit < nodes.length - 1)) = true → cfg.eliteTimeBased = false ∧
      ∀ k p, k < toNat (F64.round (cfg.eliteGamma *. lit (nodes.length - 1 : ℕ))) / 1000 → W k p →
        W (k + 1) (p *. cfg.incMultiplier) ∧ W (k + 1) (p *. cfg.decMultiplier)) :
    GA.Calm (gaEnv lib cfg (context lib (parsed (dblNodes ρ nodes) (fin cap) m) d) d c)
      (context lib (parsed (dblNodes ρ nodes) (fin cap) m) d) (Nn 44) W (LoadExact q Q) := by
  have hgran := hs.gran
  have hn : 3 ≤ nodes.length := by have := hgran.1; have := hgran.2; omega
  have hm := dbl_moderate (m := m) hd hx hb
  obtain ⟨la, ln, l1, l2, l3, l4⟩ := dbl_coords (lib := lib) (cap := cap) (m := m) (d := d) (ρ := ρ) hco
  refine ⟨by rw [dbl_n]; exact hn,
    (rrCalm_dbl (by rw [dbl_n]; omega) hw hm ?_ (by norm_num) l1 l2 l3 l4 ht.atan2).mono hW,
    he.closest.1, he.minSize, he.tournament, he.initial, avgOK_dbl he.closest.2,
    fun p p' x y hp hp' hx hy => cmp_geZero (good_geZero hw hm (hW _ hp') hy) (good_geZero hw hm (hW _ hp) hx),
    fun l h => ht.sort l fun x hx y hy => ?_, h0, ?_⟩
  · intro a h1 h2
    rw [dbl_n] at h2
    obtain ⟨c', e, -, -, -, hh⟩ := C17_nearest lib.sqrt lib.corrSort d (by rw [hb.len]; omega)
      (fun i => (List.range nodes.length).map fun b => fin (dist i b))
      (fun i hi => by rw [hb.len] at hi ⊢; exact ⟨hb.rows i hi, by simp⟩) hl.perm hl.sorted
    rw [hc, Option.some.injEq] at e
    subst e
    rw [hb.len] at hh
    obtain ⟨l, g1, -, -, g2, -⟩ := hh a h2
    refine ⟨l, g1, fun v hv => ?_⟩
    obtain ⟨v1, v2, -⟩ := g2 v hv
    rw [dbl_n]
    exact ⟨v1, v2⟩
  · obtain ⟨p, hp, gx⟩ := h x hx
    obtain ⟨p', hp', gy⟩ := h y hy
    exact cmp_geZero (good_geZero hw hm (hW _ hp) gx) (good_geZero hw hm (hW _ hp') gy)
  · rw [dbl_n]
    intro h
    obtain ⟨a, b⟩ := hel h
    refine ⟨a, fun k p hk => b k p ?_⟩
    have hk : k < toNat (F64.round (cfg.eliteGamma *.
      lit ((context lib (parsed (dblNodes ρ nodes) (fin cap) m) d).n - 1 : ℕ))) / 1000 := hk
    rwa [dbl_n] at hk

/-- What is asked of the arithmetic by the progress of the algorithm. -/
theorem dbl_gaCalm (hl : DblLib lib) (ht : DblTotal lib) (hs : DblSettings cfg nodes.length)
    (he : DblEndsOK cfg nodes.length) (hd : DblLoads nodes cap) (hx : DblDist nodes.length dist)
    (hco : DblCoords nodes) (hb : Built lib nodes.length (fun a b => fin (dist a b)) d)
    (hc : buildCorr lib.sqrt lib.corrSort d = some c) {q : ℕ → ℤ} {Q D : ℤ}
    (hw : Whole (context lib (parsed (dblNodes ρ nodes) (fin cap) m) d) q Q D) :
    ∃ W, GA.Calm (gaEnv lib cfg (context lib (parsed (dblNodes ρ nodes) (fin cap) m) d) d c)
      (context lib (parsed (dblNodes ρ nodes) (fin cap) m) d) (Nn 44) W (LoadExact q Q) := by
  have none : (cfg.eliteEducation && decide (cfg.eliteLimit < nodes.length - 1)) = false →
      ∃ W, GA.Calm (gaEnv lib cfg (context lib (parsed (dblNodes ρ nodes) (fin cap) m) d) d c)
        (context lib (parsed (dblNodes ρ nodes) (fin cap) m) d) (Nn 44) W (LoadExact q Q) := fun h =>
    ⟨fun _ => Nn 44, dbl_gaCalm_of (m := m) hl ht hs he hd hx hco hb hc hw (fun p hp => hp)
      (fun p ⟨_, _, hp⟩ => hp.mono (by norm_num)) fun h' => absurd h' (by rw [h]; simp)⟩
  rcases he.elite with h | h | h
  · exact none (by rw [h]; rfl)
  · exact none (by rw [decide_eq_false (by omega), Bool.and_false])
  · have h3 : toNat (F64.round (cfg.eliteGamma *. lit (nodes.length - 1 : ℕ))) / 1000 ≤ 3000 := by
      have := h.rounds; omega
    refine ⟨Grown, dbl_gaCalm_of (m := m) hl ht hs he hd hx hco hb hc hw (fun p hp => grown_zero hp) ?_ fun _ =>
      ⟨h.timed, fun k p hk hp => ⟨hp.mul (by omega) h.inc, hp.mul (by omega) h.dec⟩⟩⟩
    rintro p ⟨k, hk, hp⟩
    refine hp.nn ?_
    have hk : k ≤ toNat (F64.round (cfg.eliteGamma *.
      lit ((context lib (parsed (dblNodes ρ nodes) (fin cap) m) d).n - 1 : ℕ))) / 1000 := hk
    rw [dbl_n] at hk
    omega

/-- In some local search of the program accepted moves can go round in a circle: the penalty `p` is a number up to
`2 ^ 44`, multiplied by 1 or, to repair, by 10. -/
def CirclePossible (lib : Lib (Dbl ρ)) (cfg : Settings (Dbl ρ)) (nodes : List (ℚ × ℚ × ℚ)) (cap : ℚ)
    (m : Option (List (List (Dbl ρ)))) : Prop :=
  ∃ d, buildDist lib.sqrt (locations (parsed (dblNodes ρ nodes) (fin cap) m))
      (decide ((parsed (dblNodes ρ nodes) (fin cap) m).nodes.length - 1 < cfg.precomputeLimit)) cfg.rounded m = some d ∧
    ∃ p factor, Nn 44 p ∧ (factor = lit 1 ∨ factor = lit 10) ∧
      Circle (RR.ctxAt (context lib (parsed (dblNodes ρ nodes) (fin cap) m) d) p) cfg.moves (p *. factor)
        (initialNumVehicles (context lib (parsed (dblNodes ρ nodes) (fin cap) m) d))

/-- What a run needs to come to an end. -/
structure DblEnding (lib : Lib (Dbl ρ)) (cfg : Settings (Dbl ρ)) (nodes : List (ℚ × ℚ × ℚ)) (cap : ℚ)
    (chs : List (GAChoice (Dbl ρ))) : Prop where
  library : DblLib lib
  total : DblTotal lib
  settings : DblSettings cfg nodes.length
  ends : DblEndsOK cfg nodes.length
  loads : DblLoads nodes cap
  coords : DblCoords nodes
  choices : ∀ ch ∈ chs, GA.ChOK ch ∧ GA.Fair nodes.length ch
  clock : ∃ ch ∈ chs, cfg.timeLimit ≤ ch.elapsed

theorem dbl_main_ends {text : List Char} {ω : Oracle} {chs : List (GAChoice (Dbl ρ))}
    (hr : DblEnding lib cfg nodes cap chs) (hx : DblDist nodes.length dist)
    (hp : parseInstance lib.num text = some (parsed (dblNodes ρ nodes) (fin cap) m))
    (hb : ∃ d, buildDist lib.sqrt (locations (parsed (dblNodes ρ nodes) (fin cap) m))
      (decide ((parsed (dblNodes ρ nodes) (fin cap) m).nodes.length - 1 < cfg.precomputeLimit)) cfg.rounded m = some d ∧
      Built lib nodes.length (fun a b => fin (dist a b)) d)
    (hcirc : cfg.lsEnabled = true → ¬ CirclePossible lib cfg nodes cap m) :
    ∃ out N, (out.isSome = true ↔ cfg.hasPath = true) ∧ ∀ f, N ≤ f →
      main lib cfg text ω (chs.map fun ch => { ch with fuel := f }) [] = some out := by
  obtain ⟨d, e, hb⟩ := hb
  have hgran := hr.settings.gran
  have hn : 3 ≤ nodes.length := by have := hgran.1; have := hgran.2; omega
  obtain ⟨c, hc, -⟩ := C17_nearest lib.sqrt lib.corrSort d (by rw [hb.len]; omega)
    (fun i => (List.range nodes.length).map fun b => fin (dist i b))
    (fun i hi => by rw [hb.len] at hi ⊢; exact ⟨hb.rows i hi, by simp⟩) hr.library.perm hr.library.sorted
  obtain ⟨Q, D, -, hw⟩ := dbl_whole (lib := lib) (m := m) (d := d) (ρ := ρ) hr.loads
  have hv := dbl_gaLaws (m := m) hr.library hr.settings hr.loads hx hb hc (loadExact_laws hw)
  obtain ⟨W, hcalm⟩ := dbl_gaCalm (m := m) hr.library hr.total hr.settings hr.ends hr.loads hx hr.coords hb hc hw
  obtain ⟨g, ⟨N, hN⟩, ht⟩ := GA.steps_end_any hv hcalm (fun hls => GA.searchesEnd_of_no_circle
    (by rw [dbl_n]; omega) (fun p => Dbl.arith _) hcalm.rr.angle fun p factor h1 h2 h3 =>
      hcirc hls ⟨d, e, p, factor, h1, h2, h3⟩) chs
    (fun ch hch => by rw [dbl_n]; exact hr.choices ch hch) (GA.new_any hv ω) (GA.new_anyExtra ω)
  have ht := ht (Or.inr hr.clock)
  have hsolve : ∀ f, N ≤ f → solve lib cfg (context lib (parsed (dblNodes ρ nodes) (fin cap) m) d) d c ω
      (chs.map fun ch => { ch with fuel := f }) [] = some g.rr.hist := by
    intro f hf
    have hw := hr.ends.whole
    unfold solve
    rw [if_neg (by rw [dbl_n]; omega)]
    have := hN f hf
    dsimp only at this
    rw [this, Option.bind_some, if_pos ht]
  refine ⟨written cfg g.rr.hist, N, ?_, fun f hf => ?_⟩
  · unfold written
    cases hpth : cfg.hasPath with
    | false => simp [solutionFile]
    | true =>
      cases g.rr.hist.entries.getLast? with
      | none => simp [solutionFile]
      | some x =>
        obtain ⟨t, h, -⟩ := C41_solution_text_round_trip x.routes x.cost
        simp [h]
  · unfold main
    rw [hp, Option.bind_some]
    unfold matrices
    rw [if_neg (by simp only [parsed, dblNodes, List.length_mapIdx, List.length_map]; omega)]
    have hm : (parsed (dblNodes ρ nodes) (fin cap) m).matrix = m := rfl
    rw [hm, e, Option.bind_some, hc, Option.map_some, Option.bind_some]
    dsimp only
    rw [hsolve f hf, Option.map_some]

end Program

open Program

variable {lib : Lib (Dbl ρ)} {cfg : Settings (Dbl ρ)} {nodes : List (ℚ × ℚ × ℚ)} {cap : ℚ}
  {text : List Char} {raw : List (List Char)} {lines pre : List (List (List Char))} {blocks : List Block}
  {rows : List (List ℚ)} {ω : Oracle} {chs : List (GAChoice (Dbl ρ))}

/-- **C78**, any state. In double precision, with any monotone rounding, the next `iterate` call in every state of
every run without decomposition returns, whatever is drawn, in whatever order hash sets are
iterated and whatever the clock shows, unless accepted moves of a local search can go round in a circle. -/
theorem C78_call_returns {d : DistMatrix (Dbl ρ)} {c : Correlation} {dist : ℕ → ℕ → ℚ}
    {m : Option (List (List (Dbl ρ)))} (hl : DblLib lib) (ht : DblTotal lib) (hs : DblSettings cfg nodes.length)
    (he : DblEndsOK cfg nodes.length) (hd : DblLoads nodes cap) (hx : DblDist nodes.length dist)
    (hco : DblCoords nodes) (hb : Built lib nodes.length (fun a b => fin (dist a b)) d)
    (hc : buildCorr lib.sqrt lib.corrSort d = some c) (ctx : Ctx (Dbl ρ))
    (hctx : ctx = context lib (parsed (dblNodes ρ nodes) (fin cap) m) d)
    (hcirc : cfg.lsEnabled = true → ∀ p factor, Nn 44 p → (factor = lit 1 ∨ factor = lit 10) →
      ¬ Circle (RR.ctxAt ctx p) cfg.moves (p *. factor) (initialNumVehicles ctx))
    (g : GA (Dbl ρ)) (hg : GA.Reach (gaEnv lib cfg ctx d c) ctx GA.ChOK g) (ch : GAChoice (Dbl ρ))
    (hch : GA.ChOK ch) (hf : GA.Fair ctx.n ch) :
    ∃ g' N, ∀ f, N ≤ f → GA.iterate (gaEnv lib cfg ctx d c) ctx { ch with fuel := f } g = some g' := by
  subst hctx
  obtain ⟨Q, D, -, hw⟩ := dbl_whole (lib := lib) (m := m) (d := d) (ρ := ρ) hd
  have hv := dbl_gaLaws (m := m) hl hs hd hx hb hc (loadExact_laws hw)
  obtain ⟨W, hcalm⟩ := dbl_gaCalm (m := m) hl ht hs he hd hx hco hb hc hw
  have hinv : GA.AnyInv (gaEnv lib cfg (context lib (parsed (dblNodes ρ nodes) (fin cap) m) d) d c)
      (context lib (parsed (dblNodes ρ nodes) (fin cap) m) d) (Nn 44) (LoadExact (demandZ nodes) Q) g ∧ GA.AnyExtra (gaEnv lib cfg (context lib (parsed (dblNodes ρ nodes) (fin cap) m) d) d c)
        (context lib (parsed (dblNodes ρ nodes) (fin cap) m) d) W g := by
    induction hg with
    | new ω => exact ⟨GA.new_any hv ω, GA.new_anyExtra ω⟩
    | step _ hok h ih => exact ⟨GA.iterate_any hv hok ih.1 h, GA.iterate_anyExtra hv hcalm hok ih.1 ih.2 h⟩
  have hn : 0 < (context lib (parsed (dblNodes ρ nodes) (fin cap) m) d).n := by have := hcalm.n; omega
  obtain ⟨g', N, h⟩ := GA.iterate_ends_any hv hcalm (fun hls => GA.searchesEnd_of_no_circle hn
    (fun p => Dbl.arith _) hcalm.rr.angle (hcirc hls)) hch hf hinv.1 hinv.2
  exact ⟨g', N, h⟩

/-- **C78**, instances in the plane. The program returns when the clock reaches the time limit, without a panic,
unless accepted moves of a local search can go round in a circle. -/
theorem C78_ends_plane (hroot : SqrtOK lib.sqrt) (ht : TextOf text raw)
    (hl : List.Forall₂ LaidOut raw lines) (hf : BlockFile lines pre blocks)
    (hd : Describes (fun w x => lib.num w = some x) (fun w n => parseUsize w = some n) blocks (fin cap)
      (dblNodes ρ nodes))
    (he : Euclidean blocks) (hr : DblEnding lib cfg nodes cap chs)
    (hco : ∀ p ∈ nodes, |p.1| ≤ 2 ^ 40 ∧ |p.2.1| ≤ 2 ^ 40) :
    (cfg.lsEnabled = true ∧ CirclePossible lib cfg nodes cap none) ∨
    ∃ out N, (out.isSome = true ↔ cfg.hasPath = true) ∧
      ∀ f, N ≤ f → Program.main lib cfg text ω (chs.map fun ch => { ch with fuel := f }) [] = some out := by
  by_cases hcirc : cfg.lsEnabled = true ∧ CirclePossible lib cfg nodes cap none
  · exact Or.inl hcirc
  right
  have hv : ∀ a < nodes.length, ∀ b < nodes.length,
      planeVal lib.sqrt cfg.rounded (dblNodes ρ nodes) a b = fin (planeNum lib.sqrt cfg.rounded nodes a b) ∧
      0 ≤ planeNum lib.sqrt cfg.rounded nodes a b ∧ planeNum lib.sqrt cfg.rounded nodes a b ≤ 2 ^ 42 := by
    intro a ha b hb
    obtain ⟨p1, p2⟩ := hco _ (List.getElem_mem ha)
    obtain ⟨p3, p4⟩ := hco _ (List.getElem_mem hb)
    obtain ⟨v, e, v0, v1⟩ := plane_bound hroot cfg.rounded (le_refl _) p1 p2 p3 p4
    rw [planeNum, planeVal_at lib.sqrt cfg.rounded ha hb, e]
    exact ⟨rfl, v0, v1⟩
  refine dbl_main_ends (dist := planeNum lib.sqrt cfg.rounded nodes) (m := none) hr (fun a ha b hb => ?_)
    (C51_parse_euclidean lib.num ht hl hf hd he) ?_ fun h1 h2 => hcirc ⟨h1, h2⟩
  · exact ⟨(hv a ha b hb).2.1, (hv a ha b hb).2.2.trans (by norm_num)⟩
  obtain ⟨d, e, h⟩ := built_plane_any (squareLaws_dbl hroot) (nodes := dblNodes ρ nodes) (cap := fin cap) dblNodes_fin
    (decide ((parsed (dblNodes ρ nodes) (fin cap) none).nodes.length - 1 < cfg.precomputeLimit)) cfg.rounded
  rw [dblNodes_length] at h
  exact ⟨d, e, h.congr fun a ha b hb => (hv a ha b hb).1⟩

/-- **C78**, instances with an explicit lower-row matrix. -/
theorem C78_ends_explicit (ht : TextOf text raw)
    (hl : List.Forall₂ LaidOut raw lines) (hf : BlockFile lines pre blocks)
    (hd : Describes (fun w x => lib.num w = some x) (fun w n => parseUsize w = some n) blocks (fin cap)
      (dblNodes ρ nodes))
    (he : ExplicitRows (fun w x => lib.num w = some x) blocks (dblRows ρ rows)) (hlen : rows.length + 1 = nodes.length)
    (hrow : ∀ (i : ℕ) (row : List ℚ), rows[i]? = some row → row.length = i + 1)
    (hnn : ∀ row ∈ rows, ∀ x ∈ row, 0 ≤ x) (hr : DblEnding lib cfg nodes cap chs)
    (hdist : DblDist nodes.length (Spec.lowerRowDist cfg.rounded rows)) :
    (cfg.lsEnabled = true ∧ CirclePossible lib cfg nodes cap (some (dblRows ρ rows))) ∨
    ∃ out N, (out.isSome = true ↔ cfg.hasPath = true) ∧
      ∀ f, N ≤ f → Program.main lib cfg text ω (chs.map fun ch => { ch with fuel := f }) [] = some out := by
  by_cases hcirc : cfg.lsEnabled = true ∧ CirclePossible lib cfg nodes cap (some (dblRows ρ rows))
  · exact Or.inl hcirc
  right
  refine dbl_main_ends (dist := Spec.lowerRowDist cfg.rounded rows) (m := some (dblRows ρ rows)) hr hdist
    (C51_parse_explicit lib.num ht hl hf hd he (by rw [dblNodes_length]; simpa [dblRows] using hlen)) ?_
    fun h1 h2 => hcirc ⟨h1, h2⟩
  obtain ⟨d, e, h⟩ := built_lowerRow_any (lib := lib) (nodes := dblNodes ρ nodes) (cap := fin cap)
    (rows := dblRows ρ rows) (by rw [dblNodes_length]; simpa [dblRows] using hlen) (dblRows_row hrow)
    (decide ((parsed (dblNodes ρ nodes) (fin cap) (some (dblRows ρ rows))).nodes.length - 1 < cfg.precomputeLimit))
    cfg.rounded
  rw [dblNodes_length] at h
  exact ⟨d, e, h.congr fun a _ b _ => lowerVal_at cfg.rounded hnn a b⟩

/-- **C78**, sizes for which no moves go round in a circle: those of C73. -/
theorem C78_no_circle (ctx : Ctx (Dbl ρ)) (d : ℕ → ℕ → ℚ) (q : ℕ → ℤ) (p D : ℚ) (Q W : ℤ) (K : ℕ)
    (hfine : FineData ctx d q p D Q W K) (hn : 0 < ctx.n) (fl : MoveFlags) (routes : ℕ) :
    ¬ Circle ctx fl (fin p) routes := by
  rintro ⟨k, R, hk, -, -, hst⟩
  obtain ⟨ed, hm, hs⟩ := hfine.modest hn
  have h1 := hm.steps hs hst
  have : (0 : ℚ) < k * (1 / 2 ^ 21) := by positivity
  linarith

end Verif
