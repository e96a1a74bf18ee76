import Mathlib.Data.List.Permutation
import Verif.Props.InReach
import Verif.Props.ExplicitExamples

/-!
# C89 for the whole program

Instances without decomposition and elite education, whole distances, demands and capacity.
-/

namespace Verif
open F64 Spec

/-- A plan for the instance: every customer once, at most as many non-empty routes as there are vehicles, no
overload. -/
structure Spec.PlanFor (nodes : List (ℚ × ℚ × ℚ)) (cap : ℚ) (R : List (List ℕ)) : Prop where
  part : IsPartition nodes.length R
  fleet : ((R.filter (· ≠ [])).length : ℤ) ≤ fleetSize nodes cap
  fits : CapFeasible (nodeDemand nodes) cap 0 R

/-- `p` is at most the largest distance over the largest demand, and at most 100. -/
structure Spec.PenaltyBelow (nodes : List (ℚ × ℚ × ℚ)) (dist : ℕ → ℕ → ℚ) (p : ℚ) : Prop where
  range : 0 ≤ p ∧ p ≤ 100
  demand : ∃ q ∈ nodes, 0 < q.2.2
  far : ∃ a < nodes.length, ∃ b < nodes.length, a ≠ b ∧ ∀ q ∈ nodes, p * q.2.2 ≤ dist a b - 1 / 1000000

/-- At the penalty `p` every overloaded solution costs more than `c`. -/
def Spec.OverloadDearFor (nodes : List (ℚ × ℚ × ℚ)) (cap : ℚ) (dist : ℕ → ℕ → ℚ) (p c : ℚ) : Prop :=
  ∀ R, IsPartition nodes.length R → (R.length : ℤ) = fleetSize nodes cap →
    solCost dist (nodeDemand nodes) cap p R ≤ c → CapFeasible (nodeDemand nodes) cap 0 R

/-- Whole distances, demands and capacity. -/
structure Spec.WholeData (nodes : List (ℚ × ℚ × ℚ)) (cap : ℚ) (dist : ℕ → ℕ → ℚ) : Prop where
  dist : ∀ a b, ∃ k : ℤ, dist a b = k
  demand : ∀ q ∈ nodes, ∃ k : ℤ, q.2.2 = k
  cap : ∃ k : ℤ, cap = k

namespace Program

variable {lib : Lib ℚ} {cfg : Settings ℚ} {nodes : List (ℚ × ℚ × ℚ)} {cap : ℚ} {dist : ℕ → ℕ → ℚ}
  {d : DistMatrix ℚ} {c : Correlation} {m : Option (List (List ℚ))}

/-- What is asked of the settings for `n` nodes: no decomposition, no elite education at this size, at least one
initial individual, at least one iteration, and a load limit of the quadratic split not below the capacity. -/
structure ReachOK (cfg : Settings ℚ) (n : ℕ) : Prop where
  whole : n - 1 < cfg.decomposeLimit
  elite : cfg.eliteEducation = true → n - 1 ≤ cfg.eliteLimit
  initial : 1 ≤ cfg.initialIndividuals
  iterations : cfg.maxIterations ≠ some 0
  factor : cfg.linearSplit = false → 1 ≤ cfg.splitFactor

/-- Magnitudes with a margin to the sentinel of the split. -/
def SmallData (nodes : List (ℚ × ℚ × ℚ)) (dist : ℕ → ℕ → ℚ) : Prop :=
  ∃ D Q : ℚ, (∀ a < nodes.length, ∀ b < nodes.length, 0 ≤ dist a b ∧ dist a b ≤ D) ∧
    (∀ p ∈ nodes, 0 ≤ p.2.2 ∧ p.2.2 ≤ Q) ∧ 2 * (nodes.length * D) + 10 ^ 13 * (nodes.length * Q) ≤ 10 ^ 29

theorem SmallData.data (h : SmallData nodes dist) (hn : 0 < nodes.length) (hc : 0 < cap) : DataOK nodes cap dist := by
  obtain ⟨D, Q, h1, h2, h3⟩ := h
  refine ⟨hc, D, Q, h1, h2, ?_⟩
  have hD : 0 ≤ D := (h1 0 hn 0 hn).1.trans (h1 0 hn 0 hn).2
  have : (0 : ℚ) ≤ nodes.length * D := mul_nonneg (Nat.cast_nonneg _) hD
  linarith

theorem totalDist_ctx (hn : 0 < nodes.length) (hb : Built lib nodes.length dist d) {R : List (List ℕ)}
    (h : IsPartition nodes.length R) :
    ∀ r ∈ R, routeDist (context lib (parsed nodes cap m) d).dist r = routeDist dist r := by
  intro r hr
  refine pathDist_congr (n := nodes.length) (fun a ha b hb' => ctx_dist hb ha hb') _ fun c hc => ?_
  simp only [List.mem_cons, List.mem_append, List.not_mem_nil, or_false] at hc
  rcases hc with rfl | hc | rfl
  · exact hn
  · exact (h.mem_iff.mp (List.mem_flatten.mpr ⟨r, hr, hc⟩)).2
  · exact hn

theorem penalty_ge {p : ℚ} (h : PenaltyBelow nodes dist p)
    (hmax : d.maxDistance = none ∨ ∃ mx, d.maxDistance = some mx ∧ ∀ a < nodes.length, ∀ b < nodes.length, a ≠ b →
      dist a b ≤ mx + 1 / 1000000) :
    p ≤ initialPenalty d.maxDistance (maxDemand (context lib (parsed nodes cap m) d)) := by
  obtain ⟨-, c2, c3⟩ := C37_initial_penalty d.maxDistance (maxDemand (context lib (parsed nodes cap m) d))
  obtain ⟨a, ha, b, hb, hab, hf⟩ := h.far
  rcases hmax with e | ⟨mx, e, hm⟩
  · rw [c2 (Or.inl e)]
    exact h.range.2
  · obtain ⟨q, hq, h1, i, hi, h2⟩ := (C37_max_demand (context lib (parsed nodes cap m) d)).2
      (by rw [ctx_n]; omega)
    rw [ctx_n] at h1 hi
    rw [ctx_demand] at h1 h2
    have hmem : nodes[i] ∈ nodes := List.getElem_mem hi
    have hqi : nodes[i].2.2 = q := by
      rw [← h2, nodeDemand, List.getElem?_eq_getElem hi]
      rfl
    have hpos : 0 < q := by
      obtain ⟨n, hn, h0⟩ := h.demand
      obtain ⟨j, hj, rfl⟩ := List.getElem_of_mem hn
      refine h0.trans_le ((le_of_eq ?_).trans (h1 j hj))
      rw [nodeDemand, List.getElem?_eq_getElem hj]
      rfl
    have h3 := hf _ hmem
    rw [hqi] at h3
    have h4 := hm a ha b hb hab
    have h5 : p ≤ mx / q := by
      rw [le_div_iff₀ hpos]
      linarith
    obtain ⟨k1, k2, k3⟩ := c3 mx q e hq
    rcases le_or_gt (1 / 10000) (mx / q) with h6 | h6
    · rcases le_or_gt (mx / q) 10000 with h7 | h7
      · rw [k1 h6 h7]; exact h5
      · rw [k2 h7]; linarith [h.range.2]
    · rw [k3 h6]; linarith

theorem solve_in_reach (hl : LibOK lib) (hs : SettingsOK cfg nodes.length) (hcap : 0 < cap)
    (hd : SmallData nodes dist) (hk : ReachOK cfg nodes.length) (hb : Built lib nodes.length dist d)
    (hc : buildCorr lib.sqrt lib.corrSort d = some c) (hsym : ∀ a b, dist a b = dist b a) (hdep : dist 0 0 = 0)
    (hdem : nodeDemand nodes 0 = 0) (hw : WholeData nodes cap dist) (hn : nodes.length < 999999) {p : ℚ}
    (hpen : p ≤ initialPenalty d.maxDistance (maxDemand (context lib (parsed nodes cap m) d)))
    {R : List (List ℕ)} (hR : PlanFor nodes cap R) (hlt : totalDist dist R + 1 < 10 ^ 30)
    (hdear : OverloadDearFor nodes cap dist p (totalDist dist R + 1)) :
    ∃ ω0 : Oracle, ∀ ω c0 c1 chs, GA.ChOK c0 → GA.ChOK c1 → (∀ ch ∈ chs, GA.ChOK ch) →
      c0.elapsed < cfg.timeLimit → c1.elapsed < cfg.timeLimit → c1.ω.sub 0 = ω0 → ∀ h,
      solve lib cfg (context lib (parsed nodes cap m) d) d c ω (c0 :: c1 :: chs) [] = some h →
      ∃ e, h.entries.getLast? = some e ∧ IsPartition nodes.length e.routes ∧
        totalDist dist e.routes ≤ totalDist dist R := by
  have hgran := hs.gran
  have hn3 : 3 ≤ nodes.length := by have := hgran.1; have := hgran.2; omega
  have hdat : DataOK nodes cap dist := hd.data (by omega) hcap
  have hv := gaValid (m := m) hl hs hdat hb hc (hi := 10000000) (le_refl _) (by norm_num)
  set ctx := context lib (parsed nodes cap m) d with hctx
  set env := gaEnv lib cfg ctx d c with henv
  have en : ctx.n = nodes.length := ctx_n
  have edem : ctx.demand = nodeDemand nodes := ctx_demand
  have ecap : ctx.cap = cap := rfl
  have hsharp : GA.SplitSharp env ctx 10000000 := by
    refine ⟨(ctx_dist hb (by omega) (by omega)).trans hdep, fun a b => ?_, by rw [edem]; exact hdem, hcap.le,
      fun h => ⟨hk.factor h, ?_⟩⟩
    · by_cases h : a < nodes.length ∧ b < nodes.length
      · rw [hctx, ctx_dist hb h.1 h.2, ctx_dist hb h.2 h.1, hsym]
      · rw [hctx, ctx_dist_out h, ctx_dist_out fun h' => h ⟨h'.2, h'.1⟩]
    · obtain ⟨D, Q, h1, h2, h3⟩ := hd
      have hD0 : 0 ≤ D := (h1 0 (by omega) 0 (by omega)).1.trans (h1 0 (by omega) 0 (by omega)).2
      have hQ0 : 0 ≤ Q := by
        obtain ⟨p, hp⟩ := List.exists_mem_of_length_pos (show 0 < nodes.length by omega)
        exact (h2 p hp).1.trans (h2 p hp).2
      refine ⟨D, Q, fun a b => ?_, fun a => ?_, by norm_num [RR.ctxAt], ?_⟩
      · show 0 ≤ ctx.dist a b ∧ ctx.dist a b ≤ D
        by_cases h : a < nodes.length ∧ b < nodes.length
        · rw [hctx, ctx_dist hb h.1 h.2]; exact h1 a h.1 b h.2
        · rw [hctx, ctx_dist_out h]; exact ⟨le_refl _, hD0⟩
      · show 0 ≤ ctx.demand a ∧ ctx.demand a ≤ Q
        rw [edem, nodeDemand]
        cases h : nodes[a]? with
        | none => exact ⟨le_refl _, hQ0⟩
        | some p => exact h2 p (List.mem_of_getElem? h)
      · show 2 * ((ctx.n : ℚ) * D) + 10000000 * (ctx.n * Q) ≤ 10 ^ 29
        rw [en]
        have : (0 : ℚ) ≤ nodes.length * Q := mul_nonneg (Nat.cast_nonneg _) hQ0
        linarith
  have hwn : WholeNumbers ctx := by
    refine ⟨fun a b => ?_, fun a => ?_, hw.cap⟩
    · by_cases h : a < nodes.length ∧ b < nodes.length
      · rw [hctx, ctx_dist hb h.1 h.2]; exact hw.dist a b
      · rw [hctx, ctx_dist_out h]; exact ⟨0, by norm_num⟩
    · rw [edem, nodeDemand]
      cases h : nodes[a]? with
      | none => exact ⟨0, by simp⟩
      | some p => exact hw.demand p (List.mem_of_getElem? h)
  have hfl : (env.split.numVehicles : ℤ) = fleetSize nodes cap := fleet_size hdat
  have htd : ∀ {R}, IsPartition nodes.length R → totalDist ctx.dist R = totalDist dist R := fun h => by
    unfold totalDist
    rw [List.map_congr_left (totalDist_ctx (by omega) hb h)]
  have hsc : ∀ {R} q, IsPartition nodes.length R → solCost ctx.dist ctx.demand ctx.cap q R =
      solCost dist (nodeDemand nodes) cap q R := fun {R} q h => by
    unfold solCost
    congr 1
    refine List.map_congr_left fun r hr => ?_
    unfold Spec.routeCost
    rw [totalDist_ctx (by omega) hb h r hr, edem, ecap]
  have hplan : IsPlan ctx env.split.numVehicles R := by
    refine ⟨by rw [en]; exact hR.part, ?_, by rw [edem]; exact hR.fits⟩
    have := hR.fleet
    rw [← hfl] at this
    exact_mod_cast this
  have hp0 : env.initialPen = initialPenalty d.maxDistance (maxDemand ctx) := rfl
  obtain ⟨ω0, hω⟩ := C89_in_reach_whole env ctx hv hwn hsharp (by rw [en]; exact hn) R hplan
    (by rw [htd hR.part]; exact hlt)
  refine ⟨ω0, fun ω c0 c1 chs k0 k1 k2 t0 t1 e0 h hsol => ?_⟩
  have hterm : ∀ t, t < cfg.timeLimit → terminateNow env.timeLimit env.maxIterations t 0 = false := by
    intro t ht
    show terminateNow cfg.timeLimit cfg.maxIterations t 0 = false
    unfold terminateNow
    have := hk.iterations
    cases hm : cfg.maxIterations with
    | none => simp [ht]
    | some k =>
      rw [hm] at this
      have : k ≠ 0 := fun e => this (by rw [e])
      simp [ht, this]
  have hstep : GA.iterate env ctx c0 (GA.new env ctx ω) = some { GA.new env ctx ω with state := .init } := by
    unfold GA.iterate
    rw [if_neg (by rw [show (GA.new env ctx ω).ctxIteration = 0 from rfl, hterm _ t0]; decide)]
    show GA.stepCreated env ctx c0 (GA.new env ctx ω) = _
    unfold GA.stepCreated
    rw [if_neg]
    rw [Bool.and_eq_true, decide_eq_true_eq]
    rintro ⟨h1, h2⟩
    have := hk.elite h1
    rw [en] at h2
    exact absurd (show cfg.eliteLimit < nodes.length - 1 from h2) (by omega)
  have hreach : GA.Reach env ctx GA.ChOK { GA.new env ctx ω with state := .init } := .step (.new _) k0 hstep
  have hwh := hk.whole
  unfold solve at hsol
  rw [if_neg (by rw [en]; omega)] at hsol
  obtain ⟨g, hg, hsol⟩ := Option.bind_eq_some_iff.mp hsol
  have hh : h = g.rr.hist := by
    split at hsol
    · exact (Option.some.inj hsol).symm
    · cases hsol
  unfold GA.steps at hg
  rw [if_neg (by rw [show (GA.new env ctx ω).state = .created from rfl]; decide), hstep, Option.bind_some] at hg
  obtain ⟨e, he, h1, h2⟩ := hω _ hreach rfl hk.initial (fun R' a b hc' => by
    rw [en] at a
    rw [hsc _ a] at hc'
    have hpm := (solCost_mono_pen (d := dist) (q := nodeDemand nodes) (cap := cap) hpen R').trans hc'
    rw [htd hR.part] at hpm
    rw [edem]
    exact hdear R' a (by rw [b]; exact hfl) hpm) c1 k1 e0 (hterm _ t1) chs k2 g hg
  have hpart : IsPartition nodes.length e.routes := by have := h1.part; rwa [en] at this
  rw [htd hpart, htd hR.part] at h2
  exact ⟨e, by rw [hh]; exact he, hpart, h2⟩

theorem main_in_reach {text : List Char} (hl : LibOK lib) (hs : SettingsOK cfg nodes.length) (hcap : 0 < cap)
    (hd : SmallData nodes dist) (hk : ReachOK cfg nodes.length)
    (hp : parseInstance lib.num text = some (parsed nodes cap m))
    (hb : ∃ d, buildDist lib.sqrt (locations (parsed nodes cap m))
      (decide ((parsed nodes cap m).nodes.length - 1 < cfg.precomputeLimit)) cfg.rounded m = some d ∧
      Built lib nodes.length dist d ∧ (d.maxDistance = none ∨ ∃ mx, d.maxDistance = some mx ∧
        ∀ a < nodes.length, ∀ b < nodes.length, a ≠ b → dist a b ≤ mx + 1 / 1000000))
    (hsym : ∀ a b, dist a b = dist b a) (hdep : dist 0 0 = 0)
    (hdem : nodeDemand nodes 0 = 0) (hw : WholeData nodes cap dist) (hn : nodes.length < 999999) {p : ℚ}
    (hpen : PenaltyBelow nodes dist p)
    {R : List (List ℕ)} (hR : PlanFor nodes cap R) (hlt : totalDist dist R + 1 < 10 ^ 30)
    (hdear : OverloadDearFor nodes cap dist p (totalDist dist R + 1)) :
    ∃ ω0 : Oracle, ∀ ω c0 c1 chs, GA.ChOK c0 → GA.ChOK c1 → (∀ ch ∈ chs, GA.ChOK ch) →
      c0.elapsed < cfg.timeLimit → c1.elapsed < cfg.timeLimit → c1.ω.sub 0 = ω0 → ∀ file,
      main lib cfg text ω (c0 :: c1 :: chs) [] = some (some file) →
      ∃ routes cost, readSolution file = some (routes, cost) ∧ PlanFor nodes cap routes ∧
        totalDist dist routes ≤ totalDist dist R ∧ (cost : ℚ) = totalDist dist routes := by
  have hgran := hs.gran
  have hn3 : 3 ≤ nodes.length := by have := hgran.1; have := hgran.2; omega
  have hdat : DataOK nodes cap dist := hd.data (by omega) hcap
  obtain ⟨d, e, hb, hmax⟩ := hb
  obtain ⟨c, hc, -⟩ := C17_nearest lib.sqrt lib.corrSort d (by rw [hb.len]; omega)
    (fun i => (List.range nodes.length).map (dist i))
    (fun i hi => by rw [hb.len] at hi ⊢; exact ⟨hb.rows i hi, by simp⟩) hl.perm
    (fun L => (hl.sorted L).imp fun h => by simpa using h)
  obtain ⟨ω0, h⟩ := solve_in_reach (m := m) hl hs hcap hd hk hb hc hsym hdep hdem hw hn
    (penalty_ge hpen hmax) hR hlt hdear
  refine ⟨ω0, fun ω c0 c1 chs k0 k1 k2 t0 t1 e0 file hmain => ?_⟩
  have hch : ∀ ch ∈ c0 :: c1 :: chs, GA.ChOK ch := by
    intro ch hch
    rcases List.mem_cons.mp hch with rfl | hch
    · exact k0
    · rcases List.mem_cons.mp hch with rfl | hch
      · exact k1
      · exact k2 ch hch
  have hmain' := hmain
  unfold main at hmain
  rw [hp, Option.bind_some] at hmain
  obtain ⟨x, h1, h2⟩ := Option.bind_eq_some_iff.mp hmain
  obtain ⟨hist, h3, h4⟩ := Option.map_eq_some_iff.mp h2
  unfold matrices at h1
  split at h1
  · cases h1
  have hm : (parsed nodes cap m).matrix = m := rfl
  rw [hm, e, Option.bind_some, hc, Option.map_some, Option.some.injEq] at h1
  subst h1
  obtain ⟨en, q1, q2, q3⟩ := h ω c0 c1 chs k0 k1 k2 t0 t1 e0 hist h3
  unfold written at h4
  rw [q1, Option.map_some] at h4
  have hpath : cfg.hasPath = true := by
    cases hpth : cfg.hasPath with
    | true => rfl
    | false => rw [hpth] at h4; cases h4
  obtain ⟨t, r1, r2⟩ := C41_solution_text_round_trip en.routes en.cost
  rw [hpath, r1, Option.some.injEq] at h4
  subst h4
  have hne : t ≠ [] := by
    rintro rfl
    simp [solutionFile] at r1
  obtain ⟨rs, N, u1, u2, u3, u4, u5, u6⟩ := correct_of_int (main_correct (dchs := [])
    ⟨hl, hs, hch, by simp⟩ hdat hdep hp ⟨d, e, hb⟩ hmain' hne) hw.demand hw.cap
  rw [u1, Option.some.injEq, Prod.mk.injEq] at r2
  obtain ⟨rfl, rfl⟩ := r2
  have hfd : totalDist dist (en.routes.filter fun r => r ≠ []) = totalDist dist en.routes := by
    generalize en.routes = l
    induction l with
    | nil => rfl
    | cons r rs ih =>
      unfold totalDist at ih ⊢
      by_cases hr : r = []
      · subst hr
        simp only [List.map_cons, List.sum_cons, ← ih]
        simp [routeDist, pathDist, hdep]
      · simp only [List.map_cons, List.sum_cons, ← ih]
        simp [hr]
  refine ⟨_, _, u1, ⟨u3, le_trans ?_ u4, u5⟩, by rw [hfd]; exact q3, ?_⟩
  · exact_mod_cast List.length_filter_le _ _
  · have h5 := u6 u5
    change |(_ : ℚ) - totalDist dist _| ≤ 1 / 2 at h5
    obtain ⟨k, hk⟩ := length_whole hw.dist (en.routes.filter fun r => r ≠ [])
    have hk' : totalDist dist (en.routes.filter fun r => r ≠ []) = k := hk
    rw [hk'] at h5 ⊢
    rw [abs_le] at h5
    refine le_antisymm (whole_le ⟨_, (Int.cast_natCast _).symm⟩ ⟨k, rfl⟩ (by linarith [h5.2]))
      (whole_le ⟨k, rfl⟩ ⟨_, (Int.cast_natCast _).symm⟩ (by linarith [h5.1]))

end Program

open Program

theorem planeDist_depot {sqrt : ℚ → ℚ} (h : sqrt 0 = 0) (rounded : Bool) {nodes : List (ℚ × ℚ × ℚ)}
    (hn : 0 < nodes.length) : planeDist sqrt rounded nodes 0 0 = 0 := by
  rw [planeDist, List.getElem?_eq_getElem hn]
  simp only [sub_self, ne_eq, OfNat.ofNat_ne_zero, not_false_eq_true, zero_pow, add_zero, h]
  cases rounded with
  | false => rfl
  | true => simp only [roundedDist, if_true]; norm_num

/-- **C89**, the program on instances in the plane with whole distances, demands and capacity. `R` is any plan
such that no overloaded solution costs at most one unit more than `R`, at a penalty `p` not above the largest
distance over the largest demand (and not above 100). There are draws `ω0` with this effect: in every run of the
program in which the first individual gets these draws, whatever the other draws, hash orders and clock
readings, the file that is written lists a plan no longer than `R` with its exact length. -/
theorem C89_file_plane {lib : Lib ℚ} {cfg : Settings ℚ} {nodes : List (ℚ × ℚ × ℚ)} {cap : ℚ}
    {text : List Char} {raw : List (List Char)} {lines pre : List (List (List Char))} {blocks : List Block}
    (ht : TextOf text raw) (hl : List.Forall₂ LaidOut raw lines) (hf : BlockFile lines pre blocks)
    (hd : Describes (fun w x => lib.num w = some x) (fun w n => parseUsize w = some n) blocks cap nodes)
    (he : Euclidean blocks) (hlib : LibOK lib) (hs : SettingsOK cfg nodes.length)
    (hk : ReachOK cfg nodes.length) (hcap : 0 < cap)
    (hdata : SmallData nodes (planeDist lib.sqrt cfg.rounded nodes)) (hdem : nodeDemand nodes 0 = 0)
    (hw : WholeData nodes cap (planeDist lib.sqrt cfg.rounded nodes)) (hn : nodes.length < 999999) {p : ℚ}
    (hpen : PenaltyBelow nodes (planeDist lib.sqrt cfg.rounded nodes) p)
    {R : List (List ℕ)} (hR : PlanFor nodes cap R)
    (hlt : totalDist (planeDist lib.sqrt cfg.rounded nodes) R + 1 < 10 ^ 30)
    (hdear : OverloadDearFor nodes cap (planeDist lib.sqrt cfg.rounded nodes) p
      (totalDist (planeDist lib.sqrt cfg.rounded nodes) R + 1)) :
    ∃ ω0 : Oracle, ∀ ω c0 c1 chs, GA.ChOK c0 → GA.ChOK c1 → (∀ ch ∈ chs, GA.ChOK ch) →
      c0.elapsed < cfg.timeLimit → c1.elapsed < cfg.timeLimit → c1.ω.sub 0 = ω0 → ∀ file,
      Program.main lib cfg text ω (c0 :: c1 :: chs) [] = some (some file) →
      ∃ routes cost, readSolution file = some (routes, cost) ∧ PlanFor nodes cap routes ∧
        totalDist (planeDist lib.sqrt cfg.rounded nodes) routes ≤
          totalDist (planeDist lib.sqrt cfg.rounded nodes) R ∧
        (cost : ℚ) = totalDist (planeDist lib.sqrt cfg.rounded nodes) routes := by
  have hgran := hs.gran
  have hn3 : 3 ≤ nodes.length := by have := hgran.1; have := hgran.2; omega
  have hloc : (locations (parsed nodes cap none)).length = nodes.length := by simp [locations, parsed]
  refine main_in_reach hlib hs hcap hdata hk (C51_parse_euclidean lib.num ht hl hf hd he) ?_
    (planeDist_symm _ _ _) (planeDist_depot hlib.root _ (by omega)) hdem hw hn hpen hR hlt hdear
  cases hpre : decide ((parsed nodes cap none).nodes.length - 1 < cfg.precomputeLimit) with
  | false =>
    obtain ⟨d, e, hb⟩ := built_plane (nodes := nodes) (cap := cap) hlib false cfg.rounded
    refine ⟨d, e, hb, Or.inl ?_⟩
    simp only [buildDist, Bool.false_eq_true, if_false, Option.some.injEq] at e
    rw [← e]
  | true =>
    obtain ⟨d, e, hb⟩ := built_plane (nodes := nodes) (cap := cap) hlib true cfg.rounded
    obtain ⟨d', mx, e', h1, -, h2⟩ := C20_max_euclidean lib.sqrt hlib.root (locations (parsed nodes cap none))
      cfg.rounded (by rw [hloc]; omega)
    rw [e, Option.some.injEq] at e'
    subst e'
    refine ⟨d, e, hb, Or.inr ⟨mx, h1, fun a ha b hb' hab => ?_⟩⟩
    exact h2 a b _ hab (by rw [hloc]; exact ha) (by rw [hloc]; exact hb') (hb.get a ha b hb')

/-- **C89**, instances with an explicit lower-row matrix. -/
theorem C89_file_explicit {lib : Lib ℚ} {cfg : Settings ℚ} {nodes : List (ℚ × ℚ × ℚ)} {cap : ℚ}
    {text : List Char} {raw : List (List Char)} {lines pre : List (List (List Char))} {blocks : List Block}
    {rows : List (List ℚ)} (ht : TextOf text raw) (hl : List.Forall₂ LaidOut raw lines)
    (hf : BlockFile lines pre blocks)
    (hd : Describes (fun w x => lib.num w = some x) (fun w n => parseUsize w = some n) blocks cap nodes)
    (he : ExplicitRows (fun w x => lib.num w = some x) blocks rows) (hlen : rows.length + 1 = nodes.length)
    (hrow : ∀ (i : ℕ) (row : List ℚ), rows[i]? = some row → row.length = i + 1)
    (hnn : ∀ row ∈ rows, ∀ x ∈ row, 0 ≤ x) (hlib : LibOK lib) (hs : SettingsOK cfg nodes.length)
    (hk : ReachOK cfg nodes.length) (hcap : 0 < cap)
    (hdata : SmallData nodes (lowerRowDist cfg.rounded rows)) (hdem : nodeDemand nodes 0 = 0)
    (hw : WholeData nodes cap (lowerRowDist cfg.rounded rows)) (hn : nodes.length < 999999) {p : ℚ}
    (hpen : PenaltyBelow nodes (lowerRowDist cfg.rounded rows) p)
    {R : List (List ℕ)} (hR : PlanFor nodes cap R) (hlt : totalDist (lowerRowDist cfg.rounded rows) R + 1 < 10 ^ 30)
    (hdear : OverloadDearFor nodes cap (lowerRowDist cfg.rounded rows) p
      (totalDist (lowerRowDist cfg.rounded rows) R + 1)) :
    ∃ ω0 : Oracle, ∀ ω c0 c1 chs, GA.ChOK c0 → GA.ChOK c1 → (∀ ch ∈ chs, GA.ChOK ch) →
      c0.elapsed < cfg.timeLimit → c1.elapsed < cfg.timeLimit → c1.ω.sub 0 = ω0 → ∀ file,
      Program.main lib cfg text ω (c0 :: c1 :: chs) [] = some (some file) →
      ∃ routes cost, readSolution file = some (routes, cost) ∧ PlanFor nodes cap routes ∧
        totalDist (lowerRowDist cfg.rounded rows) routes ≤ totalDist (lowerRowDist cfg.rounded rows) R ∧
        (cost : ℚ) = totalDist (lowerRowDist cfg.rounded rows) routes := by
  have hgran := hs.gran
  have hn3 : 3 ≤ nodes.length := by have := hgran.1; have := hgran.2; omega
  have hloc : (locations (parsed nodes cap (some rows))).length = nodes.length := by simp [locations, parsed]
  refine main_in_reach hlib hs hcap hdata hk (C51_parse_explicit lib.num ht hl hf hd he hlen) ?_
    (lowerRowDist_symm _ _) (by simp [lowerRowDist]) hdem hw hn hpen hR hlt hdear
  obtain ⟨d, e, hb⟩ := built_lowerRow (lib := lib) (cap := cap) hlen hrow hnn
    (decide ((parsed nodes cap (some rows)).nodes.length - 1 < cfg.precomputeLimit)) cfg.rounded
  obtain ⟨d', mx, e', h1, -, h2⟩ := C20_max_explicit lib.sqrt (locations (parsed nodes cap (some rows)))
    (decide ((parsed nodes cap (some rows)).nodes.length - 1 < cfg.precomputeLimit)) cfg.rounded rows
    (by rw [hloc]; exact hlen) (by rw [hloc]; omega) hrow
  rw [e, Option.some.injEq] at e'
  subst e'
  refine ⟨d, e, hb, Or.inr ⟨mx, h1, fun a ha b hb' hab => ?_⟩⟩
  exact h2 a b _ hab (by rw [hloc]; exact ha) (by rw [hloc]; exact hb') (hb.get a ha b hb')

/-- The draws `ω0` for the order of the customers, and draws for the crossover that do not repeat one position. -/
def Spec.drawsWith (ω0 : Oracle) : Oracle := fun k => if k.unpair.1 = 0 then ω0 k.unpair.2 else k.unpair.2

theorem drawsWith_order (ω0 : Oracle) : (drawsWith ω0).sub 0 = ω0 := by
  funext k
  simp [Oracle.sub, drawsWith, Nat.unpair_pair]

theorem drawsWith_fair (ω0 : Oracle) {n : ℕ} (hn : 3 ≤ n) (ch : GAChoice ℚ) (h : ch.ω = drawsWith ω0) :
    GA.Fair n ch := by
  refine ⟨1, le_refl _, ?_⟩
  rw [h]
  simp only [Oracle.sub, drawsWith, Nat.unpair_pair, OfNat.ofNat_ne_zero, if_false, Nat.zero_mod]
  rw [Nat.mod_eq_of_lt (by omega)]
  decide

/-- A short run: the second call makes an individual from the draws `ω0`, at the third one the time is up. -/
def Spec.shortRun (ω0 : Oracle) (limit : ℕ) : List (GAChoice ℚ) :=
  [⟨drawsWith ω0, fun _ _ => ⟨fun _ => 0, fun _ l => l, 0⟩, fun _ => 0, 0, 0⟩,
    ⟨drawsWith ω0, fun _ _ => ⟨fun _ => 0, fun _ l => l, 0⟩, fun _ => 0, 0, 0⟩,
    ⟨drawsWith ω0, fun _ _ => ⟨fun _ => 0, fun _ l => l, 0⟩, fun _ => 0, limit, 0⟩]

theorem shortRun_draws {ω0 : Oracle} {limit : ℕ} : ∀ ch ∈ shortRun ω0 limit, ch.ω = drawsWith ω0 := by
  intro ch hch
  simp only [shortRun, List.mem_cons, List.not_mem_nil, or_false] at hch
  rcases hch with rfl | rfl | rfl <;> rfl

theorem shortRun_ok {ω0 : Oracle} {limit : ℕ} : ∀ ch ∈ shortRun ω0 limit, GA.ChOK ch := by
  intro ch hch
  simp only [shortRun, List.mem_cons, List.not_mem_nil, or_false] at hch
  rcases hch with rfl | rfl | rfl <;> exact fun _ _ _ l => List.Perm.refl l

/-- **C89**, a shortest plan is found by some run, instances in the plane. If `R` is a shortest plan then the
program has an execution, of three calls of `iterate`, that writes a plan of the same length. -/
theorem C89_optimum_plane {lib : Lib ℚ} {cfg : Settings ℚ} {nodes : List (ℚ × ℚ × ℚ)} {cap : ℚ}
    {text : List Char} {raw : List (List Char)} {lines pre : List (List (List Char))} {blocks : List Block}
    (ht : TextOf text raw) (hl : List.Forall₂ LaidOut raw lines) (hf : BlockFile lines pre blocks)
    (hd : Describes (fun w x => lib.num w = some x) (fun w n => parseUsize w = some n) blocks cap nodes)
    (he : Euclidean blocks) (hlib : LibOK lib) (hs : SettingsOK cfg nodes.length)
    (hk : ReachOK cfg nodes.length) (hcap : 0 < cap)
    (hdata : SmallData nodes (planeDist lib.sqrt cfg.rounded nodes)) (hdem : nodeDemand nodes 0 = 0)
    (hw : WholeData nodes cap (planeDist lib.sqrt cfg.rounded nodes)) (hn : nodes.length < 999999) {p : ℚ}
    (hpen : PenaltyBelow nodes (planeDist lib.sqrt cfg.rounded nodes) p)
    {R : List (List ℕ)} (hR : PlanFor nodes cap R)
    (hlt : totalDist (planeDist lib.sqrt cfg.rounded nodes) R + 1 < 10 ^ 30)
    (hdear : OverloadDearFor nodes cap (planeDist lib.sqrt cfg.rounded nodes) p
      (totalDist (planeDist lib.sqrt cfg.rounded nodes) R + 1))
    (htot : ∀ l, ∃ l', lib.sort l = some l') (hend : EndsOK cfg nodes.length) (hpath : cfg.hasPath = true)
    (htime : 0 < cfg.timeLimit)
    (hbest : ∀ R', PlanFor nodes cap R' → totalDist (planeDist lib.sqrt cfg.rounded nodes) R ≤
      totalDist (planeDist lib.sqrt cfg.rounded nodes) R') (ω : Oracle) :
    ∃ ω0 N file, (∀ f, N ≤ f → Program.main lib cfg text ω
        ((shortRun ω0 cfg.timeLimit).map fun ch => { ch with fuel := f }) [] = some (some file)) ∧
      ∃ routes cost, readSolution file = some (routes, cost) ∧ PlanFor nodes cap routes ∧
        (cost : ℚ) = totalDist (planeDist lib.sqrt cfg.rounded nodes) routes ∧
        ∀ R', PlanFor nodes cap R' → (cost : ℚ) ≤ totalDist (planeDist lib.sqrt cfg.rounded nodes) R' := by
  have hgran := hs.gran
  have hn3 : 3 ≤ nodes.length := by have := hgran.1; have := hgran.2; omega
  obtain ⟨ω0, h⟩ := C89_file_plane ht hl hf hd he hlib hs hk hcap hdata hdem hw hn hpen hR hlt hdear
  obtain ⟨out, N, h1, h2, -⟩ := C66_ends_plane (ω := ω) (chs := shortRun ω0 cfg.timeLimit) ht hl hf hd he
    ⟨hlib, hs, shortRun_ok, by simp⟩ (hdata.data (by omega) hcap) htot hend hdem
    (fun ch hch => drawsWith_fair ω0 hn3 ch (shortRun_draws ch hch))
    (Or.inr ⟨_, by simp only [shortRun, List.mem_cons]; exact Or.inr (Or.inr (Or.inl rfl)), le_refl _⟩)
  obtain ⟨file, hfile⟩ := Option.isSome_iff_exists.mp (h1.mpr hpath)
  subst hfile
  have hm := h2 N (le_refl _)
  simp only [shortRun, List.map_cons, List.map_nil] at hm
  obtain ⟨rs, c, e1, e2, e3, e4⟩ := (fun k0 k1 k2 t0 t1 e0 => h ω _ _ _ k0 k1 k2 t0 t1 e0 file hm)
    (fun _ _ _ l => List.Perm.refl l) (fun _ _ _ l => List.Perm.refl l)
    (fun ch hch => by
      rw [List.mem_singleton] at hch
      subst hch
      exact fun _ _ _ l => List.Perm.refl l) htime htime (drawsWith_order ω0)
  exact ⟨ω0, N, file, h2, rs, c, e1, e2, e4, fun R' hR' => by rw [e4]; exact e3.trans (hbest R' hR')⟩

/-- **C89**, a shortest plan is found by some run, instances with an explicit lower-row matrix. -/
theorem C89_optimum_explicit {lib : Lib ℚ} {cfg : Settings ℚ} {nodes : List (ℚ × ℚ × ℚ)} {cap : ℚ}
    {text : List Char} {raw : List (List Char)} {lines pre : List (List (List Char))} {blocks : List Block}
    {rows : List (List ℚ)} (ht : TextOf text raw) (hl : List.Forall₂ LaidOut raw lines)
    (hf : BlockFile lines pre blocks)
    (hd : Describes (fun w x => lib.num w = some x) (fun w n => parseUsize w = some n) blocks cap nodes)
    (he : ExplicitRows (fun w x => lib.num w = some x) blocks rows) (hlen : rows.length + 1 = nodes.length)
    (hrow : ∀ (i : ℕ) (row : List ℚ), rows[i]? = some row → row.length = i + 1)
    (hnn : ∀ row ∈ rows, ∀ x ∈ row, 0 ≤ x) (hlib : LibOK lib) (hs : SettingsOK cfg nodes.length)
    (hk : ReachOK cfg nodes.length) (hcap : 0 < cap)
    (hdata : SmallData nodes (lowerRowDist cfg.rounded rows)) (hdem : nodeDemand nodes 0 = 0)
    (hw : WholeData nodes cap (lowerRowDist cfg.rounded rows)) (hn : nodes.length < 999999) {p : ℚ}
    (hpen : PenaltyBelow nodes (lowerRowDist cfg.rounded rows) p)
    {R : List (List ℕ)} (hR : PlanFor nodes cap R) (hlt : totalDist (lowerRowDist cfg.rounded rows) R + 1 < 10 ^ 30)
    (hdear : OverloadDearFor nodes cap (lowerRowDist cfg.rounded rows) p
      (totalDist (lowerRowDist cfg.rounded rows) R + 1))
    (htot : ∀ l, ∃ l', lib.sort l = some l') (hend : EndsOK cfg nodes.length) (hpath : cfg.hasPath = true)
    (htime : 0 < cfg.timeLimit)
    (hbest : ∀ R', PlanFor nodes cap R' → totalDist (lowerRowDist cfg.rounded rows) R ≤
      totalDist (lowerRowDist cfg.rounded rows) R') (ω : Oracle) :
    ∃ ω0 N file, (∀ f, N ≤ f → Program.main lib cfg text ω
        ((shortRun ω0 cfg.timeLimit).map fun ch => { ch with fuel := f }) [] = some (some file)) ∧
      ∃ routes cost, readSolution file = some (routes, cost) ∧ PlanFor nodes cap routes ∧
        (cost : ℚ) = totalDist (lowerRowDist cfg.rounded rows) routes ∧
        ∀ R', PlanFor nodes cap R' → (cost : ℚ) ≤ totalDist (lowerRowDist cfg.rounded rows) R' := by
  have hgran := hs.gran
  have hn3 : 3 ≤ nodes.length := by have := hgran.1; have := hgran.2; omega
  obtain ⟨ω0, h⟩ := C89_file_explicit ht hl hf hd he hlen hrow hnn hlib hs hk hcap hdata hdem hw hn hpen hR hlt hdear
  obtain ⟨out, N, h1, h2, -⟩ := C66_ends_explicit (ω := ω) (chs := shortRun ω0 cfg.timeLimit) ht hl hf hd he hlen
    hrow hnn ⟨hlib, hs, shortRun_ok, by simp⟩ (hdata.data (by omega) hcap) htot hend hdem
    (fun ch hch => drawsWith_fair ω0 hn3 ch (shortRun_draws ch hch))
    (Or.inr ⟨_, by simp only [shortRun, List.mem_cons]; exact Or.inr (Or.inr (Or.inl rfl)), le_refl _⟩)
  obtain ⟨file, hfile⟩ := Option.isSome_iff_exists.mp (h1.mpr hpath)
  subst hfile
  have hm := h2 N (le_refl _)
  simp only [shortRun, List.map_cons, List.map_nil] at hm
  obtain ⟨rs, c, e1, e2, e3, e4⟩ := (fun k0 k1 k2 t0 t1 e0 => h ω _ _ _ k0 k1 k2 t0 t1 e0 file hm)
    (fun _ _ _ l => List.Perm.refl l) (fun _ _ _ l => List.Perm.refl l)
    (fun ch hch => by
      rw [List.mem_singleton] at hch
      subst hch
      exact fun _ _ _ l => List.Perm.refl l) htime htime (drawsWith_order ω0)
  exact ⟨ω0, N, file, h2, rs, c, e1, e2, e4, fun R' hR' => by rw [e4]; exact e3.trans (hbest R' hR')⟩

namespace ExplicitEx

/-- All ways to cut a list into `k` parts. -/
def cuts : ℕ → List ℕ → List (List (List ℕ))
  | 0, l => if l = [] then [[]] else []
  | k + 1, l => (List.range (l.length + 1)).flatMap fun i => (cuts k (l.drop i)).map (l.take i :: ·)

theorem mem_cuts : ∀ R : List (List ℕ), R ∈ cuts R.length R.flatten
  | [] => by simp [cuts]
  | r :: R => by
    simp only [List.length_cons, cuts, List.mem_flatMap, List.mem_range, List.flatten_cons, List.length_append]
    refine ⟨r.length, by omega, ?_⟩
    rw [List.drop_left, List.take_left]
    exact List.mem_map_of_mem (mem_cuts R)

/-- All candidate solutions of the example with five routes. -/
def candidates : List (List (List ℕ)) := [1, 2, 3].permutations'.flatMap (cuts 5)

theorem mem_candidates {R : List (List ℕ)} (h : IsPartition ProgramEx.nodes.length R) (hl : R.length = 5) :
    R ∈ candidates := by
  refine List.mem_flatMap.mpr ⟨R.flatten, List.mem_permutations'.mpr h, ?_⟩
  rw [← hl]
  exact mem_cuts R

theorem fleet : fleetSize ProgramEx.nodes 10 = 5 := by decide +kernel

/-- A decidable form of `CapFeasible`. -/
theorem fits_iff (R : List (List ℕ)) : CapFeasible (nodeDemand ProgramEx.nodes) 10 0 R ↔
    (R.all fun r => decide (routeLoad (nodeDemand ProgramEx.nodes) r ≤ 10)) = true := by
  simp [CapFeasible]

/-- With two vehicles the customers 2 and 3 cannot ride together: at the penalty 7/5 every overloaded solution
costs more than 18. -/
theorem dear : OverloadDearFor ProgramEx.nodes 10 (lowerRowDist ProgramEx.cfg.rounded rows) (7 / 5) (17 + 1) := by
  intro R h1 h2 h3
  rw [fleet] at h2
  have hall : ∀ R ∈ candidates, solCost (lowerRowDist ProgramEx.cfg.rounded rows) (nodeDemand ProgramEx.nodes) 10
      (7 / 5) R ≤ 17 + 1 →
      (R.all fun r => decide (routeLoad (nodeDemand ProgramEx.nodes) r ≤ 10)) = true := by decide +kernel
  exact (fits_iff R).mpr (hall R (mem_candidates h1 (by exact_mod_cast h2)) h3)

theorem plan : PlanFor ProgramEx.nodes 10 [[1, 2], [3]] where
  part := by unfold IsPartition; decide
  fleet := by rw [fleet]; decide
  fits := (fits_iff _).mpr (by decide +kernel)

theorem length_plan : totalDist (lowerRowDist ProgramEx.cfg.rounded rows) [[1, 2], [3]] = 17 := by decide +kernel

theorem penalty : PenaltyBelow ProgramEx.nodes (lowerRowDist ProgramEx.cfg.rounded rows) (7 / 5) where
  range := by norm_num
  demand := ⟨(3, 0, 4), by simp [ProgramEx.nodes], by norm_num⟩
  far := ⟨2, by decide, 3, by decide, by decide, by
    have : lowerRowDist ProgramEx.cfg.rounded rows 2 3 = 9 := by decide +kernel
    rw [this]
    intro q hq
    simp only [ProgramEx.nodes, List.mem_cons, List.not_mem_nil, or_false] at hq
    rcases hq with rfl | rfl | rfl | rfl <;> norm_num⟩

theorem small : SmallData ProgramEx.nodes (lowerRowDist ProgramEx.cfg.rounded rows) := by
  refine ⟨9, 6, ?_, ?_, by norm_num [ProgramEx.nodes]⟩
  · have : ∀ a < 4, ∀ b < 4, 0 ≤ lowerRowDist ProgramEx.cfg.rounded rows a b ∧
        lowerRowDist ProgramEx.cfg.rounded rows a b ≤ 9 := by decide +kernel
    exact this
  · intro p hp
    simp only [ProgramEx.nodes, List.mem_cons, List.not_mem_nil, or_false] at hp
    rcases hp with rfl | rfl | rfl | rfl <;> norm_num

theorem whole : WholeData ProgramEx.nodes 10 (lowerRowDist ProgramEx.cfg.rounded rows) where
  dist a b := by
    show ∃ k : ℤ, lowerRowDist true rows a b = k
    unfold lowerRowDist
    split
    · exact ⟨0, by norm_num⟩
    · cases hx : (rows[max a b - 1]?).bind fun row => row[min a b]? with
      | none => exact ⟨0, by norm_num⟩
      | some x => exact ⟨_, rfl⟩
  demand q hq := by
    simp only [ProgramEx.nodes, List.mem_cons, List.not_mem_nil, or_false] at hq
    rcases hq with rfl | rfl | rfl | rfl
    · exact ⟨0, by norm_num⟩
    · exact ⟨4, by norm_num⟩
    · exact ⟨5, by norm_num⟩
    · exact ⟨6, by norm_num⟩
  cap := ⟨10, by norm_num⟩

/-- The plan 1-2, 3 is a shortest one. -/
theorem shortest (R : List (List ℕ)) (h : PlanFor ProgramEx.nodes 10 R) :
    17 ≤ totalDist (lowerRowDist ProgramEx.cfg.rounded rows) R := by
  have hdep : lowerRowDist ProgramEx.cfg.rounded rows 0 0 = 0 := by decide +kernel
  have e1 : totalDist (lowerRowDist ProgramEx.cfg.rounded rows) (R.filter (· ≠ [])) =
      totalDist (lowerRowDist ProgramEx.cfg.rounded rows) R := by
    rw [← solCost_filter_ne hdep 0 h.fits]
    refine (solCost_capFeasible 0 (fun r hr => h.fits r (List.mem_filter.mp hr).1)).symm
  have hlen : (R.filter (· ≠ [])).length ≤ 5 := by
    have := h.fleet
    rw [fleet] at this
    exact_mod_cast this
  have hpad : ∀ k, totalDist (lowerRowDist ProgramEx.cfg.rounded rows)
      (R.filter (· ≠ []) ++ List.replicate k []) =
      totalDist (lowerRowDist ProgramEx.cfg.rounded rows) (R.filter (· ≠ [])) := by
    intro k
    unfold totalDist
    rw [List.map_append, List.sum_append, List.map_replicate, List.sum_replicate]
    simp [routeDist, pathDist, hdep]
  have hflat : ∀ k, (R.filter (· ≠ []) ++ List.replicate k []).flatten = R.flatten := by
    intro k
    rw [List.flatten_append, flatten_filter_ne, List.flatten_replicate_nil, List.append_nil]
  have hmem := mem_candidates (R := R.filter (· ≠ []) ++ List.replicate (5 - (R.filter (· ≠ [])).length) [])
    (by unfold IsPartition; rw [hflat]; exact h.part)
    (by rw [List.length_append, List.length_replicate]; omega)
  have hall : ∀ R ∈ candidates, (R.all fun r => decide (routeLoad (nodeDemand ProgramEx.nodes) r ≤ 10)) = true →
      17 ≤ totalDist (lowerRowDist ProgramEx.cfg.rounded rows) R := by decide +kernel
  have := hall _ hmem ((fits_iff _).mp (by
    intro r hr
    rcases List.mem_append.mp hr with hr | hr
    · exact h.fits r (List.mem_filter.mp hr).1
    · rw [List.eq_of_mem_replicate hr]
      norm_num [routeLoad]))
  rw [hpad, e1] at this
  exact this

/-- C89 applies to this instance, in which overloading is possible: some run of three calls writes a file whose
cost is 17, the length of a shortest plan. -/
example : ∃ ω0 N file, (∀ f, N ≤ f → Program.main ProgramEx.lib ProgramEx.cfg text (fun _ => 0)
      ((shortRun ω0 100).map fun ch => { ch with fuel := f }) [] = some (some file)) ∧
    ∃ routes, readSolution file = some (routes, 17) ∧ PlanFor ProgramEx.nodes 10 routes := by
  obtain ⟨ω0, N, file, h1, rs, c, h2, h3, h4, h5⟩ := C89_optimum_explicit (lib := ProgramEx.lib)
    (cfg := ProgramEx.cfg) (textOf_lf raw (by decide)) (forall₂_lineWords _)
    blockFile describes explicit rfl triangular (fun row hr x hx => (entries row hr x hx).1)
    ProgramEx.lib_ok ProgramEx.run_ok.settings ⟨by decide, by decide, by decide, by decide, by decide⟩ (by norm_num)
    small rfl whole (by decide) penalty plan (by rw [length_plan]; norm_num) (by rw [length_plan]; exact dear)
    (fun l => ⟨l, rfl⟩) ⟨by decide, by decide, by decide, by decide, by decide, fun h => absurd h (by decide)⟩ rfl
    (by decide) (fun R' h => by rw [length_plan]; exact shortest R' h) (fun _ => 0)
  refine ⟨ω0, N, file, h1, rs, ?_, h3⟩
  have a := h5 _ plan
  rw [length_plan] at a
  have b := shortest rs h3
  rw [← h4] at b
  have : c = 17 := by exact_mod_cast le_antisymm a b
  rw [h2, this]

end ExplicitEx
end Verif
