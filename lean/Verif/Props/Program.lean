import Verif.Model.Program
import Verif.Props.DecompRun
import Verif.Props.Parser
import Verif.Props.SolutionText
import Verif.SpecFile

/-!
# C62: the written solution file

The whole program, from the text of the instance file to the text of the solution file, with and without
decomposition. Exact arithmetic; all random draws, hash orders and clock readings.
-/

namespace Verif
open F64

theorem DGA.steps_reach {α : Type} [F64 α] {env : DecompEnv α} {ctx : Ctx α} {ok : DGAChoice α → Prop} :
    ∀ (chs : List (DGAChoice α)) {s s' : DGA α}, (∀ ch ∈ chs, ok ch) → Reach env ctx ok s →
      steps env ctx chs s = some s' → Reach env ctx ok s'
  | [], s, s', _, r, h => by
    simp only [steps, Option.some.injEq] at h
    exact h ▸ r
  | ch :: chs, s, s', hok, r, h => by
    unfold steps at h
    split at h
    · rw [Option.some.injEq] at h
      exact h ▸ r
    · obtain ⟨s1, h1, h⟩ := Option.bind_eq_some_iff.mp h
      exact steps_reach chs (fun c hc => hok c (by simp [hc])) (r.step (hok ch (by simp)) h1) h

namespace Program

/-- What is asked of the library routines: binary search and the sorts do what they promise, the root is
not negative and that of zero is zero. -/
structure LibOK (lib : Lib ℚ) : Prop where
  bs : BSearchOK lib.bs
  sort : Population.SortPerm lib.sort
  perm : ∀ L, (lib.corrSort L).Perm L
  sorted : ∀ L, (lib.corrSort L).Pairwise fun a b => a.1 ≤ b.1
  root : lib.sqrt 0 = 0
  nonneg : ∀ x, 0 ≤ x → 0 ≤ lib.sqrt x

/-- What is asked of the settings for `n` nodes: neighbour lists as long as the granularity, which with
decomposition is below the size of the subproblems and that of the lists; positive multipliers. -/
structure SettingsOK (cfg : Settings ℚ) (n : ℕ) : Prop where
  gran : 0 < cfg.granularity ∧ cfg.granularity ≤ min 200 (n - 2)
  mult : 0 < cfg.incMultiplier ∧ 0 < cfg.decMultiplier
  decomp : cfg.decomposeLimit ≤ n - 1 →
    cfg.granularity < cfg.decomposedSize ∧ cfg.granularity < min 200 (n - 2)

/-- What is asked of the numbers of the instance: a positive capacity, demands that are not negative, and
magnitudes below the sentinel of the linear split. -/
structure DataOK (nodes : List (ℚ × ℚ × ℚ)) (cap : ℚ) (dist : ℕ → ℕ → ℚ) : Prop where
  cap : 0 < cap
  bound : ∃ D Q : ℚ, (∀ a < nodes.length, ∀ b < nodes.length, 0 ≤ dist a b ∧ dist a b ≤ D) ∧
    (∀ p ∈ nodes, 0 ≤ p.2.2 ∧ p.2.2 ≤ Q) ∧
    nodes.length * D + 10 ^ 13 * (nodes.length * Q) < 10 ^ 30

/-- The nodes as they are parsed. -/
def parsed {α : Type} (nodes : List (α × α × α)) (cap : α) (m : Option (List (List α))) : Parsed α :=
  ⟨nodes.mapIdx fun i p => ⟨i + 1, p.1, p.2.1, p.2.2⟩, cap, m⟩

/-- The matrix that was built shows the distances. -/
structure Built {α : Type} [F64 α] (lib : Lib α) (n : ℕ) (dist : ℕ → ℕ → α) (d : DistMatrix α) : Prop where
  len : d.locations.length = n
  get : ∀ a < n, ∀ b < n, d.get lib.sqrt a b = some (dist a b)
  rows : ∀ i < n, d.getVec lib.sqrt i 0 n = some ((List.range n).map (dist i))

variable {lib : Lib ℚ} {cfg : Settings ℚ} {nodes : List (ℚ × ℚ × ℚ)} {cap : ℚ} {dist : ℕ → ℕ → ℚ}
  {d : DistMatrix ℚ} {c : Correlation} {m : Option (List (List ℚ))}

theorem ctx_n : (context lib (parsed nodes cap m) d).n = nodes.length := by
  simp [context, parsed]

theorem ctx_demand : (context lib (parsed nodes cap m) d).demand = Spec.nodeDemand nodes := by
  funext a
  simp only [context, parsed, Spec.nodeDemand, List.getElem?_mapIdx, Option.map_map, rat_lit, Rat.cast_zero]
  rfl

theorem ctx_dist (h : Built lib nodes.length dist d) {a b : ℕ} (ha : a < nodes.length)
    (hb : b < nodes.length) : (context lib (parsed nodes cap m) d).dist a b = dist a b := by
  simp [context, parsed, ha, hb, h.get a ha b hb]

theorem ctx_dist_out {a b : ℕ} (h : ¬ (a < nodes.length ∧ b < nodes.length)) :
    (context lib (parsed nodes cap m) d).dist a b = 0 := by
  simp only [context, parsed, List.length_mapIdx, if_neg h, rat_lit, Rat.cast_zero]

/-- Both instance and settings meet what is asked for runs, up to a largest penalty of `10¹³`. -/
theorem gaValid (hl : LibOK lib) (hs : SettingsOK cfg nodes.length) (hd : DataOK nodes cap dist)
    (hb : Built lib nodes.length dist d) (hc : buildCorr lib.sqrt lib.corrSort d = some c) {hi : ℚ}
    (h1 : 10000000 ≤ hi) (h2 : hi ≤ 10 ^ 13) :
    GA.ValidUpTo (gaEnv lib cfg (context lib (parsed nodes cap m) d) d c)
      (context lib (parsed nodes cap m) d) hi := by
  obtain ⟨D, Q, hD, hQ, hM⟩ := hd.bound
  have hgran := hs.gran
  have hn : 3 ≤ nodes.length := by have := hgran.1; have := hgran.2; omega
  have hD0 : 0 ≤ D := (hD 0 (by omega) 0 (by omega)).1.trans (hD 0 (by omega) 0 (by omega)).2
  have hQ0 : 0 ≤ Q := by
    obtain ⟨p, hp⟩ := List.exists_mem_of_length_pos (show 0 < nodes.length by omega)
    exact (hQ p hp).1.trans (hQ p hp).2
  have hn1 : (1 : ℚ) ≤ nodes.length := by exact_mod_cast (by omega : 1 ≤ nodes.length)
  have hnQ : 0 ≤ (nodes.length : ℚ) * Q := mul_nonneg (by linarith) hQ0
  have hdist : ∀ a b, 0 ≤ (context lib (parsed nodes cap m) d).dist a b ∧
      (context lib (parsed nodes cap m) d).dist a b ≤ D := by
    intro a b
    by_cases h : a < nodes.length ∧ b < nodes.length
    · rw [ctx_dist hb h.1 h.2]; exact hD a h.1 b h.2
    · rw [ctx_dist_out h]; exact ⟨le_refl _, hD0⟩
  have hdem : ∀ a, 0 ≤ (context lib (parsed nodes cap m) d).demand a ∧
      (context lib (parsed nodes cap m) d).demand a ≤ Q := by
    intro a
    rw [ctx_demand, Spec.nodeDemand]
    cases h : nodes[a]? with
    | none => exact ⟨le_refl _, hQ0⟩
    | some p => exact hQ p (List.mem_of_getElem? h)
  have hDm : D ≤ (maxv : ℚ) := by
    have : (10 : ℚ) ^ 30 ≤ (maxv : ℚ) := by
      show (10 : ℚ) ^ 30 ≤ 2 ^ 1023
      calc (10 : ℚ) ^ 30 ≤ 2 ^ 100 := by norm_num
        _ ≤ 2 ^ 1023 := pow_le_pow_right₀ (by norm_num) (by norm_num)
    nlinarith
  have hfl := numVehicles_ge (context lib (parsed nodes cap m) d)
  have hlb : (0 : ℚ) ≤ vehicleLowerBound (context lib (parsed nodes cap m) d) := Nat.cast_nonneg _
  have hp := (C37_initial_penalty d.maxDistance (maxDemand (context lib (parsed nodes cap m) d))).1
  have hrow : ∀ i < d.locations.length, d.getVec lib.sqrt i 0 d.locations.length =
      some ((List.range nodes.length).map (dist i)) ∧
      ((List.range nodes.length).map (dist i)).length = d.locations.length := by
    intro i hi
    rw [hb.len] at hi ⊢
    exact ⟨hb.rows i hi, by simp⟩
  have hsort : ∀ L, (lib.corrSort L).Pairwise fun a b => (b.1 <. a.1) = false :=
    fun L => (hl.sorted L).imp fun h => by simpa using h
  refine ⟨by rw [ctx_n]; omega, fun a b => ⟨(hdist a b).1, (hdist a b).2.trans hDm⟩, ?_, ?_, rfl, hl.bs, hl.sort,
    ⟨hp.1, by show initialPenalty _ _ ≤ _; linarith [hp.2]⟩, hs.mult, h1, fun _ => ?_, ?_⟩
  · have : (1 : ℚ) ≤ initialNumVehicles (context lib (parsed nodes cap m) d) := by linarith
    exact_mod_cast this
  · have : (vehicleLowerBound (context lib (parsed nodes cap m) d) : ℚ) ≤
      initialNumVehicles (context lib (parsed nodes cap m) d) := by linarith
    exact_mod_cast this
  · refine ⟨D, Q, hdist, hdem, by show 0 ≤ hi; linarith, ?_⟩
    show ((context lib (parsed nodes cap m) d).n : ℚ) * D + hi * ((context lib (parsed nodes cap m) d).n * Q) < _
    rw [ctx_n]
    have := mul_le_mul_of_nonneg_right h2 hnQ
    linarith
  · obtain ⟨c', e, h⟩ := C16_in_bounds_partial lib.sqrt lib.corrSort d (context lib (parsed nodes cap m) d)
      (by rw [ctx_n, hb.len]) (fun i => (List.range nodes.length).map (dist i)) hrow hl.perm hsort
      (initialNumVehicles (context lib (parsed nodes cap m) d)) cfg.granularity
      (gaEnv lib cfg (context lib (parsed nodes cap m) d) d c).angle (lit 1) hgran.1 (by rw [hb.len]; exact hgran.2)
    obtain ⟨c'', e', -, hw, -⟩ := C17_nearest lib.sqrt lib.corrSort d (by rw [hb.len]; omega)
      (fun i => (List.range nodes.length).map (dist i)) hrow hl.perm hsort
    rw [hc, Option.some.injEq] at e e'
    subst e
    subst e'
    show NbrOK _ (LS.new _ _ _ _ c.storage.cells c.width _)
    rw [hw]
    exact h

theorem dgaValid (hl : LibOK lib) (hs : SettingsOK cfg nodes.length) (hd : DataOK nodes cap dist)
    (hb : Built lib nodes.length dist d) (hdep : dist 0 0 = 0)
    (hc : buildCorr lib.sqrt lib.corrSort d = some c) (hdec : cfg.decomposeLimit ≤ nodes.length - 1) :
    DGA.Valid (decompEnv lib cfg (context lib (parsed nodes cap m) d) d c)
      (context lib (parsed nodes cap m) d) := by
  have hga := gaValid (m := m) hl hs hd hb hc (hi := 10 ^ 13) (by norm_num) (le_refl _)
  have hgran := hs.gran
  have hn : 3 ≤ nodes.length := by have := hgran.1; have := hgran.2; omega
  refine ⟨hga, ⟨by rw [ctx_n]; exact hb.len, fun a ha b hb' => ?_⟩, fun i hi => ?_, hl.perm,
    fun L => (hl.sorted L).imp fun h => by simpa using h, ⟨c, hc, rfl⟩, fun a => ?_, hd.cap, ?_, hga.bound,
    (hs.decomp hdec).1, by rw [ctx_n]; exact (hs.decomp hdec).2⟩
  · rw [ctx_n] at ha hb'
    rw [ctx_dist hb ha hb']
    exact hb.get a ha b hb'
  · rw [ctx_n] at hi ⊢
    show d.getVec lib.sqrt i 0 nodes.length = _
    rw [hb.rows i hi]
    congr 1
    refine List.map_congr_left fun j hj => ?_
    rw [ctx_dist hb hi (List.mem_range.mp hj)]
  · obtain ⟨D, Q, -, hQ, -⟩ := hd.bound
    rw [ctx_demand, Spec.nodeDemand]
    cases h : nodes[a]? with
    | none => exact le_refl _
    | some p => exact (hQ p (List.mem_of_getElem? h)).1
  · rw [ctx_dist hb (by omega) (by omega), hdep]

/-- What the run leaves in the history. -/
theorem solve_last (hl : LibOK lib) (hs : SettingsOK cfg nodes.length) (hd : DataOK nodes cap dist)
    (hb : Built lib nodes.length dist d) (hdep : dist 0 0 = 0)
    (hc : buildCorr lib.sqrt lib.corrSort d = some c) {ω : Oracle} {chs : List (GAChoice ℚ)}
    {dchs : List (DGAChoice ℚ)} (hch : ∀ ch ∈ chs, GA.ChOK ch) (hdch : ∀ ch ∈ dchs, DGA.ChOK ch)
    {h : History ℚ} (hsol : solve lib cfg (context lib (parsed nodes cap m) d) d c ω chs dchs = some h)
    {e : HistEntry ℚ} (he : h.entries.getLast? = some e) :
    let ctx := context lib (parsed nodes cap m) d
    Spec.IsPartition ctx.n e.routes ∧ e.routes.length = initialNumVehicles ctx ∧
    Spec.CapFeasible ctx.demand ctx.cap (1 / 1000000) e.routes ∧
    (Spec.CapFeasible ctx.demand ctx.cap 0 e.routes →
      e.cost = (e.routes.map (Spec.routeDist ctx.dist)).sum) := by
  intro ctx
  unfold solve at hsol
  split at hsol
  · rename_i hdec
    rw [ctx_n] at hdec
    obtain ⟨s, h1, h2⟩ := Option.bind_eq_some_iff.mp hsol
    split at h2
    · cases h2
      have hr := DGA.steps_reach dchs hdch (.new ω) h1
      obtain ⟨-, -, -, a, b⟩ := C56_decomposed_run _ _ (dgaValid hl hs hd hb hdep hc hdec) s hr
      obtain ⟨b1, b2, b3, -, b4⟩ := b e (a e he).2
      exact ⟨b1, b2, b3, b4⟩
    · cases h2
  · obtain ⟨g, h1, h2⟩ := Option.bind_eq_some_iff.mp hsol
    split at h2
    · cases h2
      have hr := GA.steps_reach chs hch (.new ω) h1
      have hv := gaValid (m := m) hl hs hd hb hc (hi := 10000000) (le_refl _) (by norm_num)
      obtain ⟨-, -, -, -, -, a⟩ := C38_history_improves _ _ hv g hr
      obtain ⟨b1, b2, b3, -, b4⟩ := C39_recorded_feasible _ _ hv g hr e
        (List.mem_of_getLast? (by rw [← a]; exact he))
      exact ⟨b1, b2, b3, b4⟩
    · cases h2

theorem total_demand : totalDemand (context lib (parsed nodes cap m) d) = (nodes.map fun p => p.2.2).sum := by
  unfold totalDemand
  rw [ctx_n, ctx_demand]
  have h : (List.range nodes.length).map (Spec.nodeDemand nodes) = nodes.map fun p => p.2.2 := by
    apply List.ext_getElem
    · simp
    · intro i h1 h2
      simp only [List.length_map, List.length_range] at h1
      simp [Spec.nodeDemand, h1]
  rw [h, List.sum_eq_foldl]
  simp only [rat_lit, rat_add, Rat.cast_zero]

theorem fleet_size (hd : DataOK nodes cap dist) :
    (initialNumVehicles (context lib (parsed nodes cap m) d) : ℤ) = Spec.fleetSize nodes cap := by
  have h0 : 0 ≤ (nodes.map fun p => p.2.2).sum := by
    obtain ⟨D, Q, -, hQ, -⟩ := hd.bound
    refine List.sum_nonneg fun x hx => ?_
    obtain ⟨p, hp, rfl⟩ := List.mem_map.mp hx
    exact (hQ p hp).1
  have h1 : 0 ≤ ⌈(nodes.map fun p => p.2.2).sum / cap⌉ :=
    Int.ceil_nonneg (div_nonneg h0 hd.cap.le)
  have h2 : (vehicleLowerBound (context lib (parsed nodes cap m) d) : ℤ) =
      ⌈(nodes.map fun p => p.2.2).sum / cap⌉ := by
    unfold vehicleLowerBound
    rw [rat_ceilNat, rat_div, total_demand]
    exact Int.toNat_of_nonneg h1
  have h3 : (vehicleLowerBound (context lib (parsed nodes cap m) d) : ℚ) =
      (⌈(nodes.map fun p => p.2.2).sum / cap⌉ : ℚ) := by exact_mod_cast h2
  unfold initialNumVehicles Spec.fleetSize
  simp only [rat_ceilNat, rat_add, rat_mul, rat_lit]
  push_cast
  rw [h3, show (1.2 : ℚ) = 6 / 5 by norm_num]
  have h4 : (0 : ℚ) ≤ (⌈(nodes.map fun p => p.2.2).sum / cap⌉ : ℚ) := by exact_mod_cast h1
  exact Int.toNat_of_nonneg (Int.ceil_nonneg (by linarith))

theorem pathDist_congr {d1 d2 : ℕ → ℕ → ℚ} {n : ℕ} (h : ∀ a < n, ∀ b < n, d1 a b = d2 a b) :
    ∀ l : List ℕ, (∀ c ∈ l, c < n) → Spec.pathDist d1 l = Spec.pathDist d2 l
  | [], _ => rfl
  | [_], _ => rfl
  | a :: b :: l, hl => by
    rw [Spec.pathDist, Spec.pathDist, h a (hl a (by simp)) b (hl b (by simp)),
      pathDist_congr h (b :: l) fun c hc => hl c (by simp [hc])]

/-- The text of one solution of the run. -/
theorem entry_correct (hn : 3 ≤ nodes.length) (hd : DataOK nodes cap dist) (hb : Built lib nodes.length dist d)
    (hdep : dist 0 0 = 0) {e : HistEntry ℚ}
    (b1 : Spec.IsPartition (context lib (parsed nodes cap m) d).n e.routes)
    (b2 : e.routes.length = initialNumVehicles (context lib (parsed nodes cap m) d))
    (b3 : Spec.CapFeasible (context lib (parsed nodes cap m) d).demand (context lib (parsed nodes cap m) d).cap
      (1 / 1000000) e.routes)
    (b4 : Spec.CapFeasible (context lib (parsed nodes cap m) d).demand (context lib (parsed nodes cap m) d).cap 0
      e.routes → e.cost = (e.routes.map (Spec.routeDist (context lib (parsed nodes cap m) d).dist)).sum) :
    Spec.CorrectFile nodes cap dist (1 / 1000000) (renderSolution e.routes e.cost ++ ['\n']) := by
  obtain ⟨text', h1, h2⟩ := C41_solution_text_round_trip e.routes e.cost
  cases h1
  rw [ctx_n] at b1
  rw [ctx_demand] at b3 b4
  have hflat : (e.routes.filter fun r => r ≠ []).flatten = e.routes.flatten := by
    induction e.routes with
    | nil => rfl
    | cons r rs ih =>
      by_cases hr : r = []
      · simpa [hr] using ih
      · simpa [hr] using ih
  have hlt : ∀ r ∈ e.routes, ∀ c ∈ r, c < nodes.length := by
    intro r hr c hc
    exact (b1.mem_iff.mp (List.mem_flatten.mpr ⟨r, hr, hc⟩)).2
  have hdist : ∀ r ∈ e.routes, Spec.routeDist (context lib (parsed nodes cap m) d).dist r =
      Spec.routeDist dist r := by
    intro r hr
    refine pathDist_congr (n := nodes.length) (fun a ha b hb' => ctx_dist hb ha hb') _ fun c hc => ?_
    simp only [List.mem_cons, List.mem_append, List.not_mem_nil, or_false] at hc
    rcases hc with rfl | hc | rfl
    · omega
    · exact hlt r hr c hc
    · omega
  have hsum : (e.routes.map (Spec.routeDist (context lib (parsed nodes cap m) d).dist)).sum =
      ((e.routes.filter fun r => r ≠ []).map (Spec.routeDist dist)).sum := by
    rw [List.map_congr_left hdist]
    clear hdist hlt hflat b1 b2 b3 b4 h2
    induction e.routes with
    | nil => rfl
    | cons r rs ih =>
      by_cases hr : r = []
      · subst hr
        simp only [List.map_cons, List.sum_cons, ih]
        simp [Spec.routeDist, Spec.pathDist, hdep]
      · simp only [List.map_cons, List.sum_cons, ih]
        simp [hr]
  refine ⟨_, _, h2, ?_, ?_, ?_, ?_, ?_⟩
  · intro r hr
    simpa using (List.mem_filter.mp hr).2
  · unfold Spec.IsPartition
    rw [hflat]
    exact b1
  · rw [← fleet_size (lib := lib) (d := d) (m := m) hd, ← b2]
    exact_mod_cast List.length_filter_le _ _
  · exact fun r hr => b3 r (List.mem_filter.mp hr).1
  · intro hfeas
    have hf : Spec.CapFeasible (Spec.nodeDemand nodes) cap 0 e.routes := by
      intro r hr
      by_cases hr0 : r = []
      · subst hr0
        have := hd.cap
        simp only [Spec.routeLoad, List.map_nil, List.sum_nil]
        linarith
      · exact hfeas r (List.mem_filter.mpr ⟨hr, by simpa using hr0⟩)
    have hcost := b4 hf
    rw [hsum] at hcost
    rw [← hcost]
    refine C41_cost_nearest e.cost ?_
    rw [hcost]
    obtain ⟨D, Q, hD, -⟩ := hd.bound
    refine List.sum_nonneg fun x hx => ?_
    obtain ⟨r, hr, rfl⟩ := List.mem_map.mp hx
    have hnn : ∀ l : List ℕ, (∀ c ∈ l, c < nodes.length) → 0 ≤ Spec.pathDist dist l := by
      intro l
      induction l with
      | nil => intro _; exact le_refl _
      | cons a l ih =>
        intro h
        cases l with
        | nil => exact le_refl _
        | cons b l =>
          rw [Spec.pathDist]
          exact add_nonneg (hD a (h a (by simp)) b (h b (by simp))).1 (ih fun c hc => h c (by simp [hc]))
    refine hnn _ fun c hc => ?_
    simp only [List.mem_cons, List.mem_append, List.not_mem_nil, or_false] at hc
    rcases hc with rfl | hc | rfl
    · omega
    · exact hlt r (List.mem_filter.mp hr).1 c hc
    · omega

/-- The written file, from a matrix that shows the distances. -/
theorem written_correct (hl : LibOK lib) (hs : SettingsOK cfg nodes.length) (hd : DataOK nodes cap dist)
    (hb : Built lib nodes.length dist d) (hdep : dist 0 0 = 0)
    (hc : buildCorr lib.sqrt lib.corrSort d = some c) {ω : Oracle} {chs : List (GAChoice ℚ)}
    {dchs : List (DGAChoice ℚ)} (hch : ∀ ch ∈ chs, GA.ChOK ch) (hdch : ∀ ch ∈ dchs, DGA.ChOK ch)
    {h : History ℚ} (hsol : solve lib cfg (context lib (parsed nodes cap m) d) d c ω chs dchs = some h)
    {text : List Char} (ht : written cfg h = some text) (hne : text ≠ []) :
    Spec.CorrectFile nodes cap dist (1 / 1000000) text := by
  have hgran := hs.gran
  have hn : 3 ≤ nodes.length := by have := hgran.1; have := hgran.2; omega
  unfold written at ht
  have hp : cfg.hasPath = true := by
    cases hp : cfg.hasPath with
    | true => rfl
    | false => rw [hp] at ht; cases ht
  rw [hp] at ht
  cases he : h.entries.getLast? with
  | none => rw [he] at ht; cases ht; exact absurd rfl hne
  | some e =>
    rw [he] at ht
    rw [Option.map_some, show solutionFile true (some (e.routes, e.cost)) =
      some (renderSolution e.routes e.cost ++ ['\n']) from rfl, Option.some.injEq] at ht
    subst ht
    obtain ⟨b1, b2, b3, b4⟩ := solve_last hl hs hd hb hdep hc hch hdch hsol he
    exact entry_correct hn hd hb hdep b1 b2 b3 b4

theorem roundIf_rat {x : ℚ} (rounded : Bool) (hx : 0 ≤ x) : roundIf rounded x = Spec.roundedDist rounded x := by
  cases rounded with
  | false => rfl
  | true => simp [roundIf, Spec.roundedDist, F64.ratRound, if_pos hx]

theorem Built.congr {α : Type} [F64 α] {lib : Lib α} {n : ℕ} {f g : ℕ → ℕ → α} {d : DistMatrix α}
    (h : Built lib n f d) (e : ∀ a < n, ∀ b < n, f a b = g a b) : Built lib n g d := by
  refine ⟨h.len, fun a ha b hb => by rw [h.get a ha b hb, e a ha b hb], fun i hi => ?_⟩
  rw [h.rows i hi]
  congr 1
  exact List.map_congr_left fun j hj => e i hi j (List.mem_range.mp hj)

/-- What the code computes as the distance of two nodes in the plane. -/
def planeVal {α : Type} [F64 α] (sqrt : α → α) (rounded : Bool) (nodes : List (α × α × α)) (a b : ℕ) : α :=
  match nodes[a]?, nodes[b]? with
  | some p, some q => roundIf rounded (euclid sqrt ⟨p.1, p.2.1⟩ ⟨q.1, q.2.1⟩)
  | _, _ => lit 0

/-- What the code reads off a lower-row matrix. -/
def lowerVal {α : Type} [F64 α] (rounded : Bool) (rows : List (List α)) (a b : ℕ) : α :=
  if a = b then lit 0 else
    match (rows[max a b - 1]?).bind fun row => row[min a b]? with
    | some d => roundIf rounded d
    | none => lit 0

/-- The Euclidean matrix, computed in advance or not. -/
theorem built_plane_any {α : Type} [F64 α] {lib : Lib α} {S : α → Prop} (L : SquareLaws lib.sqrt S)
    {nodes : List (α × α × α)} {cap : α} (hS : ∀ p ∈ nodes, S p.1 ∧ S p.2.1) (precompute rounded : Bool) :
    ∃ d, buildDist lib.sqrt (locations (parsed nodes cap none)) precompute rounded none = some d ∧
      Built lib nodes.length (planeVal lib.sqrt rounded nodes) d := by
  have hlen : (locations (parsed nodes cap none)).length = nodes.length := by simp [locations, parsed]
  have hloc : ∀ a (ha : a < nodes.length), (locations (parsed nodes cap none))[a]? =
      some ⟨nodes[a].1, nodes[a].2.1⟩ := by
    intro a ha
    simp [locations, parsed, ha]
  have hS' : ∀ p ∈ locations (parsed nodes cap none), p.Has S := by
    intro p hp
    obtain ⟨a, ha, rfl⟩ := List.mem_iff_getElem.mp hp
    rw [hlen] at ha
    have := hloc a ha
    rw [List.getElem?_eq_getElem (by rw [hlen]; exact ha), Option.some.injEq] at this
    rw [this]
    exact hS _ (List.getElem_mem ha)
  obtain ⟨d, D, e, h1, h2⟩ := euclid_rows lib.sqrt L
    (locations (parsed nodes cap none)) hS' precompute rounded
  obtain ⟨pre, lazy, e1, e2, hget, -⟩ := C18_euclidean lib.sqrt L
    (locations (parsed nodes cap none)) hS' rounded
  have hg : ∀ a < nodes.length, ∀ b < nodes.length,
      d.get lib.sqrt a b = some (planeVal lib.sqrt rounded nodes a b) := by
    intro a ha b hb
    obtain ⟨x, hx, g1, g2, -⟩ := hget a b _ _ (hloc a ha) (hloc b hb)
    have hx' : x = planeVal lib.sqrt rounded nodes a b := by
      rw [hx, planeVal, List.getElem?_eq_getElem ha, List.getElem?_eq_getElem hb]
      rfl
    rw [← hx']
    cases precompute with
    | true => rw [e1, Option.some.injEq] at e; rw [← e]; exact g1
    | false => rw [e2, Option.some.injEq] at e; rw [← e]; exact g2
  refine ⟨d, e, by rw [h1, hlen], hg, fun i hi => ?_⟩
  rw [hlen] at h2
  obtain ⟨r1, r2, r3⟩ := h2 i hi
  rw [r1]
  congr 1
  apply List.ext_getElem?
  intro j
  by_cases hj : j < nodes.length
  · rw [r3 j hj, hg i hi j hj]
    simp [hj]
  · rw [List.getElem?_eq_none (by omega), List.getElem?_eq_none (by simpa using hj)]

theorem built_plane (hl : LibOK lib) (precompute rounded : Bool) :
    ∃ d, buildDist lib.sqrt (locations (parsed nodes cap none)) precompute rounded none = some d ∧
      Built lib nodes.length (Spec.planeDist lib.sqrt rounded nodes) d := by
  obtain ⟨d, e, h⟩ := built_plane_any (squareLaws_rat lib.sqrt hl.root) (nodes := nodes) (cap := cap)
    (fun _ _ => ⟨trivial, trivial⟩) precompute rounded
  refine ⟨d, e, h.congr fun a ha b hb => ?_⟩
  rw [planeVal, Spec.planeDist, List.getElem?_eq_getElem ha, List.getElem?_eq_getElem hb]
  dsimp only
  have : euclid lib.sqrt ⟨nodes[a].1, nodes[a].2.1⟩ ⟨nodes[b].1, nodes[b].2.1⟩ =
      lib.sqrt ((nodes[a].1 - nodes[b].1) ^ 2 + (nodes[a].2.1 - nodes[b].2.1) ^ 2) := by
    simp only [euclid, rat_sub, rat_mul, rat_add]
    congr 1
    ring
  rw [this, roundIf_rat rounded (hl.nonneg _ (by positivity))]

/-- The explicit matrix. -/
theorem built_lowerRow_any {α : Type} [F64 α] {lib : Lib α} {nodes : List (α × α × α)} {cap : α}
    {rows : List (List α)} (hlen : rows.length + 1 = nodes.length)
    (hrow : ∀ (i : ℕ) (row : List α), rows[i]? = some row → row.length = i + 1) (precompute rounded : Bool) :
    ∃ d, buildDist lib.sqrt (locations (parsed nodes cap (some rows))) precompute rounded (some rows) = some d ∧
      Built lib nodes.length (lowerVal rounded rows) d := by
  have hl : (locations (parsed nodes cap (some rows))).length = nodes.length := by simp [locations, parsed]
  obtain ⟨d, e, h1, h2⟩ := C19_explicit_lower_row lib.sqrt (locations (parsed nodes cap (some rows))) precompute
    rounded rows (by rw [hl]; exact hlen) hrow
  rw [hl] at h2
  have hg : ∀ a < nodes.length, ∀ b < nodes.length,
      d.get lib.sqrt a b = some (lowerVal rounded rows a b) := by
    have key : ∀ a b, b < a → a < nodes.length →
        d.get lib.sqrt a b = some (lowerVal rounded rows a b) ∧
        d.get lib.sqrt b a = some (lowerVal rounded rows b a) := by
      intro a b hba ha
      obtain ⟨i, rfl⟩ : ∃ i, a = i + 1 := ⟨a - 1, by omega⟩
      have hi : i < rows.length := by omega
      have hb : b < rows[i].length := by rw [hrow i _ (List.getElem?_eq_getElem hi)]; exact hba
      obtain ⟨g1, g2⟩ := h1 i b rows[i] rows[i][b] (List.getElem?_eq_getElem hi) (List.getElem?_eq_getElem hb)
      have v1 : lowerVal rounded rows (i + 1) b = roundIf rounded rows[i][b] := by
        rw [lowerVal, if_neg (by omega), max_eq_left (by omega), min_eq_right (by omega),
          Nat.add_sub_cancel, List.getElem?_eq_getElem hi, Option.bind_some, List.getElem?_eq_getElem hb]
      have v2 : lowerVal rounded rows b (i + 1) = roundIf rounded rows[i][b] := by
        rw [lowerVal, if_neg (by omega), max_eq_right (by omega), min_eq_left (by omega),
          Nat.add_sub_cancel, List.getElem?_eq_getElem hi, Option.bind_some, List.getElem?_eq_getElem hb]
      rw [g1, g2, v1, v2]
      exact ⟨rfl, rfl⟩
    intro a ha b hb
    rcases lt_trichotomy a b with h | h | h
    · exact (key b a h hb).2
    · subst h
      rw [h2 a ha, lowerVal, if_pos rfl]
    · exact (key a b h ha).1
  obtain ⟨m, g, e', hs, -⟩ := entries_shows (rounded := rounded) (inputEntries rows)
    (RawMatrix.new (lit 0) nodes.length nodes.length) none _ (RawMatrix.new_shows _ _ _) (by
      rintro ⟨a, b, x⟩ he
      obtain ⟨i, row, rfl, r1, r2⟩ := mem_inputEntries.mp he
      have a1 := (List.getElem?_eq_some_iff.mp r1).1
      have a2 := (List.getElem?_eq_some_iff.mp r2).1
      rw [hrow i row r1] at a2
      dsimp only
      omega)
  have e2 := e
  rw [buildDist, hl, e', Option.map_some, Option.some.injEq] at e2
  refine ⟨d, e, by rw [← e2]; exact hl, hg, fun i hi => ?_⟩
  have hgg : ∀ j < nodes.length, g i j = lowerVal rounded rows i j := by
    intro j hj
    have := hg i hi j hj
    rw [← e2, DistMatrix.get, if_pos rfl, hs.get hi hj, Option.some.injEq] at this
    exact this
  rw [← e2, DistMatrix.getVec, if_pos rfl, hs.row hi (le_refl _)]
  congr 1
  exact List.map_congr_left fun j hj => hgg j (List.mem_range.mp hj)

theorem built_lowerRow {rows : List (List ℚ)} (hlen : rows.length + 1 = nodes.length)
    (hrow : ∀ (i : ℕ) (row : List ℚ), rows[i]? = some row → row.length = i + 1)
    (hnn : ∀ row ∈ rows, ∀ x ∈ row, 0 ≤ x) (precompute rounded : Bool) :
    ∃ d, buildDist lib.sqrt (locations (parsed nodes cap (some rows))) precompute rounded (some rows) = some d ∧
      Built lib nodes.length (Spec.lowerRowDist rounded rows) d := by
  obtain ⟨d, e, h⟩ := built_lowerRow_any (lib := lib) (nodes := nodes) (cap := cap) hlen hrow precompute rounded
  refine ⟨d, e, h.congr fun a _ b _ => ?_⟩
  rw [lowerVal, Spec.lowerRowDist]
  split
  · simp
  · cases hx : (rows[max a b - 1]?).bind fun row => row[min a b]? with
    | none => simp
    | some x =>
      obtain ⟨row, r1, r2⟩ := Option.bind_eq_some_iff.mp hx
      exact roundIf_rat rounded (hnn row (List.mem_of_getElem? r1) x (List.mem_of_getElem? r2))

/-- The settings of the run, and the choices made during it. -/
structure RunOK (lib : Lib ℚ) (cfg : Settings ℚ) (n : ℕ) (chs : List (GAChoice ℚ))
    (dchs : List (DGAChoice ℚ)) : Prop where
  lib : LibOK lib
  settings : SettingsOK cfg n
  choices : ∀ ch ∈ chs, GA.ChOK ch
  dchoices : ∀ ch ∈ dchs, DGA.ChOK ch

theorem main_correct {text file : List Char} {ω : Oracle} {chs : List (GAChoice ℚ)} {dchs : List (DGAChoice ℚ)}
    (hr : RunOK lib cfg nodes.length chs dchs) (hd : DataOK nodes cap dist) (hdep : dist 0 0 = 0)
    (hp : parseInstance lib.num text = some (parsed nodes cap m))
    (hb : ∃ d, buildDist lib.sqrt (locations (parsed nodes cap m))
      (decide ((parsed nodes cap m).nodes.length - 1 < cfg.precomputeLimit)) cfg.rounded m = some d ∧
      Built lib nodes.length dist d)
    (hmain : main lib cfg text ω chs dchs = some (some file)) (hne : file ≠ []) :
    Spec.CorrectFile nodes cap dist (1 / 1000000) file := by
  obtain ⟨d, e, hb⟩ := hb
  unfold main at hmain
  rw [hp, Option.bind_some] at hmain
  obtain ⟨x, h1, h2⟩ := Option.bind_eq_some_iff.mp hmain
  obtain ⟨h, h3, h4⟩ := Option.map_eq_some_iff.mp h2
  unfold matrices at h1
  split at h1
  · cases h1
  · have hm : (parsed nodes cap m).matrix = m := rfl
    rw [hm, e, Option.bind_some] at h1
    obtain ⟨c, h5, rfl⟩ := Option.map_eq_some_iff.mp h1
    exact written_correct hr.lib hr.settings hd hb hdep h5 hr.choices hr.dchoices h3 h4 hne

/-- With integral demands and capacity nothing lies between the capacity and `10⁻⁶` above it. -/
theorem correct_of_int {text : List Char} (h : Spec.CorrectFile nodes cap dist (1 / 1000000) text)
    (hq : ∀ p ∈ nodes, ∃ k : ℤ, p.2.2 = k) (hc : ∃ k : ℤ, cap = k) :
    Spec.CorrectFile nodes cap dist 0 text := by
  obtain ⟨R, N, h1, h2, h3, h4, h5, h6⟩ := h
  refine ⟨R, N, h1, h2, h3, h4, fun r hr => ?_, h6⟩
  have hload : ∀ l : List ℕ, ∃ k : ℤ, Spec.routeLoad (Spec.nodeDemand nodes) l = k := by
    intro l
    induction l with
    | nil => exact ⟨0, by simp [Spec.routeLoad]⟩
    | cons a l ih =>
      obtain ⟨k, hk⟩ := ih
      have : ∃ j : ℤ, Spec.nodeDemand nodes a = j := by
        rw [Spec.nodeDemand]
        cases h : nodes[a]? with
        | none => exact ⟨0, by simp⟩
        | some p => exact hq p (List.mem_of_getElem? h)
      obtain ⟨j, hj⟩ := this
      refine ⟨j + k, ?_⟩
      rw [Spec.routeLoad] at hk
      rw [Spec.routeLoad, List.map_cons, List.sum_cons, hj, hk]
      push_cast
      rfl
  obtain ⟨k, hk⟩ := hload r
  obtain ⟨j, hj⟩ := hc
  have := h5 r hr
  rw [hk, hj] at this ⊢
  have h7 : (k : ℚ) < (j + 1 : ℤ) := by push_cast; linarith
  have h8 : k ≤ j := by have : k < j + 1 := by exact_mod_cast h7
                        omega
  have h9 : (k : ℚ) ≤ j := by exact_mod_cast h8
  linarith

end Program

open Program Spec

/-- **C62**, instances in the plane. The program is started on the text of a file whose blocks describe a
capacity and nodes in the plane. If it ends and writes a file then this file is either empty or it lists
non-empty routes, at most 20 % and two above the number of vehicles needed for the total demand, that
visit every customer of the instance file exactly once and exceed its capacity by at most `10⁻⁶`; if they
exceed it nowhere, the stated cost is the length of the routes between the given coordinates, rounded to
an integer. With integral demands and capacity they exceed it nowhere. This holds with and without
decomposition, whichever options are set, and for all random draws, hash orders and clock readings. -/
theorem C62_file_plane {lib : Lib ℚ} {cfg : Settings ℚ} {nodes : List (ℚ × ℚ × ℚ)} {cap : ℚ}
    {text file : List Char} {raw : List (List Char)} {lines pre : List (List (List Char))} {blocks : List Block}
    {ω : Oracle} {chs : List (GAChoice ℚ)} {dchs : List (DGAChoice ℚ)} (ht : TextOf text raw)
    (hl : List.Forall₂ LaidOut raw lines) (hf : BlockFile lines pre blocks)
    (hd : Describes (fun w x => lib.num w = some x) (fun w n => parseUsize w = some n) blocks cap nodes)
    (he : Euclidean blocks) (hr : RunOK lib cfg nodes.length chs dchs)
    (hdata : DataOK nodes cap (planeDist lib.sqrt cfg.rounded nodes))
    (hmain : Program.main lib cfg text ω chs dchs = some (some file)) (hne : file ≠ []) :
    CorrectFile nodes cap (planeDist lib.sqrt cfg.rounded nodes) (1 / 1000000) file ∧
    ((∀ p ∈ nodes, ∃ k : ℤ, p.2.2 = k) → (∃ k : ℤ, cap = k) →
      CorrectFile nodes cap (planeDist lib.sqrt cfg.rounded nodes) 0 file) := by
  have hn : 0 < nodes.length := by have := hr.settings.gran; omega
  have hdep : planeDist lib.sqrt cfg.rounded nodes 0 0 = 0 := by
    rw [planeDist, List.getElem?_eq_getElem hn]
    simp only [sub_self, ne_eq, OfNat.ofNat_ne_zero, not_false_eq_true, zero_pow, add_zero, hr.lib.root]
    cases cfg.rounded with
    | false => rfl
    | true => simp only [roundedDist, if_true]; norm_num
  have h := main_correct hr hdata hdep (C51_parse_euclidean lib.num ht hl hf hd he)
    (built_plane hr.lib _ cfg.rounded) hmain hne
  exact ⟨h, correct_of_int h⟩

/-- **C62**, instances with an explicit lower-row matrix, the rows of length 1, 2, … without negative
numbers. -/
theorem C62_file_explicit {lib : Lib ℚ} {cfg : Settings ℚ} {nodes : List (ℚ × ℚ × ℚ)} {cap : ℚ}
    {text file : List Char} {raw : List (List Char)} {lines pre : List (List (List Char))} {blocks : List Block}
    {rows : List (List ℚ)}
    {ω : Oracle} {chs : List (GAChoice ℚ)} {dchs : List (DGAChoice ℚ)} (ht : TextOf text raw)
    (hl : List.Forall₂ LaidOut raw lines) (hf : BlockFile lines pre blocks)
    (hd : Describes (fun w x => lib.num w = some x) (fun w n => parseUsize w = some n) blocks cap nodes)
    (he : ExplicitRows (fun w x => lib.num w = some x) blocks rows) (hlen : rows.length + 1 = nodes.length)
    (hrow : ∀ (i : ℕ) (row : List ℚ), rows[i]? = some row → row.length = i + 1)
    (hnn : ∀ row ∈ rows, ∀ x ∈ row, 0 ≤ x) (hr : RunOK lib cfg nodes.length chs dchs)
    (hdata : DataOK nodes cap (lowerRowDist cfg.rounded rows))
    (hmain : Program.main lib cfg text ω chs dchs = some (some file)) (hne : file ≠ []) :
    CorrectFile nodes cap (lowerRowDist cfg.rounded rows) (1 / 1000000) file ∧
    ((∀ p ∈ nodes, ∃ k : ℤ, p.2.2 = k) → (∃ k : ℤ, cap = k) →
      CorrectFile nodes cap (lowerRowDist cfg.rounded rows) 0 file) := by
  have h := main_correct hr hdata (by simp [lowerRowDist])
    (C51_parse_explicit lib.num ht hl hf hd he hlen) (built_lowerRow hlen hrow hnn _ cfg.rounded) hmain hne
  exact ⟨h, correct_of_int h⟩

end Verif
