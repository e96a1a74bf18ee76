import Verif.Lemmas.DblRecorded
import Verif.Props.Program
import Verif.SpecDouble

/-! # The whole program in double precision -/

namespace Verif
open F64 Dbl

variable {ρ : Rounding}

namespace Program

/-- The nodes of the instance file in double precision. -/
def dblNodes (ρ : Rounding) (nodes : List (ℚ × ℚ × ℚ)) : List (Dbl ρ × Dbl ρ × Dbl ρ) :=
  nodes.map fun p => (fin p.1, fin p.2.1, fin p.2.2)

/-- What is asked of the library routines in double precision: binary search and the sorts do what they
promise. -/
structure DblLib (lib : Lib (Dbl ρ)) : Prop where
  bs : BSearchOK lib.bs
  sort : Population.SortPerm lib.sort
  perm : ∀ L, (lib.corrSort L).Perm L
  sorted : ∀ L, (lib.corrSort L).Pairwise fun a b => (b.1 <. a.1) = false

/-- What is asked of the settings for `n` nodes: neighbour lists as long as the granularity, which with
decomposition is below the size of the subproblems and that of the lists. -/
structure DblSettings (cfg : Settings (Dbl ρ)) (n : ℕ) : Prop where
  gran : 0 < cfg.granularity ∧ cfg.granularity ≤ min 200 (n - 2)
  decomp : cfg.decomposeLimit ≤ n - 1 →
    cfg.granularity < cfg.decomposedSize ∧ cfg.granularity < min 200 (n - 2)

/-- Whole demands and capacity: all loads and the capacity together stay below `2 ^ 52`. -/
structure DblLoads (nodes : List (ℚ × ℚ × ℚ)) (cap : ℚ) : Prop where
  count : nodes.length ≤ 2 ^ 53
  whole : ∃ Q D : ℤ, cap = Q ∧ 0 < Q ∧ (∀ p ∈ nodes, ∃ k : ℤ, p.2.2 = k ∧ 0 ≤ k ∧ k ≤ D) ∧
    nodes.length * D + Q ≤ 2 ^ 52

/-- Distances from 0 to `2 ^ 43`. -/
def DblDist (n : ℕ) (dist : ℕ → ℕ → ℚ) : Prop := ∀ a < n, ∀ b < n, 0 ≤ dist a b ∧ dist a b ≤ 2 ^ 43

variable {lib : Lib (Dbl ρ)} {cfg : Settings (Dbl ρ)} {nodes : List (ℚ × ℚ × ℚ)} {cap : ℚ} {dist : ℕ → ℕ → ℚ}
  {d : DistMatrix (Dbl ρ)} {c : Correlation} {m : Option (List (List (Dbl ρ)))}

theorem dbl_n : (context lib (parsed (dblNodes ρ nodes) (fin cap) m) d).n = nodes.length := by
  simp [context, parsed, dblNodes]

theorem dbl_demand (a : ℕ) : (context lib (parsed (dblNodes ρ nodes) (fin cap) m) d).demand a =
    fin (Spec.nodeDemand nodes a) := by
  simp only [context, parsed, dblNodes, Spec.nodeDemand, List.getElem?_mapIdx, List.getElem?_map, Option.map_map]
  cases nodes[a]? with
  | none => simp [lit_zero]
  | some p => rfl

theorem dbl_dist (h : Built lib nodes.length (fun a b => fin (dist a b)) d) (a b : ℕ) :
    (context lib (parsed (dblNodes ρ nodes) (fin cap) m) d).dist a b =
      fin (if a < nodes.length ∧ b < nodes.length then dist a b else 0) := by
  simp only [context, parsed, dblNodes, List.length_mapIdx, List.length_map]
  split
  · rename_i hab
    rw [h.get a hab.1 b hab.2]
    rfl
  · exact lit_zero

/-- The demands as integers. -/
def demandZ (nodes : List (ℚ × ℚ × ℚ)) (a : ℕ) : ℤ := ⌊Spec.nodeDemand nodes a⌋

theorem demandZ_cast (hd : DblLoads nodes cap) (a : ℕ) : Spec.nodeDemand nodes a = demandZ nodes a := by
  obtain ⟨Q, D, -, -, hk, -⟩ := hd.whole
  unfold demandZ
  have : ∃ k : ℤ, Spec.nodeDemand nodes a = k := by
    unfold Spec.nodeDemand
    cases h : nodes[a]? with
    | none => exact ⟨0, by simp⟩
    | some p => obtain ⟨k, h1, -⟩ := hk p (List.mem_of_getElem? h); exact ⟨k, h1⟩
  obtain ⟨k, hk⟩ := this
  rw [hk, Int.floor_intCast]

theorem dbl_whole (hd : DblLoads nodes cap) : ∃ Q D : ℤ, cap = Q ∧
    Whole (context lib (parsed (dblNodes ρ nodes) (fin cap) m) d) (demandZ nodes) Q D := by
  obtain ⟨Q, D, h1, h2, h3, h4⟩ := hd.whole
  by_cases hn : nodes.length = 0
  · have hnil : nodes = [] := List.length_eq_zero_iff.mp hn
    refine ⟨Q, 0, h1, ?_, ?_, ?_, ?_, h2, ?_⟩
    · intro a
      rw [dbl_demand, demandZ_cast hd]
      rfl
    · intro a; simp [demandZ, Spec.nodeDemand, hnil]
    · intro a; simp [demandZ, Spec.nodeDemand, hnil]
    · show fin cap = _
      rw [h1]; rfl
    · rw [hn] at h4
      simpa using h4
  · have hD : 0 ≤ D := by
      obtain ⟨p, hp⟩ := List.exists_mem_of_length_pos (show 0 < nodes.length by omega)
      obtain ⟨k, -, a, b⟩ := h3 p hp
      omega
    have hk : ∀ a, 0 ≤ demandZ nodes a ∧ demandZ nodes a ≤ D := by
      intro a
      unfold demandZ Spec.nodeDemand
      cases h : nodes[a]? with
      | none => simpa using hD
      | some p =>
        obtain ⟨k, e, a0, a1⟩ := h3 p (List.mem_of_getElem? h)
        simp only [Option.map_some, Option.getD_some, e, Int.floor_intCast]
        exact ⟨a0, a1⟩
    refine ⟨Q, D, h1, ?_, fun a => (hk a).1, fun a => (hk a).2, ?_, h2, ?_⟩
    · intro a
      rw [dbl_demand, demandZ_cast hd]
      rfl
    · show fin cap = _
      rw [h1]; rfl
    · rw [dbl_n]
      exact h4

theorem dbl_moderate (hd : DblLoads nodes cap) (hx : DblDist nodes.length dist)
    (hb : Built lib nodes.length (fun a b => fin (dist a b)) d) :
    Moderate (context lib (parsed (dblNodes ρ nodes) (fin cap) m) d) 43 := by
  refine ⟨fun a b => ?_, by norm_num, ?_, by rw [dbl_n]; exact hd.count⟩
  swap
  · rw [dbl_n]
    have : (nodes.length : ℚ) ≤ 2 ^ 53 := by exact_mod_cast hd.count
    calc (nodes.length : ℚ) * 2 ^ 43 ≤ 2 ^ 53 * 2 ^ 43 := mul_le_mul_of_nonneg_right this (by positivity)
      _ = 2 ^ 96 := by norm_num
  rw [dbl_dist hb]
  split
  · rename_i h
    exact ⟨_, rfl, hx a h.1 b h.2⟩
  · exact ⟨0, rfl, le_refl _, by positivity⟩

/-- The laws of runs without decomposition. -/
theorem dbl_gaLaws' (hl : DblLib lib) (hs : DblSettings cfg nodes.length) (hd : DblLoads nodes cap) {k : ℕ}
    (hm : Moderate (context lib (parsed (dblNodes ρ nodes) (fin cap) m) d) k) (hb : Built lib nodes.length (fun a b => fin (dist a b)) d)
    (hc : buildCorr lib.sqrt lib.corrSort d = some c) {E : RRoute (Dbl ρ) → Prop}
    (hE : RouteLaws (context lib (parsed (dblNodes ρ nodes) (fin cap) m) d) E) :
    GA.Laws (gaEnv lib cfg (context lib (parsed (dblNodes ρ nodes) (fin cap) m) d) d c)
      (context lib (parsed (dblNodes ρ nodes) (fin cap) m) d) (Nn 44) E := by
  obtain ⟨Q, D, -, hw⟩ := dbl_whole (lib := lib) (m := m) (d := d) (ρ := ρ) hd
  have hgran := hs.gran
  have hn : 3 ≤ nodes.length := by have := hgran.1; have := hgran.2; omega
  have hfl := hw.fleet.1
  have hrow : ∀ i < d.locations.length, d.getVec lib.sqrt i 0 d.locations.length =
      some ((List.range nodes.length).map fun b => fin (dist i b)) ∧
      ((List.range nodes.length).map fun b => (fin (dist i b) : Dbl ρ)).length = d.locations.length := by
    intro i hi
    rw [hb.len] at hi ⊢
    exact ⟨hb.rows i hi, by simp⟩
  refine ⟨by rw [dbl_n]; omega, ?_, ?_, rfl, hl.bs, hl.sort, ?_, fun p => arith _,
    (initialPenalty_nn _ _).mono (by norm_num), fun f p => nextPenalty_nn _ f p, fun p hp => splitOK_dbl hw hm _ hp, hE⟩
  · show 1 ≤ initialNumVehicles _
    omega
  · show vehicleLowerBound _ ≤ initialNumVehicles _
    omega
  · obtain ⟨c', e, h⟩ := C16_in_bounds_partial lib.sqrt lib.corrSort d
      (context lib (parsed (dblNodes ρ nodes) (fin cap) m) d) (by rw [dbl_n, hb.len])
      (fun i => (List.range nodes.length).map fun b => fin (dist i b)) hrow hl.perm hl.sorted
      (initialNumVehicles (context lib (parsed (dblNodes ρ nodes) (fin cap) m) d)) cfg.granularity
      (gaEnv lib cfg (context lib (parsed (dblNodes ρ nodes) (fin cap) m) d) d c).angle (lit 1) hgran.1
      (by rw [hb.len]; exact hgran.2)
    obtain ⟨c'', e', -, hw', -⟩ := C17_nearest lib.sqrt lib.corrSort d (by rw [hb.len]; omega)
      (fun i => (List.range nodes.length).map fun b => fin (dist i b)) hrow hl.perm hl.sorted
    rw [hc, Option.some.injEq] at e e'
    subst e
    subst e'
    show NbrOK _ (LS.new _ _ _ _ c.storage.cells c.width _)
    rw [hw']
    exact h

theorem dbl_gaLaws (hl : DblLib lib) (hs : DblSettings cfg nodes.length) (hd : DblLoads nodes cap)
    (hx : DblDist nodes.length dist) (hb : Built lib nodes.length (fun a b => fin (dist a b)) d)
    (hc : buildCorr lib.sqrt lib.corrSort d = some c) {E : RRoute (Dbl ρ) → Prop}
    (hE : RouteLaws (context lib (parsed (dblNodes ρ nodes) (fin cap) m) d) E) :
    GA.Laws (gaEnv lib cfg (context lib (parsed (dblNodes ρ nodes) (fin cap) m) d) d c)
      (context lib (parsed (dblNodes ρ nodes) (fin cap) m) d) (Nn 44) E :=
  dbl_gaLaws' hl hs hd (dbl_moderate hd hx hb) hb hc hE

/-- The laws of runs with decomposition. -/
theorem dbl_dgaLaws (hl : DblLib lib) (hs : DblSettings cfg nodes.length) (hd : DblLoads nodes cap)
    (hx : DblDist nodes.length dist) (hb : Built lib nodes.length (fun a b => fin (dist a b)) d)
    (hc : buildCorr lib.sqrt lib.corrSort d = some c) (hdec : cfg.decomposeLimit ≤ nodes.length - 1)
    {E : RRoute (Dbl ρ) → Prop} (hE : RouteLaws (context lib (parsed (dblNodes ρ nodes) (fin cap) m) d) E) :
    DGA.Laws (decompEnv lib cfg (context lib (parsed (dblNodes ρ nodes) (fin cap) m) d) d c)
      (context lib (parsed (dblNodes ρ nodes) (fin cap) m) d) (Nn 44) E := by
  obtain ⟨Q, D, -, hw⟩ := dbl_whole (lib := lib) (m := m) (d := d) (ρ := ρ) hd
  have hm := dbl_moderate (m := m) hd hx hb
  have hfl := hw.fleet.1
  have hp := scaled_nn (initialPenalty_nn d.maxDistance
    (maxDemand (context lib (parsed (dblNodes ρ nodes) (fin cap) m) d)))
  refine ⟨dbl_gaLaws hl hs hd hx hb hc hE, hp.1, hp.2, ⟨by rw [dbl_n]; exact hb.len, fun a ha b hb' => ?_⟩,
    fun i hi => ?_, hl.perm, hl.sorted, ⟨c, hc, rfl⟩, (hs.decomp hdec).1,
    by rw [dbl_n]; exact (hs.decomp hdec).2, fun mapping h1 h2 => ⟨?_, fun p => arith _,
      fun p hp => splitOK_dbl (hw.sub h1 h2) (hm.sub h1 h2) _ hp, _, loadExact_laws (hw.sub h1 h2)⟩⟩
  · rw [dbl_n] at ha hb'
    rw [dbl_dist hb, if_pos ⟨ha, hb'⟩]
    exact hb.get a ha b hb'
  · rw [dbl_n] at hi ⊢
    show d.getVec lib.sqrt i 0 nodes.length = _
    rw [hb.rows i hi]
    congr 1
    refine List.map_congr_left fun j hj => ?_
    rw [dbl_dist hb, if_pos ⟨hi, List.mem_range.mp hj⟩]
  · show _ ≤ initialNumVehicles _
    have := hw.sub_bound h1 h2
    omega

/-- What the run leaves in the history. -/
theorem dbl_last (hl : DblLib lib) (hs : DblSettings cfg nodes.length) (hd : DblLoads nodes cap)
    (hx : DblDist nodes.length dist) (hb : Built lib nodes.length (fun a b => fin (dist a b)) d)
    (hc : buildCorr lib.sqrt lib.corrSort d = some c) {ω : Oracle} {chs : List (GAChoice (Dbl ρ))}
    {dchs : List (DGAChoice (Dbl ρ))} (hch : ∀ ch ∈ chs, GA.ChOK ch) (hdch : ∀ ch ∈ dchs, DGA.ChOK ch)
    {E : RRoute (Dbl ρ) → Prop} (hE : RouteLaws (context lib (parsed (dblNodes ρ nodes) (fin cap) m) d) E)
    {h : History (Dbl ρ)}
    (hsol : solve lib cfg (context lib (parsed (dblNodes ρ nodes) (fin cap) m) d) d c ω chs dchs = some h)
    {e : HistEntry (Dbl ρ)} (he : h.entries.getLast? = some e) :
    let ctx := context lib (parsed (dblNodes ρ nodes) (fin cap) m) d
    ∃ p x, Recorded ctx E (initialNumVehicles ctx) p x ∧ e = ⟨x.phenotype, x.cost⟩ := by
  intro ctx
  unfold solve at hsol
  split at hsol
  · rename_i hdec
    rw [dbl_n] at hdec
    obtain ⟨s, h1, h2⟩ := Option.bind_eq_some_iff.mp hsol
    split at h2
    · cases h2
      have hv := dbl_dgaLaws (m := m) hl hs hd hx hb hc hdec hE
      have hi := DGA.steps_any hv dchs hdch (DGA.new_any hv ω) h1
      have hh := hi.mu.hist
      exact hh.2.1 e (List.mem_of_getLast? (by rw [← hh.1]; exact he))
    · cases h2
  · obtain ⟨g, h1, h2⟩ := Option.bind_eq_some_iff.mp hsol
    split at h2
    · cases h2
      have hv := dbl_gaLaws (m := m) hl hs hd hx hb hc hE
      have hi := GA.steps_any hv chs hch (GA.new_any hv ω) h1
      exact hi.hist.2.1 e (List.mem_of_getLast? (by rw [← hi.hist.1]; exact he))
    · cases h2

theorem dbl_total (hd : DblLoads nodes cap) :
    ((loadZ (demandZ nodes) (List.range nodes.length) : ℤ) : ℚ) = (nodes.map fun p => p.2.2).sum := by
  rw [← loadZ_cast]
  unfold Spec.routeLoad
  congr 1
  apply List.ext_getElem
  · simp
  · intro i h1 h2
    simp only [List.length_map, List.length_range] at h1
    simp only [List.getElem_map, List.getElem_range, ← demandZ_cast hd]
    simp [Spec.nodeDemand, h1]

theorem filter_flatten (L : List (List ℕ)) : (L.filter fun r => r ≠ []).flatten = L.flatten := by
  induction L with
  | nil => rfl
  | cons r rs ih =>
    by_cases hr : r = []
    · simpa [hr] using ih
    · simpa [hr] using ih

/-- The text of a recorded solution. -/
theorem dbl_entry (h65 : ρ.fl (6 / 5) ≤ 6 / 5) (hd : DblLoads nodes cap)
    {E : RRoute (Dbl ρ) → Prop} {Q : ℤ} (hQ : cap = Q) (hEl : ∀ rt, E rt → LoadExact (demandZ nodes) Q rt)
    {p : Dbl ρ} {x : Individual (Dbl ρ)}
    (hr : Recorded (context lib (parsed (dblNodes ρ nodes) (fin cap) m) d) E
      (initialNumVehicles (context lib (parsed (dblNodes ρ nodes) (fin cap) m) d)) p x)
    {ok : List (List ℕ) → ℕ → Prop} (hok : ok (x.phenotype.filter fun r => r ≠ []) (toNat (F64.round x.cost))) :
    Spec.FeasibleFile nodes cap ok (renderSolution x.phenotype x.cost ++ ['\n']) := by
  obtain ⟨Q', D, hQ', hw⟩ := dbl_whole (lib := lib) (m := m) (d := d) (ρ := ρ) hd
  have : Q' = Q := by rw [hQ] at hQ'; exact_mod_cast hQ'.symm
  subst this
  obtain ⟨text', h1, h2⟩ := C41_solution_text_round_trip x.phenotype x.cost
  cases h1
  have hpart := hr.good.part
  have hload := recorded_loads hw hEl hr
  refine ⟨_, _, h2, ?_, ?_, ?_, ?_, hok⟩
  · intro r hr
    simpa using (List.mem_filter.mp hr).2
  · unfold Spec.IsPartition
    rw [filter_flatten]
    have : (RR.ctxAt (context lib (parsed (dblNodes ρ nodes) (fin cap) m) d) p).n = nodes.length :=
      dbl_n (lib := lib) (cap := cap) (d := d) (m := m)
    rw [← this]
    exact hpart
  · have h3 : (x.phenotype.filter fun r => r ≠ []).length = x.numNonemptyRoutes := by
      unfold Individual.numNonemptyRoutes
      congr 1
      refine List.filter_congr fun r _ => ?_
      cases r <;> simp
    have h4 := hw.fleet.2 h65
    rw [dbl_n, dbl_total hd] at h4
    unfold Spec.fleetSize
    rw [hQ]
    have := hr.count
    rw [← h3] at this
    show (((x.phenotype.filter fun r => r ≠ []).length : ℕ) : ℤ) ≤ _
    omega
  · intro r hrr
    have := hload r (List.mem_filter.mp hrr).1
    have e : Spec.nodeDemand nodes = fun a => (demandZ nodes a : ℚ) := funext (demandZ_cast hd)
    rw [e, loadZ_cast, hQ, add_zero]
    exact_mod_cast this

/-- The routes of the written file; `ok` may be shown from the recorded solution. -/
theorem dbl_written (h65 : ρ.fl (6 / 5) ≤ 6 / 5) (hl : DblLib lib) (hs : DblSettings cfg nodes.length)
    (hd : DblLoads nodes cap)
    (hx : DblDist nodes.length dist) (hb : Built lib nodes.length (fun a b => fin (dist a b)) d)
    (hc : buildCorr lib.sqrt lib.corrSort d = some c) {ω : Oracle} {chs : List (GAChoice (Dbl ρ))}
    {dchs : List (DGAChoice (Dbl ρ))} (hch : ∀ ch ∈ chs, GA.ChOK ch) (hdch : ∀ ch ∈ dchs, DGA.ChOK ch)
    {E : RRoute (Dbl ρ) → Prop} (hE : RouteLaws (context lib (parsed (dblNodes ρ nodes) (fin cap) m) d) E)
    {Q : ℤ} (hQ : cap = Q) (hEl : ∀ rt, E rt → LoadExact (demandZ nodes) Q rt)
    {h : History (Dbl ρ)}
    (hsol : solve lib cfg (context lib (parsed (dblNodes ρ nodes) (fin cap) m) d) d c ω chs dchs = some h)
    {text : List Char} (ht : written cfg h = some text) (hne : text ≠ [])
    {ok : List (List ℕ) → ℕ → Prop}
    (hok : ∀ p x, Recorded (context lib (parsed (dblNodes ρ nodes) (fin cap) m) d) E
      (initialNumVehicles (context lib (parsed (dblNodes ρ nodes) (fin cap) m) d)) p x →
      ok (x.phenotype.filter fun r => r ≠ []) (toNat (F64.round x.cost))) :
    Spec.FeasibleFile nodes cap ok text := by
  unfold written at ht
  have hp : cfg.hasPath = true := by
    cases hp : cfg.hasPath with
    | true => rfl
    | false => rw [hp] at ht; cases ht
  rw [hp] at ht
  cases he : h.entries.getLast? with
  | none => rw [he] at ht; cases ht; exact absurd rfl hne
  | some e =>
    rw [he] at ht
    obtain ⟨text', h1, h2⟩ := C41_solution_text_round_trip e.routes e.cost
    rw [Option.map_some, h1, Option.some.injEq] at ht
    subst ht
    obtain ⟨p, x, hr, rfl⟩ := dbl_last hl hs hd hx hb hc hch hdch hE hsol he
    cases h1
    exact dbl_entry h65 hd hQ hEl hr (hok p x hr)

end Program
end Verif
