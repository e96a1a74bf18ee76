import Verif.Props.ExplicitExamples
import Verif.Props.SearchHang

/-!
# C73 for the whole program: a run that never ends
-/

namespace Verif
open F64 Dbl LS Spec

namespace Hang

/-- The matrix of the instance file: whole numbers. -/
def rows : List (List ℚ) :=
  [[4503599627370498], [4503599627370498, 4503599627370498], [4503599627370497, 4503599627370497, 4503599627370497]]

theorem rows_len : ∀ (i : ℕ) (row : List ℚ), rows[i]? = some row → row.length = i + 1 := by
  intro i row h
  match i, h with
  | 0, h => cases h; rfl
  | 1, h => cases h; rfl
  | 2, h => cases h; rfl
  | i + 3, h => simp [rows] at h

theorem rows_dist (rounded : Bool) : ∀ a < 4, ∀ b < 4, lowerRowDist rounded rows a b = d 0 a b := by
  cases rounded <;> decide +kernel

theorem rows_nonneg : ∀ row ∈ rows, ∀ x ∈ row, (0 : ℚ) ≤ x := by
  decide +kernel

/-- The neighbour lists with two entries contain both other customers. -/
theorem neighbours {α : Type} [F64 α] {sqrt : α → α} {sort : List (α × ℕ) → List (α × ℕ)} {d : DistMatrix α}
    {ctx : Ctx α} {c : Correlation} (h4 : d.locations.length = 4) (D : ℕ → List α)
    (hD : ∀ i < d.locations.length, d.getVec sqrt i 0 d.locations.length = some (D i) ∧
      (D i).length = d.locations.length)
    (hperm : ∀ L, (sort L).Perm L) (hsort : ∀ L, (sort L).Pairwise fun a b => (b.1 <. a.1) = false)
    (hc : buildCorr sqrt sort d = some c) (numVehicles : ℕ) (angle : ℕ → ℤ) (penMult : α) {u v : ℕ} (hu : 0 < u)
    (hu4 : u < 4) (hv : 0 < v) (hv4 : v < 4) (huv : u ≠ v) :
    Neighbour (LS.new ctx numVehicles 2 angle c.storage.cells c.width penMult) u v := by
  obtain ⟨c', e, -, hw, -, hl⟩ := C17_nearest sqrt sort d (by omega) D hD hperm hsort
  rw [hc, Option.some.injEq] at e
  subst e
  obtain ⟨l, -, l2, l3, l4, -, -, l5⟩ := hl u (by omega)
  rw [h4] at l2 l4 l5
  have l2 : l.length = 2 := l2
  have hmem : v ∈ l := by
    by_contra hn
    have hsub : (v :: u :: l) ⊆ [1, 2, 3] := by
      intro x hx
      have : 0 < x ∧ x < 4 := by
        rcases List.mem_cons.mp hx with rfl | hx
        · exact ⟨hv, hv4⟩
        · rcases List.mem_cons.mp hx with rfl | hx
          · exact ⟨hu, hu4⟩
          · have := l4 x hx; omega
      obtain ⟨h1, h2⟩ := this
      interval_cases x <;> simp
    have hnd : (v :: u :: l).Nodup := by
      refine List.nodup_cons.mpr ⟨?_, List.nodup_cons.mpr ⟨fun h => (l4 u h).2.2 rfl, l3⟩⟩
      simp only [List.mem_cons, not_or]
      exact ⟨huv.symm, hn⟩
    have := (hnd.subperm hsub).length_le
    simp [l2] at this
  obtain ⟨i, hi, e⟩ := List.getElem_of_mem hmem
  have e1 := l5 2 (by decide)
  rw [Correlation.topSlice, RawMatrix.slice] at e1
  split at e1
  · simp only [Option.some.injEq] at e1
    refine ⟨i, by rw [l2] at hi; exact hi, ?_⟩
    show c.storage.cells[u * c.width + i]? = some v
    have : (l.take 2)[i]? = some v := by
      rw [List.getElem?_take_of_lt (by omega), List.getElem?_eq_getElem hi, e]
    rw [← e1, List.getElem?_take_of_lt (by omega), List.getElem?_drop] at this
    rw [hw]
    exact this
  · simp at e1

end Hang

namespace GA
open Hang

variable {env : GAEnv (Dbl nearestEven)} {ctx : Ctx (Dbl nearestEven)} {E : RRoute (Dbl nearestEven) → Prop}

/-- What the run that never ends needs. -/
structure Stuck (env : GAEnv (Dbl nearestEven)) (ctx : Ctx (Dbl nearestEven))
    (E : RRoute (Dbl nearestEven) → Prop) : Prop where
  laws : GA.Laws env ctx (Nn 44) E
  inst : Inst ctx 0
  ls : env.lsEnabled = true
  m1 : env.moves.relocateSingle = true
  m2 : env.moves.twoOptIntraReverse = true
  nbr : ∀ u v, 0 < u → u < 4 → 0 < v → v < 4 → u ≠ v →
    Neighbour (LS.new (RR.ctxAt ctx env.initialPen) env.split.numVehicles env.granularity env.angle env.corr
      env.corrCols (lit 1)) u v

theorem Stuck.run (h : Stuck env ctx E) {g : GA (Dbl nearestEven)} (hg : AnyEdu env ctx (Nn 44) E g)
    (hls : g.ls = LS.new (RR.ctxAt ctx env.initialPen) env.split.numVehicles env.granularity env.angle env.corr
      env.corrCols (lit 1)) (ω : Oracle) (fuel : ℕ) :
    ∃ p, g.rr.pen *. lit 1 = fin p ∧
      LS.run env.rr.atan2 (RR.ctxAt ctx g.rr.pen) env.moves ω fuel (lit 1) g.ls g.child = none ∧
      ∃ k R, fuel ≤ k ∧ Steps (RR.ctxAt ctx g.rr.pen) env.moves (fin p) k g.child.phenotype R := by
  have h1 : Nn 0 (lit 1 : Dbl nearestEven) := ⟨1, by decide +kernel, by norm_num, by norm_num⟩
  obtain ⟨p, hp, hp0, hp1⟩ := Nn.mul (by norm_num) hg.mu.pen h1
  refine ⟨p, hp, C73_search_ends_refuted env.rr.atan2 (RR.ctxAt ctx g.rr.pen) 0
    ⟨h.inst.n, h.inst.cap, h.inst.demand, h.inst.dist⟩ (by norm_num) (lit 1) p hp0
    (hp1.trans (by norm_num)) hp env.moves h.m1 h.m2 ω g.ls g.child hg.base.ready (nbrOK_at hg.base.nbr) ?_ ?_ ?_
    (hg.len.trans hg.base.lsLen.symm) fuel⟩
  · intro u h0 h4
    rw [hls]
    show u ∈ List.range' 1 (ctx.n - 1)
    rw [h.inst.n, List.mem_range'_1]
    omega
  · rw [hls]; exact h.nbr
  · have := hg.good.part
    have e : (RR.ctxAt ctx g.rr.pen).n = 4 := h.inst.n
    rw [e] at this
    exact this

theorem Stuck.educate (h : Stuck env ctx E) {g : GA (Dbl nearestEven)} (hg : AnyEdu env ctx (Nn 44) E g)
    (hls : g.ls = LS.new (RR.ctxAt ctx env.initialPen) env.split.numVehicles env.granularity env.angle env.corr
      env.corrCols (lit 1)) (ch : GAChoice (Dbl nearestEven)) (ω : Oracle) : educate env ctx ch ω g = none := by
  obtain ⟨p, -, e, -⟩ := h.run hg hls (ω.sub 0) ch.fuel
  rw [GA.educate, localSearch, if_pos h.ls, e]
  rfl

theorem runSplit_ls {k : ℕ} {g g' : GA (Dbl nearestEven)} (h : runSplit env ctx k g = some g') : g'.ls = g.ls := by
  unfold runSplit at h
  obtain ⟨x, -, rfl⟩ := Option.map_eq_some_iff.mp h
  rfl

theorem Stuck.steps (h : Stuck env ctx E) (hini : 0 < env.initialIndividuals) (hit : env.maxIterations ≠ some 0)
    (ω : Oracle) (chs : List (GAChoice (Dbl nearestEven))) (htime : ∀ ch ∈ chs.take 2, ch.elapsed < env.timeLimit) :
    ∀ g, steps env ctx chs (new env ctx ω) = some g → g.state ≠ .terminated := by
  have hn := new_any h.laws ω
  have ht : ∀ ch ∈ chs.take 2, terminateNow env.timeLimit env.maxIterations ch.elapsed 0 = false := by
    intro ch hch
    have := htime ch hch
    unfold terminateNow
    cases hm : env.maxIterations with
    | none => simpa using this
    | some m =>
      have : m ≠ 0 := fun e => hit (by rw [hm, e])
      simp
      omega
  have hmu : AnyMut env ctx (Nn 44) E (new env ctx ω).rr := hn.mu (.inl rfl)
  intro g hg
  match chs, ht, hg with
  | [], _, hg =>
    rw [GA.steps, Option.some.injEq] at hg
    subst hg
    simp [new]
  | ch :: chs, ht, hg =>
    rw [GA.steps, if_neg (by simp [new])] at hg
    obtain ⟨g1, e1, hg⟩ := Option.bind_eq_some_iff.mp hg
    have t1 : terminateNow env.timeLimit env.maxIterations ch.elapsed (new env ctx ω).ctxIteration = false :=
      ht ch (by simp)
    unfold iterate at e1
    rw [t1, if_neg (by decide)] at e1
    change stepCreated env ctx ch (new env ctx ω) = some g1 at e1
    unfold stepCreated at e1
    split at e1
    · obtain ⟨g2, e2, e1⟩ := Option.bind_eq_some_iff.mp e1
      obtain ⟨i2, -⟩ := runSplit_any h.laws (le_refl _) h.laws.fleet (g := { new env ctx ω with state := .elite })
        ⟨hn.base.pop, hn.base.len, hn.base.ready, hn.base.nbr, hn.base.lsLen, hn.base.split⟩ hn.best hmu hn.geno e2
      rw [h.educate i2 (runSplit_ls e2)] at e1
      cases e1
    · rw [Option.some.injEq] at e1
      subst e1
      match chs, ht, hg with
      | [], _, hg =>
        rw [GA.steps, Option.some.injEq] at hg
        subst hg
        simp
      | ch' :: chs, ht, hg =>
        rw [GA.steps, if_neg (by simp)] at hg
        obtain ⟨g1, e1, hg⟩ := Option.bind_eq_some_iff.mp hg
        have t1 : terminateNow env.timeLimit env.maxIterations ch'.elapsed (new env ctx ω).ctxIteration = false :=
          ht ch' (by simp)
        unfold iterate at e1
        rw [t1, if_neg (by decide)] at e1
        change stepInit env ctx ch' { new env ctx ω with state := .init } = some g1 at e1
        unfold stepInit at e1
        rw [if_pos (show (new env ctx ω).numInitialized < _ from hini)] at e1
        obtain ⟨⟨x, g2⟩, e2, -⟩ := Option.bind_eq_some_iff.mp e1
        unfold createInitial at e2
        obtain ⟨g3, e3, e2⟩ := Option.bind_eq_some_iff.mp e2
        have i3 := (runSplit_any h.laws (le_refl _) h.laws.fleet (g := { new env ctx ω with
            state := .init, child := Individual.newRandom ctx env.split.numVehicles (ch'.ω.sub 0)
              (new env ctx ω).numInitialized })
          ⟨hn.base.pop, hn.base.len, hn.base.ready, hn.base.nbr, hn.base.lsLen, hn.base.split⟩ hn.best hmu
          (newRandom_geno _ _ _ _) e3).1
        rw [h.educate i3 (runSplit_ls e3)] at e2
        cases e2

end GA

namespace Program
open Hang GA

variable {lib : Lib (Dbl nearestEven)} {cfg : Settings (Dbl nearestEven)} {nodes : List (ℚ × ℚ × ℚ)}
  {raw : List (List Char)} {lines pre : List (List (List Char))} {blocks : List Block} {text : List Char} {ω : Oracle}
  {chs : List (GAChoice (Dbl nearestEven))} {dchs : List (DGAChoice (Dbl nearestEven))}

theorem hang_demand (hdem : nodes.map (fun p => p.2.2) = [0, 1, 1, 1]) (a : ℕ) : nodeDemand nodes a = q a := by
  have : nodeDemand nodes a = ((nodes.map (fun p => p.2.2))[a]?).getD 0 := by
    rw [nodeDemand, List.getElem?_map]
  rw [this, hdem]
  match a with
  | 0 => rfl
  | 1 => rfl
  | 2 => rfl
  | 3 => rfl
  | a + 4 => simp [q]

theorem hang_loads (hdem : nodes.map (fun p => p.2.2) = [0, 1, 1, 1]) : DblLoads nodes 10 := by
  have hlen : nodes.length = 4 := by simpa using congrArg List.length hdem
  refine ⟨by rw [hlen]; norm_num, 10, 1, by norm_num, by norm_num, fun p hp => ?_, by rw [hlen]; norm_num⟩
  have : p.2.2 ∈ [0, 1, 1, 1] := hdem ▸ List.mem_map_of_mem (f := fun p : ℚ × ℚ × ℚ => p.2.2) hp
  simp only [List.mem_cons, List.not_mem_nil, or_false] at this
  rcases this with e | e | e | e <;> rw [e]
  · exact ⟨0, by norm_num, by norm_num, by norm_num⟩
  all_goals exact ⟨1, by norm_num, by norm_num, by norm_num⟩

/-- **C73** (refuted, the whole program). An instance file with four nodes, an explicit matrix of whole numbers
of about `4.5 · 10 ^ 15`, demands 1 and capacity 10; neighbour lists with two entries, the local search with the
two move types below. Unless the time is up before the first individual is made, no run of the program in double
precision ends, whatever the other settings, the library routines, the random choices and the number of rounds
granted to the local search of the first individual. -/
theorem C73_program_refuted (ht : TextOf text raw)
    (hl : List.Forall₂ LaidOut raw lines) (hf : BlockFile lines pre blocks)
    (hd : Describes (fun w x => lib.num w = some x) (fun w n => parseUsize w = some n) blocks (fin 10)
      (dblNodes nearestEven nodes)) (hdem : nodes.map (fun p => p.2.2) = [0, 1, 1, 1])
    (he : ExplicitRows (fun w x => lib.num w = some x) blocks (dblRows nearestEven rows)) (hlib : DblLib lib)
    (hgran : cfg.granularity = 2) (hls : cfg.lsEnabled = true) (hm1 : cfg.moves.relocateSingle = true)
    (hm2 : cfg.moves.twoOptIntraReverse = true) (hini : 0 < cfg.initialIndividuals)
    (hdec : 3 < cfg.decomposeLimit) (hit : cfg.maxIterations ≠ some 0)
    (htime : ∀ ch ∈ chs.take 2, ch.elapsed < cfg.timeLimit) :
    Program.main lib cfg text ω chs dchs = none := by
  have hlen : nodes.length = 4 := by simpa using congrArg List.length hdem
  have hload := hang_loads hdem
  have hp := C51_parse_explicit lib.num ht hl hf hd he (by rw [dblNodes_length, hlen]; rfl)
  obtain ⟨dm, e', hb⟩ := built_lowerRow_any (lib := lib) (nodes := dblNodes nearestEven nodes) (cap := fin 10)
    (rows := dblRows nearestEven rows) (by rw [dblNodes_length, hlen]; rfl) (dblRows_row rows_len)
    (decide ((parsed (dblNodes nearestEven nodes) (fin 10) (some (dblRows nearestEven rows))).nodes.length - 1 <
      cfg.precomputeLimit)) cfg.rounded
  rw [dblNodes_length] at hb
  have hb : Built lib nodes.length (fun a b => fin (d 0 a b)) dm := by
    refine hb.congr fun a ha b hb => ?_
    rw [hlen] at ha hb
    rw [lowerVal_at cfg.rounded rows_nonneg, rows_dist cfg.rounded a ha b hb]
  rw [Option.eq_none_iff_forall_not_mem]
  intro file hmain
  have hmain : Program.main lib cfg text ω chs dchs = some file := hmain
  unfold main at hmain
  change parseInstance lib.num text = some (parsed _ _ _) at hp
  rw [hp, Option.bind_some] at hmain
  obtain ⟨x, h1, h2⟩ := Option.bind_eq_some_iff.mp hmain
  obtain ⟨h, h3, -⟩ := Option.map_eq_some_iff.mp h2
  unfold matrices at h1
  split at h1
  · cases h1
  have hm : (parsed (dblNodes nearestEven nodes) (fin 10) (some (dblRows nearestEven rows))).matrix =
    some (dblRows nearestEven rows) := rfl
  rw [hm, e', Option.bind_some] at h1
  obtain ⟨c, hc, rfl⟩ := Option.map_eq_some_iff.mp h1
  dsimp only at h3
  have hs : DblSettings cfg nodes.length := by
    refine ⟨by rw [hgran, hlen]; decide, fun h => ?_⟩
    rw [hlen] at h
    omega
  obtain ⟨ctx, hctx⟩ : ∃ ctx, ctx = context lib (parsed (dblNodes nearestEven nodes) (fin 10)
    (some (dblRows nearestEven rows))) dm := ⟨_, rfl⟩
  have hinst : Inst ctx 0 := by
    subst hctx
    refine ⟨by rw [dbl_n, hlen], ?_, fun a => ?_, fun a b => ?_⟩
    · show fin 10 = fin _
      norm_num
    · rw [dbl_demand, hang_demand hdem]; rfl
    · rw [dbl_dist (dist := d 0) hb, hlen]
      congr 1
      split
      · rfl
      · rw [d, if_neg (by tauto)]
  obtain ⟨Q, D, -, hw⟩ := dbl_whole (lib := lib) (m := some (dblRows nearestEven rows)) (d := dm)
    (ρ := nearestEven) hload
  have hmod : Moderate ctx 53 := by
    refine ⟨fun a b => ?_, by norm_num, by rw [hinst.n]; norm_num, by rw [hinst.n]; norm_num⟩
    rw [hinst.dist]
    refine ⟨_, rfl, ?_, ?_⟩
    · unfold d w
      split
      · positivity
      · exact le_refl _
    · unfold d
      split
      · have := w_le 0 a; have := w_le 0 b
        have : (2 : ℚ) ^ 53 = 2 ^ 52 + 2 ^ 52 := by norm_num
        linarith
      · positivity
  rw [hctx] at hmod
  have hlaws := dbl_gaLaws' hlib hs hload hmod hb hc (loadExact_laws hw)
  rw [← hctx] at hlaws h3
  have hrow : ∀ i < dm.locations.length, dm.getVec lib.sqrt i 0 dm.locations.length =
      some ((List.range nodes.length).map fun b => fin (d 0 i b)) ∧
      ((List.range nodes.length).map fun b => (fin (d 0 i b) : Dbl nearestEven)).length = dm.locations.length := by
    intro i hi
    rw [hb.len] at hi ⊢
    exact ⟨hb.rows i hi, by simp⟩
  have hst : Stuck (gaEnv lib cfg ctx dm c) ctx (LoadExact (demandZ nodes) Q) := by
    refine ⟨hlaws, hinst, hls, hm1, hm2, fun u v h1 h2 h3 h4 h5 => ?_⟩
    have t := neighbours (ctx := RR.ctxAt ctx (gaEnv lib cfg ctx dm c).initialPen) (by rw [hb.len, hlen]) _ hrow
      hlib.perm hlib.sorted hc (gaEnv lib cfg ctx dm c).split.numVehicles (gaEnv lib cfg ctx dm c).angle (lit 1)
      h1 h2 h3 h4 h5
    rw [← hgran] at t
    exact t
  unfold solve at h3
  rw [if_neg (by rw [hinst.n]; omega)] at h3
  obtain ⟨g, h4, h5⟩ := Option.bind_eq_some_iff.mp h3
  rw [if_neg (hst.steps hini hit ω chs htime g h4)] at h5
  cases h5

end Program

namespace HangEx

/-- The lines of the instance file. -/
def raw : List (List Char) :=
  ["DIMENSION : 4".toList, "EDGE_WEIGHT_TYPE : EXPLICIT".toList, "EDGE_WEIGHT_FORMAT : LOWER_ROW".toList,
    "CAPACITY : 10".toList, "EDGE_WEIGHT_SECTION".toList, "4503599627370498".toList,
    "4503599627370498 4503599627370498".toList, "4503599627370497 4503599627370497 4503599627370497".toList,
    "NODE_COORD_SECTION".toList, "1 0 0".toList, "2 3 0".toList, "3 3 4".toList, "4 0 4".toList,
    "DEMAND_SECTION".toList, "1 0".toList, "2 1".toList, "3 1".toList, "4 1".toList, "EOF".toList]
/-- The instance file. -/
def text : List Char := (raw.map (fun l => l ++ ['\n'])).flatten
/-- The blocks of the instance file. -/
def blocks : List Block :=
  [⟨"DIMENSION".toList, ["4".toList], []⟩, ⟨"EDGE_WEIGHT_TYPE".toList, ["EXPLICIT".toList], []⟩,
    ⟨"EDGE_WEIGHT_FORMAT".toList, ["LOWER_ROW".toList], []⟩, ⟨"CAPACITY".toList, ["10".toList], []⟩,
    ⟨"EDGE_WEIGHT_SECTION".toList, [],
      [["4503599627370498".toList], ["4503599627370498".toList, "4503599627370498".toList],
        ["4503599627370497".toList, "4503599627370497".toList, "4503599627370497".toList]]⟩,
    ⟨"NODE_COORD_SECTION".toList, [],
      [["1".toList, "0".toList, "0".toList], ["2".toList, "3".toList, "0".toList],
        ["3".toList, "3".toList, "4".toList], ["4".toList, "0".toList, "4".toList]]⟩,
    ⟨"DEMAND_SECTION".toList, [], [["1".toList, "0".toList], ["2".toList, "1".toList],
      ["3".toList, "1".toList], ["4".toList, "1".toList]]⟩,
    ⟨"EOF".toList, [], []⟩]

/-- The nodes. -/
def nodes : List (ℚ × ℚ × ℚ) := [(0, 0, 0), (3, 0, 1), (3, 4, 1), (0, 4, 1)]

theorem blockFile : BlockFile (raw.map lineWords) [] blocks := by
  refine ⟨by decide, by decide, ?_, by decide⟩
  intro b hb line hl w hw
  simp only [blocks, List.mem_cons, List.not_mem_nil, or_false] at hb
  rcases hb with rfl | rfl | rfl | rfl | rfl | rfl | rfl | rfl <;>
    simp only [List.mem_cons, List.not_mem_nil, or_false] at hl
  · rcases hl with rfl | rfl | rfl <;> (cases hw; decide)
  · rcases hl with rfl | rfl | rfl | rfl <;> (cases hw; decide)
  · rcases hl with rfl | rfl | rfl | rfl <;> (cases hw; decide)

theorem describes : Describes (fun w x => DoubleEx.lib.num w = some x) (fun w n => parseUsize w = some n) blocks
    (fin 10) (Program.dblNodes nearestEven nodes) := by
  refine ⟨?_, ?_, ?_, ?_⟩
  · exact ⟨blocks[0], by simp [blocks], by decide, "4".toList, by decide, by decide⟩
  · exact ⟨blocks[3], by simp [blocks], by decide, "10".toList, by decide, by decide +kernel⟩
  · refine ⟨blocks[5], by simp [blocks], by decide, ?_⟩
    intro i p hp
    match i, hp with
    | 0, hp => cases hp; exact ⟨_, _, _, rfl, rfl, rfl, by decide +kernel, by decide +kernel⟩
    | 1, hp => cases hp; exact ⟨_, _, _, rfl, rfl, rfl, by decide +kernel, by decide +kernel⟩
    | 2, hp => cases hp; exact ⟨_, _, _, rfl, rfl, rfl, by decide +kernel, by decide +kernel⟩
    | 3, hp => cases hp; exact ⟨_, _, _, rfl, rfl, rfl, by decide +kernel, by decide +kernel⟩
    | i + 4, hp => simp [nodes, Program.dblNodes] at hp
  · refine ⟨blocks[6], by simp [blocks], by decide, ?_⟩
    intro i p hp
    match i, hp with
    | 0, hp => cases hp; exact ⟨_, _, rfl, rfl, by decide +kernel⟩
    | 1, hp => cases hp; exact ⟨_, _, rfl, rfl, by decide +kernel⟩
    | 2, hp => cases hp; exact ⟨_, _, rfl, rfl, by decide +kernel⟩
    | 3, hp => cases hp; exact ⟨_, _, rfl, rfl, by decide +kernel⟩
    | i + 4, hp => simp [nodes, Program.dblNodes] at hp

theorem explicit : ExplicitRows (fun w x => DoubleEx.lib.num w = some x) blocks
    (Program.dblRows nearestEven Hang.rows) := by
  refine ⟨⟨blocks[1], by simp [blocks], by decide, by decide⟩, ⟨blocks[2], by simp [blocks], by decide, by decide⟩,
    blocks[4], by simp [blocks], by decide, ?_⟩
  intro i row h
  match i, h with
  | 0, h => cases h; exact ⟨_, rfl, .cons (by decide +kernel) .nil⟩
  | 1, h => cases h; exact ⟨_, rfl, .cons (by decide +kernel) (.cons (by decide +kernel) .nil)⟩
  | 2, h =>
    cases h
    exact ⟨_, rfl, .cons (by decide +kernel) (.cons (by decide +kernel) (.cons (by decide +kernel) .nil))⟩
  | i + 3, h => simp [Hang.rows, Program.dblRows] at h

/-- No run of the program on this file ends. -/
example (ω : Oracle) (chs : List (GAChoice DoubleEx.F)) (htime : ∀ ch ∈ chs.take 2, ch.elapsed < 100) :
    Program.main DoubleEx.lib DoubleEx.cfg text ω chs [] = none :=
  Program.C73_program_refuted (nodes := nodes) (textOf_lf raw (by decide)) (forall₂_lineWords _) blockFile describes rfl
    explicit DoubleEx.lib_ok rfl rfl rfl rfl (by decide) (by decide) (by decide) htime

/-- It is the local search that hinders it: without it the run of `DoubleEx` ends with a solution. -/
example : Program.main DoubleEx.lib { DoubleEx.cfg with lsEnabled := false } text (fun _ => 0) DoubleEx.chs [] =
    some (some "Route #1: 3 1 2\nCost 18014398509481992\n".toList) := by
  decide +kernel

end HangEx
end Verif
