import Verif.Lemmas.DblNear

/-!
# C70–C72: the solution file in double precision

The program with the arithmetic of double precision, in place of exact arithmetic (C62). `ρ` is any rounding
that does not round 1.2 up; `nearestEven`, the rounding of the machine, is one (`nearestEven_fleet`).
-/

namespace Verif
open F64 Dbl

variable {ρ : Rounding}

namespace Program

/-- The distance computed in the plane, for coordinates up to `2 ^ 40`. -/
theorem plane_bound {sqrt : Dbl ρ → Dbl ρ} (hs : SqrtOK sqrt) (rounded : Bool) {x y x' y' : ℚ} {k : ℕ} (hk : k ≤ 40)
    (h1 : |x| ≤ 2 ^ k) (h2 : |y| ≤ 2 ^ k) (h3 : |x'| ≤ 2 ^ k) (h4 : |y'| ≤ 2 ^ k) :
    ∃ v, roundIf rounded (euclid sqrt ⟨fin x, fin y⟩ ⟨fin x', fin y'⟩) = fin v ∧ 0 ≤ v ∧ v ≤ 2 ^ (k + 2) := by
  have hdiff : ∀ a b : ℚ, |a| ≤ 2 ^ k → |b| ≤ 2 ^ k → |b - a| ≤ 2 ^ (k + 1) := by
    intro a b ha hb
    obtain ⟨a1, a2⟩ := abs_le.mp ha
    obtain ⟨b1, b2⟩ := abs_le.mp hb
    rw [abs_le, pow_succ]
    constructor <;> linarith
  have hsq : ∀ a b : ℚ, |a| ≤ 2 ^ k → |b| ≤ 2 ^ k →
      Nn (2 * (k + 1)) (((fin b : Dbl ρ) -. fin a) *. (fin b -. fin a)) := by
    intro a b ha hb
    rw [sub_fin, ofRat_le (by omega) (hdiff a b ha hb), mul_fin]
    have h := fl_abs_le (ρ := ρ) (hdiff a b ha hb)
    refine nn_ofRat (by omega) (mul_self_nonneg _) ?_
    rw [← abs_mul_abs_self, pow_mul', sq]
    exact mul_le_mul h h (abs_nonneg _) (by positivity)
  obtain ⟨s, e, s0, s1⟩ := (hsq x x' h1 h3).add (by omega) (hsq y y' h2 h4)
  have hs2 : s ≤ (2 ^ (k + 2)) ^ 2 := s1.trans (by
    rw [← pow_mul]
    exact pow_le_pow_right₀ (by norm_num) (by omega))
  obtain ⟨v, ev, v0, v1⟩ := hs.le_pow s0 hs2
  have he : euclid sqrt ⟨fin x, fin y⟩ ⟨fin x', fin y'⟩ = fin v := by
    unfold euclid
    dsimp only
    rw [e, ev]
  rw [he]
  cases rounded with
  | false => exact ⟨v, rfl, v0, v1⟩
  | true =>
    refine ⟨ratRound v, rfl, ?_, ?_⟩
    · rw [ratRound, if_pos v0]
      exact_mod_cast Int.floor_nonneg.mpr (by linarith : (0 : ℚ) ≤ v + 1 / 2)
    · rw [ratRound, if_pos v0]
      have : ⌊v + 1 / 2⌋ ≤ 2 ^ (k + 2) := by
        refine Int.lt_add_one_iff.mp (Int.floor_lt.mpr ?_)
        push_cast
        linarith
      exact_mod_cast this

/-- The number that is finite, else 0. -/
def finVal : Dbl ρ → ℚ
  | fin v => v
  | _ => 0

/-- The distances computed in the plane. -/
def planeNum (sqrt : Dbl ρ → Dbl ρ) (rounded : Bool) (nodes : List (ℚ × ℚ × ℚ)) (a b : ℕ) : ℚ :=
  finVal (planeVal sqrt rounded (dblNodes ρ nodes) a b)

theorem planeVal_at (sqrt : Dbl ρ → Dbl ρ) (rounded : Bool) {nodes : List (ℚ × ℚ × ℚ)} {a b : ℕ}
    (ha : a < nodes.length) (hb : b < nodes.length) : planeVal sqrt rounded (dblNodes ρ nodes) a b =
      roundIf rounded (euclid sqrt ⟨fin nodes[a].1, fin nodes[a].2.1⟩ ⟨fin nodes[b].1, fin nodes[b].2.1⟩) := by
  simp [planeVal, dblNodes, ha, hb]

theorem dblNodes_fin {nodes : List (ℚ × ℚ × ℚ)} : ∀ p ∈ dblNodes ρ nodes, (∃ q, p.1 = fin q) ∧ ∃ q, p.2.1 = fin q := by
  intro p hp
  obtain ⟨t, -, rfl⟩ := List.mem_map.mp hp
  exact ⟨⟨_, rfl⟩, ⟨_, rfl⟩⟩

theorem dblNodes_length {nodes : List (ℚ × ℚ × ℚ)} : (dblNodes ρ nodes).length = nodes.length := by
  simp [dblNodes]

/-- Coordinates that are whole numbers up to `2 ^ 22`. -/
def WholeCoords (nodes : List (ℚ × ℚ × ℚ)) : Prop :=
  ∀ p ∈ nodes, ∃ x y : ℤ, p.1 = x ∧ p.2.1 = y ∧ |x| ≤ 2 ^ 22 ∧ |y| ≤ 2 ^ 22

/-- The sum of squares is exact for whole coordinates. -/
theorem euclid_whole (sqrt : Dbl ρ → Dbl ρ) {x y x' y' : ℤ} (h1 : |x| ≤ 2 ^ 22) (h2 : |y| ≤ 2 ^ 22)
    (h3 : |x'| ≤ 2 ^ 22) (h4 : |y'| ≤ 2 ^ 22) :
    euclid sqrt (⟨fin x, fin y⟩ : Coord (Dbl ρ)) ⟨fin x', fin y'⟩ =
      sqrt (fin (((x - x') ^ 2 + (y - y') ^ 2 : ℤ) : ℚ)) ∧
    0 ≤ (x - x') ^ 2 + (y - y') ^ 2 ∧ (x - x') ^ 2 + (y - y') ^ 2 ≤ 2 ^ 47 := by
  have hsq : ∀ a b : ℤ, |a| ≤ 2 ^ 22 → |b| ≤ 2 ^ 22 → (a - b) ^ 2 ≤ 2 ^ 46 ∧
      ((fin b : Dbl ρ) -. fin a) *. (fin b -. fin a) = fin (((a - b) ^ 2 : ℤ) : ℚ) := by
    intro a b ha hb
    obtain ⟨a1, a2⟩ := abs_le.mp ha
    obtain ⟨b1, b2⟩ := abs_le.mp hb
    have hd : |b - a| ≤ 2 ^ 23 := by rw [abs_le]; constructor <;> linarith
    have hq : (a - b) ^ 2 ≤ 2 ^ 46 := by
      have : (b - a) ^ 2 ≤ (2 ^ 23) ^ 2 := sq_le_sq' (by linarith [(abs_le.mp hd).1]) (abs_le.mp hd).2
      have e : (a - b) ^ 2 = (b - a) ^ 2 := by ring
      rw [e]
      norm_num at this ⊢
      exact this
    refine ⟨hq, ?_⟩
    have e1 : (fin (b : ℚ) : Dbl ρ) -. fin (a : ℚ) = fin ((b - a : ℤ) : ℚ) := by
      rw [sub_fin, ← Int.cast_sub]
      exact ofRat_int (by linarith)
    have e2 : ((b - a : ℤ) : ℚ) * ((b - a : ℤ) : ℚ) = (((a - b) ^ 2 : ℤ) : ℚ) := by push_cast; ring
    rw [e1, mul_fin, e2]
    exact ofRat_int (by rw [abs_of_nonneg (sq_nonneg _)]; linarith)
  obtain ⟨q1, e1⟩ := hsq x x' h1 h3
  obtain ⟨q2, e2⟩ := hsq y y' h2 h4
  have n1 := sq_nonneg (x - x')
  have n2 := sq_nonneg (y - y')
  refine ⟨?_, by linarith, by linarith⟩
  unfold euclid
  dsimp only
  rw [e1, e2, add_fin, ← Int.cast_add]
  congr 1
  exact ofRat_int (by rw [abs_of_nonneg (by linarith)]; linarith)

theorem realDist_at {nodes : List (ℚ × ℚ × ℚ)} {a b : ℕ} (ha : a < nodes.length) (hb : b < nodes.length)
    {x y x' y' : ℤ} (h1 : nodes[a].1 = x) (h2 : nodes[a].2.1 = y) (h3 : nodes[b].1 = x') (h4 : nodes[b].2.1 = y') :
    Spec.realDist nodes a b = Real.sqrt (((x - x') ^ 2 + (y - y') ^ 2 : ℤ) : ℝ) := by
  unfold Spec.realDist
  rw [List.getElem?_eq_getElem ha, List.getElem?_eq_getElem hb]
  dsimp only
  rw [h1, h2, h3, h4]
  push_cast
  rfl

/-- Rounded distances between whole coordinates are the nearest integers. -/
theorem plane_nearest {sqrt : Dbl ρ → Dbl ρ} (hs : SqrtOK sqrt) {nodes : List (ℚ × ℚ × ℚ)} (hw : WholeCoords nodes)
    {a b : ℕ} (ha : a < nodes.length) (hb : b < nodes.length) :
    planeVal sqrt true (dblNodes ρ nodes) a b = fin ((⌊Spec.realDist nodes a b + 1 / 2⌋ : ℤ) : ℚ) ∧
      0 ≤ ⌊Spec.realDist nodes a b + 1 / 2⌋ ∧ ⌊Spec.realDist nodes a b + 1 / 2⌋ ≤ 2 ^ 24 := by
  obtain ⟨x, y, x1, y1, xb, yb⟩ := hw _ (List.getElem_mem ha)
  obtain ⟨x', y', x1', y1', xb', yb'⟩ := hw _ (List.getElem_mem hb)
  obtain ⟨e, s0, s1⟩ := euclid_whole sqrt xb yb xb' yb'
  obtain ⟨v, ev, v0, hv, hv'⟩ := hs.nearest s0 s1
  rw [planeVal_at sqrt true ha hb, x1, y1, x1', y1', e, ev, realDist_at ha hb x1 y1 x1' y1', ← hv]
  refine ⟨?_, Int.floor_nonneg.mpr (by linarith), hv'⟩
  show (fin (ratRound v) : Dbl ρ) = _
  rw [ratRound, if_pos v0]

/-- Distances between whole coordinates that are not rounded. -/
theorem plane_real {sqrt : Dbl ρ → Dbl ρ} (hs : SqrtOK sqrt) {nodes : List (ℚ × ℚ × ℚ)} (hw : WholeCoords nodes)
    {a b : ℕ} (ha : a < nodes.length) (hb : b < nodes.length) :
    |(planeNum sqrt false nodes a b : ℝ) - Spec.realDist nodes a b| ≤ 1 / 2 ^ 29 := by
  obtain ⟨x, y, x1, y1, xb, yb⟩ := hw _ (List.getElem_mem ha)
  obtain ⟨x', y', x1', y1', xb', yb'⟩ := hw _ (List.getElem_mem hb)
  obtain ⟨e, s0, s1⟩ := euclid_whole sqrt xb yb xb' yb'
  rw [planeNum, planeVal_at sqrt false ha hb, x1, y1, x1', y1', e, realDist_at ha hb x1 y1 x1' y1']
  obtain ⟨v, ev, hv⟩ := hs.close s0 s1
  rw [ev]
  exact hv

/-- The matrix in double precision. -/
def dblRows (ρ : Rounding) (rows : List (List ℚ)) : List (List (Dbl ρ)) := rows.map fun row => row.map fin

theorem dblRows_row {rows : List (List ℚ)}
    (hrow : ∀ (i : ℕ) (row : List ℚ), rows[i]? = some row → row.length = i + 1) :
    ∀ (i : ℕ) (row : List (Dbl ρ)), (dblRows ρ rows)[i]? = some row → row.length = i + 1 := by
  intro i row h
  rw [dblRows, List.getElem?_map] at h
  obtain ⟨r, h1, rfl⟩ := Option.map_eq_some_iff.mp h
  rw [List.length_map]
  exact hrow i r h1

theorem lowerVal_at (rounded : Bool) {rows : List (List ℚ)} (hnn : ∀ row ∈ rows, ∀ x ∈ row, 0 ≤ x) (a b : ℕ) :
    lowerVal rounded (dblRows ρ rows) a b = fin (Spec.lowerRowDist rounded rows a b) := by
  unfold lowerVal Spec.lowerRowDist dblRows
  split
  · exact lit_zero
  · cases h : rows[max a b - 1]? with
    | none => simp [h, lit_zero]
    | some row =>
      cases h2 : row[min a b]? with
      | none => simp [h, h2, lit_zero]
      | some x =>
        have hx := hnn row (List.mem_of_getElem? h) x (List.mem_of_getElem? h2)
        simp only [List.getElem?_map, h, Option.map_some, Option.bind_some, h2]
        cases rounded with
        | false => rfl
        | true =>
          show (fin (ratRound x) : Dbl ρ) = _
          simp [ratRound, Spec.roundedDist, hx]

end Program

open Program Spec

variable {lib : Lib (Dbl ρ)} {cfg : Settings (Dbl ρ)} {nodes : List (ℚ × ℚ × ℚ)} {cap : ℚ}
  {text file : List Char} {raw : List (List Char)} {lines pre : List (List (List Char))} {blocks : List Block}
  {rows : List (List ℚ)} {ω : Oracle} {chs : List (GAChoice (Dbl ρ))} {dchs : List (DGAChoice (Dbl ρ))}

/-- The distances in the plane for coordinates up to `2 ^ k`. -/
theorem nearPlane_data (hroot : SqrtOK lib.sqrt) (hn : 0 < nodes.length) {k : ℕ} (hk : k ≤ 40)
    (hco : ∀ p ∈ nodes, |p.1| ≤ 2 ^ k ∧ |p.2.1| ≤ 2 ^ k) :
    (∀ a < nodes.length, ∀ b < nodes.length, 0 ≤ planeNum lib.sqrt cfg.rounded nodes a b ∧
      planeNum lib.sqrt cfg.rounded nodes a b ≤ 2 ^ (k + 2)) ∧
    planeNum lib.sqrt cfg.rounded nodes 0 0 = 0 ∧
    ∃ d, buildDist lib.sqrt (locations (parsed (dblNodes ρ nodes) (fin cap) none))
      (decide ((parsed (dblNodes ρ nodes) (fin cap) none).nodes.length - 1 < cfg.precomputeLimit)) cfg.rounded none =
        some d ∧ Built lib nodes.length (fun a b => fin (planeNum lib.sqrt cfg.rounded nodes a b)) d := by
  have hv : ∀ a < nodes.length, ∀ b < nodes.length,
      planeVal lib.sqrt cfg.rounded (dblNodes ρ nodes) a b = fin (planeNum lib.sqrt cfg.rounded nodes a b) ∧
      0 ≤ planeNum lib.sqrt cfg.rounded nodes a b ∧ planeNum lib.sqrt cfg.rounded nodes a b ≤ 2 ^ (k + 2) := by
    intro a ha b hb
    obtain ⟨p1, p2⟩ := hco _ (List.getElem_mem ha)
    obtain ⟨p3, p4⟩ := hco _ (List.getElem_mem hb)
    obtain ⟨v, e, v0, v1⟩ := plane_bound hroot cfg.rounded hk p1 p2 p3 p4
    rw [planeNum, planeVal_at lib.sqrt cfg.rounded ha hb, e]
    exact ⟨rfl, v0, v1⟩
  have h00 : planeNum lib.sqrt cfg.rounded nodes 0 0 = 0 := by
    have L := squareLaws_dbl hroot
    rw [planeNum, planeVal_at lib.sqrt cfg.rounded hn hn, euclid_self L ⟨⟨_, rfl⟩, ⟨_, rfl⟩⟩, roundIf]
    cases cfg.rounded with
    | false => rw [if_neg (by simp), lit_zero]; rfl
    | true => rw [if_pos rfl, L.round, lit_zero]; rfl
  refine ⟨fun a ha b hb => (hv a ha b hb).2, h00, ?_⟩
  obtain ⟨d, e, h⟩ := built_plane_any (squareLaws_dbl hroot) (nodes := dblNodes ρ nodes) (cap := fin cap) dblNodes_fin
    (decide ((parsed (dblNodes ρ nodes) (fin cap) none).nodes.length - 1 < cfg.precomputeLimit)) cfg.rounded
  rw [dblNodes_length] at h
  exact ⟨d, e, h.congr fun a ha b hb => (hv a ha b hb).1⟩

/-- The rounded distances of whole coordinates. -/
theorem exactPlane_data (hroot : SqrtOK lib.sqrt) (hn : 0 < nodes.length) (hrd : cfg.rounded = true)
    (hco : WholeCoords nodes) :
    ⌊realDist nodes 0 0 + 1 / 2⌋ = 0 ∧
    ∃ d, buildDist lib.sqrt (locations (parsed (dblNodes ρ nodes) (fin cap) none))
      (decide ((parsed (dblNodes ρ nodes) (fin cap) none).nodes.length - 1 < cfg.precomputeLimit)) cfg.rounded none =
        some d ∧ Built lib nodes.length (fun a b => fin ((⌊realDist nodes a b + 1 / 2⌋ : ℤ) : ℚ)) d := by
  refine ⟨?_, ?_⟩
  · rw [realDist, List.getElem?_eq_getElem hn]
    norm_num
  obtain ⟨d, e, h⟩ := built_plane_any (squareLaws_dbl hroot) (nodes := dblNodes ρ nodes) (cap := fin cap) dblNodes_fin
    (decide ((parsed (dblNodes ρ nodes) (fin cap) none).nodes.length - 1 < cfg.precomputeLimit)) cfg.rounded
  rw [dblNodes_length, hrd] at h
  exact ⟨d, by rw [hrd] at e ⊢; exact e, h.congr fun a ha b hb => (plane_nearest hroot hco ha hb).1⟩

/-- **C70**. In double precision, for an instance in the plane with whole demands: the file lists routes
that visit every customer once and exceed the capacity nowhere, without tolerance, and the stated cost is
the length of the routes in the computed distances up to an explicit rounding error. -/
theorem C70_file_plane (hroot : SqrtOK lib.sqrt) (ht : TextOf text raw)
    (hl : List.Forall₂ LaidOut raw lines) (hf : BlockFile lines pre blocks)
    (hd : Describes (fun w x => lib.num w = some x) (fun w n => parseUsize w = some n) blocks (fin cap)
      (dblNodes ρ nodes))
    (he : Euclidean blocks) (hr : DblRun lib cfg nodes.length chs dchs) (hload : DblLoads nodes cap) {k m : ℕ}
    (hk : k ≤ 40) (hco : ∀ p ∈ nodes, |p.1| ≤ 2 ^ k ∧ |p.2.1| ≤ 2 ^ k)
    (hM : 4 * (nodes.length * 2 ^ (k + 2)) ≤ 2 ^ m) (hm : m ≤ 60) (hn50 : nodes.length ≤ 2 ^ 50)
    (hmain : Program.main lib cfg text ω chs dchs = some (some file)) (hne : file ≠ []) :
    NearFile nodes cap (planeNum lib.sqrt cfg.rounded nodes) (3 * nodes.length * (2 ^ m / 2 ^ 53)) file := by
  obtain ⟨hv, h00, hb⟩ := nearPlane_data (lib := lib) (cfg := cfg) (cap := cap) hroot
    (by have := hr.settings.gran; omega) hk hco
  exact main_near (M := 2 ^ (k + 2)) (m := m) hr hload hv h00
    (pow_le_pow_right₀ (by norm_num) (by omega)) (by exact_mod_cast hM) hm hn50
    (C51_parse_euclidean lib.num ht hl hf hd he) hb hmain hne

/-- **C70**, whole coordinates and no rounding of distances: the stated cost is the real length of the
routes in the plane up to an explicit rounding error. -/
theorem C70_file_real (hroot : SqrtOK lib.sqrt) (ht : TextOf text raw)
    (hl : List.Forall₂ LaidOut raw lines) (hf : BlockFile lines pre blocks)
    (hd : Describes (fun w x => lib.num w = some x) (fun w n => parseUsize w = some n) blocks (fin cap)
      (dblNodes ρ nodes))
    (he : Euclidean blocks) (hr : DblRun lib cfg nodes.length chs dchs) (hload : DblLoads nodes cap)
    (hrd : cfg.rounded = false) (hco : WholeCoords nodes) {m : ℕ}
    (hM : 4 * (nodes.length * 2 ^ 24) ≤ 2 ^ m) (hm : m ≤ 60) (hn50 : nodes.length ≤ 2 ^ 50)
    (hmain : Program.main lib cfg text ω chs dchs = some (some file)) (hne : file ≠ []) :
    RealFile nodes cap (3 * nodes.length * (2 ^ m / 2 ^ 53) + 2 * nodes.length * (1 / 2 ^ 29)) file := by
  obtain ⟨R, N, h1, h2, h3, h4, h5, h6⟩ := C70_file_plane hroot ht hl hf hd he hr hload (k := 22) (m := m)
    (by norm_num) (fun p hp => by
      obtain ⟨x, y, e1, e2, b1, b2⟩ := hco p hp
      rw [e1, e2]
      exact ⟨by exact_mod_cast b1, by exact_mod_cast b2⟩) hM hm hn50 hmain hne
  refine ⟨R, N, h1, h2, h3, h4, h5, ?_⟩
  have hn : 0 < nodes.length := by have := hr.settings.gran; omega
  have hin : ∀ r ∈ R, ∀ c ∈ r, c < nodes.length := by
    intro r hr c hc
    have : c ∈ customers nodes.length := h3.subset (List.mem_flatten.mpr ⟨r, hr, hc⟩)
    rw [customers, List.mem_range'_1] at this
    omega
  have hpath : ∀ l : List ℕ, (∀ c ∈ l, c < nodes.length) →
      |(pathDist (planeNum lib.sqrt cfg.rounded nodes) l : ℝ) - realPath nodes l| ≤ (l.length - 1 : ℕ) * (1 / 2 ^ 29) := by
    intro l
    induction l with
    | nil => intro _; simp [pathDist, realPath]
    | cons a l ih =>
      intro h
      cases l with
      | nil => simp [pathDist, realPath]
      | cons b l =>
        have := ih fun c hc => h c (by simp [hc])
        have h7 := plane_real hroot hco (h a (by simp)) (h b (by simp))
        rw [← hrd] at h7
        simp only [List.length_cons, Nat.add_sub_cancel] at this ⊢
        rw [pathDist, realPath]
        push_cast at this ⊢
        obtain ⟨a1, a2⟩ := abs_le.mp this
        obtain ⟨b1, b2⟩ := abs_le.mp h7
        rw [abs_le]
        constructor <;> linarith
  have hsum : ∀ L : List (List ℕ), (∀ r ∈ L, r ≠ []) → (∀ r ∈ L, ∀ c ∈ r, c < nodes.length) →
      |((L.map (routeDist (planeNum lib.sqrt cfg.rounded nodes))).sum : ℝ) -
        (L.map fun r => realPath nodes (0 :: (r ++ [0]))).sum| ≤ 2 * L.flatten.length * (1 / 2 ^ 29) := by
    intro L
    induction L with
    | nil => intro _ _; simp
    | cons r L ih =>
      intro g1 g2
      have i1 := ih (fun s hs => g1 s (by simp [hs])) fun s hs => g2 s (by simp [hs])
      have i2 := hpath (0 :: (r ++ [0])) fun c hc => by
        simp only [List.mem_cons, List.mem_append, List.not_mem_nil, or_false] at hc
        rcases hc with rfl | hc | rfl
        · exact hn
        · exact g2 r (by simp) c hc
        · exact hn
      have hr1 : 1 ≤ r.length := List.length_pos_iff.mpr (g1 r (by simp))
      have hr1' : (1 : ℝ) ≤ r.length := by exact_mod_cast hr1
      simp only [List.length_cons, List.length_append, List.length_nil, Nat.add_sub_cancel] at i2
      simp only [List.map_cons, List.sum_cons, List.flatten_cons, List.length_append]
      push_cast at i1 i2 ⊢
      obtain ⟨a1, a2⟩ := abs_le.mp i1
      obtain ⟨b1, b2⟩ := abs_le.mp i2
      unfold routeDist
      unfold routeDist at a1 a2
      rw [abs_le]
      constructor <;> nlinarith
  have hlen : (R.flatten.length : ℝ) ≤ nodes.length := by
    have := h3.length_eq
    simp only [customers, List.length_range'] at this
    exact_mod_cast (by omega : R.flatten.length ≤ nodes.length)
  have h7 := hsum R h2 hin
  have h8 : |(N : ℝ) - ((R.map (routeDist (planeNum lib.sqrt cfg.rounded nodes))).sum : ℚ)| ≤
      1 / 2 + 3 * nodes.length * (2 ^ m / 2 ^ 53) := by
    have := (Rat.cast_le (K := ℝ)).mpr h6
    rw [Rat.cast_abs] at this
    push_cast at this ⊢
    exact this
  obtain ⟨a1, a2⟩ := abs_le.mp h7
  obtain ⟨b1, b2⟩ := abs_le.mp h8
  have e : (2 : ℝ) * R.flatten.length * (1 / 2 ^ 29) ≤ 2 * nodes.length * (1 / 2 ^ 29) := by nlinarith
  dsimp only
  rw [abs_le]
  constructor <;> linarith

/-- **C71**. With whole coordinates and rounded distances nothing is lost to rounding: the stated cost is
the sum of the distances in the plane, each the nearest integer to the real one. -/
theorem C71_exact_plane (hroot : SqrtOK lib.sqrt) (ht : TextOf text raw)
    (hl : List.Forall₂ LaidOut raw lines) (hf : BlockFile lines pre blocks)
    (hd : Describes (fun w x => lib.num w = some x) (fun w n => parseUsize w = some n) blocks (fin cap)
      (dblNodes ρ nodes))
    (he : Euclidean blocks) (hr : DblRun lib cfg nodes.length chs dchs) (hload : DblLoads nodes cap)
    (hrd : cfg.rounded = true) (hco : WholeCoords nodes) (hn27 : nodes.length ≤ 2 ^ 27)
    (hmain : Program.main lib cfg text ω chs dchs = some (some file)) (hne : file ≠ []) :
    ExactFile nodes cap (nearestDist nodes) file := by
  obtain ⟨h00, hb⟩ := exactPlane_data (lib := lib) (cap := cap) hroot (by have := hr.settings.gran; omega) hrd hco
  refine main_exact (dz := fun a b => ⌊realDist nodes a b + 1 / 2⌋) (M := 2 ^ 24) hr hload
    (fun a ha b hb => (plane_nearest hroot hco ha hb).2) h00 (by norm_num) ?_
    (C51_parse_euclidean lib.num ht hl hf hd he) hb hmain hne
  have : (nodes.length : ℤ) ≤ 2 ^ 27 := by exact_mod_cast hn27
  linarith

/-- The distances of a matrix of whole numbers, or of numbers that are rounded. -/
theorem exactExplicit_data (hlen : rows.length + 1 = nodes.length) (hn : 1 < nodes.length)
    (hrow : ∀ (i : ℕ) (row : List ℚ), rows[i]? = some row → row.length = i + 1) {M : ℤ}
    (hnn : ∀ row ∈ rows, ∀ x ∈ row, 0 ≤ x ∧ x ≤ M ∧ (cfg.rounded = true ∨ ∃ k : ℤ, x = k)) :
    ∃ dz : ℕ → ℕ → ℤ, (lowerRowDist cfg.rounded rows = fun a b => (dz a b : ℚ)) ∧
    (∀ a < nodes.length, ∀ b < nodes.length, 0 ≤ dz a b ∧ dz a b ≤ M) ∧ dz 0 0 = 0 ∧
    ∃ d, buildDist lib.sqrt (locations (parsed (dblNodes ρ nodes) (fin cap) (some (dblRows ρ rows))))
      (decide ((parsed (dblNodes ρ nodes) (fin cap) (some (dblRows ρ rows))).nodes.length - 1 < cfg.precomputeLimit))
      cfg.rounded (some (dblRows ρ rows)) = some d ∧ Built lib nodes.length (fun a b => fin (dz a b : ℚ)) d := by
  have hlow : ∀ a b, ∃ k : ℤ, lowerRowDist cfg.rounded rows a b = k ∧ 0 ≤ k ∧ (k ≤ M ∨ k = 0) := by
    intro a b
    unfold lowerRowDist
    split
    · exact ⟨0, by simp, le_refl _, .inr rfl⟩
    · cases h : (rows[max a b - 1]?).bind fun row => row[min a b]? with
      | none => exact ⟨0, by simp, le_refl _, .inr rfl⟩
      | some x =>
        obtain ⟨row, r1, r2⟩ := Option.bind_eq_some_iff.mp h
        obtain ⟨x0, x1, hx⟩ := hnn row (List.mem_of_getElem? r1) x (List.mem_of_getElem? r2)
        dsimp only
        by_cases hrd : cfg.rounded = true
        · refine ⟨⌊x + 1 / 2⌋, by rw [hrd]; simp [roundedDist], Int.floor_nonneg.mpr (by linarith), .inl ?_⟩
          refine Int.lt_add_one_iff.mp (Int.floor_lt.mpr ?_)
          push_cast
          linarith
        · obtain ⟨k, rfl⟩ := hx.resolve_left hrd
          exact ⟨k, by rw [roundedDist, if_neg hrd], by exact_mod_cast x0, .inl (by exact_mod_cast x1)⟩
  choose dz hdz hdz0 hdzM using hlow
  have hM0 : 0 ≤ M := by
    have hpos : 0 < rows.length := by omega
    have hlen1 := hrow 0 rows[0] (List.getElem?_eq_getElem hpos)
    obtain ⟨a, b, -⟩ := hnn _ (List.getElem_mem hpos) rows[0][0] (List.getElem_mem (by omega))
    exact_mod_cast a.trans b
  have h00 : dz 0 0 = 0 := by
    have : lowerRowDist cfg.rounded rows 0 0 = 0 := by simp [lowerRowDist]
    rw [hdz] at this
    exact_mod_cast this
  refine ⟨dz, by funext a b; exact hdz a b, fun a _ b _ => ⟨hdz0 a b, by rcases hdzM a b with h | h <;> omega⟩,
    h00, ?_⟩
  obtain ⟨d, e', h⟩ := built_lowerRow_any (lib := lib) (nodes := dblNodes ρ nodes) (cap := fin cap)
    (rows := dblRows ρ rows) (by rw [dblNodes_length]; simpa [dblRows] using hlen) (dblRows_row hrow)
    (decide ((parsed (dblNodes ρ nodes) (fin cap) (some (dblRows ρ rows))).nodes.length - 1 < cfg.precomputeLimit))
    cfg.rounded
  rw [dblNodes_length] at h
  refine ⟨d, e', h.congr fun a _ b _ => ?_⟩
  rw [lowerVal_at cfg.rounded (fun row hr x hx => (hnn row hr x hx).1), hdz]

/-- **C72**. An explicit matrix of whole numbers, or of any numbers that are rounded: the stated cost is the
length of the routes in the distances of the matrix. -/
theorem C72_exact_explicit (ht : TextOf text raw)
    (hl : List.Forall₂ LaidOut raw lines) (hf : BlockFile lines pre blocks)
    (hd : Describes (fun w x => lib.num w = some x) (fun w n => parseUsize w = some n) blocks (fin cap)
      (dblNodes ρ nodes))
    (he : ExplicitRows (fun w x => lib.num w = some x) blocks (dblRows ρ rows)) (hlen : rows.length + 1 = nodes.length)
    (hrow : ∀ (i : ℕ) (row : List ℚ), rows[i]? = some row → row.length = i + 1) {M : ℤ}
    (hnn : ∀ row ∈ rows, ∀ x ∈ row, 0 ≤ x ∧ x ≤ M ∧ (cfg.rounded = true ∨ ∃ k : ℤ, x = k)) (h43 : M ≤ 2 ^ 43)
    (hM : 4 * (nodes.length * M) ≤ 2 ^ 53) (hr : DblRun lib cfg nodes.length chs dchs) (hload : DblLoads nodes cap)
    (hmain : Program.main lib cfg text ω chs dchs = some (some file)) (hne : file ≠ []) :
    ExactFile nodes cap (lowerRowDist cfg.rounded rows) file := by
  obtain ⟨dz, e, hz, h00, hb⟩ := exactExplicit_data (lib := lib) (cap := cap) hlen
    (by have := hr.settings.gran; omega) hrow hnn
  rw [e]
  exact main_exact (M := M) hr hload hz h00 h43 hM
    (C51_parse_explicit lib.num ht hl hf hd he (by rw [dblNodes_length]; simpa [dblRows] using hlen)) hb hmain hne

/-- The distances of a matrix of numbers from 0 to `M`. -/
theorem nearExplicit_data (hlen : rows.length + 1 = nodes.length)
    (hrow : ∀ (i : ℕ) (row : List ℚ), rows[i]? = some row → row.length = i + 1) {M : ℕ}
    (hnn : ∀ row ∈ rows, ∀ x ∈ row, 0 ≤ x ∧ x ≤ M) :
    (∀ a < nodes.length, ∀ b < nodes.length, 0 ≤ lowerRowDist cfg.rounded rows a b ∧
      lowerRowDist cfg.rounded rows a b ≤ M) ∧ lowerRowDist cfg.rounded rows 0 0 = 0 ∧
    ∃ d, buildDist lib.sqrt (locations (parsed (dblNodes ρ nodes) (fin cap) (some (dblRows ρ rows))))
      (decide ((parsed (dblNodes ρ nodes) (fin cap) (some (dblRows ρ rows))).nodes.length - 1 < cfg.precomputeLimit))
      cfg.rounded (some (dblRows ρ rows)) = some d ∧
      Built lib nodes.length (fun a b => fin (lowerRowDist cfg.rounded rows a b)) d := by
  have hlow : ∀ a b, 0 ≤ lowerRowDist cfg.rounded rows a b ∧ lowerRowDist cfg.rounded rows a b ≤ M := by
    intro a b
    have hM0 : (0 : ℚ) ≤ M := by positivity
    unfold lowerRowDist
    split
    · exact ⟨le_refl _, hM0⟩
    · cases h : (rows[max a b - 1]?).bind fun row => row[min a b]? with
      | none => exact ⟨le_refl _, hM0⟩
      | some x =>
        obtain ⟨row, r1, r2⟩ := Option.bind_eq_some_iff.mp h
        obtain ⟨x0, x1⟩ := hnn row (List.mem_of_getElem? r1) x (List.mem_of_getElem? r2)
        dsimp only [roundedDist]
        split
        · have a0 : 0 ≤ ⌊x + 1 / 2⌋ := Int.floor_nonneg.mpr (by linarith)
          have a1 : ⌊x + 1 / 2⌋ ≤ (M : ℤ) := by
            refine Int.lt_add_one_iff.mp (Int.floor_lt.mpr ?_)
            push_cast
            linarith
          exact ⟨by exact_mod_cast a0, by exact_mod_cast a1⟩
        · exact ⟨x0, x1⟩
  refine ⟨fun a _ b _ => hlow a b, by simp [lowerRowDist], ?_⟩
  obtain ⟨d, e', h⟩ := built_lowerRow_any (lib := lib) (nodes := dblNodes ρ nodes) (cap := fin cap)
    (rows := dblRows ρ rows) (by rw [dblNodes_length]; simpa [dblRows] using hlen) (dblRows_row hrow)
    (decide ((parsed (dblNodes ρ nodes) (fin cap) (some (dblRows ρ rows))).nodes.length - 1 < cfg.precomputeLimit))
    cfg.rounded
  rw [dblNodes_length] at h
  exact ⟨d, e', h.congr fun a _ b _ => lowerVal_at cfg.rounded (fun row hr x hx => (hnn row hr x hx).1) a b⟩

/-- **C72**, any explicit matrix of numbers from 0 to `M`: up to an explicit rounding error. -/
theorem C72_near_explicit (ht : TextOf text raw)
    (hl : List.Forall₂ LaidOut raw lines) (hf : BlockFile lines pre blocks)
    (hd : Describes (fun w x => lib.num w = some x) (fun w n => parseUsize w = some n) blocks (fin cap)
      (dblNodes ρ nodes))
    (he : ExplicitRows (fun w x => lib.num w = some x) blocks (dblRows ρ rows)) (hlen : rows.length + 1 = nodes.length)
    (hrow : ∀ (i : ℕ) (row : List ℚ), rows[i]? = some row → row.length = i + 1) {M m : ℕ}
    (hnn : ∀ row ∈ rows, ∀ x ∈ row, 0 ≤ x ∧ x ≤ M) (h43 : M ≤ 2 ^ 43)
    (hM : 4 * (nodes.length * M) ≤ 2 ^ m) (hm : m ≤ 60) (hn50 : nodes.length ≤ 2 ^ 50)
    (hr : DblRun lib cfg nodes.length chs dchs) (hload : DblLoads nodes cap)
    (hmain : Program.main lib cfg text ω chs dchs = some (some file)) (hne : file ≠ []) :
    NearFile nodes cap (lowerRowDist cfg.rounded rows) (3 * nodes.length * (2 ^ m / 2 ^ 53)) file := by
  obtain ⟨hz, h00, hb⟩ := nearExplicit_data (lib := lib) (cfg := cfg) (cap := cap) hlen hrow hnn
  exact main_near (M := M) (m := m) hr hload hz h00 (by exact_mod_cast h43) (by exact_mod_cast hM) hm hn50
    (C51_parse_explicit lib.num ht hl hf hd he (by rw [dblNodes_length]; simpa [dblRows] using hlen)) hb hmain hne

end Verif
