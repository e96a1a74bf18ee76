import Verif.Lemmas.DblSqrt

/-! # The program from the instance text to the solution file, in double precision -/

namespace Verif
open F64 Dbl

variable {ρ : Rounding}

namespace Program

/-- The settings of the run, and the choices made during it. -/
structure DblRun (lib : Lib (Dbl ρ)) (cfg : Settings (Dbl ρ)) (n : ℕ) (chs : List (GAChoice (Dbl ρ)))
    (dchs : List (DGAChoice (Dbl ρ))) : Prop where
  fleet : ρ.fl (6 / 5) ≤ 6 / 5
  lib : DblLib lib
  settings : DblSettings cfg n
  choices : ∀ ch ∈ chs, GA.ChOK ch
  dchoices : ∀ ch ∈ dchs, DGA.ChOK ch

variable {lib : Lib (Dbl ρ)} {cfg : Settings (Dbl ρ)} {nodes : List (ℚ × ℚ × ℚ)} {cap : ℚ} {dist : ℕ → ℕ → ℚ}
  {m : Option (List (List (Dbl ρ)))} {text file : List Char} {ω : Oracle} {chs : List (GAChoice (Dbl ρ))}
  {dchs : List (DGAChoice (Dbl ρ))}

/-- What a run of the program goes through. -/
theorem main_parts (hp : parseInstance lib.num text = some (parsed (dblNodes ρ nodes) (fin cap) m))
    {d : DistMatrix (Dbl ρ)}
    (e : buildDist lib.sqrt (locations (parsed (dblNodes ρ nodes) (fin cap) m))
      (decide ((parsed (dblNodes ρ nodes) (fin cap) m).nodes.length - 1 < cfg.precomputeLimit)) cfg.rounded m = some d)
    (hmain : main lib cfg text ω chs dchs = some (some file)) :
    ∃ c h, buildCorr lib.sqrt lib.corrSort d = some c ∧
      solve lib cfg (context lib (parsed (dblNodes ρ nodes) (fin cap) m) d) d c ω chs dchs = some h ∧
      written cfg h = some file := by
  unfold main at hmain
  rw [hp, Option.bind_some] at hmain
  obtain ⟨x, h1, h2⟩ := Option.bind_eq_some_iff.mp hmain
  obtain ⟨h, h3, h4⟩ := Option.map_eq_some_iff.mp h2
  unfold matrices at h1
  split at h1
  · cases h1
  · have hm : (parsed (dblNodes ρ nodes) (fin cap) m).matrix = m := rfl
    rw [hm, e, Option.bind_some] at h1
    obtain ⟨c, h5, rfl⟩ := Option.map_eq_some_iff.mp h1
    exact ⟨c, h, h5, h3, h4⟩

theorem main_feasible (hr : DblRun lib cfg nodes.length chs dchs) (hd : DblLoads nodes cap)
    (hx : DblDist nodes.length dist)
    (hp : parseInstance lib.num text = some (parsed (dblNodes ρ nodes) (fin cap) m))
    (hb : ∃ d, buildDist lib.sqrt (locations (parsed (dblNodes ρ nodes) (fin cap) m))
      (decide ((parsed (dblNodes ρ nodes) (fin cap) m).nodes.length - 1 < cfg.precomputeLimit)) cfg.rounded m = some d ∧
      Built lib nodes.length (fun a b => fin (dist a b)) d)
    (hmain : main lib cfg text ω chs dchs = some (some file)) (hne : file ≠ []) :
    Spec.FeasibleFile nodes cap (fun _ _ => True) file := by
  obtain ⟨d, e, hb⟩ := hb
  obtain ⟨c, h, h1, h2, h3⟩ := main_parts hp e hmain
  obtain ⟨Q, D, hQ, hw⟩ := dbl_whole (lib := lib) (m := m) (d := d) (ρ := ρ) hd
  exact dbl_written hr.fleet hr.lib hr.settings hd hx hb h1 hr.choices hr.dchoices (loadExact_laws hw) hQ
    (fun _ h => h) h2 h3 hne fun _ _ _ => trivial

theorem sum_filter (f : List ℕ → ℤ) (h0 : f [] = 0) (L : List (List ℕ)) :
    ((L.filter fun r => r ≠ []).map f).sum = (L.map f).sum := by
  induction L with
  | nil => rfl
  | cons r L ih =>
    by_cases hr : r = []
    · subst hr
      simpa [h0] using ih
    · simpa [hr] using ih

theorem toNat_int {k : ℤ} (h0 : 0 ≤ k) (h : k ≤ 2 ^ 52) : (toNat (F64.round (ofInt k : Dbl ρ)) : ℤ) = k := by
  show ((sat ⌊ratRound (k : ℚ)⌋ : ℕ) : ℤ) = k
  have : ratRound (k : ℚ) = k := by
    rw [ratRound, if_pos (by exact_mod_cast h0)]
    have : ⌊(k : ℚ) + 1 / 2⌋ = k := by
      rw [Int.floor_eq_iff]; constructor <;> linarith
    rw [this]
  rw [this, Int.floor_intCast, sat]
  have : k.toNat ≤ 2 ^ 64 - 1 := by omega
  rw [min_eq_left this]
  omega

/-- Whole distances, with 0 outside of the instance. -/
theorem exact_dist {d : DistMatrix (Dbl ρ)} (hn : 0 < nodes.length)
    {dz : ℕ → ℕ → ℤ} {M : ℤ} (hz : ∀ a < nodes.length, ∀ b < nodes.length, 0 ≤ dz a b ∧ dz a b ≤ M)
    (h00 : dz 0 0 = 0) (hM : 4 * (nodes.length * M) ≤ 2 ^ 53)
    (hb : Built lib nodes.length (fun a b => fin (dz a b : ℚ)) d) :
    ∃ dz' : ℕ → ℕ → ℤ, (∀ a < nodes.length, ∀ b < nodes.length, dz' a b = dz a b) ∧
      WholeDist (context lib (parsed (dblNodes ρ nodes) (fin cap) m) d) dz' M := by
  have hM0 : 0 ≤ M := by have := hz 0 hn 0 hn; omega
  obtain ⟨dz', hdef⟩ : ∃ dz' : ℕ → ℕ → ℤ, ∀ a b, dz' a b =
      if a < nodes.length ∧ b < nodes.length then dz a b else 0 := ⟨_, fun _ _ => rfl⟩
  have hdz' : ∀ a b, 0 ≤ dz' a b ∧ dz' a b ≤ M := by
    intro a b
    rw [hdef]
    split
    · rename_i h; exact hz a h.1 b h.2
    · exact ⟨le_refl _, hM0⟩
  refine ⟨dz', fun a ha b hb => by rw [hdef, if_pos ⟨ha, hb⟩], fun a b => ?_, fun a b => (hdz' a b).1,
    fun a b => (hdz' a b).2, ?_, ?_⟩
  · rw [dbl_dist (dist := fun a b => (dz a b : ℚ)) hb]
    rw [hdef, ofInt]
    split <;> simp
  · rw [hdef, h00, ite_self]
  · rw [dbl_n]; exact hM

/-- The stated cost of a recorded solution. -/
theorem exact_stated {d : DistMatrix (Dbl ρ)} (hn : 0 < nodes.length) {q : ℕ → ℤ} {Q D : ℤ}
    (hw : Whole (context lib (parsed (dblNodes ρ nodes) (fin cap) m) d) q Q D) {E : RRoute (Dbl ρ) → Prop}
    (hEl : ∀ rt, E rt → LoadExact q Q rt) {dz dz' : ℕ → ℕ → ℤ} {M : ℤ}
    (hdef : ∀ a < nodes.length, ∀ b < nodes.length, dz' a b = dz a b)
    (hwd : WholeDist (context lib (parsed (dblNodes ρ nodes) (fin cap) m) d) dz' M) {nv : ℕ} {p : Dbl ρ}
    {x : Individual (Dbl ρ)} (hx : Recorded (context lib (parsed (dblNodes ρ nodes) (fin cap) m) d) E nv p x) :
    ((toNat (F64.round x.cost) : ℕ) : ℚ) =
      ((x.phenotype.filter fun r => r ≠ []).map (Spec.routeDist fun a b => dz a b)).sum := by
  obtain ⟨c1, c2, c3⟩ := recorded_cost hw hEl hwd hx
  have hz0 : tripZ dz' [] = 0 := by
    have : dz' 0 0 = 0 := hwd.depot
    simp [tripZ, pathZ, this]
  have hpart := hx.good.part
  have hin : ∀ r ∈ x.phenotype, ∀ c ∈ r, c < nodes.length := by
    intro r hr c hc
    have : c ∈ Spec.customers (RR.ctxAt (context lib (parsed (dblNodes ρ nodes) (fin cap) m) d) p).n :=
      hpart.subset (List.mem_flatten.mpr ⟨r, hr, hc⟩)
    have e : (RR.ctxAt (context lib (parsed (dblNodes ρ nodes) (fin cap) m) d) p).n = nodes.length :=
      dbl_n (lib := lib) (cap := cap) (d := d) (m := m)
    rw [e, Spec.customers, List.mem_range'_1] at this
    omega
  have hcongr : ∀ r ∈ x.phenotype.filter (fun r => r ≠ []),
      Spec.routeDist (fun a b => (dz a b : ℚ)) r = (tripZ dz' r : ℤ) := by
    intro r hr
    have hr' := hin r (List.mem_filter.mp hr).1
    rw [← tripZ_cast]
    refine pathDist_congr (n := nodes.length) (fun a ha b hb => ?_) _ fun c hc => ?_
    · rw [hdef a ha b hb]
    · simp only [List.mem_cons, List.mem_append, List.not_mem_nil, or_false] at hc
      rcases hc with rfl | hc | rfl
      · omega
      · exact hr' c hc
      · omega
  rw [List.map_congr_left hcongr, c1]
  have e1 := toNat_int (ρ := ρ) c2 c3
  have e2 := sum_filter (tripZ dz') hz0 x.phenotype
  have e3 : ∀ L : List (List ℕ), (L.map fun r => ((tripZ dz' r : ℤ) : ℚ)).sum = ((L.map (tripZ dz')).sum : ℤ) := by
    intro L
    induction L with
    | nil => simp
    | cons r L ih => simp only [List.map_cons, List.sum_cons, ih]; push_cast; rfl
  rw [e3, e2]
  exact_mod_cast e1

/-- With whole distances the stated cost is exact. -/
theorem main_exact (hr : DblRun lib cfg nodes.length chs dchs) (hd : DblLoads nodes cap)
    {dz : ℕ → ℕ → ℤ} {M : ℤ} (hz : ∀ a < nodes.length, ∀ b < nodes.length, 0 ≤ dz a b ∧ dz a b ≤ M)
    (h00 : dz 0 0 = 0) (h43 : M ≤ 2 ^ 43) (hM : 4 * (nodes.length * M) ≤ 2 ^ 53)
    (hp : parseInstance lib.num text = some (parsed (dblNodes ρ nodes) (fin cap) m))
    (hb : ∃ d, buildDist lib.sqrt (locations (parsed (dblNodes ρ nodes) (fin cap) m))
      (decide ((parsed (dblNodes ρ nodes) (fin cap) m).nodes.length - 1 < cfg.precomputeLimit)) cfg.rounded m = some d ∧
      Built lib nodes.length (fun a b => fin (dz a b : ℚ)) d)
    (hmain : main lib cfg text ω chs dchs = some (some file)) (hne : file ≠ []) :
    Spec.ExactFile nodes cap (fun a b => dz a b) file := by
  obtain ⟨d, e, hb⟩ := hb
  obtain ⟨c, h, h1, h2, h3⟩ := main_parts hp e hmain
  obtain ⟨Q, D, hQ, hw⟩ := dbl_whole (lib := lib) (m := m) (d := d) (ρ := ρ) hd
  have hgran := hr.settings.gran
  have hn : 3 ≤ nodes.length := by have := hgran.1; have := hgran.2; omega
  have hx : DblDist nodes.length fun a b => (dz a b : ℚ) := by
    intro a ha b hb
    obtain ⟨x, y⟩ := hz a ha b hb
    have y' : dz a b ≤ 2 ^ 43 := y.trans h43
    constructor
    · show (0 : ℚ) ≤ (dz a b : ℚ)
      exact_mod_cast x
    · show (dz a b : ℚ) ≤ 2 ^ 43
      exact_mod_cast y'
  obtain ⟨dz', hdef, hwd⟩ := exact_dist (m := m) (cap := cap) (by omega) hz h00 hM hb
  exact dbl_written hr.fleet hr.lib hr.settings hd hx hb h1 hr.choices hr.dchoices (loadExact_laws hw) hQ
    (fun _ h => h) h2 h3 hne fun p x hx => exact_stated (by omega) hw (fun _ h => h) hdef hwd hx

end Program
end Verif
