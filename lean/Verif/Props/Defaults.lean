import Verif.Props.Launch

/-!
# C86: the settings of a run without, and with the shipped, configuration file, in numbers
-/

namespace Verif
open F64 Spec

variable {α : Type} [F64 α]

/-- The moves of a run without a configuration file: all but the relocation of a reversed pair. -/
def Spec.plainMoves : MoveFlags where
  relocateSingle := true
  relocateDouble := true
  relocateDoubleReverse := false
  swapOneWithOne := true
  swapTwoWithOne := true
  swapTwoWithTwo := true
  twoOptIntraReverse := true
  twoOptInterReverse := true
  twoOptInter := true
  swapStar := true

/-- The settings of a run without a configuration file, as listed in the source, with time limit `t` and at most
`k` iterations without improvement. -/
def Spec.plainSettings (t k : ℕ) : Settings α where
  hasPath := true
  timeLimit := t
  maxIterations := none
  maxStagnation := k
  logInterval := 100
  precomputeLimit := 2000
  rounded := true
  decomposeLimit := 3000
  decomposedSize := 200
  pop := { minSize := 25, lambda := 40, numElites := 4, numClosest := 5, tournamentSize := 2 }
  initialIndividuals := 100
  target := lit 0.2
  repairProbability := lit 0.5
  splitFactor := lit 1.5
  linearSplit := true
  granularity := 20
  lsEnabled := true
  moves := plainMoves
  penaltyInterval := 10
  incMultiplier := lit 1.2
  decMultiplier := lit 0.85
  cavg := 10
  lmax := 10
  rrMutation := true
  rrProbability := lit 1
  rrGamma := lit 1
  rrStartTemp := lit 10
  eliteEducation := false
  eliteLimit := 1
  eliteGamma := lit 1000
  eliteTemp := lit 50
  eliteTimeBased := false
  eliteFraction := lit 0.02

/-- What the shipped configuration file changes. -/
def Spec.shippedSettings (t k : ℕ) : Settings α :=
  { plainSettings t k with
    precomputeLimit := 3000
    decomposedSize := 150
    eliteEducation := true
    eliteLimit := 500
    eliteFraction := lit 0.05 }

/-- `t` and `k` are what the command line says: 10 and 20000 unless given. -/
def Spec.LimitsOf (cl : CommandLine) (t k : ℕ) : Prop :=
  parseUsize (cl.t.getD "10").toList = some t ∧
    match cl.i with
    | none => k = 20000
    | some w => parseUsize w.toList = some k

/-- What was asked for determines the settings. -/
theorem Spec.AsAsked.unique {yml : Mapping (Yaml α)} {cl : CommandLine} {c d : Settings α} (hc : AsAsked yml cl c)
    (hd : AsAsked yml cl d) : c = d := by
  have nat : ∀ p ∈ natSettings, p.2 c = p.2 d := fun p hp => by
    have := (hc.nats p hp).symm.trans (hd.nats p hp)
    simpa using this
  have flag : ∀ p ∈ flagSettings, p.2 c = p.2 d := fun p hp => by
    have := (hc.flags p hp).symm.trans (hd.flags p hp)
    simpa using this
  have real : ∀ p ∈ realSettings, p.2 c = p.2 d := fun p hp => by
    rcases hc.reals p hp with h1 | ⟨z, h1, e1⟩ <;> rcases hd.reals p hp with h2 | ⟨w, h2, e2⟩ <;>
      have := h1.symm.trans h2 <;> simp only [Option.some.injEq, Yaml.real.injEq, Yaml.int.injEq, reduceCtorEq] at this
    · exact this
    · rw [e1, e2, this]
  have it : c.maxIterations = d.maxIterations := by
    have := hc.iterations.symm.trans hd.iterations
    cases h1 : c.maxIterations <;> cases h2 : d.maxIterations <;> rw [h1, h2] at this <;> simp at this ⊢
    exact this
  have st : c.maxStagnation = d.maxStagnation := by
    have h1 := hc.stagnation
    have h2 := hd.stagnation
    cases e : cl.i <;> rw [e] at h1 h2 <;> have := h1.symm.trans h2 <;> simpa using this
  have tm : c.timeLimit = d.timeLimit := by
    have := hc.time.symm.trans hd.time
    simpa using this
  have pa := hc.path.trans hd.path.symm
  have ro := hc.rounding.trans hd.rounding.symm
  simp only [natSettings, flagSettings, realSettings, List.mem_cons, List.not_mem_nil, or_false, forall_eq_or_imp,
    forall_eq] at nat flag real
  obtain ⟨a1, a2, a3, a4, a5, a6, a7, a8, a9, ⟨ap1, ap2, ap3, ap4, ap5⟩, a11, a12, a13, a14, a15, a16, a17,
    ⟨m1, m2, m3, m4, m5, m6, m7, m8, m9, m10⟩, a19, a20, a21, a22, a23, a24, a25, a26, a27, a28, a29, a30, a31, a32, a33⟩ := c
  obtain ⟨b1, b2, b3, b4, b5, b6, b7, b8, b9, ⟨bp1, bp2, bp3, bp4, bp5⟩, b11, b12, b13, b14, b15, b16, b17,
    ⟨k1, k2, k3, k4, k5, k6, k7, k8, k9, k10⟩, b19, b20, b21, b22, b23, b24, b25, b26, b27, b28, b29, b30, b31, b32, b33⟩ := d
  simp_all

/-- Without a configuration file, the settings listed are the ones asked for. -/
theorem plain_asAsked {cl : CommandLine} {t k : ℕ} (h : LimitsOf cl t k) :
    AsAsked ([] : Mapping (Yaml α)) cl (plainSettings t k) where
  nats p hp := by
    simp only [natSettings, List.mem_cons, List.not_mem_nil, or_false] at hp
    rcases hp with rfl | rfl | rfl | rfl | rfl | rfl | rfl | rfl | rfl | rfl | rfl | rfl | rfl | rfl | rfl <;> rfl
  reals p hp := by
    simp only [realSettings, List.mem_cons, List.not_mem_nil, or_false] at hp
    rcases hp with rfl | rfl | rfl | rfl | rfl | rfl | rfl | rfl | rfl | rfl | rfl <;> exact .inl rfl
  flags p hp := by
    simp only [flagSettings, List.mem_cons, List.not_mem_nil, or_false] at hp
    rcases hp with rfl | rfl | rfl | rfl | rfl | rfl | rfl | rfl | rfl | rfl | rfl | rfl | rfl | rfl | rfl <;> rfl
  iterations := rfl
  stagnation := by
    have := h.2
    cases e : cl.i <;> rw [e] at this <;> dsimp only at this ⊢
    · rw [this]; rfl
    · exact this
  time := h.1
  path := rfl
  rounding := rfl

/-- With the shipped configuration file, the settings listed are the ones asked for. -/
theorem shipped_asAsked {cl : CommandLine} {t k : ℕ} (h : LimitsOf cl t k) :
    AsAsked (shippedYml : Mapping (Yaml α)) cl (shippedSettings t k) where
  nats p hp := by
    simp only [natSettings, List.mem_cons, List.not_mem_nil, or_false] at hp
    rcases hp with rfl | rfl | rfl | rfl | rfl | rfl | rfl | rfl | rfl | rfl | rfl | rfl | rfl | rfl | rfl <;> rfl
  reals p hp := by
    simp only [realSettings, List.mem_cons, List.not_mem_nil, or_false] at hp
    rcases hp with rfl | rfl | rfl | rfl | rfl | rfl | rfl | rfl | rfl | rfl | rfl <;>
      first
      | exact .inl rfl
      | exact .inr ⟨10, rfl, by norm_num [shippedSettings, plainSettings]⟩
      | exact .inr ⟨50, rfl, by norm_num [shippedSettings, plainSettings]⟩
  flags p hp := by
    simp only [flagSettings, List.mem_cons, List.not_mem_nil, or_false] at hp
    rcases hp with rfl | rfl | rfl | rfl | rfl | rfl | rfl | rfl | rfl | rfl | rfl | rfl | rfl | rfl | rfl <;> rfl
  iterations := rfl
  stagnation := by
    have := h.2
    cases e : cl.i <;> rw [e] at this <;> dsimp only at this ⊢
    · rw [this]; rfl
    · exact this
  time := h.1
  path := rfl
  rounding := rfl

/-- **C86**, in numbers: without a configuration file, and with the shipped one. -/
theorem C86_numbers {cl : CommandLine} {t k : ℕ} (h : LimitsOf cl t k) :
    Program.configure ([] : Mapping (Yaml α)) cl = some (plainSettings t k) ∧
    Program.configure (shippedYml : Mapping (Yaml α)) cl = some (shippedSettings t k) := by
  have hcl : (∀ w, cl.i = some w → (parseUsize w.toList).isSome) ∧ ∀ w, cl.t = some w → (parseUsize w.toList).isSome := by
    obtain ⟨h1, h2⟩ := h
    constructor
    · intro w hw
      rw [hw] at h2
      rw [show parseUsize w.toList = some k from h2]
      rfl
    · intro w hw
      rw [hw, Option.getD_some] at h1
      rw [h1]
      rfl
  constructor
  · obtain ⟨c, hc⟩ := (C86_starts (α := α) (yml := []) (by simp)).mpr ⟨fun k _ v hv => by simp [valueOf] at hv, hcl⟩
    rw [hc, (C86_settings (by simp) hc).unique (plain_asAsked h)]
  · obtain ⟨c, hc⟩ := (C86_starts (α := α) shipped_nodup).mpr ⟨shipped_typed, hcl⟩
    rw [hc, (C86_settings shipped_nodup hc).unique (shipped_asAsked h)]

/-- Both command lines: nothing given, and both limits given. -/
example : LimitsOf ⟨"a.vrp", none, none, none, none⟩ 10 20000 ∧
    LimitsOf ⟨"a.vrp", none, some "500", some "60", none⟩ 60 500 := by
  refine ⟨⟨by decide, rfl⟩, by decide, ?_⟩
  show parseUsize "500".toList = some 500
  decide

end Verif
