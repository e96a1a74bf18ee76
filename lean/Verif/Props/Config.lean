import Verif.Model.Config
import Verif.SpecText
import Mathlib.Data.List.Nodup

/-!
# C49 (configuration files) and C50 (command line)
-/

namespace Verif

/-- The value of a key in a mapping. -/
def Spec.valueOf {V : Type} (m : Mapping V) (k : String) : Option V := (m.find? (fun p => p.1 = k)).map Prod.snd

open Spec

section C49
variable {V : Type}

theorem valueOf_cons (p : String × V) (m : Mapping V) (k : String) :
    valueOf (p :: m) k = if p.1 = k then some p.2 else valueOf m k := by
  by_cases h : p.1 = k <;> simp [valueOf, h]

theorem assignKey_keys (m : Mapping V) (key : String) (v : V) :
    (assignKey m key v).map Prod.fst = m.map Prod.fst := by
  unfold assignKey
  rw [List.map_map]
  apply List.map_congr_left
  intro p _
  simp only [Function.comp]
  split <;> rfl

theorem valueOf_assignKey (m : Mapping V) (key k : String) (v : V) :
    valueOf (assignKey m key v) k =
      if k = key then (valueOf m k).map (fun _ => v) else valueOf m k := by
  induction m with
  | nil => simp [assignKey, valueOf]
  | cons p m ih =>
    rw [assignKey, List.map_cons, ← assignKey, valueOf_cons, valueOf_cons, ih]
    by_cases h1 : p.1 = key <;> by_cases h2 : k = key <;> by_cases h3 : p.1 = k
    · simp [h1, h2]
    · exact absurd (h1.trans h2.symm) h3
    · exact absurd (h3.symm.trans h1) h2
    · simp [h1, h2, Ne.symm h2]
    · exact absurd (h3.trans h2) h1
    · subst h2; simp [h1]
    · simp [h1, h2, h3]
    · simp [h1, h2, h3]

theorem keys_foldl (values : Mapping V) (config : Mapping V) :
    (values.foldl (fun c p => assignKey c p.1 p.2) config).map Prod.fst = config.map Prod.fst := by
  induction values generalizing config with
  | nil => rfl
  | cons p values ih => rw [List.foldl_cons, ih, assignKey_keys]

theorem valueOf_foldl (values : Mapping V) (hn : (values.map Prod.fst).Nodup) (config : Mapping V)
    (k : String) :
    valueOf (values.foldl (fun c p => assignKey c p.1 p.2) config) k =
      match valueOf values k with
      | some v => (valueOf config k).map (fun _ => v)
      | none => valueOf config k := by
  induction values generalizing config with
  | nil => simp [valueOf]
  | cons p values ih =>
    rw [List.map_cons, List.nodup_cons] at hn
    rw [List.foldl_cons, ih hn.2, valueOf_cons, valueOf_assignKey]
    by_cases h : p.1 = k
    · have hv : valueOf values k = none := by
        rw [valueOf, Option.map_eq_none_iff, List.find?_eq_none]
        intro q hq hqk
        apply hn.1
        rw [h]
        exact List.mem_map.2 ⟨q, hq, by simpa using hqk⟩
      simp [h, hv]
    · simp only [h, if_false]
      simp [Ne.symm h]

theorem deserialize_some {fieldOf : String → V → Option V} {m m' : Mapping V}
    (h : deserialize fieldOf m = some m') :
    m'.map Prod.fst = m.map Prod.fst ∧ ∀ k, valueOf m' k = (valueOf m k).bind (fieldOf k) := by
  induction m generalizing m' with
  | nil =>
    simp [deserialize] at h
    subst h
    simp [valueOf]
  | cons p m ih =>
    simp only [deserialize, List.mapM_cons, Option.bind_eq_bind, Option.pure_def] at h
    cases hf : fieldOf p.1 p.2 with
    | none => simp [hf] at h
    | some v =>
      simp only [hf, Option.map_some, Option.bind_some] at h
      cases hr : (List.mapM (fun p => Option.map (fun v => (p.1, v)) (fieldOf p.1 p.2)) m) with
      | none => simp [hr] at h
      | some r =>
        simp only [hr, Option.bind_some, Option.some.injEq] at h
        obtain ⟨h1, h2⟩ := ih (m' := r) hr
        subst h
        refine ⟨by simp [h1], fun k => ?_⟩
        rw [valueOf_cons, valueOf_cons, h2]
        by_cases hk : p.1 = k
        · subst hk; simp [hf]
        · simp [hk]

theorem deserialize_isSome {fieldOf : String → V → Option V} {m : Mapping V}
    (h : ∀ p ∈ m, (fieldOf p.1 p.2).isSome) : ∃ m', deserialize fieldOf m = some m' := by
  induction m with
  | nil => exact ⟨[], rfl⟩
  | cons p m ih =>
    obtain ⟨m', hm'⟩ := ih (fun q hq => h q (by simp [hq]))
    obtain ⟨v, hv⟩ := Option.isSome_iff_exists.1 (h p (by simp))
    refine ⟨(p.1, v) :: m', ?_⟩
    simp only [deserialize] at hm' ⊢
    simp [List.mapM_cons, hv, hm']

theorem valueOf_of_mem {m : Mapping V} (hn : (m.map Prod.fst).Nodup) {p : String × V} (hp : p ∈ m) :
    valueOf m p.1 = some p.2 := by
  induction m with
  | nil => simp at hp
  | cons q m ih =>
    rw [List.map_cons, List.nodup_cons] at hn
    rw [valueOf_cons]
    rcases List.mem_cons.1 hp with rfl | hp
    · simp
    · have : q.1 ≠ p.1 := fun h => hn.1 (h ▸ List.mem_map.2 ⟨p, hp, rfl⟩)
      simp [this, ih hn.2 hp]

theorem ext_valueOf {m m' : Mapping V} (hk : m.map Prod.fst = m'.map Prod.fst)
    (hn : (m.map Prod.fst).Nodup) (h : ∀ k, valueOf m k = valueOf m' k) : m = m' := by
  induction m generalizing m' with
  | nil =>
    cases m' with
    | nil => rfl
    | cons q m' => simp at hk
  | cons p m ih =>
    cases m' with
    | nil => simp at hk
    | cons q m' =>
      simp only [List.map_cons, List.cons.injEq] at hk
      rw [List.map_cons, List.nodup_cons] at hn
      have h0 := h p.1
      rw [valueOf_cons, valueOf_cons, if_pos rfl, if_pos hk.1.symm] at h0
      have hpq : p = q := Prod.ext hk.1 (Option.some.inj h0)
      subst hpq
      congr 1
      apply ih hk.2 hn.2
      intro k
      by_cases hkp : p.1 = k
      · have h1 : valueOf m k = none := by
          rw [valueOf, Option.map_eq_none_iff, List.find?_eq_none]
          intro r hr hrk
          exact hn.1 (hkp ▸ List.mem_map.2 ⟨r, hr, by simpa using hrk⟩)
        have h2 : valueOf m' k = none := by
          rw [valueOf, Option.map_eq_none_iff, List.find?_eq_none]
          intro r hr hrk
          exact hn.1 (hk.2 ▸ hkp ▸ List.mem_map.2 ⟨r, hr, by simpa using hrk⟩)
        rw [h1, h2]
      · have := h k
        rwa [valueOf_cons, valueOf_cons, if_neg hkp, if_neg hkp] at this

/-- A configuration: one well-typed value per field (`fieldOf` returns it unchanged, that is, a stored
value survives serialisation). -/
structure IsConfig (fieldOf : String → V → Option V) (c : Mapping V) : Prop where
  keys : c.map Prod.fst = configKeys
  typed : ∀ p ∈ c, fieldOf p.1 p.2 = some p.2

theorem configKeys_nodup : configKeys.Nodup := by decide

theorem IsConfig.valueOf {fieldOf : String → V → Option V} {c : Mapping V} (hc : IsConfig fieldOf c)
    {k : String} (hk : k ∈ configKeys) : ∃ v, valueOf c k = some v ∧ fieldOf k v = some v := by
  rw [← hc.keys] at hk
  obtain ⟨p, hp, rfl⟩ := List.mem_map.1 hk
  exact ⟨p.2, valueOf_of_mem (hc.keys ▸ configKeys_nodup) hp, hc.typed p hp⟩

theorem valueOf_none_of_not_mem {m : Mapping V} {k : String} (h : k ∉ m.map Prod.fst) :
    valueOf m k = none := by
  rw [Spec.valueOf, Option.map_eq_none_iff, List.find?_eq_none]
  intro q hq hqk
  exact h (List.mem_map.2 ⟨q, hq, by simpa using hqk⟩)

/-- C49. For every configuration and every YAML mapping: if the update succeeds, each field named in
the mapping holds the converted value, every other field keeps its value, no field appears or
disappears (unknown keys are ignored); and applying the same mapping again changes nothing. -/
theorem C49_update (fieldOf : String → V → Option V)
    (hid : ∀ k v w, fieldOf k v = some w → fieldOf k w = some w)
    {c values c' : Mapping V} (hc : IsConfig fieldOf c) (hv : (values.map Prod.fst).Nodup)
    (h : configUpdate fieldOf c values = some c') :
    IsConfig fieldOf c' ∧
    (∀ k ∈ configKeys, ∀ v, valueOf values k = some v → valueOf c' k = fieldOf k v) ∧
    (∀ k, valueOf values k = none → valueOf c' k = valueOf c k) ∧
    (∀ k, k ∉ configKeys → valueOf c' k = none) ∧
    configUpdate fieldOf c' values = some c' := by
  unfold configUpdate at h
  obtain ⟨h1, h2⟩ := deserialize_some h
  rw [keys_foldl, hc.keys] at h1
  have hnamed : ∀ k ∈ configKeys, ∀ v, valueOf values k = some v → valueOf c' k = fieldOf k v := by
    intro k hk v hkv
    obtain ⟨w, hw, -⟩ := hc.valueOf hk
    rw [h2, valueOf_foldl values hv, hkv]
    simp [hw]
  have hother : ∀ k, valueOf values k = none → valueOf c' k = valueOf c k := by
    intro k hk
    rw [h2, valueOf_foldl values hv, hk]
    by_cases hkk : k ∈ configKeys
    · obtain ⟨w, hw, hw'⟩ := hc.valueOf hkk
      simp [hw, hw']
    · rw [valueOf_none_of_not_mem (by rw [hc.keys]; exact hkk)]; rfl
  have hconf : IsConfig fieldOf c' := by
    refine ⟨h1, fun p hp => ?_⟩
    have hpk : p.1 ∈ configKeys := h1 ▸ List.mem_map.2 ⟨p, hp, rfl⟩
    have hpv := valueOf_of_mem (h1 ▸ configKeys_nodup) hp
    cases hval : valueOf values p.1 with
    | none =>
      obtain ⟨w, hw, hw'⟩ := hc.valueOf hpk
      rw [hother _ hval, hw] at hpv
      cases hpv; exact hw'
    | some v =>
      rw [hnamed _ hpk v hval] at hpv
      exact hid _ _ _ hpv
  refine ⟨hconf, hnamed, hother, fun k hk => valueOf_none_of_not_mem (by rw [h1]; exact hk), ?_⟩
  -- the second application succeeds and gives the same values
  have hfold : ∀ k, valueOf (values.foldl (fun c p => assignKey c p.1 p.2) c') k =
      (match valueOf values k with
      | some v => (valueOf c' k).map (fun _ => v)
      | none => valueOf c' k) := valueOf_foldl values hv c'
  have hsome : ∃ c'', configUpdate fieldOf c' values = some c'' := by
    apply deserialize_isSome
    intro p hp
    have hkeys : p.1 ∈ configKeys := by
      have : p.1 ∈ (values.foldl (fun c p => assignKey c p.1 p.2) c').map Prod.fst :=
        List.mem_map.2 ⟨p, hp, rfl⟩
      rwa [keys_foldl, h1] at this
    have hpv := valueOf_of_mem (by rw [keys_foldl, h1]; exact configKeys_nodup) hp
    rw [hfold] at hpv
    obtain ⟨w, hw, hw'⟩ := hconf.valueOf hkeys
    cases hval : valueOf values p.1 with
    | none => rw [hval] at hpv; simp only [hw] at hpv; cases hpv; simp [hw']
    | some v =>
      rw [hval] at hpv; simp only [hw, Option.map_some] at hpv
      cases hpv
      rw [← hnamed _ hkeys _ hval, hw]; rfl
  obtain ⟨c'', hc''⟩ := hsome
  rw [hc'']
  obtain ⟨h3, h4⟩ := deserialize_some hc''
  rw [keys_foldl, h1] at h3
  congr 1
  apply ext_valueOf (by rw [h3, h1]) (by rw [h3]; exact configKeys_nodup)
  intro k
  rw [h4, hfold]
  by_cases hkk : k ∈ configKeys
  · obtain ⟨w, hw, hw'⟩ := hconf.valueOf hkk
    cases hval : valueOf values k with
    | none => simp [hw, hw']
    | some v =>
      simp only [hw, Option.map_some, Option.bind_some]
      rw [← hnamed _ hkk _ hval, hw]
  · rw [valueOf_none_of_not_mem (m := c') (by rw [h1]; exact hkk)]
    cases valueOf values k <;> rfl

/-- C49: the update succeeds exactly when every value given for a known field has the right type. -/
theorem C49_update_succeeds_iff (fieldOf : String → V → Option V) {c values : Mapping V}
    (hc : IsConfig fieldOf c) (hv : (values.map Prod.fst).Nodup) :
    (∃ c', configUpdate fieldOf c values = some c') ↔
      ∀ k ∈ configKeys, ∀ v, valueOf values k = some v → (fieldOf k v).isSome := by
  constructor
  · rintro ⟨c', h⟩ k hk v hkv
    obtain ⟨h1, h2⟩ := deserialize_some h
    rw [keys_foldl, hc.keys] at h1
    obtain ⟨w, hw, -⟩ := hc.valueOf hk
    have h3 := h2 k
    rw [valueOf_foldl values hv, hkv] at h3
    simp only [hw, Option.map_some, Option.bind_some] at h3
    rw [← h3]
    obtain ⟨p, hp, hpk⟩ := List.mem_map.1 (h1 ▸ hk)
    rw [← hpk, valueOf_of_mem (h1 ▸ configKeys_nodup) hp]; rfl
  · intro h
    apply deserialize_isSome
    intro p hp
    have hkeys : p.1 ∈ configKeys := by
      have : p.1 ∈ (values.foldl (fun c p => assignKey c p.1 p.2) c).map Prod.fst :=
        List.mem_map.2 ⟨p, hp, rfl⟩
      rwa [keys_foldl, hc.keys] at this
    have hpv := valueOf_of_mem (by rw [keys_foldl, hc.keys]; exact configKeys_nodup) hp
    rw [valueOf_foldl values hv] at hpv
    obtain ⟨w, hw, hw'⟩ := hc.valueOf hkeys
    cases hval : valueOf values p.1 with
    | none => rw [hval] at hpv; simp only [hw] at hpv; cases hpv; simp [hw']
    | some v =>
      rw [hval] at hpv; simp only [hw, Option.map_some] at hpv
      cases hpv
      exact h _ hkeys _ hval

/-- A case of C49 (values are numbers; conversion accepts every value): the configuration with all
fields 0, a mapping naming one known and one unknown key. -/
example : let c : Mapping ℕ := configKeys.map fun k => (k, 0)
    IsConfig (fun _ v => some v) c ∧
      ∃ c', configUpdate (fun _ v => some v) c [("seed", 7), ("ruin_alpha", 3)] = some c' ∧
        valueOf c' "seed" = some 7 ∧ valueOf c' "time_limit" = some 0 ∧ valueOf c' "ruin_alpha" = none := by
  refine ⟨⟨by decide, by simp⟩, _, rfl, by decide, by decide, by decide⟩

end C49

section C50

/-- What a user expects of the command line: an option changes the configuration exactly when it is
given. -/
structure Spec.CliFaithful {R : Type} (run : CommandLine → CliConfig R → Option (CliConfig R)) : Prop where
  time_kept : ∀ cl c c', run cl c = some c' → cl.t = none → c'.timeLimit = c.timeLimit
  time_set : ∀ cl c c' w n, run cl c = some c' → cl.t = some w → readNat w.toList = some n →
    c'.timeLimit = n
  rounded_off : ∀ cl c c', run cl c = some c' → cl.r = some "false" → c'.roundDistances = false
  rounded_kept : ∀ cl c c', run cl c = some c' → cl.r = none → c'.roundDistances = c.roundDistances

/-- The program: parse the arguments, then update the configuration (`/repo/src/main.rs:25-27`). -/
def applyCommandLine {R : Type} (cl : CommandLine) (c : CliConfig R) : Option (CliConfig R) :=
  (parseArgs cl).map (updateFromArgs c)

/-- C50 is false for the code: without `-t` a configured limit of 600 s becomes 10 s, and
`-r false` leaves rounding on. -/
theorem C50_command_line_refuted :
    ¬ CliFaithful (applyCommandLine (R := Unit)) ∧
    (∀ R (c : CliConfig R) (p : String), ∃ c', applyCommandLine ⟨p, none, none, none, none⟩ c = some c' ∧
      c'.timeLimit = 10) ∧
    (∀ R (c c' : CliConfig R) (cl : CommandLine), applyCommandLine cl c = some c' →
      c'.roundDistances = true) := by
  have h10 : parseUsize "10".toList = some 10 := by decide
  have hall : ∀ R (c : CliConfig R) (p : String), ∃ c',
      applyCommandLine ⟨p, none, none, none, none⟩ c = some c' ∧ c'.timeLimit = 10 := by
    intro R c p
    refine ⟨updateFromArgs c ⟨p, some "output.sol", some 10, none, true⟩, ?_, rfl⟩
    simp only [applyCommandLine, parseArgs, parseIterations, Option.bind_some, Option.getD_none, h10,
      Option.map_some, Option.isSome_some]
  refine ⟨?_, hall, ?_⟩
  · intro h
    obtain ⟨c', h1, h2⟩ := hall Unit ⟨"", none, 600, none, 0, true, ()⟩ "a.vrp"
    have := h.time_kept _ _ _ h1 rfl
    rw [h2] at this
    exact absurd this (by decide)
  · intro R c c' cl h
    rw [applyCommandLine, Option.map_eq_some_iff] at h
    obtain ⟨a, ha, rfl⟩ := h
    have hr : a.rounded = true := by
      simp only [parseArgs, Option.bind_eq_some_iff, Option.map_eq_some_iff] at ha
      obtain ⟨_, _, _, _, rfl⟩ := ha
      rfl
    simp [updateFromArgs, hr]

/-- C50, what does hold: `-t`, `-i` and `-o` take effect when given; `-i` sets the number of
iterations without improvement (never `max_iterations`), which is kept when `-i` is absent; all other
settings are kept. -/
theorem C50_command_line_partial {R : Type} (cl : CommandLine) (c c' : CliConfig R)
    (h : applyCommandLine cl c = some c') :
    (∀ w, cl.t = some w → ∃ n, parseUsize w.toList = some n ∧ c'.timeLimit = n) ∧
    (∀ w, cl.i = some w → ∃ n, parseUsize w.toList = some n ∧ c'.maxIterationsWithoutImprovement = n) ∧
    (cl.i = none → c'.maxIterationsWithoutImprovement = c.maxIterationsWithoutImprovement) ∧
    (∀ p, cl.o = some p → c'.solutionPath = some p) ∧
    c'.instancePath = cl.instancePath ∧ c'.maxIterations = c.maxIterations ∧ c'.rest = c.rest := by
  rw [applyCommandLine, Option.map_eq_some_iff] at h
  obtain ⟨a, ha, rfl⟩ := h
  simp only [parseArgs, Option.bind_eq_some_iff, Option.map_eq_some_iff] at ha
  obtain ⟨mi, hmi, n, hn, rfl⟩ := ha
  refine ⟨?_, ?_, ?_, ?_, ?_, ?_, ?_⟩
  · intro w hw
    rw [hw] at hn
    refine ⟨n, hn, ?_⟩
    cases mi <;> rfl
  · intro w hw
    rw [hw, parseIterations, Option.map_eq_some_iff] at hmi
    obtain ⟨m, hm, rfl⟩ := hmi
    exact ⟨m, hm, rfl⟩
  · intro hi
    rw [hi, parseIterations] at hmi
    cases hmi; rfl
  · intro p hp
    rw [hp]
    cases mi <;> rfl
  all_goals cases mi <;> rfl

/-- A case of C50_partial: `-t 60 -i 5 -o x.sol`. -/
example : (applyCommandLine (R := Unit) ⟨"a.vrp", some "x.sol", some "5", some "60", none⟩
    ⟨"", none, 600, none, 20000, false, ()⟩).map (fun c => (c.timeLimit, c.maxIterationsWithoutImprovement))
    = some (60, 5) := by decide

end C50

end Verif
