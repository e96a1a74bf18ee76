import Verif.SpecSearch
import Verif.Model.Search
import Verif.Lemmas.Spec
import Verif.Lemmas.SwapStar
import Verif.Lemmas.MoveDelta
import Verif.Lemmas.MovePerform

/-!
# The search loop performs accepted moves only and never fails
-/

namespace Verif
open F64 LS Spec

set_option linter.unusedSectionVars false

variable {α : Type} [F64 α] {ctx : Ctx α} {fl : MoveFlags}

/-- The three lists hold enabled moves only. -/
theorem enabled_of_mem {f : MoveFlags} {m : MoveKind} :
    (m ∈ f.neighbor → enabled f m = true) ∧ (m ∈ f.depot → enabled f m = true) ∧
      (m ∈ f.emptyRoute → enabled f m = true) := by
  refine ⟨fun h => ?_, fun h => ?_, fun h => ?_⟩
  · simp only [MoveFlags.neighbor, List.mem_append] at h
    rcases h with (((((((h | h) | h) | h) | h) | h) | h) | h) | h <;> split at h <;> simp_all [enabled]
  · simp only [MoveFlags.depot, List.mem_append] at h
    rcases h with (((h | h) | h) | h) | h <;> split at h <;> simp_all [enabled]
  · simp only [MoveFlags.emptyRoute, List.mem_append] at h
    rcases h with ((h | h) | h) | h <;> split at h <;> simp_all [enabled]

/-- An accepted move takes routes `R` to `R'`: one of the nine moves, enabled by `fl`, with a reported delta below
`-EPSILON`, or SWAP*, if enabled, with a best move not above
`-EPSILON`. -/
inductive Accepted (ctx : Ctx α) (fl : MoveFlags) (pen : α) : List (List ℕ) → List (List ℕ) → Prop
  | move {s : LS α} {R R' : List (List ℕ)} {u : ℕ} {v : Ref} {m : MoveKind} {d : α} :
      Repr ctx s R → s.pen = pen → m.delta ctx s (.cust u) v = some d → approxLt d (lit 0) = true →
      MoveEffect R u v m R' → enabled fl m = true → Accepted ctx fl pen R R'
  | swap {s : LS α} {R R' : List (List ℕ)} {r1 r2 : ℕ} {b : BestSwap α} :
      Repr ctx s R → s.pen = pen → r1 ≠ r2 → GoodBest ctx s R r1 r2 b R' → b ≠ SwapStar.best0 →
      approxGte b.cost (lit 0) = false → fl.swapStar = true → Accepted ctx fl pen R R'

/-- `k` accepted moves in a row. -/
inductive Steps (ctx : Ctx α) (fl : MoveFlags) (pen : α) : ℕ → List (List ℕ) → List (List ℕ) → Prop
  | zero (R : List (List ℕ)) : Steps ctx fl pen 0 R R
  | succ {k : ℕ} {R R' R'' : List (List ℕ)} : Steps ctx fl pen k R R' → Accepted ctx fl pen R' R'' →
      Steps ctx fl pen (k + 1) R R''

theorem Steps.trans {pen : α} {k k' : ℕ} {R R' R'' : List (List ℕ)} (h : Steps ctx fl pen k R R')
    (h' : Steps ctx fl pen k' R' R'') : Steps ctx fl pen (k + k') R R'' := by
  induction h' with
  | zero => exact h
  | succ _ ha ih => exact .succ (ih h) ha

/-- The assumptions on the arithmetic: comparisons with `EPSILON` behave on `0` and infinity, and
insertion costs are not above infinity. All hold for finite distances. -/
structure Arith (ctx : Ctx α) : Prop where
  zero : approxLt (lit 0 : α) (lit 0) = false
  infty : approxGte (inf : α) (lit 0) = true
  ins : InsertFinite ctx

/-- The state `s` holding `R` was taken to `s'` holding `R'` by `k` accepted moves. -/
structure Ran (ctx : Ctx α) (fl : MoveFlags) (s : LS α) (R : List (List ℕ)) (k : ℕ) (s' : LS α) (R' : List (List ℕ)) :
    Prop where
  repr : Repr ctx s' R'
  nbr : NbrOK ctx s'
  pen : s'.pen = s.pen
  num : s'.numRoutes = s.numRoutes
  cust : s'.customers = s.customers
  steps : Steps ctx fl s.pen k R R'
  stamped : Stamped s R s' R'
  still : k = 0 → s'.moveCount = s.moveCount

theorem Ran.trans {s s' s'' : LS α} {R R' R'' : List (List ℕ)} {k k' : ℕ} (h : Ran ctx fl s R k s' R')
    (h' : Ran ctx fl s' R' k' s'' R'') : Ran ctx fl s R (k + k') s'' R'' :=
  ⟨h'.repr, h'.nbr, h'.pen.trans h.pen, h'.num.trans h.num, h'.cust.trans h.cust,
    h.steps.trans (h.pen ▸ h'.steps), h.stamped.trans h'.stamped,
    fun hk => (h'.still (by omega)).trans (h.still (by omega))⟩

theorem Ran.refl {s : LS α} {R : List (List ℕ)} (h : Repr ctx s R) (hn : NbrOK ctx s) :
    Ran ctx fl s R 0 s R := ⟨h, hn, rfl, rfl, rfl, .zero R, .refl s R, fun _ => rfl⟩

theorem NbrOK.frame {s s' : LS α} (h : NbrOK ctx s) (f : SameBase s s') : NbrOK ctx s' := by
  constructor
  · rw [f.granularity]; exact h.gran
  · rw [f.granularity, f.corrCols]; exact h.cols
  · rw [f.corr, f.corrCols]; exact h.len
  · rw [f.corr, f.corrCols, f.granularity]; exact h.nbr
  · rw [f.customers]; exact h.cust

theorem Ran.step {s s' : LS α} {R R' : List (List ℕ)} (hn : NbrOK ctx s) (h' : Repr ctx s' R')
    (f : SameFrame s s') (stp : Stamped s R s' R') (ha : Accepted ctx fl s.pen R R') :
    Ran ctx fl s R 1 s' R' :=
  ⟨h', hn.frame f.1, f.pen, f.numRoutes, f.customers, .succ (.zero R) ha, stp, by simp⟩

/-- Changes of the bookkeeping fields only. -/
theorem Repr.congr {s s' : LS α} {R : List (List ℕ)} (h : Repr ctx s R) (hh : s'.heap = s.heap)
    (hrt : s'.rt = s.rt) (hpos : s'.pos = s.pos) (hcd : s'.cumD = s.cumD) (hcl : s'.cumL = s.cumL)
    (hroute : ∀ r, (s'.route r).num = (s.route r).num ∧ (s'.route r).distance = (s.route r).distance ∧
      (s'.route r).load = (s.route r).load ∧ (s'.route r).overload = (s.route r).overload ∧
      (s'.route r).cost = (s.route r).cost ∧ (s'.route r).lastModified = (s.route r).lastModified ∧
      (s'.route r).sector = (s.route r).sector)
    (hnum : s'.numRoutes = s.numRoutes) (hins : s'.inserts = s.inserts) (hmc : s'.moveCount = s.moveCount)
    (hem : s'.empty = s.empty) (hpen : s'.pen = s.pen)
    (hang : s'.angle = s.angle) : Repr ctx s' R := by
  constructor
  · rw [hh]; exact h.enc
  · rw [hnum]; exact h.len
  · exact h.part
  · rw [hcd, hcl]; exact h.cums
  · intro r l _ hr
    obtain ⟨h1, h2, h3, h4, h5, h6, h7⟩ := hroute r
    exact (h.data r l trivial hr).congr (fun _ _ => by rw [hrt]) (fun _ _ => by rw [hpos])
      (fun _ _ => by rw [hcd]) (fun _ _ => by rw [hcl]) h1 h2 h3 h4 h5 hpen h7 hang
  · rw [hem]; exact h.empty
  · intro r hr; rw [(hroute r).2.2.2.2.2.1, hmc]; exact h.stamps r hr
  · rw [hins, hmc]; exact h.cacheLe
  · intro r l u hD hr hle; rw [hins] at hle ⊢; rw [(hroute r).2.2.2.2.2.1] at hle
    exact h.cache r l u hD hr hle
  · simp

/-- `route.last_tested_swap_star = move_count`. -/
def LS.testSwap (r1 : ℕ) (s : LS α) : LS α :=
  { s with
    route := Function.update s.route r1 { s.route r1 with lastTestedSwapStar := s.moveCount } }

theorem testSwap_route (r1 : ℕ) (s : LS α) (r : ℕ) :
    ((LS.testSwap r1 s).route r).lastModified = (s.route r).lastModified := by
  by_cases e : r = r1
  · subst e; simp [LS.testSwap]
  · simp [LS.testSwap, e]

theorem testSwap_stamped {r1 : ℕ} {s s' : LS α} {R R' : List (List ℕ)}
    (h : Stamped (LS.testSwap r1 s) R s' R') : Stamped s R s' R' :=
  ⟨h.count, fun r hr => by rw [← testSwap_route r1 s r]; exact h.kept r hr⟩

section loops
variable (A : Arith ctx)
include A

theorem tryMoves_ran {u : ℕ} {v : Ref} : ∀ (ms : List MoveKind) (s : LS α) (R : List (List ℕ)),
    Repr ctx s R → NbrOK ctx s → u ∈ R.flatten → (∀ m ∈ ms, Tried R u v m) →
    (∀ m ∈ ms, enabled fl m = true) →
    ∃ s' R' k, tryMoves ctx (.cust u) v ms s = some (s', decide (0 < k)) ∧ Ran ctx fl s R k s' R' ∧
      (k = 0 → s' = s ∧ R' = R) ∧ (0 < k → ∃ m ∈ ms, MoveEffect R u v m R') ∧
      SameFrame s s'
  | [], s, R, h, hn, _, _, _ => ⟨s, R, 0, rfl, .refl h hn, fun _ => ⟨rfl, rfl⟩, by simp, .refl s⟩
  | m :: ms, s, R, h, hn, hu, hv, hen => by
    obtain ⟨d, ed, hd⟩ := delta_total h hu (hv m (by simp))
    rw [tryMoves, ed, Option.bind_some]
    by_cases hlt : approxLt d (lit 0) = true
    · rw [if_pos hlt]
      rcases hd with rfl | ⟨R', hm⟩
      · rw [A.zero] at hlt; simp at hlt
      · obtain ⟨s', es, hr, f, stp⟩ := MoveEffect.perform h hm
        rw [es, Option.map_some]
        exact ⟨s', R', 1, rfl, .step hn hr f stp (.move h rfl ed hlt hm (hen m (by simp))), by simp,
          fun _ => ⟨m, by simp, hm⟩, f⟩
    · rw [if_neg hlt]
      obtain ⟨s', R', k, e, ran, h1, h2, f⟩ := tryMoves_ran ms s R h hn hu (fun m hm => hv m (by simp [hm]))
        (fun m hm => hen m (by simp [hm]))
      refine ⟨s', R', k, e, ran, h1, fun hk => ?_, f⟩
      obtain ⟨m', hm', he⟩ := h2 hk
      exact ⟨m', by simp [hm'], he⟩

theorem tryPair_ran {f : MoveFlags} {u v : ℕ} {s : LS α} {R : List (List ℕ)} (h : Repr ctx s R)
    (hn : NbrOK ctx s) (hu : u ∈ R.flatten) (hv : v ∈ R.flatten) (hne : v ≠ u) :
    ∃ s' R' k, tryPair ctx f (.cust u) (.cust v) s = some (s', decide (0 < k)) ∧
      Ran ctx f s R k s' R' ∧ (k = 0 → s' = s ∧ R' = R) ∧ (0 < k → ∃ m, MoveEffect R u (.cust v) m R') ∧
      SameFrame s s' := by
  have ht : ∀ ms : List MoveKind, ∀ m ∈ ms, Tried R u (.cust v) m :=
    fun ms m _ => .inl ⟨v, rfl, hv, hne⟩
  obtain ⟨s1, R1, k, e, hran, hk, hm, fr⟩ := tryMoves_ran A f.neighbor s R h hn hu (ht _)
    (fun _ => enabled_of_mem.1)
  rw [tryPair, e, Option.bind_some]
  dsimp only
  by_cases hpos : 0 < k
  · rw [if_pos (by simpa using hpos)]
    refine ⟨s1, R1, k, rfl, hran, by omega, fun hp => ?_, fr⟩
    obtain ⟨m, -, hm⟩ := hm hp
    exact ⟨m, hm⟩
  · rw [if_neg (by simpa using hpos)]
    obtain ⟨rfl, rfl⟩ := hk (by omega)
    have hk0 : k = 0 := by omega
    subst hk0
    obtain ⟨l, hl, hvl⟩ := List.mem_flatten.mp hv
    obtain ⟨r, hr⟩ := List.getElem?_of_mem hl
    obtain ⟨p, q, rfl⟩ := List.append_of_mem hvl
    rw [h.enc.pred_cust hr, Option.bind_some]
    split
    · obtain ⟨s2, R2, k2, e2, hran2, hk2, hm2, fr2⟩ := tryMoves_ran A f.depot s1 R1 h hn hu (ht _)
        (fun _ => enabled_of_mem.2.1)
      refine ⟨s2, R2, k2, e2, hran2, hk2, fun hp => ?_, fr2⟩
      obtain ⟨m, -, hm2⟩ := hm2 hp
      exact ⟨m, hm2⟩
    · exact ⟨s1, R1, 0, rfl, hran, fun _ => ⟨rfl, rfl⟩, by simp, fr⟩

omit A in
theorem part_mem {n : ℕ} {R : List (List ℕ)} (hp : IsPartition n R) {c : ℕ} :
    c ∈ R.flatten ↔ 0 < c ∧ c < n := by
  rw [hp.mem_iff]
  exact ⟨fun h => ⟨by omega, h.2⟩, fun h => ⟨by omega, h.2⟩⟩

omit A in
theorem or_decide (imp : Bool) (k k' : ℕ) :
    ((imp || decide (0 < k)) || decide (0 < k')) = (imp || decide (0 < k + k')) := by
  rw [Bool.or_assoc]
  congr 1
  by_cases h : 0 < k
  · simp [h]
  · have : k = 0 := by omega
    subst this; simp

theorem vLoop_ran {f : MoveFlags} {lc u : ℕ} {lt : ℤ} : ∀ (vs : List ℕ) (s : LS α)
    (R : List (List ℕ)) (imp : Bool), Repr ctx s R → NbrOK ctx s → (0 < u ∧ u < ctx.n) →
    (∀ v ∈ vs, 0 < v ∧ v < ctx.n ∧ v ≠ u) →
    ∃ s' R' k, vLoop ctx f lc u lt vs s imp = some (s', imp || decide (0 < k)) ∧ Ran ctx f s R k s' R'
  | [], s, R, imp, h, hn, _, _ => ⟨s, R, 0, by simp [vLoop], .refl h hn⟩
  | v :: vs, s, R, imp, h, hn, hu, hv => by
    have hu' := (part_mem h.part).mpr hu
    have hv0 := hv v (by simp)
    have hv' := (part_mem h.part).mpr ⟨hv0.1, hv0.2.1⟩
    have hrt : ∀ c ∈ R.flatten, ∃ r, s.rt (.cust c) = some r := by
      intro c hc
      obtain ⟨l, hl, hcl⟩ := List.mem_flatten.mp hc
      obtain ⟨r, hr⟩ := List.getElem?_of_mem hl
      exact ⟨r, h.rt_cust hr hcl⟩
    obtain ⟨ru, eu⟩ := hrt u hu'
    obtain ⟨rv, ev⟩ := hrt v hv'
    rw [vLoop, eu, Option.bind_some, ev, Option.bind_some]
    split
    · obtain ⟨s1, R1, k1, e1, ran1, -⟩ := tryPair_ran A (f := f) h hn hu' hv' hv0.2.2
      obtain ⟨s2, R2, k2, e2, ran2⟩ := vLoop_ran vs s1 R1 (imp || decide (0 < k1)) ran1.repr ran1.nbr hu
        (fun w hw => hv w (by simp [hw]))
      refine ⟨s2, R2, k1 + k2, ?_, ran1.trans ran2⟩
      rw [e1, Option.bind_some, e2, or_decide]
    · exact vLoop_ran vs s R imp h hn hu (fun w hw => hv w (by simp [hw]))

theorem emptyStep_ran {f : MoveFlags} {lc w u : ℕ} {s : LS α} {R : List (List ℕ)} (h : Repr ctx s R)
    (hn : NbrOK ctx s) (hu : 0 < u ∧ u < ctx.n) :
    ∃ s' R' k, emptyStep ctx f lc w u s = some (s', decide (0 < k)) ∧ Ran ctx f s R k s' R' := by
  unfold emptyStep
  split
  · next hc =>
    have hlen : 0 < s.empty.length := List.length_pos_iff.mpr hc.2
    have hlt : w % s.empty.length < s.empty.length := Nat.mod_lt _ hlen
    rw [List.getElem?_eq_getElem hlt, Option.bind_some]
    have hmem : s.empty[w % s.empty.length] ∈ s.empty := List.getElem_mem hlt
    have hr := (h.empty _ trivial).mp hmem
    obtain ⟨s', R', k, e, ran, -⟩ := tryMoves_ran A (v := .start (s.empty[w % s.empty.length]))
      f.emptyRoute s R h hn ((part_mem h.part).mpr hu) (by
        intro m hm
        refine .inr ⟨⟨_, get_lt hr, rfl⟩, ?_⟩
        simp only [MoveFlags.emptyRoute, List.mem_append] at hm
        rcases hm with ((hm | hm) | hm) | hm <;> split at hm <;> simp_all) (fun _ => enabled_of_mem.2.2)
    exact ⟨s', R', k, e, ran⟩
  · exact ⟨s, R, 0, rfl, .refl h hn⟩

omit A in
theorem slice_get {l : List ℕ} {a g i : ℕ} (hi : i < g) :
    ((l.drop a).take g)[i]? = l[a + i]? := by
  rw [List.getElem?_take_of_lt hi, List.getElem?_drop]

omit A in
theorem store_get {l m : List ℕ} {a : ℕ} (ha : a + m.length ≤ l.length) (j : ℕ) :
    (l.take a ++ m ++ l.drop (a + m.length))[j]? =
      if a ≤ j ∧ j < a + m.length then m[j - a]? else l[j]? := by
  have hl : (l.take a).length = a := by simp; omega
  by_cases h1 : j < a
  · rw [if_neg (by omega), List.append_assoc, List.getElem?_append_left (by omega),
      List.getElem?_take_of_lt h1]
  · by_cases h2 : j < a + m.length
    · rw [if_pos (by omega), List.append_assoc, List.getElem?_append_right (by omega), hl,
        List.getElem?_append_left (by omega)]
    · rw [if_neg (by omega), List.getElem?_append_right (by simp; omega), List.getElem?_drop]
      congr 1
      simp; omega

omit A in
theorem neighbours_ok {ω : Oracle} {u : ℕ} {s : LS α} (hn : NbrOK ctx s) (hu : 0 < u ∧ u < ctx.n) :
    ∃ s' vs, neighbours ω u s = some (s', vs) ∧ (∃ c, s' = { s with corr := c }) ∧ NbrOK ctx s' ∧
      ∀ v ∈ vs, 0 < v ∧ v < ctx.n ∧ v ≠ u := by
  have hbound : u * s.corrCols + s.granularity ≤ s.corr.length := by
    rw [hn.len]
    calc u * s.corrCols + s.granularity ≤ u * s.corrCols + s.corrCols := by have := hn.cols; omega
      _ = (u + 1) * s.corrCols := by rw [Nat.add_mul, Nat.one_mul]
      _ ≤ ctx.n * s.corrCols := Nat.mul_le_mul_right _ hu.2
  have hslice : ∀ v ∈ (s.corr.drop (u * s.corrCols)).take s.granularity, 0 < v ∧ v < ctx.n ∧ v ≠ u := by
    intro v hv
    obtain ⟨i, hi⟩ := List.getElem?_of_mem hv
    have hig : i < s.granularity := by
      have := get_lt hi
      simp at this; omega
    rw [slice_get hig] at hi
    exact hn.nbr u i hu.1 hu.2 hig v hi
  have hsl : ((s.corr.drop (u * s.corrCols)).take s.granularity).length = s.granularity := by
    simp; omega
  obtain ⟨k, ek⟩ := rangeUsize_isSome (w := ω 0) hn.gran
  rw [neighbours, topSlice, if_pos hbound, Option.bind_some, ek, Option.map_some]
  have hperm := shuffle_perm (ω.sub 1) ((s.corr.drop (u * s.corrCols)).take s.granularity)
  split
  · refine ⟨_, _, rfl, ⟨_, rfl⟩, ?_, fun v hv => hslice v (hperm.mem_iff.mp hv)⟩
    generalize shuffle (ω.sub 1) ((s.corr.drop (u * s.corrCols)).take s.granularity) = m at hperm
    have hm : m.length = s.granularity := by rw [hperm.length_eq, hsl]
    have hg := fun j => store_get (l := s.corr) (m := m) (a := u * s.corrCols) (by rw [hm]; exact hbound) j
    rw [hm] at hg
    constructor
    · exact hn.gran
    · exact hn.cols
    · simp only [storeSlice, List.length_append, List.length_take, List.length_drop, hm]
      rw [← hn.len]; omega
    · intro k i hk hkn hi v hv
      simp only [storeSlice] at hv hi
      rw [hg] at hv
      split at hv
      · next hc =>
        have hku : k = u := by
          have hcols := hn.cols
          rcases Nat.lt_trichotomy k u with hlt | he | hgt
          · have : (k + 1) * s.corrCols ≤ u * s.corrCols := Nat.mul_le_mul_right _ hlt
            rw [Nat.add_mul, Nat.one_mul] at this; omega
          · exact he
          · have : (u + 1) * s.corrCols ≤ k * s.corrCols := Nat.mul_le_mul_right _ hgt
            rw [Nat.add_mul, Nat.one_mul] at this; omega
        subst hku
        exact hslice v (hperm.mem_iff.mp (List.mem_of_getElem? hv))
      · exact hn.nbr k i hk hkn hi v hv
    · exact hn.cust
  · exact ⟨s, _, rfl, ⟨s.corr, rfl⟩, hn, hslice⟩

theorem uStep_ran {f : MoveFlags} {lc u : ℕ} {ω : Oracle} {s : LS α} {R : List (List ℕ)}
    (h : Repr ctx s R) (hn : NbrOK ctx s) (hu : 0 < u ∧ u < ctx.n) :
    ∃ s' R' k, uStep ctx f lc ω u s = some (s', decide (0 < k)) ∧ Ran ctx f s R k s' R' := by
  obtain ⟨s1, vs, e1, ⟨c, rfl⟩, hn1, hvs⟩ := neighbours_ok (ω := ω) hn hu
  rw [uStep, e1, Option.bind_some]
  dsimp only at hn1 ⊢
  have h2 : Repr ctx { s with corr := c, lastTested := Function.update s.lastTested u s.moveCount } R :=
    Repr.congr h rfl rfl rfl rfl rfl (fun _ => ⟨rfl, rfl, rfl, rfl, rfl, rfl, rfl⟩) rfl rfl rfl rfl rfl rfl
  have hn2 : NbrOK ctx { s with corr := c, lastTested := Function.update s.lastTested u s.moveCount } :=
    ⟨hn1.gran, hn1.cols, hn1.len, hn1.nbr, hn1.cust⟩
  obtain ⟨s3, R3, k3, e3, ran3⟩ := vLoop_ran A (f := f) (lc := lc) (lt := s.lastTested u) vs _ R false
    h2 hn2 hu hvs
  obtain ⟨s4, R4, k4, e4, ran4⟩ := emptyStep_ran A (f := f) (lc := lc) (w := ω 2) ran3.repr ran3.nbr hu
  refine ⟨s4, R4, k3 + k4, ?_, ?_⟩
  · rw [e3, Option.bind_some, e4, Option.map_some, or_decide, Bool.false_or]
  · have := ran3.trans ran4
    exact ⟨this.repr, this.nbr, this.pen, this.num, this.cust, this.steps,
      ⟨this.stamped.1, this.stamped.2⟩, this.still⟩

theorem uLoop_ran {f : MoveFlags} {lc : ℕ} {ω : Oracle} : ∀ (us : List ℕ) (i : ℕ) (s : LS α)
    (R : List (List ℕ)) (imp : Bool), Repr ctx s R → NbrOK ctx s → (∀ u ∈ us, 0 < u ∧ u < ctx.n) →
    ∃ s' R' k, uLoop ctx f lc ω i us s imp = some (s', imp || decide (0 < k)) ∧ Ran ctx f s R k s' R'
  | [], i, s, R, imp, h, hn, _ => ⟨s, R, 0, by simp [uLoop], .refl h hn⟩
  | u :: us, i, s, R, imp, h, hn, hu => by
    obtain ⟨s1, R1, k1, e1, ran1⟩ := uStep_ran A (f := f) (lc := lc) (ω := ω.sub i) h hn (hu u (by simp))
    obtain ⟨s2, R2, k2, e2, ran2⟩ := uLoop_ran us (i + 1) s1 R1 (imp || decide (0 < k1)) ran1.repr
      ran1.nbr (fun w hw => hu w (by simp [hw]))
    refine ⟨s2, R2, k1 + k2, ?_, ran1.trans ran2⟩
    rw [uLoop, e1, Option.bind_some, e2, or_decide]

theorem swapLoop2_ran (hsw : fl.swapStar = true) {lc : ℕ} {lt : ℤ} {r1 : ℕ} : ∀ (rs : List ℕ) (s : LS α) (R : List (List ℕ))
    (imp : Bool), Repr ctx s R → NbrOK ctx s → r1 < s.numRoutes → (∀ r ∈ rs, r ≠ r1 ∧ r < s.numRoutes) →
    ∃ s' R' k, swapLoop2 ctx lc lt r1 rs s imp = some (s', imp || decide (0 < k)) ∧
      Ran ctx fl s R k s' R' ∧ SameFrame s s'
  | [], s, R, imp, h, hn, _, _ => ⟨s, R, 0, by simp [swapLoop2], .refl h hn, .refl s⟩
  | r2 :: rs, s, R, imp, h, hn, h1, hrs => by
    rw [swapLoop2]
    split
    · obtain ⟨hne, h2⟩ := hrs r2 (by simp)
      obtain ⟨s1, b, R1, e1, hr1, f1, stp, hfalse, htrue⟩ := swapStar_run h A.ins A.infty hne.symm
        (by rw [h.len]; exact h1) (by rw [h.len]; exact h2)
      obtain ⟨k1, hb, ran1⟩ : ∃ k1, b = decide (0 < k1) ∧ Ran ctx fl s R k1 s1 R1 := by
        cases b with
        | false =>
          refine ⟨0, rfl, hr1, hn.frame f1.1, f1.pen, f1.numRoutes, f1.customers, ?_, stp,
            fun _ => (hfalse rfl).2.1⟩
          rw [(hfalse rfl).1]; exact .zero R
        | true =>
          obtain ⟨_, s2, b, hr2, hp, hg, hc, hb⟩ := htrue rfl
          exact ⟨1, rfl, .step hn hr1 f1 stp (.swap hr2 hp hne.symm hg hb hc hsw)⟩
      subst hb
      obtain ⟨s2, R2, k2, e2, ran2, f2⟩ := swapLoop2_ran hsw rs s1 R1 (imp || decide (0 < k1)) ran1.repr
        ran1.nbr (by rw [ran1.num]; exact h1) (fun w hw => by rw [ran1.num]; exact hrs w (by simp [hw]))
      refine ⟨s2, R2, k1 + k2, ?_, ran1.trans ran2, f1.trans f2⟩
      rw [e1, Option.bind_some, e2, or_decide]
    · exact swapLoop2_ran hsw rs s R imp h hn h1 (fun w hw => hrs w (by simp [hw]))

theorem swapLoop1_ran (hsw : fl.swapStar = true) {lc : ℕ} : ∀ (rs : List ℕ) (s : LS α) (R : List (List ℕ))
    (imp : Bool), Repr ctx s R → NbrOK ctx s → (∀ r ∈ rs, r < s.numRoutes) →
    ∃ s' R' k, swapLoop1 ctx lc rs s imp = some (s', imp || decide (0 < k)) ∧
      Ran ctx fl s R k s' R' ∧ SameBase s s'
  | [], s, R, imp, h, hn, _ => ⟨s, R, 0, by simp [swapLoop1], .refl h hn, .refl s⟩
  | r1 :: rs, s, R, imp, h, hn, hrs => by
    have h0 : Repr ctx (LS.testSwap r1 s) R := by
      refine Repr.congr h rfl rfl rfl rfl rfl ?_ rfl rfl rfl rfl rfl rfl
      intro r
      by_cases e : r = r1
      · subst e; simp [LS.testSwap]
      · simp [LS.testSwap, e]
    have hn0 : NbrOK ctx (LS.testSwap r1 s) :=
      ⟨hn.gran, hn.cols, hn.len, hn.nbr, hn.cust⟩
    obtain ⟨s1, R1, k1, e1, ran1, f1⟩ := swapLoop2_ran A hsw (lc := lc) (lt := (s.route r1).lastTestedSwapStar)
      (r1 := r1) (List.range' (r1 + 1) (s.numRoutes - (r1 + 1))) _ R imp h0 hn0 (hrs r1 (by simp)) (by
        intro r hr
        rw [List.mem_range'_1] at hr
        exact ⟨by omega, by show r < s.numRoutes; omega⟩)
    have ran1' : Ran ctx fl s R k1 s1 R1 :=
      ⟨ran1.repr, ran1.nbr, ran1.pen, ran1.num, ran1.cust, ran1.steps, testSwap_stamped ran1.stamped,
        ran1.still⟩
    obtain ⟨s2, R2, k2, e2, ran2, f2⟩ := swapLoop1_ran hsw rs s1 R1 (imp || decide (0 < k1)) ran1.repr
      ran1.nbr (fun w hw => by rw [ran1'.num]; exact hrs w (by simp [hw]))
    have f1' : SameBase s s1 := ⟨f1.1.1, f1.1.2, f1.1.3, f1.1.4, f1.1.5, f1.1.6, f1.1.7, f1.1.8⟩
    refine ⟨s2, R2, k1 + k2, ?_, ran1'.trans ran2, f1'.trans f2⟩
    rw [LS.testSwap] at e1
    rw [swapLoop1, e1, Option.bind_some, e2, or_decide]

/-- One pass: it never fails and its improvement flag says whether a move was accepted. -/
theorem pass_ran {f : MoveFlags} {lc : ℕ} {ω : Oracle} {s : LS α} {R : List (List ℕ)}
    (h : Repr ctx s R) (hn : NbrOK ctx s) :
    ∃ s' R' k, pass ctx f ω lc s =
        some (s', decide (0 < k), if f.swapStar then lc + 1 else lc) ∧
      Repr ctx s' R' ∧ NbrOK ctx s' ∧ s'.pen = s.pen ∧ s'.numRoutes = s.numRoutes ∧
      s'.customers.Perm s.customers ∧ Steps ctx f s.pen k R R' := by
  have hperm := shuffle_perm (ω.sub 1) s.customers
  have h0 : Repr ctx { s with customers := shuffle (ω.sub 1) s.customers } R :=
    Repr.congr h rfl rfl rfl rfl rfl (fun _ => ⟨rfl, rfl, rfl, rfl, rfl, rfl, rfl⟩) rfl rfl rfl rfl rfl rfl
  have hn0 : NbrOK ctx { s with customers := shuffle (ω.sub 1) s.customers } :=
    ⟨hn.gran, hn.cols, hn.len, hn.nbr, fun u hu => hn.cust u (hperm.mem_iff.mp hu)⟩
  obtain ⟨s1, R1, k1, e1, ran1⟩ := uLoop_ran A (f := f) (lc := lc) (ω := ω.sub 0)
    (shuffle (ω.sub 1) s.customers) 0 _ R false h0 hn0 hn0.cust
  rw [pass, e1, Option.bind_some]
  dsimp only
  cases hs : f.swapStar with
  | false =>
    exact ⟨s1, R1, k1, by simp, ran1.repr, ran1.nbr, ran1.pen, ran1.num, by rw [ran1.cust]; exact hperm,
      ran1.steps⟩
  | true =>
    obtain ⟨s2, R2, k2, e2, ran2, -⟩ := swapLoop1_ran A hs (lc := lc) (List.range s1.numRoutes) s1 R1
      (false || decide (0 < k1)) ran1.repr ran1.nbr (by simp)
    have ran := ran1.trans ran2
    refine ⟨s2, R2, k1 + k2, ?_, ran.repr, ran.nbr, ran.pen, ran.num, by rw [ran.cust]; exact hperm,
      ran.steps⟩
    rw [if_pos rfl, e2, Option.map_some, or_decide, Bool.false_or, if_pos rfl]

/-- If at most `B` moves can be accepted from the current routes, the search with fuel `B + 1` ends. -/
theorem searchLoop_ends {f : MoveFlags} {ω : Oracle} : ∀ (B : ℕ) (fuel i lc : ℕ) (s : LS α)
    (R : List (List ℕ)), Repr ctx s R → NbrOK ctx s → B < fuel →
    (∀ k R', Steps ctx f s.pen k R R' → k ≤ B) →
    ∃ s' R' k, searchLoop ctx f ω fuel i lc s = some s' ∧ Repr ctx s' R' ∧ NbrOK ctx s' ∧
      s'.pen = s.pen ∧ s'.numRoutes = s.numRoutes ∧ s'.customers.Perm s.customers ∧
      Steps ctx f s.pen k R R' := by
  intro B
  induction B using Nat.strong_induction_on with
  | _ B ih =>
    intro fuel i lc s R h hn hB hbound
    obtain ⟨fuel, rfl⟩ : ∃ m, fuel = m + 1 := ⟨fuel - 1, by omega⟩
    obtain ⟨s1, R1, k1, e1, hr1, hn1, hp1, hnum1, hc1, st1⟩ := pass_ran A (f := f) (lc := lc)
      (ω := ω.sub i) h hn
    rw [searchLoop, e1, Option.bind_some]
    dsimp only
    by_cases hk : 0 < k1
    · rw [if_pos (by simpa using hk)]
      have hk1 := hbound _ _ st1
      obtain ⟨s2, R2, k2, e2, hr2, hn2, hp2, hnum2, hc2, st2⟩ := ih (B - k1) (by omega) fuel (i + 1)
        (if f.swapStar then lc + 1 else lc) s1 R1 hr1 hn1 (by omega) (by
          intro k R' st
          have := hbound _ _ (st1.trans (hp1 ▸ st))
          omega)
      exact ⟨s2, R2, k1 + k2, e2, hr2, hn2, hp2.trans hp1, hnum2.trans hnum1, hc2.trans hc1,
        st1.trans (hp1 ▸ st2)⟩
    · rw [if_neg (by simpa using hk)]
      exact ⟨s1, R1, k1, rfl, hr1, hn1, hp1, hnum1, hc1, st1⟩

/-- Whatever the fuel, if the search ends, its result was reached by accepted moves. -/
theorem searchLoop_sound {f : MoveFlags} {ω : Oracle} : ∀ (fuel i lc : ℕ) (s : LS α)
    (R : List (List ℕ)) (s' : LS α), Repr ctx s R → NbrOK ctx s →
    searchLoop ctx f ω fuel i lc s = some s' →
    ∃ R' k, Repr ctx s' R' ∧ NbrOK ctx s' ∧ s'.pen = s.pen ∧ s'.numRoutes = s.numRoutes ∧
      s'.customers.Perm s.customers ∧ Steps ctx f s.pen k R R'
  | 0, _, _, _, _, _, _, _, e => by simp [searchLoop] at e
  | fuel + 1, i, lc, s, R, s', h, hn, e => by
    obtain ⟨s1, R1, k1, e1, hr1, hn1, hp1, hnum1, hc1, st1⟩ := pass_ran A (f := f) (lc := lc)
      (ω := ω.sub i) h hn
    rw [searchLoop, e1, Option.bind_some] at e
    dsimp only at e
    split at e
    · obtain ⟨R2, k2, hr2, hn2, hp2, hnum2, hc2, st2⟩ := searchLoop_sound fuel (i + 1) _ s1 R1 s' hr1 hn1 e
      exact ⟨R2, k1 + k2, hr2, hn2, hp2.trans hp1, hnum2.trans hnum1, hc2.trans hc1,
        st1.trans (hp1 ▸ st2)⟩
    · cases e
      exact ⟨R1, k1, hr1, hn1, hp1, hnum1, hc1, st1⟩

end loops

end Verif
