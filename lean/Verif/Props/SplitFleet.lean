import Verif.Lemmas.SplitReach
import Verif.Props.SortRoutes
import Verif.Props.Evaluate

/-! # C06: Split::run respects the fleet limit and keeps every customer (exact arithmetic) -/

namespace Verif
open F64 Split

/-- The instance stays clear of the `1e30` sentinel of the code: distances are at most `D`, demands at
most `Q`, and `n * D + pen * n * Q` is below `1e30`. -/
def BelowSentinel (ctx : Ctx ℚ) : Prop :=
  ∃ D Q : ℚ, (∀ a b, 0 ≤ ctx.dist a b ∧ ctx.dist a b ≤ D) ∧
    (∀ a, 0 ≤ ctx.demand a ∧ ctx.demand a ≤ Q) ∧ 0 ≤ ctx.pen ∧
    ctx.n * D + ctx.pen * (ctx.n * Q) < 10 ^ 30

namespace Split

variable {α : Type} [F64 α]

theorem extractLim_spec (preds : ℕ → ℕ → ℕ) (hle : ∀ k i, preds k i ≤ i) (g : List ℕ) :
    ∀ (v e : ℕ) (acc : List (List ℕ)), e ≤ g.length →
      g.take (extractLim preds g v e acc).1 ++ (extractLim preds g v e acc).2.flatten
        = g.take e ++ acc.flatten ∧
      (extractLim preds g v e acc).2.length = v + acc.length ∧
      (extractLim preds g v e acc).1 ≤ e := by
  intro v
  induction v with
  | zero => intro e acc _; simp [extractLim]
  | succ v ih =>
    intro e acc he
    unfold extractLim
    have h1 := hle (v + 1) e
    obtain ⟨e1, e2, e3⟩ := ih (preds (v + 1) e) (segment g (preds (v + 1) e) e :: acc) (by omega)
    refine ⟨?_, ?_, by omega⟩
    · rw [e1, List.flatten_cons, ← List.append_assoc, segment_take g _ _ h1]
    · rw [e2, List.length_cons]; omega

theorem extractLim_zero (preds : ℕ → ℕ → ℕ) (hle : ∀ k i, preds k i ≤ i) (g : List ℕ) :
    ∀ (v e : ℕ) (acc : List (List ℕ)), 1 ≤ v → (∀ i, 1 ≤ i → i ≤ e → preds 1 i = 0) →
      (extractLim preds g v e acc).1 = 0 := by
  intro v
  induction v with
  | zero => intro e acc h; omega
  | succ v ih =>
    intro e acc _ h1
    unfold extractLim
    by_cases hv : v = 0
    · subst hv
      simp only [extractLim, Nat.zero_add]
      have := hle 1 e
      by_cases he : e = 0
      · omega
      · exact h1 e (by omega) (le_refl _)
    · apply ih _ _ (by omega)
      intro i hi1 hi2
      exact h1 i hi1 (by have := hle (v + 1) e; omega)

theorem bestCount_range (s : Split α) (last : ℕ) (P : ℕ → Prop) :
    ∀ (ks : List ℕ) (c : α) (v : ℕ), (∀ k ∈ ks, P k) → P v → P (bestCount s last ks c v) := by
  intro ks
  induction ks with
  | nil => intro c v _ hv; exact hv
  | cons k ks ih =>
    intro c v hk hv
    unfold bestCount
    split
    · exact ih _ _ (fun x hx => hk x (by simp [hx])) (hk k (by simp))
    · exact ih _ _ (fun x hx => hk x (by simp [hx])) hv

/-- The first row only ever starts at the depot, linear variant. -/
theorem linearLim_row1 (n : ℕ) :
    ∀ (m i : ℕ) (s s' : Split α), 1 ≤ i → (∀ j, 1 ≤ j → j < n - 1 → dominates s 0 j 0 = true) →
      linearLimLoop n 0 (List.range' i m) s [0] = some s' →
      (∀ j, i ≤ j → j < i + m → s'.preds 1 j = 0) ∧ (∀ j, j < i → s'.preds 1 j = s.preds 1 j) := by
  intro m
  induction m with
  | zero =>
    intro i s s' _ _ h
    simp only [List.range'_zero, linearLimLoop, Option.some.injEq] at h
    subst h
    exact ⟨fun j h1 h2 => by omega, fun _ _ => rfl⟩
  | succ m ih =>
    intro i s s' hi hdom h
    rw [List.range'_succ] at h
    unfold linearLimLoop at h
    rw [if_neg (by simp)] at h
    have hstep : linearStep n 0 1 s [0] i = some
        ({ s with
          pathCost := setCell s.pathCost 1 i (propagate s 0 i 0)
          preds := setCell s.preds 1 i 0 }, [0]) := by
      unfold linearStep
      dsimp only
      split
      · rename_i hlt
        unfold updateQueue
        have hd : dominates { s with
          pathCost := setCell s.pathCost 1 i (propagate s 0 i 0)
          preds := setCell s.preds 1 i 0 } 0 i 0 = true := by
          rw [← hdom i hi hlt]
          unfold dominates
          simp [setCell]
        simp [hd, popFront]
      · rfl
    rw [Nat.zero_add, hstep] at h
    dsimp only at h
    obtain ⟨h1, h2⟩ := ih (i + 1) _ s' (by omega) (by
      intro j hj1 hj2
      rw [← hdom j hj1 hj2]
      unfold dominates
      simp [setCell]) h
    constructor
    · intro j hj1 hj2
      by_cases hji : j = i
      · subst hji
        rw [h2 j (by omega)]
        simp [setCell]
      · exact h1 j (by omega) (by omega)
    · intro j hj
      rw [h2 j (by omega)]
      simp only [setCell]
      rw [if_neg (by omega)]

/-- Below the sentinel the depot dominates every other start in the first row. -/
theorem depot_dominates (ctx : Ctx ℚ) (hb : BelowSentinel ctx) (g : List ℕ)
    (hg : g.length = ctx.n - 1) (s : Split ℚ) (hl : Loaded ctx g s) (rows : ℕ) (hrows : 0 < rows)
    (j : ℕ) (hj1 : 1 ≤ j) (hj2 : j < ctx.n - 1) :
    dominates (resetAll rows ctx.n s) 0 j 0 = true := by
  obtain ⟨D, Q, hD, hQ, hpen, hbound⟩ := hb
  have hD0 : 0 ≤ D := le_trans (hD 0 0).1 (hD 0 0).2
  have hQ0 : 0 ≤ Q := le_trans (hQ 0).1 (hQ 0).2
  unfold dominates resetAll
  have e1 := hl.distDepot (0 + 1) (by omega) (by omega)
  have e2 := hl.cumDist (j + 1) (by omega) (by omega)
  have e3 := hl.cumDist (0 + 1) (by omega) (by omega)
  have e4 := hl.cumLoad j (by omega)
  have e5 := hl.cumLoad 0 (by omega)
  have e6 := hl.distDepot (j + 1) (by omega) (by omega)
  simp only [rat_add, rat_sub, rat_mul, rat_lit, rat_lt, decide_eq_true_eq]
  rw [e1, e2, e3, e4, e5, e6, hl.pen]
  have hj0 : ¬ (j = 0) := by omega
  have hjn : 1 ≤ j ∧ j < ctx.n := by omega
  simp only [true_and, hj0, hrows, hjn, if_true, if_false, List.take_zero, Spec.routeLoad_nil,
    sub_zero, and_self]
  have b1 : Spec.pathDist ctx.dist (g.take (j + 1)) ≤ j * D := by
    have := Spec.pathDist_le ctx.dist D hD0 (fun a b => (hD a b).2) (g.take (j + 1))
    rwa [List.length_take, Nat.min_eq_left (by omega), Nat.add_sub_cancel] at this
  have b2 : Spec.pathDist ctx.dist (g.take (0 + 1)) = 0 := by
    cases g <;> simp
  have b3 : Spec.routeLoad ctx.demand (g.take j) ≤ j * Q := by
    have := Spec.routeLoad_le ctx.demand Q (fun a => (hQ a).2) (g.take j)
    rwa [List.length_take, Nat.min_eq_left (by omega)] at this
  have b4 := (hD (g.getD (0 + 1 - 1) 0) 0).2
  have b5 := (hD (g.getD (j + 1 - 1) 0) 0).1
  have b6 : ((j : ℚ) + 1) ≤ ctx.n := by exact_mod_cast (by omega : j + 1 ≤ ctx.n)
  have b7 : (j : ℚ) * Q ≤ ctx.n * Q := mul_le_mul_of_nonneg_right (by linarith) hQ0
  have b8 : ((j : ℚ) + 1) * D ≤ ctx.n * D := mul_le_mul_of_nonneg_right b6 hD0
  have b9 : ctx.pen * Spec.routeLoad ctx.demand (g.take j) ≤ ctx.pen * (ctx.n * Q) :=
    mul_le_mul_of_nonneg_left (by linarith) hpen
  have b10 : (((10:ℚ) ^ 30)) = 10 ^ 30 := rfl
  linarith

/-- The first row only ever starts at the depot, Bellman variant. -/
theorem bellmanLim_row1 (ctx : Ctx α) (g : List ℕ) (fits : α → Bool) (hg : g.length = ctx.n - 1)
    (hlit : ((lit (10 ^ 29) : α) <. lit (10 ^ 30)) = true)
    (s s' : Split α) (hsent : 2 ≤ ctx.n - 1 → s.pathCost 0 1 = lit (10 ^ 30))
    (h : bellmanLimLoop ctx g fits 0 (List.range' 0 (ctx.n - 1)) s = some s')
    (hp : ∀ i, s.preds 1 i = 0) : ∀ i, s'.preds 1 i = 0 := by
  rcases Nat.lt_or_ge 0 (ctx.n - 1) with hn | hn
  · obtain ⟨m, hm⟩ : ∃ m, ctx.n - 1 = m + 1 := ⟨ctx.n - 2, by omega⟩
    rw [hm, List.range'_succ] at h
    unfold bellmanLimLoop at h
    split at h
    · simp only [Option.some.injEq] at h; subst h; exact hp
    · split at h
      · simp at h
      · rename_i s1 h1
        have hd := bellmanInner_data _ _ _ _ _ _ _ _ _ _ _ _ h1
        obtain ⟨s2, e1, e2⟩ := bellmanInner_some ctx g fits 0 (0 + 1) 0 hg (ctx.n - (0 + 1)) (0 + 1)
          (lit 0) (lit 0) s (by omega) (by omega)
        rw [h1] at e1
        simp only [Option.some.injEq] at e1
        subst e1
        have hz : ∀ i, s1.preds 1 i = 0 := by
          intro i
          rcases e2 1 i with h | h
          · rw [h]; exact hp i
          · exact h.2.2
        cases m with
        | zero =>
          simp only [List.range'_zero, bellmanLimLoop, Option.some.injEq] at h
          subst h; exact hz
        | succ m =>
          rw [List.range'_succ] at h
          unfold bellmanLimLoop at h
          rw [if_pos] at h
          · simp only [Option.some.injEq] at h; subst h; exact hz
          · rw [hd.2 0 (by omega), hsent (by omega)]
            exact hlit
  · rw [show ctx.n - 1 = 0 by omega] at h
    simp only [List.range'_zero, bellmanLimLoop, Option.some.injEq] at h
    subst h; exact hp

/-- Rows after the first do not touch row 1. -/
theorem bellmanLimRows_row1 (ctx : Ctx α) (g : List ℕ) (fits : α → Bool) (hg : g.length = ctx.n - 1)
    (hlit : ((lit (10 ^ 29) : α) <. lit (10 ^ 30)) = true)
    (mv : ℕ) (s s' : Split α) (hsent : 2 ≤ ctx.n - 1 → s.pathCost 0 1 = lit (10 ^ 30))
    (h : bellmanLimRows ctx g fits (List.range mv) s = some s') (hle : PredsLe s)
    (hp : ∀ i, s.preds 1 i = 0) : ∀ i, s'.preds 1 i = 0 := by
  cases mv with
  | zero =>
    simp only [List.range_zero, bellmanLimRows, Option.some.injEq] at h
    subst h; exact hp
  | succ mv =>
    rw [List.range_eq_range', List.range'_succ] at h
    unfold bellmanLimRows at h
    split at h
    · simp at h
    · rename_i s1 h1
      rw [Nat.sub_zero] at h1
      have h2 := bellmanLim_row1 ctx g fits hg hlit s s1 hsent h1 hp
      obtain ⟨e1, e2, -⟩ := bellmanLimLoop_data ctx g fits 0 hg _ s s1
        (by intro i hi; rw [List.mem_range'_1] at hi; omega) h1 hle
      obtain ⟨-, -, f3⟩ := bellmanLimRows_data ctx g fits hg _ s1 s' h e2
      intro i
      rw [f3 1 (Or.inr (by rw [List.mem_range'_1]; omega))]
      exact h2 i

theorem splitReachable_row1 (cfg : SplitCfg α) (hlit : ((lit (10 ^ 29) : α) <. lit (10 ^ 30)) = true)
    (hlin : cfg.linear = false) (n : ℕ) (cap : α) (s : Split α) (h : SplitReachable cfg n cap s) : ∀ i, s.preds 1 i = 0 := by
  induction h with
  | new ctx _ _ => intro i; rfl
  | load ctx _ s s' g _ hl ih => intro i; rw [loadLoop_preds ctx g _ _ _ hl]; exact ih i
  | split ctx hn s s' g mv r hs0 hg hs ih =>
    have hle := (splitReachable_inv cfg n cap s hs0).le
    unfold Split.split at hs
    dsimp only at hs
    rw [hlin] at hs
    simp only [Bool.false_eq_true, if_false] at hs
    split at hs
    · simp at hs
    · rename_i s1 h1
      split at hs
      · simp at hs
      · simp only [Option.some.injEq, Prod.mk.injEq] at hs
        obtain ⟨rfl, -⟩ := hs
        have := bellmanLoop_data ctx g _ (by rw [hg, hn]) _ _ _ (by simp) h1 hle
        intro i
        rw [this.2.2 1 (by omega)]
        exact ih i
  | limited ctx hn s s' g mv r hs0 hg hs ih =>
    have hle := (splitReachable_inv cfg n cap s hs0).le
    unfold splitLimited at hs
    dsimp only at hs
    rw [hlin] at hs
    simp only [Bool.false_eq_true, if_false] at hs
    split at hs
    · simp at hs
    · rename_i s1 h1
      simp only [Option.some.injEq, Prod.mk.injEq] at hs
      obtain ⟨rfl, -⟩ := hs
      refine bellmanLimRows_row1 ctx g _ (by rw [hg, hn]) hlit mv _ s1 ?_ h1 hle ih
      intro hn2
      simp only [resetAll]
      rw [if_neg (by omega), if_pos (by omega)]

/-- The limited split keeps the tour. -/
theorem splitLimited_core (cfg : SplitCfg α) (ctx : Ctx α) (s : Split α) (g : List ℕ) (mv : ℕ)
    (hg : g.length = ctx.n - 1) (hmv : 1 ≤ mv) (hle : PredsLe s)
    (hlit : ((lit (10 ^ 29) : α) <. lit (10 ^ 30)) = true)
    (hlin : cfg.linear = true → ∀ j, 1 ≤ j → j < ctx.n - 1 →
      dominates (resetAll (cfg.numVehicles + 1) ctx.n s) 0 j 0 = true)
    (hbell : cfg.linear = false → ∀ i, s.preds 1 i = 0) :
    ∃ s' routes, splitLimited cfg ctx s g mv = some (s', pad cfg.numVehicles routes, true) ∧
      routes.flatten = g ∧ routes.length ≤ mv := by
  have hrun : ∃ s1, (if cfg.linear then linearLimRows ctx.n (List.range mv)
        (resetAll (cfg.numVehicles + 1) ctx.n s)
      else bellmanLimRows ctx g (fun x => x ≤. ctx.cap *. cfg.capacityFactor)
        (List.range mv) (resetAll (cfg.numVehicles + 1) ctx.n s)) = some s1 ∧
      PredsLe s1 ∧ ∀ i, 1 ≤ i → i ≤ ctx.n - 1 → s1.preds 1 i = 0 := by
    split
    · rename_i hl
      obtain ⟨s1, h1, -⟩ := linearLimRows_some ctx.n (List.range mv)
        (resetAll (cfg.numVehicles + 1) ctx.n s)
      refine ⟨s1, h1, (linearLimRows_data ctx.n _ _ _ h1 hle).2.1, ?_⟩
      obtain ⟨m, rfl⟩ : ∃ m, mv = m + 1 := ⟨mv - 1, by omega⟩
      rw [List.range_eq_range', List.range'_succ] at h1
      unfold linearLimRows at h1
      split at h1
      · simp at h1
      · rename_i s2 h2
        obtain ⟨r1, -⟩ := linearLim_row1 ctx.n _ _ _ s2 (by omega)
          (hlin hl) h2
        obtain ⟨-, e2, -⟩ := linearLimLoop_data ctx.n 0 _ _ _ s2 [0] (by simp)
          (by intro x hx; simp at hx; omega) (by omega) h2 hle
        obtain ⟨-, -, f3⟩ := linearLimRows_data ctx.n _ s2 s1 h1 e2
        intro i hi1 hi2
        rw [f3 1 (Or.inr (by rw [List.mem_range'_1]; omega))]
        exact r1 i (by omega) (by omega)
    · rename_i hl
      have hl' : cfg.linear = false := by simpa using hl
      obtain ⟨s1, h1, -⟩ := bellmanLimRows_some ctx g (fun x => x ≤. ctx.cap *. cfg.capacityFactor)
        hg (List.range mv) (resetAll (cfg.numVehicles + 1) ctx.n s)
      refine ⟨s1, h1, (bellmanLimRows_data ctx g _ hg _ _ _ h1 hle).2.1, ?_⟩
      intro i _ _
      refine bellmanLimRows_row1 ctx g _ hg hlit mv _ s1 ?_ h1 hle (hbell hl') i
      intro hn2
      simp only [resetAll]
      rw [if_neg (by omega), if_pos (by omega)]
  obtain ⟨s1, h1, h2, h3⟩ := hrun
  set v := bestCount s1 (ctx.n - 1) (List.range' 1 (mv - 1)) (s1.pathCost mv (ctx.n - 1)) mv with hv
  have hvr : 1 ≤ v ∧ v ≤ mv := by
    apply bestCount_range s1 (ctx.n - 1) (fun v => 1 ≤ v ∧ v ≤ mv)
    · intro k hk; rw [List.mem_range'_1] at hk; omega
    · omega
  obtain ⟨e1, e2, -⟩ := extractLim_spec s1.preds h2 g v (ctx.n - 1) [] (by omega)
  have e3 := extractLim_zero s1.preds h2 g v (ctx.n - 1) [] hvr.1 h3
  refine ⟨s1, (extractLim s1.preds g v (ctx.n - 1) []).2, ?_, ?_, ?_⟩
  · unfold splitLimited
    dsimp only
    rw [h1]
    dsimp only
    rw [← hv, e3]
    simp
  · rw [e3] at e1
    simp only [List.take_zero, List.nil_append, List.flatten_nil, List.append_nil] at e1
    rw [e1, ← hg, List.take_length]
  · rw [e2]; simpa using hvr.2

end Split

theorem numNonempty_le {α : Type} (x : Individual α) (routes : List (List ℕ)) (k : ℕ)
    (h : x.phenotype.Perm (routes ++ List.replicate k [])) :
    x.numNonemptyRoutes ≤ routes.length := by
  unfold Individual.numNonemptyRoutes
  rw [(h.filter _).length_eq, List.filter_append]
  have : (List.replicate k ([] : List ℕ)).filter (fun r => decide (0 < r.length)) = [] := by
    rw [List.filter_eq_nil_iff]
    intro r hr
    rw [(List.mem_replicate.mp hr).2]; simp
  rw [this, List.append_nil]
  exact List.length_filter_le _ _

/-- **C06.** From any reachable state of the split object, with the linear or the Bellman variant,
`Split::run` on a permutation of the customers never panics and returns an individual that visits every
customer exactly once on exactly `num_vehicles` routes, at most `max(max_vehicles, lower bound)` of them
non-empty, with the giant tour rewritten to match; cost and feasibility are those of the routes. The
linear variant needs the instance to stay below the `1e30` sentinel. -/
theorem C06_split_run (atan2 : ℚ → ℚ → ℚ) (cfg : SplitCfg ℚ) (ctx : Ctx ℚ) (lowerBound : ℕ)
    (s : Split ℚ) (hs : SplitReachable cfg ctx.n ctx.cap s) (x : Individual ℚ) (maxVehicles : ℕ)
    (hx : x.genotype.Perm (Spec.customers ctx.n)) (hn : 0 < ctx.n)
    (hmv : 1 ≤ max maxVehicles lowerBound) (hfleet : max maxVehicles lowerBound ≤ cfg.numVehicles)
    (hmag : cfg.linear = true → BelowSentinel ctx) :
    ∃ s' y, Split.run atan2 cfg ctx lowerBound s x maxVehicles = some (s', y) ∧
      SplitReachable cfg ctx.n ctx.cap s' ∧
      Spec.IsPartition ctx.n y.phenotype ∧ y.genotype = y.phenotype.flatten ∧
      y.phenotype.length = cfg.numVehicles ∧
      y.numNonemptyRoutes ≤ max maxVehicles lowerBound ∧ y.number = x.number ∧
      evaluate ctx x.evaluation y.phenotype = some y.evaluation := by
  have hg : x.genotype.length = ctx.n - 1 := by rw [hx.length_eq, Spec.length_customers]
  have hlit : ((lit (10 ^ 29) : ℚ) <. lit (10 ^ 30)) = true := by
    simp only [rat_lit, rat_lt, decide_eq_true_eq]
    norm_num
  have hinv := Split.splitReachable_inv cfg ctx.n ctx.cap s hs
  obtain ⟨s1, h1, hp1, -, hl1⟩ := load_rat ctx s x.genotype hg hinv.zero hinv.cap
  have hs1 : SplitReachable cfg ctx.n ctx.cap s1 := .load ctx rfl s s1 x.genotype hs h1
  have hinv1 := Split.splitReachable_inv cfg ctx.n ctx.cap s1 hs1
  obtain ⟨s2, r2, h2, -, hf2, hne2⟩ := split_core cfg ctx s1 x.genotype
    (max maxVehicles lowerBound) hg hinv1.pred
  have hs2 : SplitReachable cfg ctx.n ctx.cap s2 :=
    .split ctx rfl s1 s2 x.genotype _ _ hs1 hg h2
  have hinv2 := Split.splitReachable_inv cfg ctx.n ctx.cap s2 hs2
  -- the routes finally used
  have hres : ∃ s3 routes, (if (decide (r2.length ≤ max maxVehicles lowerBound)) = true
        then some (s2, pad cfg.numVehicles r2) else
        (splitLimited cfg ctx s2 x.genotype (max maxVehicles lowerBound)).map
          (fun r => (r.1, r.2.1))) = some (s3, pad cfg.numVehicles routes) ∧
      SplitReachable cfg ctx.n ctx.cap s3 ∧
      routes.flatten.Perm x.genotype ∧ routes.length ≤ max maxVehicles lowerBound := by
    by_cases hok : r2.length ≤ max maxVehicles lowerBound
    · refine ⟨s2, r2, by rw [if_pos (by simpa using hok)], hs2, ?_, hok⟩
      have : r2.flatten.Perm r2.reverse.flatten := (List.reverse_perm r2).symm.flatten
      rw [hf2] at this; exact this
    · have hld : Loaded ctx x.genotype s2 := by
        unfold Split.split at h2
        dsimp only at h2
        split at h2
        · simp at h2
        · rename_i s2' hrun
          split at h2
          · simp at h2
          · simp only [Option.some.injEq, Prod.mk.injEq] at h2
            obtain ⟨rfl, -⟩ := h2
            have hreset : Loaded ctx x.genotype (resetRow0 ctx.n s1) :=
              ⟨hl1.cap, hl1.pen, hl1.cumLoad, hl1.cumDist, hl1.distDepot⟩
            split at hrun
            · exact (linearLoop_data ctx.n _ _ _ _ [0] (by simp) (by simp) hrun hinv1.le).1.loaded
                hreset
            · exact (bellmanLoop_data ctx x.genotype _ hg _ _ _ (by simp) hrun
                hinv1.le).1.loaded hreset
      obtain ⟨s3, routes, h3, hf3, hlen3⟩ := splitLimited_core cfg ctx s2 x.genotype
        (max maxVehicles lowerBound) hg hmv hinv2.le hlit
        (fun hl => depot_dominates ctx (hmag hl) x.genotype hg s2 hld _ (by omega))
        (fun hl => splitReachable_row1 cfg hlit hl ctx.n ctx.cap s2 hs2)
      refine ⟨s3, routes, ?_, .limited ctx rfl s2 s3 x.genotype _ _ hs2 hg h3, ?_, hlen3⟩
      · rw [if_neg (by simpa using hok), h3]; rfl
      · rw [hf3]
  obtain ⟨s3, routes, h3, hs3, hf3, hlen3⟩ := hres
  have hflat : (pad cfg.numVehicles routes).flatten = routes.flatten := by
    unfold pad
    rw [List.flatten_append]
    have : (List.replicate (cfg.numVehicles - routes.length) ([] : List ℕ)).flatten = [] := by
      simp
    rw [this, List.append_nil]
  obtain ⟨y, hy, hyp, hyg, hyn, -, hye⟩ := C03_sort_routes_perm atan2 ctx
    { x with phenotype := pad cfg.numVehicles routes }
    (by simp only [hflat]; rw [hf3.length_eq]) (by simp)
  have hpart : Spec.IsPartition ctx.n y.phenotype := by
    unfold Spec.IsPartition
    have := hyp.flatten
    simp only [hflat] at this
    exact this.trans (hf3.trans hx)
  obtain ⟨e, he, -⟩ := C01_evaluate_exact ctx y.evaluation y.phenotype hn hpart.lt
  refine ⟨s3, { y with evaluation := e }, ?_, hs3, hpart, hyg, ?_, ?_, hyn, ?_⟩
  · unfold Split.run
    dsimp only
    rw [h1]
    dsimp only
    rw [h2]
    dsimp only
    rw [h3]
    dsimp only
    rw [hy]
    dsimp only [Individual.evaluate]
    rw [he]
    rfl
  · rw [hyp.length_eq]
    simp [pad]; omega
  · have := numNonempty_le y routes (cfg.numVehicles - routes.length) hyp
    exact le_trans this hlen3
  · rw [hye] at he
    exact he

/-- Three customers, one of them too big, fleet of three, linear split: the hypotheses are met. -/
example : let ctx : Ctx ℚ := ⟨4, fun a b => if a = b then 0 else 7, fun _ => 3, 5, 2,
      fun _ => 0, fun _ => 0⟩
    BelowSentinel ctx ∧ SplitReachable ⟨true, 1.5, 3⟩ ctx.n ctx.cap (Split.new ctx) ∧
      [2, 3, 1].Perm (Spec.customers ctx.n) := by
  refine ⟨⟨7, 3, ?_, ?_, ?_, ?_⟩, .new _ rfl rfl, by unfold Spec.customers; decide⟩
  · intro a b; dsimp only; split <;> norm_num
  · intro a; norm_num
  · norm_num
  · norm_num

end Verif
