import Verif.Lemmas.SplitBellman
import Verif.Props.SplitFleet

/-! # C05: Split is optimal -/

namespace Verif
open F64 Split

/-- `rs` cuts the tour `g` into consecutive non-empty routes. -/
def Spec.IsSegmentation (g : List ℕ) (rs : List (List ℕ)) : Prop :=
  rs.flatten = g ∧ ∀ r ∈ rs, r ≠ []

/-- Distances in `[0, D]`, demands in `[0, Q]`, and no split of any tour can cost more than `1e29`
(the sentinel the code compares with). -/
def WellBelowSentinel (ctx : Ctx ℚ) : Prop :=
  ∃ D Q : ℚ, (∀ a b, 0 ≤ ctx.dist a b ∧ ctx.dist a b ≤ D) ∧
    (∀ a, 0 ≤ ctx.demand a ∧ ctx.demand a ≤ Q) ∧ 0 ≤ ctx.pen ∧
    2 * (ctx.n * D) + ctx.pen * (ctx.n * Q) ≤ 10 ^ 29

theorem tol_sum_le (ctx : Ctx ℚ) (hpen : 0 ≤ ctx.pen) (rs : List (List ℕ)) :
    (rs.map (tol ctx)).sum ≤ Spec.solCost ctx.dist ctx.demand ctx.cap ctx.pen rs := by
  induction rs with
  | nil => simp
  | cons r rs ih =>
    rw [Spec.solCost_cons, List.map_cons, List.sum_cons]
    have := Spec.tolCost_le ctx.dist ctx.demand ctx.cap ctx.pen hpen r
    unfold tol at *
    linarith

namespace Split

section linear
variable (cfg : SplitCfg ℚ) (hlin : cfg.linear = true) (ctx : Ctx ℚ) (g : List ℕ)
  (hg : g.length = ctx.n - 1)
  (hsym : ∀ a b, ctx.dist a b = ctx.dist b a) (h00 : ctx.dist 0 0 = 0) (hcap : 0 ≤ ctx.cap)
  (hpen : 0 ≤ ctx.pen) (hdem : ∀ a, 0 ≤ ctx.demand a)

include hlin hg hsym h00 hcap hpen hdem in
theorem split_linear_opt (s1 s2 : Split ℚ) (hl1 : Loaded ctx g s1) (hpred : PredOK s1) (mv : ℕ)
    (routes : List (List ℕ)) (flag : Bool) (h3 : split cfg ctx s1 g mv = some (s2, routes, flag))
    (rs : List (List ℕ)) (hrs : Spec.IsSegmentation g rs) :
    Spec.solCost ctx.dist ctx.demand ctx.cap ctx.pen routes
      ≤ Spec.solCost ctx.dist ctx.demand ctx.cap ctx.pen rs + (ctx.n - 1 : ℕ) * (1 / 1000000) := by
  have hl0 : Loaded ctx g (resetRow0 ctx.n s1) :=
    ⟨hl1.cap, hl1.pen, hl1.cumLoad, hl1.cumDist, hl1.distDepot⟩
  obtain ⟨s2, h2, -⟩ := linearLoop_some ctx.n (ctx.n - 1) 1 (resetRow0 ctx.n s1) [0] (by simp)
    (by simp) (by omega) hpred
  unfold Split.split at h3
  dsimp only at h3
  rw [hlin] at h3
  simp only [if_true] at h3
  rw [h2] at h3
  dsimp only at h3
  split at h3
  · simp at h3
  · rename_i routes' hex
    simp only [Option.some.injEq, Prod.mk.injEq] at h3
    obtain ⟨-, h3, -⟩ := h3
    rw [← h3]
    have hn : 1 ≤ ctx.n ∨ ctx.n = 0 := by omega
    have hrow : SameData (resetRow0 ctx.n s1) s2 ∧
        (∀ j, j < 1 → s2.pathCost 0 j = (resetRow0 ctx.n s1).pathCost 0 j) ∧
        RowOpt s2 0 0 0 1 (ctx.n - 1) := by
      rcases hn with hn | hn
      · have := linearLoop_opt ctx.n 0 (ctx.n - 1) 1 (resetRow0 ctx.n s1) s2 [0]
          (by rw [hl0.pen]; exact hpen) (cumLoad_mono ctx g _ hl0 hdem) (by omega) (by omega)
          (fun _ => queue_init _ 0 ctx.n) h2
        exact ⟨this.1, fun j hj => (this.2.1 j hj).1, this.2.2⟩
      · rw [hn] at h2
        simp only [Nat.zero_sub, List.range'_zero, linearLoop, Option.some.injEq] at h2
        subst h2
        rw [hn]
        exact ⟨.refl _, fun _ _ => rfl, fun j h1 h2 => by omega⟩
    obtain ⟨r1, r2, r3⟩ := hrow
    have hl2 := r1.loaded hl0
    have hP0 : s2.pathCost 0 0 = 0 := by
      rw [r2 0 (by omega)]; simp [resetRow0]
    obtain ⟨rs', e1, e2, -⟩ := extract_cost g
      (Spec.routeCost ctx.dist ctx.demand ctx.cap ctx.pen) (fun _ => True) (s2.preds 0)
      (s2.pathCost 0) (fun _ => True)
      (by
        intro j hj1 hj2 _
        obtain ⟨a1, a2, a3, -⟩ := r3 j hj1 (by omega)
        refine ⟨a2, trivial, trivial, ?_⟩
        rw [a3]
        exact propagate_eq ctx hsym g hg s2 hl2 _ _ _ a2 (by omega)) (ctx.n - 1) (ctx.n - 1) []
      routes' (by omega) trivial hex
    have e3 := dp_lower g (Spec.routeCost ctx.dist ctx.demand ctx.cap ctx.pen) (fun _ => True)
      (s2.pathCost 0) (1 / 1000000) (by rw [hP0])
      (by
        intro i j hij hj _
        obtain ⟨-, -, -, a4⟩ := r3 j (by omega) (by omega)
        have := a4 i (by omega) hij
        rw [propagate_eq ctx hsym g hg s2 hl2 _ _ _ hij (by omega)] at this
        linarith) (by norm_num) rs (fun r hr => ⟨hrs.2 r hr, trivial⟩) (ctx.n - 1) (by omega)
      (by rw [hrs.1, ← hg, List.take_length])
    rw [solCost_pad _ _ _ _ h00 hcap]
    simp only [List.nil_append] at e1
    rw [e1]
    unfold Spec.solCost
    rw [e2, hP0]
    linarith

include hlin hg hsym h00 hcap hpen hdem in
theorem limited_linear_opt (hdist : ∀ a b, 0 ≤ ctx.dist a b) (hn : 2 ≤ ctx.n) (s1 s2 : Split ℚ)
    (hl1 : Loaded ctx g s1) (mv : ℕ) (hmv : 1 ≤ mv) (hfleet : mv ≤ cfg.numVehicles)
    (routes : List (List ℕ)) (flag : Bool)
    (h3 : splitLimited cfg ctx s1 g mv = some (s2, routes, flag))
    (rs : List (List ℕ)) (hrs : Spec.IsSegmentation g rs) (hlen : rs.length ≤ mv)
    (hbig : Spec.solCost ctx.dist ctx.demand ctx.cap ctx.pen rs
      + (ctx.n - 1 : ℕ) * (1 / 1000000) < 10 ^ 30) :
    Spec.solCost ctx.dist ctx.demand ctx.cap ctx.pen routes
      ≤ Spec.solCost ctx.dist ctx.demand ctx.cap ctx.pen rs + (ctx.n - 1 : ℕ) * (1 / 1000000) := by
  have hl0 : Loaded ctx g (resetAll (cfg.numVehicles + 1) ctx.n s1) :=
    ⟨hl1.cap, hl1.pen, hl1.cumLoad, hl1.cumDist, hl1.distDepot⟩
  unfold splitLimited at h3
  dsimp only at h3
  rw [hlin] at h3
  simp only [if_true] at h3
  split at h3
  · simp at h3
  · rename_i s3 hrun
    simp only [Option.some.injEq, Prod.mk.injEq] at h3
    obtain ⟨rfl, h3, -⟩ := h3
    rw [← h3, solCost_pad _ _ _ _ h00 hcap]
    rw [List.range_eq_range'] at hrun
    obtain ⟨r1, r2, r3⟩ := linearLimRows_opt ctx.n mv 0 _ s3 (by rw [hl0.pen]; exact hpen)
      (cumLoad_mono ctx g _ hl0 hdem) hrun
    have hl2 := r1.loaded hl0
    have hP0 : s3.pathCost 0 0 = 0 := by
      rw [(r2 0 0 (by omega)).1]; simp [resetAll]
    have hP0j : ∀ j, 1 ≤ j → j < ctx.n → s3.pathCost 0 j = 10 ^ 30 := by
      intro j h1 h2
      rw [(r2 0 j (by omega)).1]
      simp only [resetAll, rat_lit]
      rw [if_neg (by omega), if_pos (by omega)]
    set last := ctx.n - 1 with hlast
    -- lower bound through `rs`
    have hrs1 : 1 ≤ rs.length := by
      by_contra h0
      have : rs = [] := by rw [← List.length_eq_zero_iff]; omega
      have h5 := congrArg List.length hrs.1
      rw [this] at h5
      simp at h5
      omega
    have e3 := dp_lower_rows g (Spec.routeCost ctx.dist ctx.demand ctx.cap ctx.pen) (fun _ => True)
      s3.pathCost (1 / 1000000) mv (by rw [hP0])
      (by
        intro k i j hk hki hij hj _ _
        obtain ⟨-, -, -, a4⟩ := r3 k (by omega) (by omega) j (by omega) (by omega)
        have := a4 i (by omega) hij
        rw [propagate_eq ctx hsym g hg s3 hl2 _ _ _ hij (by omega)] at this
        linarith) (by norm_num) rs (fun r hr => ⟨hrs.2 r hr, trivial⟩) hlen last (by omega)
      (by rw [hrs.1, ← hg, List.take_length])
    set v := bestCount s3 last (List.range' 1 (mv - 1)) (s3.pathCost mv last) mv with hv
    have hvr : 1 ≤ v ∧ v ≤ mv := by
      apply bestCount_range s3 last (fun v => 1 ≤ v ∧ v ≤ mv)
      · intro k hk; rw [List.mem_range'_1] at hk; omega
      · omega
    have hmin : s3.pathCost v last ≤ s3.pathCost rs.length last := by
      obtain ⟨m1, m2⟩ := bestCount_min s3 last (List.range' 1 (mv - 1)) mv
      by_cases he : rs.length = mv
      · rw [he]; exact m1
      · exact m2 rs.length (by rw [List.mem_range'_1]; omega)
    have hsum : (rs.map (Spec.routeCost ctx.dist ctx.demand ctx.cap ctx.pen)).sum
        = Spec.solCost ctx.dist ctx.demand ctx.cap ctx.pen rs := rfl
    rw [hsum] at e3
    have hPv : s3.pathCost v last < 10 ^ 30 := by linarith
    have hvl : v ≤ last := by
      by_contra hgt
      have : s3.pathCost v last = 10 ^ 30 := by
        rw [(r2 v last (by omega)).1]
        simp only [resetAll, rat_lit]
        rw [if_neg (by omega), if_pos (by omega)]
      rw [this] at hPv
      exact lt_irrefl _ hPv
    obtain ⟨k1, rs', f1, f2, -⟩ := extractLim_cost g
      (Spec.routeCost ctx.dist ctx.demand ctx.cap ctx.pen) (fun _ => True) s3.preds s3.pathCost
      (fun v j => v ≤ mv ∧ v ≤ j ∧ j ≤ last ∧ s3.pathCost v j < 10 ^ 30)
      (by
        rintro v j hj ⟨h1, h2, h3, h4⟩
        obtain ⟨a1, a2, a3, -⟩ := r3 v (by omega) (by omega) j (by omega) (by omega)
        rw [propagate_eq ctx hsym g hg s3 hl2 _ _ _ a2 (by omega)] at a3
        have := Spec.routeCost_nonneg ctx.dist ctx.demand hdist ctx.cap hpen
          (segment g (s3.preds (v + 1) j) j)
        refine ⟨a2, ⟨by omega, a1, by omega, ?_⟩, trivial, a3⟩
        rw [a3] at h4
        linarith) v last [] (by omega) ⟨hvr.2, hvl, le_refl _, hPv⟩
    have h0 : (extractLim s3.preds g v last []).1 = 0 := by
      by_contra hne
      have := hP0j _ (by omega : 1 ≤ (extractLim s3.preds g v last []).1) (by
        have := k1.2.2.1; omega)
      have := k1.2.2.2
      linarith
    rw [f1, List.append_nil]
    unfold Spec.solCost
    rw [f2, h0, hP0]
    linarith

end linear

section bellman
variable (cfg : SplitCfg ℚ) (hlin : cfg.linear = false) (ctx : Ctx ℚ) (g : List ℕ)
  (hg : g.length = ctx.n - 1) (h00 : ctx.dist 0 0 = 0) (hcap : 0 ≤ ctx.cap)
  (hpen : 0 ≤ ctx.pen) (hdem : ∀ a, 0 ≤ ctx.demand a) (hdist : ∀ a b, 0 ≤ ctx.dist a b)

include hlin hg hpen hdem hdist in
theorem split_bellman_opt (s1 s2 : Split ℚ) (hl1 : Loaded ctx g s1) (mv : ℕ)
    (routes : List (List ℕ)) (flag : Bool) (h3 : split cfg ctx s1 g mv = some (s2, routes, flag))
    (rs : List (List ℕ)) (hrs : Spec.IsSegmentation g rs)
    (hfit : ∀ r ∈ rs, Spec.routeLoad ctx.demand r ≤ ctx.cap * cfg.capacityFactor)
    (hbig : Spec.solCost ctx.dist ctx.demand ctx.cap ctx.pen rs < 10 ^ 30) :
    ∃ res, routes = pad cfg.numVehicles res ∧ (res.map (tol ctx)).sum ≤ (rs.map (tol ctx)).sum ∧
      ∀ r ∈ res, Spec.routeLoad ctx.demand r < ctx.cap * cfg.capacityFactor + 1 / 1000000 := by
  set fits : ℚ → Bool := fun x => approxLte x (ctx.cap *. cfg.capacityFactor) with hfits
  have hfi : ∀ x, fits x = true ↔ x < ctx.cap * cfg.capacityFactor + 1 / 1000000 := by
    intro x; rw [hfits]; exact approxLte_iff _ _
  have hmono : ∀ x y, x ≤ y → fits y = true → fits x = true := by
    intro x y hxy h; rw [hfi] at *; linarith
  unfold Split.split at h3
  dsimp only at h3
  rw [hlin] at h3
  simp only [Bool.false_eq_true, if_false] at h3
  split at h3
  · simp at h3
  · rename_i s3 hrun
    split at h3
    · simp at h3
    · rename_i routes' hex
      simp only [Option.some.injEq, Prod.mk.injEq] at h3
      obtain ⟨-, h3, -⟩ := h3
      rw [List.range_eq_range'] at hrun
      have hb := bellmanLoop_opt ctx g fits hg hdem hmono (ctx.n - 1) 0 (resetRow0 ctx.n s1) s3
        (by omega) ⟨hl1.pen, by simp [resetRow0],
          fun j h1 h2 => Or.inl (by
            simp only [resetRow0, rat_lit]
            rw [if_neg (by omega), if_pos ⟨trivial, h1, h2⟩]),
          fun c j h1 => by omega⟩ hrun
      rw [Nat.zero_add] at hb
      have e3 := dp_lower g (tol ctx) (fitR ctx fits) (s3.pathCost 0) 0 (by rw [hb.zero])
        (by
          intro i j hij hj hf
          have := hb.complete i j (by omega) hij (by omega) hf
          linarith) (le_refl _) rs (fun r hr => ⟨hrs.2 r hr, by
            have := hfit r hr
            show fits _ = true
            rw [hfi]; linarith⟩) (ctx.n - 1) (by omega) (by rw [hrs.1, ← hg, List.take_length])
      rw [mul_zero, add_zero] at e3
      have hle := tol_sum_le ctx hpen rs
      obtain ⟨res, e1, e2, e4⟩ := extract_cost g (tol ctx) (fitR ctx fits) (s3.preds 0)
        (s3.pathCost 0) (fun j => s3.pathCost 0 j < 10 ^ 30)
        (by
          intro j hj1 hj2 hlt
          rcases hb.sound j hj1 (by omega) with h | ⟨a1, a2, a3, a4⟩
          · rw [h] at hlt; exact absurd hlt (lt_irrefl _)
          · have := Spec.tolCost_nonneg ctx.dist ctx.demand ctx.cap ctx.pen hdist hpen
              (segment g (s3.preds 0 j) j)
            refine ⟨a1, ?_, a3, a4⟩
            rw [a4] at hlt
            linarith) (ctx.n - 1) (ctx.n - 1) [] routes' (by omega) (by linarith) hex
      rw [List.nil_append] at e1
      refine ⟨res, by rw [← h3, e1], ?_, fun r hr => (hfi _).mp (e4 r hr)⟩
      rw [e2, hb.zero]
      linarith

theorem tol_bound (D Q : ℚ) (hD : ∀ a b, 0 ≤ ctx.dist a b ∧ ctx.dist a b ≤ D)
    (hQ : ∀ a, 0 ≤ ctx.demand a ∧ ctx.demand a ≤ Q) (hp : 0 ≤ ctx.pen) (hc : 0 ≤ ctx.cap) :
    ∀ rs : List (List ℕ), (∀ r ∈ rs, r ≠ []) →
      (rs.map (tol ctx)).sum ≤ 2 * (rs.flatten.length * D) + ctx.pen * (rs.flatten.length * Q) := by
  have hD0 : 0 ≤ D := le_trans (hD 0 0).1 (hD 0 0).2
  have hQ0 : 0 ≤ Q := le_trans (hQ 0).1 (hQ 0).2
  intro rs
  induction rs with
  | nil => intro _; simp
  | cons r rs ih =>
    intro h
    have h1 := ih (fun r hr => h r (by simp [hr]))
    have hr1 : 1 ≤ r.length := List.length_pos_iff.mpr (h r (by simp))
    have h2 : tol ctx r ≤ 2 * (r.length * D) + ctx.pen * (r.length * Q) := by
      unfold tol Spec.tolCost
      have b1 := Spec.pathDist_le ctx.dist D hD0 (fun a b => (hD a b).2) (0 :: (r ++ [0]))
      have b2 : ((0 :: (r ++ [0])).length - 1 : ℕ) = r.length + 1 := by simp
      rw [b2] at b1
      have b3 : ((r.length + 1 : ℕ) : ℚ) ≤ 2 * r.length := by exact_mod_cast (by omega)
      have b4 := mul_le_mul_of_nonneg_right b3 hD0
      have b5 := Spec.routeLoad_le ctx.demand Q (fun a => (hQ a).2) r
      have b6 : 0 ≤ ctx.pen * (r.length * Q) := mul_nonneg hp (mul_nonneg (by positivity) hQ0)
      have b7 : Spec.routeDist ctx.dist r ≤ 2 * (r.length * D) := by
        unfold Spec.routeDist; linarith
      split
      · have : (Spec.routeLoad ctx.demand r - ctx.cap) * ctx.pen ≤ (r.length * Q) * ctx.pen :=
          mul_le_mul_of_nonneg_right (by linarith) hp
        linarith
      · linarith
    simp only [List.map_cons, List.sum_cons, List.flatten_cons, List.length_append]
    push_cast
    have e1 : 2 * (((r.length : ℚ) + rs.flatten.length) * D)
        = 2 * (r.length * D) + 2 * (rs.flatten.length * D) := by ring
    have e2 : ctx.pen * (((r.length : ℚ) + rs.flatten.length) * Q)
        = ctx.pen * (r.length * Q) + ctx.pen * (rs.flatten.length * Q) := by ring
    rw [e1, e2]
    linarith

include hlin hg hcap in
theorem limited_bellman_opt (hwell : WellBelowSentinel ctx) (hn : 2 ≤ ctx.n) (s1 s2 : Split ℚ)
    (hl1 : Loaded ctx g s1) (mv : ℕ) (hmv : 1 ≤ mv) (hfleet : mv ≤ cfg.numVehicles)
    (routes : List (List ℕ)) (flag : Bool)
    (h3 : splitLimited cfg ctx s1 g mv = some (s2, routes, flag))
    (rs : List (List ℕ)) (hrs : Spec.IsSegmentation g rs) (hlen : rs.length ≤ mv)
    (hfit : ∀ r ∈ rs, Spec.routeLoad ctx.demand r ≤ ctx.cap * cfg.capacityFactor) :
    ∃ res, routes = pad cfg.numVehicles res ∧ (res.map (tol ctx)).sum ≤ (rs.map (tol ctx)).sum ∧
      ∀ r ∈ res, Spec.routeLoad ctx.demand r ≤ ctx.cap * cfg.capacityFactor := by
  obtain ⟨D, Q, hD, hQ, hp, hb⟩ := hwell
  have hD0 : 0 ≤ D := le_trans (hD 0 0).1 (hD 0 0).2
  have hQ0 : 0 ≤ Q := le_trans (hQ 0).1 (hQ 0).2
  have hdem : ∀ a, 0 ≤ ctx.demand a := fun a => (hQ a).1
  set fits : ℚ → Bool := fun x => x ≤. ctx.cap *. cfg.capacityFactor with hfits
  have hfi : ∀ x, fits x = true ↔ x ≤ ctx.cap * cfg.capacityFactor := by
    intro x; rw [hfits]; simp
  have hmono : ∀ x y, x ≤ y → fits y = true → fits x = true := by
    intro x y hxy h; rw [hfi] at *; linarith
  have hB : ∀ (rs : List (List ℕ)) (t : ℕ), t ≤ g.length → rs.flatten = g.take t →
      (∀ r ∈ rs, r ≠ []) → (rs.map (tol ctx)).sum ≤ 10 ^ 29 := by
    intro rs t ht h1 h2
    have h4 := tol_bound ctx D Q hD hQ hp hcap rs h2
    have h5 : (rs.flatten.length : ℚ) ≤ ctx.n := by
      have : rs.flatten.length ≤ ctx.n := by rw [h1]; simp; omega
      exact_mod_cast this
    have h6 := mul_le_mul_of_nonneg_right h5 hD0
    have h7 := mul_le_mul_of_nonneg_left (mul_le_mul_of_nonneg_right h5 hQ0) hp
    linarith
  unfold splitLimited at h3
  dsimp only at h3
  rw [hlin] at h3
  simp only [Bool.false_eq_true, if_false] at h3
  split at h3
  · simp at h3
  · rename_i s3 hrun
    simp only [Option.some.injEq, Prod.mk.injEq] at h3
    obtain ⟨rfl, h3, -⟩ := h3
    rw [List.range_eq_range'] at hrun
    obtain ⟨r1, -, r3⟩ := bellmanLimRows_opt ctx g fits hg hdem hmono hB mv 0
      (resetAll (cfg.numVehicles + 1) ctx.n s1) s3 hl1.pen
      (by
        intro r j h1 h2 h3 h4
        simp only [resetAll, rat_lit]
        rw [if_neg (by omega), if_pos (by omega)])
      (by
        intro c _ hc rs h1 h2 _
        rw [List.length_eq_zero_iff] at h1
        subst h1
        have : c = 0 := by
          have := congrArg List.length h2
          simpa [Nat.min_eq_left hc] using this.symm
        subst this
        simp [resetAll]) hrun
    have hP0 : s3.pathCost 0 0 = 0 := by rw [(r1 0 (by omega)).1]; simp [resetAll]
    have hP0j : ∀ j, 1 ≤ j → j < ctx.n → s3.pathCost 0 j = 10 ^ 30 := by
      intro j h1 h2
      rw [(r1 0 (by omega)).1]
      simp only [resetAll, rat_lit]
      rw [if_neg (by omega), if_pos (by omega)]
    set last := ctx.n - 1 with hlast
    have hrs1 : 1 ≤ rs.length := by
      by_contra h0
      have : rs = [] := by rw [← List.length_eq_zero_iff]; omega
      have h5 := congrArg List.length hrs.1
      rw [this] at h5
      simp at h5
      omega
    have hrsfit : ∀ r ∈ rs, r ≠ [] ∧ fitR ctx fits r :=
      fun r hr => ⟨hrs.2 r hr, (hfi _).mpr (hfit r hr)⟩
    have e3 := dp_lower_rows g (tol ctx) (fitR ctx fits) s3.pathCost 0 mv (by rw [hP0])
      (by
        intro k i j hk hki hij hj hreach hf
        have := (r3 k (by omega) (by omega)).2 i j hki hij (by omega) hreach hf
        linarith) (le_refl _) rs hrsfit hlen last (by omega)
      (by rw [hrs.1, ← hg, List.take_length])
    rw [mul_zero, add_zero] at e3
    have hsmall := hB rs last (by omega) (by rw [hrs.1, ← hg, List.take_length]) hrs.2
    set v := bestCount s3 last (List.range' 1 (mv - 1)) (s3.pathCost mv last) mv with hv
    have hvr : 1 ≤ v ∧ v ≤ mv := by
      apply bestCount_range s3 last (fun v => 1 ≤ v ∧ v ≤ mv)
      · intro k hk; rw [List.mem_range'_1] at hk; omega
      · omega
    have hmin : s3.pathCost v last ≤ s3.pathCost rs.length last := by
      obtain ⟨m1, m2⟩ := bestCount_min s3 last (List.range' 1 (mv - 1)) mv
      by_cases he : rs.length = mv
      · rw [he]; exact m1
      · exact m2 rs.length (by rw [List.mem_range'_1]; omega)
    have hPv : s3.pathCost v last < 10 ^ 30 := by
      have : (10 : ℚ) ^ 29 < 10 ^ 30 := by norm_num
      linarith
    obtain ⟨k1, rs', f1, f2, f3⟩ := extractLim_cost g (tol ctx) (fitR ctx fits) s3.preds s3.pathCost
      (fun v j => v ≤ mv ∧ (1 ≤ v → 1 ≤ j) ∧ j ≤ last ∧ s3.pathCost v j < 10 ^ 30)
      (by
        rintro v j hj ⟨h1, h2, h3, h4⟩
        rcases (r3 v (by omega) (by omega)).1 j (h2 (by omega)) (by omega) with h | ⟨a1, a2, a3, a4⟩
        · rw [h] at h4; exact absurd h4 (lt_irrefl _)
        · have := Spec.tolCost_nonneg ctx.dist ctx.demand ctx.cap ctx.pen (fun a b => (hD a b).1) hp
            (segment g (s3.preds (v + 1) j) j)
          refine ⟨a1, ⟨by omega, by omega, by omega, ?_⟩, a3, a4⟩
          rw [a4] at h4
          linarith) v last [] (by omega) ⟨hvr.2, by omega, le_refl _, hPv⟩
    have h0 : (extractLim s3.preds g v last []).1 = 0 := by
      by_contra hne
      have := hP0j _ (by omega : 1 ≤ (extractLim s3.preds g v last []).1) (by
        have := k1.2.2.1; omega)
      have := k1.2.2.2
      linarith
    rw [List.append_nil] at f1
    refine ⟨rs', by rw [← h3, f1], ?_, fun r hr => (hfi _).mp (f3 r hr).1⟩
    rw [f2, h0, hP0]
    linarith

end bellman

theorem loaded_split (cfg : SplitCfg ℚ) (ctx : Ctx ℚ) (g : List ℕ) (hg : g.length = ctx.n - 1)
    (s1 s2 : Split ℚ) (hl1 : Loaded ctx g s1) (hle : PredsLe s1) (mv : ℕ)
    (r : List (List ℕ) × Bool) (h2 : split cfg ctx s1 g mv = some (s2, r)) : Loaded ctx g s2 := by
  unfold Split.split at h2
  dsimp only at h2
  split at h2
  · simp at h2
  · rename_i s2' hrun
    split at h2
    · simp at h2
    · simp only [Option.some.injEq, Prod.mk.injEq] at h2
      obtain ⟨rfl, -⟩ := h2
      have hreset : Loaded ctx g (resetRow0 ctx.n s1) :=
        ⟨hl1.cap, hl1.pen, hl1.cumLoad, hl1.cumDist, hl1.distDepot⟩
      split at hrun
      · exact (linearLoop_data ctx.n _ _ _ _ [0] (by simp) (by simp) hrun hle).1.loaded hreset
      · exact (bellmanLoop_data ctx g _ hg _ _ _ (by simp) hrun hle).1.loaded hreset

/-- The stages of a successful `run`. -/
theorem run_stages (atan2 : ℚ → ℚ → ℚ) (cfg : SplitCfg ℚ) (ctx : Ctx ℚ) (lb : ℕ) (s s' : Split ℚ)
    (x y : Individual ℚ) (mv : ℕ) (h : run atan2 cfg ctx lb s x mv = some (s', y)) :
    ∃ s1 s2 r2 flag, load ctx s x.genotype = some s1 ∧
      split cfg ctx s1 x.genotype (max mv lb) = some (s2, r2, flag) ∧
      ∃ routes, y.phenotype.Perm routes ∧
        ((flag = true ∧ routes = r2) ∨ (flag = false ∧ ∃ s3 fl, splitLimited cfg ctx s2 x.genotype
          (max mv lb) = some (s3, routes, fl))) := by
  unfold run at h
  dsimp only at h
  split at h
  · simp at h
  · rename_i s1 h1
    split at h
    · simp at h
    · rename_i s2 r2 flag h2
      have key : ∀ (routes : List (List ℕ)) (s3 : Split ℚ) (x1 : Individual ℚ),
          Individual.sortRoutes atan2 ctx { x with phenotype := routes } = some x1 →
          (x1.evaluate ctx).map (fun x => (s3, x)) = some (s', y) → y.phenotype.Perm routes := by
        intro routes s3 x1 hx1 hk
        rw [Option.map_eq_some_iff] at hk
        obtain ⟨x2, e1, e2⟩ := hk
        simp only [Prod.mk.injEq] at e2
        obtain ⟨-, rfl⟩ := e2
        have hp : x2.phenotype = x1.phenotype := by
          unfold Individual.evaluate at e1
          rw [Option.map_eq_some_iff] at e1
          obtain ⟨e, -, rfl⟩ := e1; rfl
        rw [hp]
        exact sortRoutes_perm_of_some atan2 ctx _ _ hx1
      refine ⟨s1, s2, r2, flag, h1, h2, ?_⟩
      cases flag with
      | true =>
        simp only [if_true] at h
        split at h
        · simp at h
        · rename_i x1 hx1
          exact ⟨r2, key r2 s2 x1 hx1 h, Or.inl ⟨rfl, rfl⟩⟩
      | false =>
        simp only [Bool.false_eq_true, if_false] at h
        cases h3 : splitLimited cfg ctx s2 x.genotype (max mv lb) with
        | none => rw [h3] at h; simp at h
        | some t =>
          obtain ⟨s3, routes, fl⟩ := t
          rw [h3] at h
          simp only [Option.map_some] at h
          split at h
          · simp at h
          · rename_i x1 hx1
            exact ⟨routes, key routes s3 x1 hx1 h, Or.inr ⟨rfl, s3, fl, rfl⟩⟩

end Split

/-- **C05, linear split, unlimited fleet.** From any reachable state of the split object and for every
tour: no segmentation of the tour is cheaper than the returned one by more than `1e-6` per customer. -/
theorem C05_linear_optimal (cfg : SplitCfg ℚ) (hlin : cfg.linear = true) (ctx : Ctx ℚ)
    (s : Split ℚ) (hs : SplitReachable cfg ctx.n ctx.cap s) (g : List ℕ)
    (hg : g.length = ctx.n - 1) (mv : ℕ)
    (hsym : ∀ a b, ctx.dist a b = ctx.dist b a) (h00 : ctx.dist 0 0 = 0) (hcap : 0 ≤ ctx.cap)
    (hpen : 0 ≤ ctx.pen) (hdem : ∀ a, 0 ≤ ctx.demand a) :
    ∃ s₁ s₂ routes flag, load ctx s g = some s₁ ∧ split cfg ctx s₁ g mv = some (s₂, routes, flag) ∧
      ∀ rs, Spec.IsSegmentation g rs →
        Spec.solCost ctx.dist ctx.demand ctx.cap ctx.pen routes
          ≤ Spec.solCost ctx.dist ctx.demand ctx.cap ctx.pen rs + (ctx.n - 1 : ℕ) * (1 / 1000000) := by
  have hinv := splitReachable_inv cfg ctx.n ctx.cap s hs
  obtain ⟨s1, h1, hp1, -, hl1⟩ := load_rat ctx s g hg hinv.zero hinv.cap
  have hpred : PredOK s1 := by intro i hi; rw [hp1]; exact hinv.pred i hi
  obtain ⟨s2, routes, h3, -, -, -⟩ := split_core cfg ctx s1 g mv hg hpred
  exact ⟨s1, s2, _, _, h1, h3, fun rs hrs => split_linear_opt cfg hlin ctx g hg hsym h00 hcap hpen
    hdem s1 s2 hl1 hpred mv _ _ h3 rs hrs⟩

theorem tol_sum_exact (ctx : Ctx ℚ) (hint : ∀ r, Spec.routeLoad ctx.demand r ≤ ctx.cap ∨
      ctx.cap + 1 / 1000000 < Spec.routeLoad ctx.demand r) (rs : List (List ℕ)) :
    (rs.map (tol ctx)).sum = Spec.solCost ctx.dist ctx.demand ctx.cap ctx.pen rs := by
  unfold Spec.solCost
  congr 1
  apply List.map_congr_left
  intro r _
  unfold tol Spec.tolCost Spec.routeCost
  rcases hint r with h | h
  · rw [if_neg (by linarith), max_eq_left (by linarith), mul_zero]
  · rw [if_pos (by linarith), max_eq_right (by linarith), mul_comm]

theorem solCost_le_tol (ctx : Ctx ℚ) (hpen : 0 ≤ ctx.pen) (rs : List (List ℕ)) :
    Spec.solCost ctx.dist ctx.demand ctx.cap ctx.pen rs
      ≤ (rs.map (tol ctx)).sum + rs.length * (ctx.pen * (1 / 1000000)) := by
  induction rs with
  | nil => simp
  | cons r rs ih =>
    rw [Spec.solCost_cons, List.map_cons, List.sum_cons, List.length_cons]
    have := Spec.routeCost_le_tol ctx.dist ctx.demand ctx.cap ctx.pen hpen r
    push_cast
    unfold tol at *
    linarith

/-- **C05, Bellman split, unlimited fleet.** From any reachable state and for every tour: if some
segmentation into routes of load at most `capacity_factor · capacity` exists, the returned routes respect
that limit (up to `1e-6`) and no such segmentation is cheaper by more than `pen · 1e-6` per returned
route; and none is cheaper at all when no set of customers has a load strictly above the capacity by at
most `1e-6` (for example integer demands and capacity). -/
theorem C05_bellman_optimal (cfg : SplitCfg ℚ) (hlin : cfg.linear = false) (ctx : Ctx ℚ)
    (s : Split ℚ) (hs : SplitReachable cfg ctx.n ctx.cap s) (g : List ℕ)
    (hg : g.length = ctx.n - 1) (mv : ℕ) (h00 : ctx.dist 0 0 = 0)
    (hdist : ∀ a b, 0 ≤ ctx.dist a b) (hcap : 0 ≤ ctx.cap)
    (hpen : 0 ≤ ctx.pen) (hdem : ∀ a, 0 ≤ ctx.demand a) :
    ∃ s₁ s₂ routes flag, load ctx s g = some s₁ ∧ split cfg ctx s₁ g mv = some (s₂, routes, flag) ∧
      ∀ rs, Spec.IsSegmentation g rs →
        (∀ r ∈ rs, Spec.routeLoad ctx.demand r ≤ ctx.cap * cfg.capacityFactor) →
        Spec.solCost ctx.dist ctx.demand ctx.cap ctx.pen rs < 10 ^ 30 →
        (∀ r ∈ routes, r ≠ [] →
          Spec.routeLoad ctx.demand r < ctx.cap * cfg.capacityFactor + 1 / 1000000) ∧
        Spec.solCost ctx.dist ctx.demand ctx.cap ctx.pen routes
          ≤ Spec.solCost ctx.dist ctx.demand ctx.cap ctx.pen rs
            + (routes.filter (· ≠ [])).length * (ctx.pen * (1 / 1000000)) ∧
        ((∀ r, Spec.routeLoad ctx.demand r ≤ ctx.cap ∨
            ctx.cap + 1 / 1000000 < Spec.routeLoad ctx.demand r) →
          Spec.solCost ctx.dist ctx.demand ctx.cap ctx.pen routes
            ≤ Spec.solCost ctx.dist ctx.demand ctx.cap ctx.pen rs) := by
  have hinv := splitReachable_inv cfg ctx.n ctx.cap s hs
  obtain ⟨s1, h1, hp1, -, hl1⟩ := load_rat ctx s g hg hinv.zero hinv.cap
  have hpred : PredOK s1 := by intro i hi; rw [hp1]; exact hinv.pred i hi
  obtain ⟨s2, routes, h3, -, -, hne⟩ := split_core cfg ctx s1 g mv hg hpred
  refine ⟨s1, s2, _, _, h1, h3, ?_⟩
  intro rs hrs hfit hbig
  obtain ⟨res, e1, e2, e3⟩ := split_bellman_opt cfg hlin ctx g hg hpen hdem hdist s1 s2 hl1 mv _ _ h3
    rs hrs hfit hbig
  rw [e1]
  have hle := tol_sum_le ctx hpen rs
  refine ⟨?_, ?_, ?_⟩
  · intro r hr hrne
    rcases List.mem_append.mp hr with h | h
    · exact e3 r h
    · exact absurd (List.mem_replicate.mp h).2 hrne
  · rw [solCost_pad _ _ _ _ h00 hcap]
    have hfil : ((pad cfg.numVehicles res).filter (· ≠ [])) = res.filter (· ≠ []) := by
      unfold pad
      rw [List.filter_append]
      have : (List.replicate (cfg.numVehicles - res.length) ([] : List ℕ)).filter (· ≠ []) = [] := by
        rw [List.filter_eq_nil_iff]
        intro r hr
        rw [(List.mem_replicate.mp hr).2]; simp
      rw [this, List.append_nil]
    have hres : Spec.solCost ctx.dist ctx.demand ctx.cap ctx.pen res
        ≤ (res.map (tol ctx)).sum + (res.filter (· ≠ [])).length * (ctx.pen * (1 / 1000000)) := by
      clear e1 e2 e3 hfil
      induction res with
      | nil => simp
      | cons r res ih =>
        rw [Spec.solCost_cons, List.map_cons, List.sum_cons]
        by_cases hr : r = []
        · subst hr
          have : Spec.routeCost ctx.dist ctx.demand ctx.cap ctx.pen [] = 0 := by
            simp [Spec.routeCost, Spec.routeDist, h00, hcap]
          have h5 : 0 ≤ tol ctx [] := Spec.tolCost_nonneg _ _ _ _ hdist hpen _
          simp only [ne_eq, not_true_eq_false, decide_false, Bool.false_eq_true, not_false_eq_true,
            List.filter_cons_of_neg]
          linarith
        · have := Spec.routeCost_le_tol ctx.dist ctx.demand ctx.cap ctx.pen hpen r
          rw [List.filter_cons_of_pos (by simpa using hr), List.length_cons]
          push_cast
          unfold tol at *
          linarith
    rw [hfil]
    linarith
  · intro hint
    rw [solCost_pad _ _ _ _ h00 hcap, ← tol_sum_exact ctx hint, ← tol_sum_exact ctx hint]
    exact e2

/-- **C05 for `Split::run`, linear variant.** Also when the fleet limit forces the second pass: no
segmentation into at most `max(max_vehicles, lower bound)` routes is cheaper than the returned solution
by more than `1e-6` per customer. -/
theorem C05_run_linear_optimal (atan2 : ℚ → ℚ → ℚ) (cfg : SplitCfg ℚ) (hlin : cfg.linear = true)
    (ctx : Ctx ℚ) (lowerBound : ℕ) (s : Split ℚ) (hs : SplitReachable cfg ctx.n ctx.cap s)
    (x : Individual ℚ) (maxVehicles : ℕ) (hx : x.genotype.Perm (Spec.customers ctx.n))
    (hn : 2 ≤ ctx.n) (hmv : 1 ≤ max maxVehicles lowerBound)
    (hfleet : max maxVehicles lowerBound ≤ cfg.numVehicles) (hmag : BelowSentinel ctx)
    (hsym : ∀ a b, ctx.dist a b = ctx.dist b a) (h00 : ctx.dist 0 0 = 0) (hcap : 0 ≤ ctx.cap) :
    ∃ s' y, Split.run atan2 cfg ctx lowerBound s x maxVehicles = some (s', y) ∧
      ∀ rs, Spec.IsSegmentation x.genotype rs → rs.length ≤ max maxVehicles lowerBound →
        Spec.solCost ctx.dist ctx.demand ctx.cap ctx.pen rs
          + (ctx.n - 1 : ℕ) * (1 / 1000000) < 10 ^ 30 →
        Spec.solCost ctx.dist ctx.demand ctx.cap ctx.pen y.phenotype
          ≤ Spec.solCost ctx.dist ctx.demand ctx.cap ctx.pen rs + (ctx.n - 1 : ℕ) * (1 / 1000000) := by
  obtain ⟨s', y, hrun, -⟩ := C06_split_run atan2 cfg ctx lowerBound s hs x maxVehicles hx (by omega)
    hmv hfleet (fun _ => hmag)
  refine ⟨s', y, hrun, ?_⟩
  intro rs hrs hlen hbig
  obtain ⟨D, Q, hD, hQ, hpen, -⟩ := hmag
  have hg : x.genotype.length = ctx.n - 1 := by rw [hx.length_eq, Spec.length_customers]
  have hinv := splitReachable_inv cfg ctx.n ctx.cap s hs
  obtain ⟨s1, s2, r2, flag, h1, h2, routes, hp, hcase⟩ := run_stages _ _ _ _ _ _ _ _ _ hrun
  obtain ⟨s1', h1', hp1, -, hl1⟩ := load_rat ctx s x.genotype hg hinv.zero hinv.cap
  rw [h1] at h1'
  simp only [Option.some.injEq] at h1'
  subst h1'
  have hs1 : SplitReachable cfg ctx.n ctx.cap s1 := .load ctx rfl s s1 x.genotype hs h1
  have hinv1 := splitReachable_inv cfg ctx.n ctx.cap s1 hs1
  rw [Spec.solCost_perm _ _ _ _ hp]
  rcases hcase with ⟨-, rfl⟩ | ⟨-, s3, fl, h3⟩
  · exact split_linear_opt cfg hlin ctx _ hg hsym h00 hcap hpen (fun a => (hQ a).1) s1 s2 hl1
      hinv1.pred _ _ _ h2 rs hrs
  · exact limited_linear_opt cfg hlin ctx _ hg hsym h00 hcap hpen (fun a => (hQ a).1)
      (fun a b => (hD a b).1) hn s2 s3
      (loaded_split cfg ctx _ hg s1 s2 hl1 hinv1.le _ _ h2) _ hmv hfleet _ _ h3 rs hrs hlen hbig

/-- **C05 for `Split::run`, Bellman variant.** No segmentation into at most
`max(max_vehicles, lower bound)` routes of load at most `capacity_factor · capacity` is cheaper than the
returned solution by more than `pen · 1e-6` per vehicle, and none is cheaper at all if no set of
customers has a load strictly above the capacity by at most `1e-6`. -/
theorem C05_run_bellman_optimal (atan2 : ℚ → ℚ → ℚ) (cfg : SplitCfg ℚ) (hlin : cfg.linear = false)
    (ctx : Ctx ℚ) (lowerBound : ℕ) (s : Split ℚ) (hs : SplitReachable cfg ctx.n ctx.cap s)
    (x : Individual ℚ) (maxVehicles : ℕ) (hx : x.genotype.Perm (Spec.customers ctx.n))
    (hn : 2 ≤ ctx.n) (hmv : 1 ≤ max maxVehicles lowerBound)
    (hfleet : max maxVehicles lowerBound ≤ cfg.numVehicles) (hmag : WellBelowSentinel ctx)
    (h00 : ctx.dist 0 0 = 0) (hcap : 0 ≤ ctx.cap) :
    ∃ s' y, Split.run atan2 cfg ctx lowerBound s x maxVehicles = some (s', y) ∧
      ∀ rs, Spec.IsSegmentation x.genotype rs → rs.length ≤ max maxVehicles lowerBound →
        (∀ r ∈ rs, Spec.routeLoad ctx.demand r ≤ ctx.cap * cfg.capacityFactor) →
        Spec.solCost ctx.dist ctx.demand ctx.cap ctx.pen rs < 10 ^ 30 →
        Spec.solCost ctx.dist ctx.demand ctx.cap ctx.pen y.phenotype
          ≤ Spec.solCost ctx.dist ctx.demand ctx.cap ctx.pen rs
            + cfg.numVehicles * (ctx.pen * (1 / 1000000)) ∧
        ((∀ r, Spec.routeLoad ctx.demand r ≤ ctx.cap ∨
            ctx.cap + 1 / 1000000 < Spec.routeLoad ctx.demand r) →
          Spec.solCost ctx.dist ctx.demand ctx.cap ctx.pen y.phenotype
            ≤ Spec.solCost ctx.dist ctx.demand ctx.cap ctx.pen rs) := by
  obtain ⟨s', y, hrun, -, -, -, hlenv, -⟩ := C06_split_run atan2 cfg ctx lowerBound s hs x maxVehicles
    hx (by omega) hmv hfleet (fun h => by rw [hlin] at h; exact absurd h (by simp))
  refine ⟨s', y, hrun, ?_⟩
  intro rs hrs hlen hfit hbig
  have hmag' := hmag
  obtain ⟨D, Q, hD, hQ, hpen, -⟩ := hmag
  have hg : x.genotype.length = ctx.n - 1 := by rw [hx.length_eq, Spec.length_customers]
  have hinv := splitReachable_inv cfg ctx.n ctx.cap s hs
  obtain ⟨s1, s2, r2, flag, h1, h2, routes, hp, hcase⟩ := run_stages _ _ _ _ _ _ _ _ _ hrun
  obtain ⟨s1', h1', hp1, -, hl1⟩ := load_rat ctx s x.genotype hg hinv.zero hinv.cap
  rw [h1] at h1'
  simp only [Option.some.injEq] at h1'
  subst h1'
  have hs1 : SplitReachable cfg ctx.n ctx.cap s1 := .load ctx rfl s s1 x.genotype hs h1
  have hinv1 := splitReachable_inv cfg ctx.n ctx.cap s1 hs1
  have hle := tol_sum_le ctx hpen rs
  have hres : ∃ res, routes = pad cfg.numVehicles res ∧
      (res.map (tol ctx)).sum ≤ (rs.map (tol ctx)).sum := by
    rcases hcase with ⟨-, rfl⟩ | ⟨-, s3, fl, h3⟩
    · obtain ⟨res, e1, e2, -⟩ := split_bellman_opt cfg hlin ctx _ hg hpen (fun a => (hQ a).1)
        (fun a b => (hD a b).1) s1 s2 hl1 _ _ _ h2 rs hrs hfit hbig
      exact ⟨res, e1, e2⟩
    · obtain ⟨res, e1, e2, -⟩ := limited_bellman_opt cfg hlin ctx _ hg hcap hmag' hn s2 s3
        (loaded_split cfg ctx _ hg s1 s2 hl1 hinv1.le _ _ h2) _ hmv hfleet _ _ h3 rs hrs hlen hfit
      exact ⟨res, e1, e2⟩
  obtain ⟨res, e1, e2⟩ := hres
  rw [Spec.solCost_perm _ _ _ _ hp]
  constructor
  · have h5 : (res.length : ℚ) ≤ cfg.numVehicles := by
      have : res.length ≤ cfg.numVehicles := by
        rw [← hlenv, hp.length_eq, e1]; simp [pad]
      exact_mod_cast this
    have h6 := mul_le_mul_of_nonneg_right h5 (mul_nonneg hpen (by norm_num : (0:ℚ) ≤ 1 / 1000000))
    have h7 := solCost_le_tol ctx hpen res
    rw [e1, solCost_pad _ _ _ _ h00 hcap]
    linarith
  · intro hint
    rw [e1, solCost_pad _ _ _ _ h00 hcap, ← tol_sum_exact ctx hint, ← tol_sum_exact ctx hint]
    exact e2

/-- Three customers and two vehicles: the hypotheses are met, and so is that of an admissible
segmentation with loads `4` and `2` under the limit `1.5 · 5`. -/
example : let ctx : Ctx ℚ := ⟨4, fun a b => if a = b then 0 else 7, fun _ => 2, 5, 2,
      fun _ => 0, fun _ => 0⟩
    BelowSentinel ctx ∧ WellBelowSentinel ctx ∧ (∀ a b, ctx.dist a b = ctx.dist b a) ∧
      SplitReachable ⟨false, 1.5, 2⟩ ctx.n ctx.cap (Split.new ctx) ∧
      Spec.IsSegmentation [2, 3, 1] [[2, 3], [1]] ∧
      (∀ r ∈ [[2, 3], [1]], Spec.routeLoad ctx.demand r ≤ ctx.cap * 1.5) := by
  refine ⟨⟨7, 2, ?_, ?_, ?_, ?_⟩, ⟨7, 2, ?_, ?_, ?_, ?_⟩, ?_, .new _ rfl rfl, ?_, ?_⟩
  · intro a b; dsimp only; split <;> norm_num
  · intro a; norm_num
  · norm_num
  · norm_num
  · intro a b; dsimp only; split <;> norm_num
  · intro a; norm_num
  · norm_num
  · norm_num
  · intro a b; dsimp only; simp [eq_comm]
  · exact ⟨rfl, by simp⟩
  · intro r hr
    simp only [List.mem_cons, List.not_mem_nil, or_false] at hr
    rcases hr with rfl | rfl <;> norm_num

end Verif
