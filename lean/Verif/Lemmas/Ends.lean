import Verif.Props.GeneticRun

/-! # The steps of the genetic loop end without a panic (exact arithmetic) -/

namespace Verif
open F64 RRSol

/-- With enough fuel the result is `r`. -/
def EndsIn {β : Type} (F : ℕ → Option β) (r : β) : Prop := ∃ N, ∀ f, N ≤ f → F f = some r

namespace EndsIn

variable {β γ : Type} {F : ℕ → Option β} {r : β}

theorem some_of (h : EndsIn F r) : ∃ f, F f = some r := by
  obtain ⟨N, h⟩ := h
  exact ⟨N, h N (le_refl _)⟩

theorem const {o : Option β} (h : o = some r) : EndsIn (fun _ => o) r := ⟨0, fun _ _ => h⟩

theorem bind {G : ℕ → β → Option γ} {t : γ} (h : EndsIn F r) (k : EndsIn (fun f => G f r) t) :
    EndsIn (fun f => (F f).bind (G f)) t := by
  obtain ⟨N, h⟩ := h
  obtain ⟨M, k⟩ := k
  exact ⟨max N M, fun f hf => by
    dsimp only
    rw [h f (le_trans (le_max_left _ _) hf), Option.bind_some]
    exact k f (le_trans (le_max_right _ _) hf)⟩

theorem map {G : β → γ} (h : EndsIn F r) : EndsIn (fun f => (F f).map G) (G r) := by
  obtain ⟨N, h⟩ := h
  exact ⟨N, fun f hf => by dsimp only; rw [h f hf]; rfl⟩

end EndsIn

theorem RRSol.Tame.at_le {ctx : Ctx ℚ} {p q : ℚ} (h : Tame (RR.ctxAt ctx q)) (h0 : 0 ≤ p) (h1 : p ≤ q) :
    Tame (RR.ctxAt ctx p) := by
  refine ⟨h.dist, h.demand, h.cap, h0, le_trans ?_ h.bound⟩
  exact mul_le_mul_of_nonneg_left h1 (Spec.routeLoad_nonneg _ h.demand _)

/-! ### More fuel does not change the result -/

namespace LS

variable {α : Type} [F64 α] {ctx : Ctx α} {f : MoveFlags} {ω : Oracle}

theorem searchLoop_mono : ∀ (fuel : ℕ) {i lc : ℕ} {s s' : LS α}, searchLoop ctx f ω fuel i lc s = some s' →
    ∀ fuel', fuel ≤ fuel' → searchLoop ctx f ω fuel' i lc s = some s'
  | 0, _, _, _, _, h, _, _ => by simp [searchLoop] at h
  | fuel + 1, i, lc, s, s', h, fuel', hle => by
    obtain ⟨m, rfl⟩ : ∃ m, fuel' = m + 1 := ⟨fuel' - 1, by omega⟩
    unfold searchLoop at h ⊢
    obtain ⟨p, h1, h⟩ := Option.bind_eq_some_iff.mp h
    rw [h1, Option.bind_some]
    split at h
    · rename_i hp
      rw [if_pos hp]
      exact searchLoop_mono fuel h m (by omega)
    · rename_i hp
      rw [if_neg hp]
      exact h

theorem run_mono {atan2 : α → α → α} {fuel fuel' : ℕ} {penMult : α} {s : LS α} {x : Individual α}
    {r : LS α × Individual α} (h : run atan2 ctx f ω fuel penMult s x = some r) (hle : fuel ≤ fuel') :
    run atan2 ctx f ω fuel' penMult s x = some r := by
  unfold run at h ⊢
  obtain ⟨s1, h1, h⟩ := Option.bind_eq_some_iff.mp h
  obtain ⟨s2, h2, h⟩ := Option.bind_eq_some_iff.mp h
  rw [h1, Option.bind_some]
  have := searchLoop_mono fuel h2 fuel' hle
  unfold search
  rw [this, Option.bind_some]
  exact h

end LS

theorem drawEnd_mono {ω : Oracle} {len start e : ℕ} : ∀ (fuel : ℕ) {k : ℕ},
    drawEnd ω len start fuel k = some e → ∀ fuel', fuel ≤ fuel' → drawEnd ω len start fuel' k = some e
  | 0, _, h, _, _ => by simp [drawEnd] at h
  | fuel + 1, k, h, fuel', hle => by
    obtain ⟨m, rfl⟩ : ∃ m, fuel' = m + 1 := ⟨fuel' - 1, by omega⟩
    unfold drawEnd at h ⊢
    split at h
    · simp at h
    · split at h
      · rename_i hp
        rw [if_pos hp]
        exact drawEnd_mono fuel h m (by omega)
      · rename_i hp
        rw [if_neg hp]
        exact h

theorem crossover_mono {ω : Oracle} {fuel fuel' : ℕ} {p1 p2 c : List ℕ}
    (h : crossover ω fuel p1 p2 = some c) (hle : fuel ≤ fuel') : crossover ω fuel' p1 p2 = some c := by
  unfold crossover at h ⊢
  split at h
  · simp at h
  · split at h
    · simp at h
    · rename_i he
      rw [drawEnd_mono _ he fuel' hle]
      exact h

/-! ### Population -/

namespace SubPop

theorem average_total {α : Type} [F64 α] {s : SubPop α} (ht : Table s.pop s.div) (num : ℕ) {x : Individual α}
    (hx : x ∈ s.pop) : ∃ a, s.average x num = some a := by
  have hl := ht.vec_length (List.mem_map_of_mem hx : x.number ∈ nums s.pop)
  unfold average
  unfold vec at hl
  cases hv : s.div x.number with
  | none => exact ⟨_, rfl⟩
  | some v =>
    rw [hv] at hl
    dsimp only [Option.getD_some] at hl ⊢
    rw [if_pos (by rw [hl]; exact Nat.min_le_right _ _)]
    exact ⟨_, rfl⟩

theorem getDiversity_total {α : Type} [F64 α] {s : SubPop α} (ht : Table s.pop s.div) (cfg : PopCfg) :
    ∃ d, s.getDiversity cfg = some d := by
  unfold getDiversity
  dsimp only
  have key : ∀ (l : List (Individual α)) (t : α), (∀ x ∈ l, x ∈ s.pop) →
      ∃ r, l.foldlM (fun t x => (s.average x (Nat.min s.pop.length cfg.minSize)).map fun a => t +. a) t =
        some r := by
    intro l
    induction l with
    | nil => exact fun t _ => ⟨t, rfl⟩
    | cons x l ih =>
      intro t h
      obtain ⟨a, ha⟩ := average_total ht (Nat.min s.pop.length cfg.minSize) (h x (by simp))
      rw [List.foldlM_cons, ha]
      exact ih _ fun y hy => h y (by simp [hy])
  obtain ⟨r, hr⟩ := key _ (lit 0) fun x hx => List.mem_of_mem_take hx
  rw [hr]
  exact ⟨_, rfl⟩

theorem add_nonempty {α : Type} [F64 α] {cfg : PopCfg} {bs : BSearch} (hbs : BSearchOK bs)
    {x : Individual α} {s s' : SubPop α} (h : s.add cfg bs x = some s') (ht : Table s.pop s.div)
    (hx : x.number ∉ nums s.pop) : s'.pop ≠ [] := by
  obtain ⟨os, m, s2, -, hle, -, -, h1, -, -, -, -, h5⟩ := add_some hbs h ht hx
  have h2 : s2.pop ≠ [] := by
    intro e
    rcases h1 with ⟨a, -, h1⟩ | ⟨-, h1⟩
    · rw [e] at h1
      simp at h1
      exact a h1
    · rw [e] at h1
      have := congrArg List.length h1
      rw [List.length_map, List.length_map, List.length_insertIdx, if_pos hle] at this
      simp at this
  rcases h5 with ⟨-, h5⟩ | ⟨-, rfl⟩
  · obtain ⟨a, -, -⟩ := selectLoop_shrunk h5
    intro e
    have := a.head
    rw [e] at this
    cases hp : s2.pop with
    | nil => exact h2 hp
    | cons b l => rw [hp] at this; simp at this
  · exact h2

end SubPop

/-- Some individual is there. -/
def Population.Nonempty {α : Type} (p : Population α) : Prop :=
  p.feasible.pop ≠ [] ∨ p.infeasible.pop ≠ []

theorem Population.add_nonempty {α : Type} [F64 α] {ctx : Ctx α} {cfg : PopCfg} {bs : BSearch}
    (hbs : BSearchOK bs) {p p' : Population α} (hI : Population.Inv ctx cfg p)
    {x : Individual α} {u : Bool} (h : p.add cfg bs x u = some p') : p'.Nonempty := by
  unfold Population.add at h
  dsimp only at h
  split at h
  · obtain ⟨s, hs, rfl⟩ := Option.map_eq_some_iff.mp h
    exact Or.inl (SubPop.add_nonempty hbs hs hI.feasible.table hI.feasible.fresh)
  · obtain ⟨s, hs, rfl⟩ := Option.map_eq_some_iff.mp h
    exact Or.inr (SubPop.add_nonempty hbs hs hI.infeasible.table hI.infeasible.fresh)

/-! ### Ruin and recreate -/

namespace RR

variable {env : RREnv ℚ} {ctx : Ctx ℚ} {nv : ℕ}

theorem searchLoop_runs {ch : ℕ → ℕ → RRChoice ℚ} (hch : ∀ i k, ChoiceOK (ch i k))
    (hnv : env.numVehicles = nv) (hn : 2 ≤ ctx.n) (hnb : NbrsOK ctx.n env.nbrs) : ∀ (d i : ℕ) {st : RR ℚ}
    {s : IterSchedule ℚ}, Inv ctx nv st → st.updatePenalty = false → Tame (ctxAt ctx st.pen) →
    st.acceptance = .iteration s → s.total - s.iteration ≤ d →
    ∃ r, EndsIn (fun f => runToEnd env ctx ch f i st) r := by
  intro d
  induction d with
  | zero =>
    intro i st s _ _ _ hs hd
    refine ⟨st, 1, fun f hf => ?_⟩
    obtain ⟨m, rfl⟩ : ∃ m, f = m + 1 := ⟨f - 1, by omega⟩
    dsimp only
    unfold runToEnd
    rw [if_pos]
    rw [hs]
    show decide _ = true
    rw [decide_eq_true_eq]
    omega
  | succ d ih =>
    intro i st s hi hu ht hs hd
    by_cases hc : st.acceptance.completed = true
    · refine ⟨st, 1, fun f hf => ?_⟩
      obtain ⟨m, rfl⟩ : ∃ m, f = m + 1 := ⟨f - 1, by omega⟩
      dsimp only
      unfold runToEnd
      rw [if_pos hc]
    · obtain ⟨st1, h1⟩ := searchLoop_total (hch i) hnv hn hnb 1000 hi hu ht
      obtain ⟨s1, n1⟩ := searchLoop_inv (P := fun _ => True) (hch i) hnv 1000 hi
        ⟨trivial, fun _ _ _ => ⟨trivial, trivial⟩⟩ h1
      obtain ⟨s', e1, e2, e3⟩ := search_acceptance hs h1
      have hlt : s.iteration < s.total := by
        rw [hs] at hc
        have hc : ¬ decide (s.total ≤ s.iteration) = true := hc
        rw [decide_eq_true_eq] at hc
        omega
      obtain ⟨r, N, hr⟩ := ih (i + 1) s1.inv (s1.upd.trans hu) (by rw [(n1 hu).1]; exact ht) e1 (by omega)
      refine ⟨r, N + 1, fun f hf => ?_⟩
      obtain ⟨m, rfl⟩ : ∃ m, f = m + 1 := ⟨f - 1, by omega⟩
      dsimp only
      unfold runToEnd
      rw [if_neg hc]
      unfold search
      rw [h1, Option.bind_some]
      exact hr m (by omega)

/-- A search that updates the penalty. The penalty has been raised `q` times before, which takes 1000
rounds each. -/
theorem searchLoop_elite {ch : ℕ → RRChoice ℚ} (hch : ∀ i, ChoiceOK (ch i)) (hnv : env.numVehicles = nv)
    (hn : 2 ≤ ctx.n) (hnb : NbrsOK ctx.n env.nbrs) {c m : ℚ} {T : ℕ} (hc : 0 < c) (hm1 : 1 ≤ m)
    (hinc : 0 < env.incMultiplier ∧ env.incMultiplier ≤ m) (hdec : 0 < env.decMultiplier ∧ env.decMultiplier ≤ m)
    (ht : Tame (ctxAt ctx (c * m ^ (T / 1000)))) :
    ∀ (k : ℕ) {st : RR ℚ} {s : IterSchedule ℚ} {q : ℕ}, k ≤ 1000 → Inv ctx nv st → 0 < st.pen →
      st.acceptance = .iteration s → s.total = T → (0 < k → s.iteration < T) → st.pen ≤ c * m ^ q →
      1000 * q + 1000 ≤ s.iteration + k + (if k = 0 then 1000 else 0) →
      ∃ st' s' q', searchLoop env ctx ch k st = some st' ∧ st'.acceptance = .iteration s' ∧ s'.total = T ∧
        st'.pen ≤ c * m ^ q' ∧ (s'.iteration < T → 1000 * q' ≤ s'.iteration)
  | 0, st, s, q, _, _, _, hs, hT, _, hp, hq => by
    rw [if_pos rfl] at hq
    exact ⟨st, s, q, rfl, hs, hT, hp, fun _ => by omega⟩
  | k + 1, st, s, q, hk, hi, hpos, hs, hT, hlt, hp, hq => by
    have hlt := hlt (by omega)
    rw [if_neg (by omega)] at hq
    obtain ⟨i0, -, u0, -⟩ := penaltyUpdate_inv (env := env) hi
    have hm0 : 0 < m := by linarith
    -- the state before the round
    have key : ∃ st0 q0, (if k = 0 then penaltyUpdate env ctx st else st) = st0 ∧ Inv ctx nv st0 ∧ 0 < st0.pen ∧
        st0.acceptance = .iteration s ∧ st0.pen ≤ c * m ^ q0 ∧ q0 ≤ T / 1000 ∧
        (k ≠ 0 → q0 = q) ∧ (k = 0 → 1000 * q0 ≤ s.iteration + 1) := by
      by_cases h0 : k = 0
      · rw [if_pos h0]
        have hqT : q + 1 ≤ T / 1000 := by
          rw [Nat.le_div_iff_mul_le (by omega)]
          omega
        have hpp : 0 < (penaltyUpdate env ctx st).pen ∧ (penaltyUpdate env ctx st).pen ≤ c * m ^ (q + 1) := by
          have base : ∀ x : ℚ, 0 < x → x ≤ m → 0 < st.pen * x ∧ st.pen * x ≤ c * m ^ (q + 1) := by
            intro x h1 h2
            refine ⟨mul_pos hpos h1, ?_⟩
            rw [pow_succ, ← mul_assoc]
            exact mul_le_mul hp h2 h1.le (by positivity)
          unfold penaltyUpdate
          split
          · dsimp only
            split
            · exact base _ hdec.1 hdec.2
            · exact base _ hinc.1 hinc.2
          · refine ⟨hpos, hp.trans ?_⟩
            rw [pow_succ, ← mul_assoc]
            exact le_mul_of_one_le_right (by positivity) hm1
        exact ⟨_, q + 1, rfl, i0, hpp.1, (penaltyUpdate_acceptance st).trans hs, hpp.2, hqT,
          fun h => absurd h0 h, fun _ => by omega⟩
      · rw [if_neg h0]
        refine ⟨st, q, rfl, hi, hpos, hs, hp, ?_, fun _ => rfl, fun h => absurd h h0⟩
        rw [Nat.le_div_iff_mul_le (by omega)]
        omega
    obtain ⟨st0, q0, e0, j0, p0, a0, b0, c0, d2, d3⟩ := key
    have hle : c * m ^ q0 ≤ c * m ^ (T / 1000) :=
      mul_le_mul_of_nonneg_left (pow_le_pow_right₀ hm1 c0) hc.le
    obtain ⟨st1, h1⟩ := round_total (hch k) j0 hnv hn hnb (ht.at_le p0.le (b0.trans hle))
    obtain ⟨s1, n1, -⟩ := round_inv (P := (0 < ·)) (hch k) j0 hnv p0 h1
    have a1 := round_acceptance h1
    rw [a0] at a1
    unfold searchLoop
    rw [e0, h1, Option.bind_some]
    have hpen : st1.pen ≤ c * m ^ q0 := by rw [n1.1]; exact b0
    by_cases hcomp : st1.acceptance.completed = true
    · rw [if_pos hcomp]
      refine ⟨st1, _, q0, rfl, a1, hT, hpen, fun h => ?_⟩
      rw [a1] at hcomp
      have hcomp : decide (s.total ≤ s.iteration + 1) = true := hcomp
      rw [decide_eq_true_eq] at hcomp
      have h : s.iteration + 1 < T := h
      omega
    · rw [if_neg hcomp]
      rw [a1] at hcomp
      have hcomp : ¬ decide (s.total ≤ s.iteration + 1) = true := hcomp
      rw [decide_eq_true_eq] at hcomp
      exact searchLoop_elite hch hnv hn hnb hc hm1 hinc hdec ht k
        (st := st1) (s := s.update env.exp) (q := q0) (by omega) s1.inv s1.pen a1 hT
        (fun _ => (by omega : s.iteration + 1 < T)) hpen (by
          show 1000 * q0 + 1000 ≤ s.iteration + 1 + k + _
          by_cases h0 : k = 0
          · rw [if_pos h0]; have := d3 h0; omega
          · rw [if_neg h0, d2 h0]; omega)

end RR
end Verif
