import Verif.Lemmas.Ruin
import Mathlib.Tactic.IntervalCases

/-! # C22: the ruin step -/

namespace Verif
open F64

variable {α : Type} [F64 α]

namespace RRSol

/-- The stops of the routes. -/
def stops (s : RRSol α) : List (List ℕ) := s.routes.map (·.nodes)

/-- What a ruin step may do to a solution `s0` without ruined routes: customers move from routes to the
unassigned list and nowhere else; the ruined routes lost exactly a drawn string length of stops and
kept the order of the rest; the other routes and the locations are as they were. -/
structure Ruined (lsmax : α) (s0 s : RRSol α) : Prop where
  perm : (s.stops.flatten ++ s.unassigned).Perm (s0.stops.flatten ++ s0.unassigned)
  count : s.routes.length = s0.routes.length
  locs : s.locs = s0.locs
  cost : s.cost = s0.cost
  nodup : s.ruined.Nodup
  untouched : ∀ r, r ∉ s.ruined → s.routes[r]? = s0.routes[r]?
  lost : ∀ r ∈ s.ruined, ∃ rt rt0 w, s.routes[r]? = some rt ∧ s0.routes[r]? = some rt0 ∧
    rt.nodes.Sublist rt0.nodes ∧ 1 ≤ stringLen w lsmax rt0.nodes.length ∧
    rt.nodes.length + stringLen w lsmax rt0.nodes.length = rt0.nodes.length

theorem Ruined.refl (lsmax : α) (s : RRSol α) (h : s.ruined = []) : Ruined lsmax s s :=
  ⟨.refl _, rfl, rfl, rfl, by simp [h], fun _ _ => rfl, by simp [h]⟩

theorem flatten_set {R : List (RRoute α)} {r : ℕ} {rt rt' : RRoute α} {out : List ℕ}
    (hr : R[r]? = some rt) (hp : (rt'.nodes ++ out).Perm rt.nodes) :
    (((R.set r rt').map (·.nodes)).flatten ++ out).Perm (R.map (·.nodes)).flatten := by
  obtain ⟨hi, rfl⟩ := List.getElem?_eq_some_iff.mp hr
  obtain ⟨rest, h1, h2⟩ := perm_set_one hi
  have e1 := (((h2 rt').map (·.nodes)).flatten).append_right out
  have e2 := ((h1.map (·.nodes)).flatten)
  simp only [List.map_cons, List.flatten_cons] at e1 e2
  refine e1.trans (List.Perm.trans ?_ e2.symm)
  rw [List.append_assoc]
  refine ((List.perm_append_comm).append_left _).trans ?_
  rw [← List.append_assoc]
  exact hp.append_right _

/-- Ruining one more route. -/
theorem ruinRoute_some {ctx : Ctx α} {lsmax : α} {ω : Oracle} {s0 s s' : RRSol α} {v r : ℕ}
    {rt : RRoute α} {w : ℕ} (h : Ruined lsmax s0 s) (hrt : s.routes[r]? = some rt) (hr : r ∉ s.ruined)
    (he : ruinRoute ctx ω s v r (stringLen w lsmax rt.nodes.length) = some s') :
    Ruined lsmax s0 s' ∧ s'.ruined = s.ruined ++ [r] ∧ ∃ p is, removeSeq ctx is rt = some p ∧
      s'.routes = s.routes.set r p.1 := by
  unfold ruinRoute at he
  simp only [Option.bind_eq_some_iff, Option.map_eq_some_iff] at he
  obtain ⟨loc, hloc, rt', hrt', is, his, p, hp, rfl⟩ := he
  rw [hrt, Option.some.injEq] at hrt'
  subst hrt'
  obtain ⟨q1, q2, q3⟩ := removeSeq_some hp
  obtain ⟨l1, l2⟩ := ruinPositions_length his
  have hru : setInsert s.ruined r = s.ruined ++ [r] := by simp [setInsert, hr]
  have hlt : r < s.routes.length := (List.getElem?_eq_some_iff.mp hrt).1
  refine ⟨⟨?_, by simpa using h.count, h.locs, h.cost, ?_, ?_, ?_⟩, hru, p, is, hp, rfl⟩
  · refine List.Perm.trans ?_ h.perm
    show (((s.routes.set r p.1).map (·.nodes)).flatten ++ (s.unassigned ++ p.2)).Perm _
    refine ((List.perm_append_comm (l₁ := s.unassigned)).append_left _).trans ?_
    rw [← List.append_assoc]
    exact (flatten_set hrt q1).append_right _
  · dsimp only
    rw [hru]
    exact (List.nodup_append_comm.mp (by simpa using ⟨hr, h.nodup⟩))
  · intro r' hr'
    dsimp only at hr' ⊢
    rw [hru] at hr'
    simp only [List.mem_append, List.mem_singleton, not_or] at hr'
    rw [List.getElem?_set_ne (fun e => hr'.2 e.symm)]
    exact h.untouched r' hr'.1
  · intro r' hr'
    dsimp only at hr' ⊢
    rw [hru] at hr'
    simp only [List.mem_append, List.mem_singleton] at hr'
    by_cases e : r' = r
    · subst e
      refine ⟨p.1, rt, w, by simp [hlt], (h.untouched _ hr).symm.trans hrt, q2,
        by simp [stringLen], ?_⟩
      have := q1.length_eq
      rw [List.length_append] at this
      omega
    · rw [List.getElem?_set_ne (fun e' => e e'.symm)]
      exact h.lost r' (hr'.resolve_right e)

theorem ruinLoop_some {ctx : Ctx α} {ω : Oracle} {lsmax : α} {ks : ℕ} {s0 : RRSol α} :
    ∀ {vs : List ℕ} {s s' : RRSol α}, Ruined lsmax s0 s → ruinLoop ctx ω lsmax ks vs s = some s' →
      Ruined lsmax s0 s'
  | [], s, s', h, he => by
    simp only [ruinLoop, Option.some.injEq] at he
    exact he ▸ h
  | v :: vs, s, s', h, he => by
    unfold ruinLoop at he
    simp only [Option.bind_eq_some_iff] at he
    obtain ⟨loc, hloc, he⟩ := he
    split at he
    · exact ruinLoop_some h he
    · rename_i hc
      simp only [Option.bind_eq_some_iff] at he
      obtain ⟨rt, hrt, s1, h1, he⟩ := he
      have h2 := (ruinRoute_some h hrt (fun hm => hc (Or.inr hm)) h1).1
      split at he
      · simp only [Option.some.injEq] at he
        exact he ▸ h2
      · exact ruinLoop_some h2 he

/-- The longest string `lsmax` of a ruin step (`/repo/src/solver/improvement/ruin_recreate/ruin.rs:111-113`). -/
def maxString (lmax : ℕ) (s : RRSol α) : α := F64.min s.averageCardinality (lit lmax)

/-- **C22** (structure, any arithmetic). Whenever a ruin step returns, no customer is lost or
duplicated, every ruined route lost exactly a drawn string length of stops (at least one) and kept the
order of the others, and the other routes are untouched. -/
theorem C22_ruin_structure (ctx : Ctx α) (nbrs : ℕ → Option (List ℕ)) (cavg lmax : ℕ) (ω : Oracle)
    (s s' : RRSol α) (h0 : s.ruined = []) (h : s.ruin ctx nbrs cavg lmax ω = some s') :
    Ruined (s.maxString lmax) s s' := by
  unfold ruin at h
  simp only [Option.bind_eq_some_iff] at h
  obtain ⟨seed, -, vs, -, h⟩ := h
  exact ruinLoop_some (.refl _ _ h0) h

/-- A solution as it stands between two rounds: the routes visit every customer exactly once, every
recorded location is right, nothing is unassigned or marked as ruined. -/
structure Sound (ctx : Ctx α) (s : RRSol α) : Prop where
  part : Spec.IsPartition ctx.n s.stops
  locs : ∀ (r : ℕ) (rt : RRoute α) (i x : ℕ), s.routes[r]? = some rt → rt.nodes[i]? = some x →
    s.locs[x]? = some (r, i)
  len : s.locs.length = ctx.n
  unassigned : s.unassigned = []
  ruined : s.ruined = []

/-- A sound solution whose recorded distances and overloads are the true ones. -/
structure Valid (ctx : Ctx ℚ) (s : RRSol ℚ) : Prop extends Sound ctx s where
  exact : ∀ r ∈ s.routes, r.Exact ctx

/-! ### Exact arithmetic -/

theorem stringLen_le (w : ℕ) (lsmax : ℚ) {len : ℕ} (h : 1 ≤ len) : stringLen w lsmax len ≤ len := by
  unfold stringLen
  have h0 := realDraw_nonneg w
  have h1 := realDraw_lt_one w
  generalize realDraw w = u at *
  simp only [rat_lit, rat_min, rat_mul, rat_toNat]
  have hx : u * min lsmax (len : ℚ) < len := by
    have hl : (1 : ℚ) ≤ len := by exact_mod_cast h
    rcases le_or_gt 0 (min lsmax (len : ℚ)) with hm | hm
    · have : min lsmax (len : ℚ) ≤ len := min_le_right _ _
      nlinarith
    · nlinarith
  have : ⌊u * min lsmax (len : ℚ)⌋ < len := by
    rw [Int.floor_lt]
    exact_mod_cast hx
  omega

theorem Sound.locate {ctx : Ctx α} {s : RRSol α} (h : s.Sound ctx) {v : ℕ} (hv : 1 ≤ v ∧ v < ctx.n) :
    ∃ (r : ℕ) (rt : RRoute α) (i : ℕ), s.routes[r]? = some rt ∧ rt.nodes[i]? = some v ∧ s.locs[v]? = some (r, i) := by
  have := h.part.mem_iff.mpr hv
  simp only [stops, List.mem_flatten, List.mem_map] at this
  obtain ⟨l, ⟨rt, hrt, rfl⟩, hx⟩ := this
  obtain ⟨r, hr, e⟩ := List.mem_iff_getElem.mp hrt
  obtain ⟨i, hi, e'⟩ := List.mem_iff_getElem.mp hx
  have e1 : s.routes[r]? = some rt := by rw [List.getElem?_eq_getElem hr, e]
  have e2 : rt.nodes[i]? = some v := by rw [List.getElem?_eq_getElem hi, e']
  exact ⟨r, rt, i, e1, e2, h.locs r rt i v e1 e2⟩

theorem ruinLoop_total {ctx : Ctx ℚ} {ω : Oracle} {lsmax : ℚ} {ks : ℕ} {s0 : RRSol ℚ}
    (hv : s0.Valid ctx) : ∀ (vs : List ℕ) (s : RRSol ℚ), (∀ v ∈ vs, 1 ≤ v ∧ v < ctx.n) →
      Ruined lsmax s0 s → (∀ r ∈ s.routes, r.Exact ctx) →
      ∃ s', ruinLoop ctx ω lsmax ks vs s = some s' ∧ ∀ r ∈ s'.routes, r.Exact ctx
  | [], s, _, _, he => ⟨s, rfl, he⟩
  | v :: vs, s, hvs, h, he => by
    obtain ⟨r, rt, i, h1, h2, h3⟩ := hv.toSound.locate (hvs v (by simp))
    unfold ruinLoop
    rw [h.locs, h3, Option.bind_some]
    split
    · exact ruinLoop_total hv vs s (fun x hx => hvs x (by simp [hx])) h he
    · rename_i hc
      have hr : r ∉ s.ruined := fun hm => hc (Or.inr hm)
      have hrt : s.routes[r]? = some rt := (h.untouched r hr).trans h1
      have hi : i < rt.nodes.length := (List.getElem?_eq_some_iff.mp h2).1
      obtain ⟨is, p1, p2, p3⟩ := ruinPositions_ok (ω.sub (vs.length + 1)) hi
        (stringLen_le (ω (vs.length + 2)) lsmax (len := rt.nodes.length) (by omega))
        (by simp [stringLen])
      obtain ⟨q, hq⟩ := removeSeq_total ctx is rt p3
      have hru : ruinRoute ctx (ω.sub (vs.length + 1)) s v r
          (stringLen (ω (vs.length + 2)) lsmax rt.nodes.length) =
          some { s with routes := s.routes.set r q.1, unassigned := s.unassigned ++ q.2,
                        ruined := setInsert s.ruined r } := by
        unfold ruinRoute
        rw [h.locs, h3, Option.bind_some, hrt, Option.bind_some, p1, Option.bind_some, hq]
        rfl
      have hex : ∀ x ∈ s.routes.set r q.1, x.Exact ctx := by
        intro x hx
        rcases List.mem_or_eq_of_mem_set hx with hx | rfl
        · exact he x hx
        · exact removeSeq_exact hq (he rt (List.mem_of_getElem? hrt))
      have h' := (ruinRoute_some h hrt hr hru).1
      dsimp only
      rw [hrt, Option.bind_some, hru, Option.bind_some]
      split
      · exact ⟨_, rfl, hex⟩
      · exact ruinLoop_total hv vs _ (fun x hx => hvs x (by simp [hx])) h' hex

/-- **C22** (exact arithmetic). On a valid solution of an instance with at least one customer, with
neighbour lists of customers, a ruin step never panics, does only what `Ruined` allows, and the
distances and overloads it maintains incrementally are the true ones of the shortened routes. -/
theorem C22_ruin (ctx : Ctx ℚ) (nbrs : ℕ → Option (List ℕ)) (cavg lmax : ℕ) (ω : Oracle)
    (s : RRSol ℚ) (hn : 2 ≤ ctx.n) (hs : s.Valid ctx)
    (hnb : ∀ c, 1 ≤ c → c < ctx.n → ∃ vs, nbrs c = some vs ∧ ∀ v ∈ vs, 1 ≤ v ∧ v < ctx.n) :
    ∃ s', s.ruin ctx nbrs cavg lmax ω = some s' ∧ Ruined (s.maxString lmax) s s' ∧
      (s'.stops.flatten ++ s'.unassigned).Perm (Spec.customers ctx.n) ∧
      ∀ r ∈ s'.routes, r.Exact ctx := by
  obtain ⟨seed, hseed⟩ := rangeUsize_isSome (w := ω 1) (lo := 1) (hi := ctx.n) (by omega)
  have hse := rangeUsize_some hseed
  obtain ⟨vs, hvs, hm⟩ := hnb seed hse.1 hse.2
  have h : ∃ s', s.ruin ctx nbrs cavg lmax ω = some s' ∧ ∀ r ∈ s'.routes, r.Exact ctx := by
    unfold ruin
    dsimp only
    rw [hseed, Option.bind_some, hvs, Option.bind_some]
    exact ruinLoop_total hs vs s hm (.refl _ _ hs.ruined) hs.exact
  obtain ⟨s', h1, h2⟩ := h
  have h3 := C22_ruin_structure ctx nbrs cavg lmax ω s s' hs.ruined h1
  refine ⟨s', h1, h3, ?_, h2⟩
  refine h3.perm.trans ?_
  rw [hs.unassigned, List.append_nil]
  exact hs.part

end RRSol

/-! ### A concrete instance -/

namespace RuinEx

/-- Five customers on a line, capacity 4. -/
def ctx : Ctx ℚ :=
  ⟨6, fun i j => |((i % 6 : ℕ) : ℚ) - (j % 6 : ℕ)|, fun i => if i = 0 then 0 else 1, 4, 10, fun i => i, fun _ => 0⟩

/-- Two routes, one empty. -/
def sol : RRSol ℚ :=
  ⟨[⟨[1, 2, 3], 6, -1⟩, ⟨[], 0, -4⟩, ⟨[5, 4], 10, -2⟩], [], [],
    [(0, 0), (0, 0), (0, 1), (0, 2), (2, 1), (2, 0)], 16⟩

/-- All other customers, nearest first is not required. -/
def nbrs (c : ℕ) : Option (List ℕ) := some (([1, 2, 3, 4, 5] : List ℕ).erase c)

theorem sol_valid : sol.Valid ctx where
  part := by unfold Spec.IsPartition; decide
  exact := by
    intro r hr
    simp only [sol, List.mem_cons, List.not_mem_nil, or_false] at hr
    rcases hr with rfl | rfl | rfl <;> refine ⟨?_, ?_⟩ <;>
      simp [ctx, Spec.routeDist, Spec.routeLoad] <;> norm_num [abs_of_nonneg, abs_of_nonpos]
  locs := by
    intro r rt i x h1 h2
    obtain ⟨a, rfl⟩ := List.getElem?_eq_some_iff.mp h1
    obtain ⟨b, rfl⟩ := List.getElem?_eq_some_iff.mp h2
    have a' : r < 3 := a
    clear h1 h2
    interval_cases r
    · have b' : i < 3 := b
      interval_cases i <;> rfl
    · exact absurd b (by simp [sol])
    · have b' : i < 2 := b
      interval_cases i <;> rfl
  len := rfl
  unassigned := rfl
  ruined := rfl

/-- The hypotheses of `C22_ruin` are met by a solution with two used routes. -/
example : 2 ≤ ctx.n ∧ sol.Valid ctx ∧
    ∀ c, 1 ≤ c → c < ctx.n → ∃ vs, nbrs c = some vs ∧ ∀ v ∈ vs, 1 ≤ v ∧ v < ctx.n :=
  ⟨by decide, sol_valid, fun c _ _ => ⟨_, rfl, fun v hv => by
    have := List.mem_of_mem_erase hv
    simp at this
    show 1 ≤ v ∧ v < 6
    omega⟩⟩

end RuinEx
end Verif
