import Verif.Props.RecreateDouble
import Verif.Lemmas.DblCalm

/-!
# C22 in double precision: the ruin step
-/

namespace Verif
open F64 Dbl

namespace RRSol

variable {ρ : Rounding}

theorem ruinLoop_double {ctx : Ctx (Dbl ρ)} (hn : ctx.n ≤ 2 ^ 53) {ω : Oracle} {lsmax : Dbl ρ} {ks : ℕ}
    {s0 : RRSol (Dbl ρ)} (hv : s0.Sound ctx) : ∀ (vs : List ℕ) (s : RRSol (Dbl ρ)), (∀ v ∈ vs, 1 ≤ v ∧ v < ctx.n) →
      Ruined lsmax s0 s → ∃ s', ruinLoop ctx ω lsmax ks vs s = some s'
  | [], s, _, _ => ⟨s, rfl⟩
  | v :: vs, s, hvs, h => by
    obtain ⟨r, rt, i, h1, h2, h3⟩ := hv.locate (hvs v (by simp))
    unfold ruinLoop
    rw [h.locs, h3, Option.bind_some]
    split
    · exact ruinLoop_double hn hv vs s (fun x hx => hvs x (by simp [hx])) h
    · rename_i hcc
      have hr : r ∉ s.ruined := fun hm => hcc (Or.inr hm)
      have hrt : s.routes[r]? = some rt := (h.untouched r hr).trans h1
      have hi : i < rt.nodes.length := (List.getElem?_eq_some_iff.mp h2).1
      have hlt : rt.nodes.length < ctx.n := by
        have h3 := length_le_flatten (l := rt.nodes) (ls := s0.stops)
          (List.mem_map.mpr ⟨rt, List.mem_of_getElem? h1, rfl⟩)
        have h4 := hv.part.length_eq
        rw [Spec.length_customers] at h4
        have := (hvs v (by simp)).2
        omega
      obtain ⟨is, p1, p2, p3⟩ := ruinPositions_ok (ω.sub (vs.length + 1)) hi
        (Verif.stringLen_le (ω (vs.length + 2)) lsmax (len := rt.nodes.length) (by omega) (by omega))
        (by simp [stringLen])
      obtain ⟨y, hy⟩ := removeSeq_total ctx is rt p3
      have hru : ruinRoute ctx (ω.sub (vs.length + 1)) s v r
          (stringLen (ω (vs.length + 2)) lsmax rt.nodes.length) =
          some { s with routes := s.routes.set r y.1, unassigned := s.unassigned ++ y.2,
                        ruined := setInsert s.ruined r } := by
        unfold ruinRoute
        rw [h.locs, h3, Option.bind_some, hrt, Option.bind_some, p1, Option.bind_some, hy]
        rfl
      have h' := (ruinRoute_some h hrt hr hru).1
      dsimp only
      rw [hrt, Option.bind_some, hru, Option.bind_some]
      split
      · exact ⟨_, rfl⟩
      · exact ruinLoop_double hn hv vs _ (fun x hx => hvs x (by simp [hx])) h'

/-- **C22** in double precision, for whole distances and demands and up to `2^53` nodes. On a sound solution with exact
recorded values, with neighbour lists of customers, a ruin step never panics, does only what `Ruined` allows, and leaves
recorded lengths and overloads that are exactly those of the shortened routes. -/
theorem C22_double {ctx : Ctx (Dbl ρ)} {q : ℕ → ℤ} {Q D M : ℤ} {d : ℕ → ℕ → ℤ} (hw : Whole ctx q Q D)
    (hd : WholeDist ctx d M) (nbrs : ℕ → Option (List ℕ)) (cavg lmax : ℕ) (ω : Oracle) (s : RRSol (Dbl ρ))
    (hn : 2 ≤ ctx.n) (hn' : ctx.n ≤ 2 ^ 53) (hs : s.Sound ctx)
    (he : ∀ rt ∈ s.routes, rt.distance = fin (Spec.routeDist (fun a b => (d a b : ℚ)) rt.nodes) ∧
      rt.overload = fin (Spec.routeLoad (fun a => (q a : ℚ)) rt.nodes - Q))
    (hnb : ∀ c, 1 ≤ c → c < ctx.n → ∃ vs, nbrs c = some vs ∧ ∀ v ∈ vs, 1 ≤ v ∧ v < ctx.n) :
    ∃ s', s.ruin ctx nbrs cavg lmax ω = some s' ∧ Ruined (s.maxString lmax) s s' ∧
      (s'.stops.flatten ++ s'.unassigned).Perm (Spec.customers ctx.n) ∧
      ∀ rt ∈ s'.routes, rt.distance = fin (Spec.routeDist (fun a b => (d a b : ℚ)) rt.nodes) ∧
        rt.overload = fin (Spec.routeLoad (fun a => (q a : ℚ)) rt.nodes - Q) := by
  have hE : ∀ rt : RRoute (Dbl ρ), (LoadExact q Q rt ∧ DistExact d rt) ↔
      (rt.distance = fin (Spec.routeDist (fun a b => (d a b : ℚ)) rt.nodes) ∧
        rt.overload = fin (Spec.routeLoad (fun a => (q a : ℚ)) rt.nodes - Q)) := fun rt => by
    unfold LoadExact DistExact ofInt
    rw [tripZ_cast, loadZ_cast, and_comm]
    push_cast
    rfl
  simp only [← hE] at he ⊢
  obtain ⟨seed, hseed⟩ := rangeUsize_isSome (w := ω 1) (lo := 1) (hi := ctx.n) (by omega)
  have hse := rangeUsize_some hseed
  obtain ⟨vs, hvs, hm⟩ := hnb seed hse.1 hse.2
  have hlt : ∀ rt ∈ s.routes, rt.nodes.length < ctx.n := fun rt hrt => by
    have h3 := length_le_flatten (l := rt.nodes) (ls := s.stops) (List.mem_map.mpr ⟨rt, hrt, rfl⟩)
    have h4 := hs.part.length_eq
    rw [Spec.length_customers] at h4
    omega
  have h : ∃ s', s.ruin ctx nbrs cavg lmax ω = some s' ∧ ∀ rt ∈ s'.routes, LoadExact q Q rt ∧ DistExact d rt := by
    unfold ruin
    dsimp only
    rw [hseed, Option.bind_some, hvs, Option.bind_some]
    obtain ⟨s', h1⟩ := ruinLoop_double hn' hs (ω := ω.sub 0) (lsmax := s.maxString lmax) (ks := _) vs s hm (.refl _ _ hs.ruined)
    exact ⟨s', h1, fun rt hrt => (RR.ruinLoop_any ((loadExact_laws hw).and (distExact_laws hd))
      (fun rt hrt => ⟨he rt hrt, hlt rt hrt⟩) h1 rt hrt).1⟩
  obtain ⟨s', h1, h2⟩ := h
  have h3 := C22_ruin_structure ctx nbrs cavg lmax ω s s' hs.ruined h1
  refine ⟨s', h1, h3, ?_, h2⟩
  refine h3.perm.trans ?_
  rw [hs.unassigned, List.append_nil]
  exact hs.part

end RRSol

namespace InsertDoubleEx

/-- The routes `[1, 2, 3]` and `[4]`. -/
def whole' : RRSol F :=
  { routes := [⟨[1, 2, 3], ofInt 6, ofInt 0⟩, ⟨[4], ofInt 8, ofInt (-2)⟩], unassigned := [],
    locs := [(0, 0), (0, 0), (0, 1), (0, 2), (1, 0)], cost := ofInt 14, ruined := [] }

theorem whole'_sound : whole'.Sound ctx where
  part := by unfold Spec.IsPartition; decide
  locs := by
    intro r rt i x h1 h2
    obtain ⟨h3, rfl⟩ := List.getElem?_eq_some_iff.mp h1
    obtain ⟨h4, rfl⟩ := List.getElem?_eq_some_iff.mp h2
    have : r = 0 ∨ r = 1 := by simp only [whole', List.length_cons, List.length_nil] at h3; omega
    rcases this with rfl | rfl
    · have : i = 0 ∨ i = 1 ∨ i = 2 := by
        simp only [whole', List.getElem_cons_zero, List.length_cons, List.length_nil] at h4
        omega
      rcases this with rfl | rfl | rfl <;> rfl
    · have : i = 0 := by
        simp only [whole', List.getElem_cons_succ, List.getElem_cons_zero, List.length_cons, List.length_nil] at h4
        omega
      subst this
      rfl
  len := by decide
  unassigned := rfl
  ruined := rfl

example (ω : Oracle) := RRSol.C22_double whole wholeDist (fun _ => some [1, 2, 3, 4]) 10 10 ω whole' (by decide)
  (by show 5 ≤ 2 ^ 53; norm_num) whole'_sound (by
    intro rt hrt
    simp only [whole', List.mem_cons, List.not_mem_nil, or_false] at hrt
    rcases hrt with rfl | rfl
    · constructor <;> norm_num [ofInt, Spec.routeDist, Spec.pathDist, Spec.routeLoad]
    · constructor <;> norm_num [ofInt, Spec.routeDist, Spec.pathDist, Spec.routeLoad]) (by
    intro c _ _
    exact ⟨_, rfl, by decide⟩)

end InsertDoubleEx

end Verif
