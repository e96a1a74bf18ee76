import Verif.Props.FallbackDouble
import Verif.Lemmas.AnyTotal

/-!
# C23 in double precision: the recreate step
-/

namespace Verif
open F64 Dbl

namespace RRSol

variable {ρ : Rounding}

theorem ofInt_refl (k : ℤ) : ((ofInt k : Dbl ρ) ≤. ofInt k) = true := by
  unfold ofInt
  rw [le_fin]
  simp

theorem sortUnassigned_double {ctx : Ctx (Dbl ρ)} {q : ℕ → ℤ} {Q D M : ℤ} {d : ℕ → ℕ → ℤ} (hw : Whole ctx q Q D)
    (hd : WholeDist ctx d M) (ω : Oracle) (l : List ℕ) : ∃ l', sortUnassigned ctx ω l = some l' := by
  unfold sortUnassigned
  obtain ⟨n, hn⟩ := rangeUsize_isSome (w := ω 0) (lo := 0) (hi := 11) (by omega)
  rw [hn, Option.bind_some]
  have hs : ∀ (key : ℕ → Dbl ρ) (le : Dbl ρ → Dbl ρ → Bool), (∀ c, (key c ≤. key c) = true) →
      ∃ l', sortKey key le l = some l' := by
    intro key le h
    unfold sortKey
    rw [if_neg]
    · exact ⟨_, rfl⟩
    · rintro ⟨-, h'⟩
      obtain ⟨c, h1, h2⟩ := List.any_eq_true.mp h'
      rw [h c] at h2
      simp at h2
  have h1 : ∀ c, (ctx.demand c ≤. ctx.demand c) = true := fun c => by rw [hw.demand]; exact ofInt_refl _
  have h2 : ∀ c, (ctx.dist c 0 ≤. ctx.dist c 0) = true := fun c => by rw [hd.dist]; exact ofInt_refl _
  split
  · exact ⟨_, rfl⟩
  · split
    · exact hs _ _ h1
    · split <;> exact hs _ _ h2

section

variable {ctx : Ctx (Dbl ρ)} {q : ℕ → ℤ} {Q D M : ℤ} {d : ℕ → ℕ → ℤ} {p : ℚ} (hw : Whole ctx q Q D)
  (hQ : Q < 2 ^ 52) (hd : WholeDist ctx d M) (hn : 2 ≤ ctx.n) (hp : ctx.pen = fin p) (hp0 : 0 ≤ p) (hp1 : p ≤ 2 ^ 44)

include hw hQ hd hn hp hp0 hp1

theorem insertCustomer_double {routes : List (RRoute (Dbl ρ))}
    (he : ∀ rt ∈ routes, LoadExact q Q rt ∧ rt.nodes.length + 1 ≤ ctx.n) (hne : routes ≠ [])
    {order : List ℕ → List ℕ} (hord : ∀ l, (order l).Perm l) (c : ℕ) {updated : List ℕ}
    (hup : ∀ r ∈ updated, r < routes.length) : ∃ y, insertCustomer ctx order c routes updated = some y := by
  by_cases hroom : ∃ r ∈ updated, ∃ rt, routes[r]? = some rt ∧ Spec.routeLoad (fun a => (q a : ℚ)) rt.nodes + q c ≤ Q
  · obtain ⟨r, rt, i, rt', -, -, -, h, -⟩ := C24_double_partial hw hQ hd hn he order hord c updated hup hroom
    exact ⟨_, h⟩
  · obtain ⟨r, rt, i, rt', -, -, h, -⟩ := C24_double_fallback hw hQ hd hn hp hp0 hp1 he hne order hord c updated hup
      (fun r hr rt hrt => not_le.mp fun h => hroom ⟨r, hr, rt, hrt, h⟩)
    exact ⟨_, h⟩

theorem insertAll_double {order : ℕ → List ℕ → List ℕ} (hord : ∀ k l, (order k l).Perm l) : ∀ (cs : List ℕ)
    (routes : List (RRoute (Dbl ρ))) (updated : List ℕ), routes ≠ [] →
    (∀ rt ∈ routes, LoadExact q Q rt ∧ rt.nodes.length + cs.length < ctx.n) → (∀ r ∈ updated, r < routes.length) →
    ∃ y, insertAll ctx order cs routes updated = some y
  | [], routes, updated, _, _, _ => ⟨_, rfl⟩
  | c :: cs, routes, updated, hne, he, hup => by
    simp only [List.length_cons] at he
    obtain ⟨y, hy⟩ := insertCustomer_double hw hQ hd hn hp hp0 hp1 (fun rt hrt => by
      obtain ⟨k1, k2⟩ := he rt hrt
      exact ⟨k1, by omega⟩) hne (hord (cs.length + 1)) c hup
    obtain ⟨r, i, hi⟩ := insertCustomer_some hy
    obtain ⟨rt, rt', e1, e2, rfl⟩ := insertAt_some hi
    have hg := grown_set (updated := updated) e1 e2
    obtain ⟨y2, hy2⟩ := insertAll_double hord cs (routes.set r rt') (setInsert updated r)
      (by rw [← List.length_pos_iff] at hne ⊢; simpa using hne)
      (by
        intro x hx
        rcases List.mem_or_eq_of_mem_set hx with hx | rfl
        · obtain ⟨k1, k2⟩ := he x hx
          exact ⟨k1, by omega⟩
        · obtain ⟨k1, k2⟩ := he rt (List.mem_of_getElem? e1)
          obtain ⟨a, b, n1, -, n3⟩ := RRoute.add_some e2
          refine ⟨(loadExact_laws hw).add _ _ _ _ (by omega) k1 e2, ?_⟩
          rw [n1] at k2
          rw [n3]
          simp only [List.length_append, List.length_cons] at k2 ⊢
          omega)
      (by rw [List.length_set]; exact hg.range hup)
    unfold insertAll
    rw [hy, Option.bind_some]
    exact ⟨y2, hy2⟩

/-- **C23** in double precision, for whole distances and demands and any finite penalty up to `2^44`. A recreate step on
a ruined solution never panics; every customer ends on exactly one route, nothing is unassigned or marked as ruined,
every recorded location is right, every route keeps its customers in their order, and the recorded length and overload
of every route are exactly the true ones. -/
theorem C23_double (order : ℕ → List ℕ → List ℕ) (hord : ∀ k l, (order k l).Perm l) (ω : Oracle) (s : RRSol (Dbl ρ))
    (hne : s.routes ≠ []) (hperm : (s.stops.flatten ++ s.unassigned).Perm (Spec.customers ctx.n))
    (he : ∀ rt ∈ s.routes, rt.distance = fin (Spec.routeDist (fun a b => (d a b : ℚ)) rt.nodes) ∧
      rt.overload = fin (Spec.routeLoad (fun a => (q a : ℚ)) rt.nodes - Q))
    (hl : LocsOn (fun r => r ∉ s.ruined) s.routes s.locs) (hlen : s.locs.length = ctx.n)
    (hr : ∀ r ∈ s.ruined, r < s.routes.length) :
    ∃ s', s.recreate ctx order ω = some s' ∧ s'.Sound ctx ∧ s'.routes.length = s.routes.length ∧
      (∀ rt ∈ s'.routes, rt.distance = fin (Spec.routeDist (fun a b => (d a b : ℚ)) rt.nodes) ∧
        rt.overload = fin (Spec.routeLoad (fun a => (q a : ℚ)) rt.nodes - Q)) ∧
      ∀ (r : ℕ) (rt : RRoute (Dbl ρ)), s.routes[r]? = some rt →
        ∃ rt', s'.routes[r]? = some rt' ∧ rt.nodes.Sublist rt'.nodes := by
  have hE : ∀ rt : RRoute (Dbl ρ), (LoadExact q Q rt ∧ DistExact d rt) ↔
      (rt.distance = fin (Spec.routeDist (fun a b => (d a b : ℚ)) rt.nodes) ∧
        rt.overload = fin (Spec.routeLoad (fun a => (q a : ℚ)) rt.nodes - Q)) := fun rt => by
    unfold LoadExact DistExact ofInt
    rw [tripZ_cast, loadZ_cast, and_comm]
    push_cast
    rfl
  simp only [← hE] at he ⊢
  obtain ⟨cs, hcs⟩ := sortUnassigned_double hw hd ω s.unassigned
  have hcp := sortUnassigned_perm hcs
  have h4 := hperm.length_eq
  rw [List.length_append, Spec.length_customers] at h4
  have h5 := hcp.length_eq
  have hlt : ∀ rt ∈ s.routes, rt.nodes.length + cs.length < ctx.n := fun rt hrt => by
    have h3 := length_le_flatten (l := rt.nodes) (ls := s.stops) (List.mem_map.mpr ⟨rt, hrt, rfl⟩)
    omega
  obtain ⟨y, hy⟩ := insertAll_double hw hQ hd hn hp hp0 hp1 hord cs s.routes s.ruined hne
    (fun rt hrt => ⟨(he rt hrt).1, hlt rt hrt⟩) hr
  have hex := RR.insertAll_any ((loadExact_laws hw).and (distExact_laws hd)) hy fun rt hrt => ⟨he rt hrt, hlt rt hrt⟩
  have hg := insertAll_some hy
  have hpp : ((y.1.map (·.nodes)).flatten).Perm (Spec.customers ctx.n) :=
    (hg.perm.trans (hcp.append_left _)).trans hperm
  obtain ⟨locs', e1, -⟩ := relocate_some (hpp.nodup_iff.mpr (Spec.nodup_customers _))
    (P := fun _ => False) (order 0 y.2) s.locs (fun _ => False)
    (fun r hr' => by
      rw [hg.count]
      exact hg.range hr r ((hord 0 y.2).mem_iff.mp hr'))
    (fun x hx => by
      rw [hlen]
      exact (Spec.mem_customers.mp (hpp.mem_iff.mp hx)).2)
    (fun _ _ _ _ h => h.elim) (fun _ h => h.elim)
  have hrun : s.recreate ctx order ω = some
      { s with routes := y.1, unassigned := [], locs := locs', cost := costOf ctx y.1, ruined := [] } := by
    unfold recreate
    rw [hcs, Option.bind_some, hy, Option.bind_some]
    unfold evaluate
    dsimp only
    rw [e1]
    rfl
  obtain ⟨h1, h2, h3⟩ := C23_recreate_structure ctx order hord ω s _ hperm hl hlen hr hrun
  exact ⟨_, hrun, h1, h2, hex, h3⟩

end

end RRSol

namespace InsertDoubleEx

/-- Customers 2 and 4 were removed from the routes `[1, 2, 3]` and `[4]`. -/
def ruined : RRSol F :=
  { routes := [⟨[1, 3], ofInt 6, ofInt (-1)⟩, ⟨[], ofInt 0, ofInt (-3)⟩], unassigned := [4, 2],
    locs := List.replicate 5 (0, 0), cost := ofInt 0, ruined := [0, 1] }

example (ω : Oracle) := RRSol.C23_double whole (by norm_num) wholeDist (by decide) (p := 5 / 2) rfl (by norm_num)
  (by norm_num) (fun _ => id) (fun _ _ => .refl _) ω ruined (by simp [ruined]) (by decide) (by
    intro rt hrt
    simp only [ruined, List.mem_cons, List.not_mem_nil, or_false] at hrt
    rcases hrt with rfl | rfl
    · constructor <;> norm_num [ofInt, Spec.routeDist, Spec.pathDist, Spec.routeLoad]
    · constructor <;> norm_num [ofInt, Spec.routeDist, Spec.pathDist, Spec.routeLoad]) (by
    intro r rt i x h1 h2 _
    have h3 := (List.getElem?_eq_some_iff.mp h2).1
    have : r = 0 ∨ r = 1 := by simp only [ruined, List.length_cons, List.length_nil] at h3; omega
    exact absurd (by rcases this with rfl | rfl <;> simp [ruined]) h1) (by decide) (by decide)

end InsertDoubleEx

end Verif
