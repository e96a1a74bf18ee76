import Mathlib.Data.List.Sort
import Verif.Props.DecompRun
import Verif.Props.GeneticExamples

/-!
# C47: the counterexample; concrete cases for the theorems about decomposition
-/

namespace Verif
open F64

namespace DecompEx

/-! ### C46, C47 -/

/-- Two customers next to each other, both at distance 10 from the depot; one vehicle can serve both. -/
def ctx : Ctx ℚ where
  n := 3
  dist a b := if a = b then 0 else if a = 0 ∨ b = 0 then 10 else 1
  demand c := if c = 0 then 0 else 1
  cap := 5
  pen := 10
  lng c := c
  lat c := c

def nbrs : ℕ → Option (List ℕ) := fun v => some ([1, 2].erase v)

theorem nbrs_ok : ∀ v < ctx.n, ∃ vs, nbrs v = some vs ∧ ∀ u ∈ vs, u < ctx.n := by
  intro v hv
  refine ⟨_, rfl, fun u hu => ?_⟩
  have := List.mem_of_mem_erase hu
  simp only [List.mem_cons, List.not_mem_nil, or_false] at this
  show u < 3
  omega

/-- An evaluated individual with the given routes. -/
def made (routes : List (List ℕ)) : Individual ℚ :=
  ⟨0, routes.flatten, routes, 0, (evaluate ctx SolEval.new routes).getD SolEval.new⟩

theorem made_good {routes : List (List ℕ)} (h1 : Spec.IsPartition 3 routes)
    (h2 : (evaluate ctx SolEval.new routes).isSome = true) : (made routes).Good ctx := by
  refine ⟨h1, rfl, SolEval.new, ?_⟩
  obtain ⟨e, he⟩ := Option.isSome_iff_exists.mp h2
  show evaluate ctx SolEval.new routes = some ((evaluate ctx SolEval.new routes).getD SolEval.new)
  rw [he]
  rfl

/-- Two vehicles with one customer each. -/
def x : Individual ℚ := made [[1], [2]]

theorem x_good : x.Good ctx :=
  made_good (by unfold Spec.IsPartition; decide) (by decide +kernel)

/-- `C46_decomposition` applies to this solution, with customer 1 as seed and any order of the hash set. -/
example (order : List ℕ → List ℕ) (h : ∀ l, (order l).Perm l) :
    ∃ sub mapping rest, Decomp.new (fun _ _ => 0) ctx nbrs 2 1 order x = some (sub, mapping, rest) ∧
      1 ∈ mapping ∧ sub.Good (subCtx ctx mapping) := by
  obtain ⟨sub, mapping, rest, chosen, e, -, -, -, -, hs, -, hg, -⟩ :=
    C46_decomposition (fun _ _ => 0) ctx nbrs 2 1 order x (by decide) x_good h nbrs_ok
  exact ⟨sub, mapping, rest, e, hs (by decide) (by decide), hg⟩

/-- Both customers on one route. -/
def y : Individual ℚ := made [[1, 2]]

/-- The whole solution is split off (seed customer 1, size 2), and the single route 1-2 is written back. The
result is complete, within the capacity and cheaper, but ruin and recreate, built for two vehicles, panics
when loading it: it has one route. -/
theorem C47_improvement_panics (atan2 : ℚ → ℚ → ℚ) (st : RR ℚ) (hst : st.Idle ctx 2) (now : ℚ) :
    ∃ sub mapping rest z, Decomp.new atan2 ctx nbrs 2 1 id x = some (sub, mapping, rest) ∧
      Spec.IsPartition mapping.length y.phenotype ∧ Decomp.finish atan2 ctx mapping y rest = some z ∧
      z.Good ctx ∧ z.isFeasible = true ∧ z.cost < x.cost ∧ RR.load ctx now z st = none := by
  obtain ⟨sub, mapping, rest, chosen, e, c1, c2, c3, c4, c5, c6, c7, c9, c8⟩ :=
    C46_decomposition atan2 ctx nbrs 2 1 id x (by decide) x_good (fun _ => List.Perm.refl _) nbrs_ok
  have hx : x.phenotype = [[1], [2]] := rfl
  have h1 : 1 ∈ mapping := c5 (by decide) (by decide)
  have hlen1 : ∀ r ∈ chosen, r.length = 1 := by
    intro r hr
    have := c1.mem_iff.mp (List.mem_append_right _ hr)
    rw [hx] at this
    simp only [List.mem_cons, List.not_mem_nil, or_false] at this
    rcases this with rfl | rfl <;> rfl
  have hflat : ∀ l : List (List ℕ), (∀ r ∈ l, r.length = 1) → l.flatten.length = l.length := by
    intro l
    induction l with
    | nil => intro _; rfl
    | cons a l ih =>
      intro h
      rw [List.flatten_cons, List.length_append, h a (by simp), ih fun r hr => h r (by simp [hr]),
        List.length_cons]
      omega
  have htot : rest.phenotype.length + chosen.length = 2 := by
    rw [← List.length_append, c1.length_eq, hx]
    rfl
  have hch : chosen.length = 2 := by
    have hf := hflat chosen hlen1
    rcases c6 with h | h
    · omega
    · have h2 : 2 ∈ mapping := h [2] rfl 2 (by simp) (by decide)
      rw [c2, List.mem_cons] at h1 h2
      have hs : [1, 2] ⊆ chosen.flatten := by
        intro v hv
        simp only [List.mem_cons, List.not_mem_nil, or_false] at hv
        rcases hv with rfl | rfl
        · simpa using h1
        · simpa using h2
      have := (List.subperm_of_subset (by decide) hs).length_le
      simp only [List.length_cons, List.length_nil] at this
      omega
  have hrest : rest.phenotype = [] := List.length_eq_zero_iff.mp (by omega)
  have hml : mapping.length = 3 := by rw [c2, List.length_cons, hflat chosen hlen1, hch]
  have hy : Spec.IsPartition mapping.length y.phenotype := by
    rw [hml]
    unfold Spec.IsPartition
    decide
  obtain ⟨z, ez, z1, z2, z3⟩ := c8 y hy
  have hz : z.phenotype = [[1, 2]] ∨ z.phenotype = [[2, 1]] := by
    rw [hrest, List.nil_append] at z2
    have hr : (Spec.rename (fun c => mapping.getD c 0) y.phenotype).filter (fun r => decide (r ≠ [])) =
      [[mapping.getD 1 0, mapping.getD 2 0]] := rfl
    rw [hr, List.perm_singleton] at z2
    have hp := z1.part
    unfold Spec.IsPartition at hp
    rw [z2] at hp
    rw [z2]
    generalize mapping.getD 1 0 = a at hp
    generalize mapping.getD 2 0 = b at hp
    have hp : [a, b].Perm [1, 2] := hp
    have h3 : a = 1 ∨ a = 2 := by simpa using hp.mem_iff.mp (show a ∈ [a, b] by simp)
    have h4 : b = 1 ∨ b = 2 := by simpa using hp.mem_iff.mp (show b ∈ [a, b] by simp)
    have h5 : a ≠ b := by
      have := hp.nodup_iff.mpr (by decide)
      simpa using this
    rcases h3 with rfl | rfl <;> rcases h4 with rfl | rfl <;> simp at h5 ⊢
  have hcost : z.cost = 21 := by
    rw [z1.cost]
    rcases hz with h | h <;> rw [h] <;> decide +kernel
  have hxc : x.cost = 40 := by
    rw [x_good.cost]
    decide +kernel
  refine ⟨sub, mapping, rest, z, e, hy, ez, z1, z1.feasible.mpr ?_, by rw [hcost, hxc]; norm_num, ?_⟩
  · intro r hr
    rcases hz with h | h <;> rw [h, List.mem_singleton] at hr <;> subst hr <;> decide +kernel
  · unfold RR.load RRSol.load
    rw [if_neg]
    · rfl
    · rw [hst.routes]
      rcases hz with h | h <;> rw [h] <;> decide

/-- **C47** is false. -/
theorem C47_refuted : ¬ Spec.CycleContinues ctx nbrs 2 := by
  intro h
  have hst := RR.new_idle ctx 2 1 1 10 History.new
  obtain ⟨sub, mapping, rest, z, h1, h2, h3, -, -, -, h4⟩ :=
    C47_improvement_panics (fun _ _ => 0) _ hst 0
  have := h (fun _ _ => 0) 2 1 x sub y rest z mapping _ 0 x_good rfl h1 h2 h3 hst
  rw [h4] at this
  simp at this

/-! ### A valid setting for runs with decomposition -/

/-- The instance of `GeneticEx` with its distances as a table. -/
def matrix : DistMatrix ℚ where
  locations := [⟨0, 0⟩, ⟨1, 1⟩, ⟨2, 2⟩, ⟨3, 3⟩]
  storage := ⟨4, 4, [0, 10, 10, 10, 10, 0, 1, 5, 10, 1, 0, 1, 10, 5, 1, 0]⟩
  precomputed := true
  rounded := false
  maxDistance := some 10

def sort (l : List (ℚ × ℕ)) : List (ℚ × ℕ) := l.insertionSort fun a b => a.1 ≤ b.1

/-- Two vehicles, subproblems of two customers, neighbour lists from the table. -/
def env : DecompEnv ℚ where
  ga := { GeneticEx.env with
    granularity := 1
    split := ⟨true, 1.5, 2⟩
    rr := { GeneticEx.env.rr with
      numVehicles := 2
      nbrs := fun v => (buildCorr id sort matrix).bind fun c => c.get v } }
  size := 2
  gamma := 5
  matrix := matrix
  sqrt := id
  corrSort := sort

theorem valid : DGA.Valid env GeneticEx.ctx where
  ga := by
    have h := GeneticEx.valid
    refine ⟨h.n, h.dist, by decide, by decide, rfl, h.bs, h.sort, h.pen, h.mult, by norm_num, fun _ => ?_, ?_⟩
    · refine ⟨10, 1, ?_, ?_, ?_, ?_⟩
      · intro a b
        simp only [RR.ctxAt, GeneticEx.ctx]
        split
        · norm_num
        · split
          · norm_num
          · split <;> norm_num
      · intro c
        simp only [RR.ctxAt, GeneticEx.ctx]
        split <;> norm_num
      · norm_num [RR.ctxAt]
      · norm_num [RR.ctxAt, GeneticEx.ctx]
    · have hn := h.nbr
      refine ⟨by decide, by decide, hn.len, ?_, hn.cust⟩
      intro u i h1 h2 h3 v hv
      have hu : u < 4 := h2
      have hi : i < 1 := h3
      have hv' : ([0, 0, 2, 3, 1, 3, 1, 2] : List ℕ)[u * 2 + i]? = some v := hv
      show 0 < v ∧ v < 4 ∧ v ≠ u
      interval_cases u <;> interval_cases i <;> simp at hv' <;> omega
  matrix := ⟨rfl, by
    have : ∀ a < 4, ∀ b < 4, matrix.get id a b = some (GeneticEx.ctx.dist a b) := by decide +kernel
    exact this⟩
  rows := by
    have : ∀ i < 4, matrix.getVec id i 0 4 = some ((List.range 4).map (GeneticEx.ctx.dist i)) := by
      decide +kernel
    exact this
  perm := fun L => List.perm_insertionSort _ _
  sorted := fun L => by
    refine List.Pairwise.imp ?_ (List.pairwise_insertionSort (fun a b : ℚ × ℕ => a.1 ≤ b.1) L)
    intro a b h
    simpa using h
  table := by
    obtain ⟨c, hc⟩ := Option.isSome_iff_exists.mp
      (show (buildCorr id sort matrix).isSome = true by decide +kernel)
    refine ⟨c, hc, ?_⟩
    funext v
    show ((buildCorr id sort matrix).bind fun c => c.get v) = c.get v
    rw [hc, Option.bind_some]
  demand := fun c => by simp only [GeneticEx.ctx]; split <;> norm_num
  cap := by norm_num [GeneticEx.ctx]
  depot := rfl
  bound := by decide +kernel
  size := by decide
  width := by decide

end DecompEx
end Verif
