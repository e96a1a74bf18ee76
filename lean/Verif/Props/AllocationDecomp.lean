import Verif.Props.AllocationExamples
import Verif.Props.DecompExamples

/-!
# C95: the matrices of the subproblems that decomposition splits off
-/

namespace Verif
open F64

variable {α : Type} [F64 α]

/-- **C95** for the subproblems of decomposition, in every arithmetic: if `decomposed_problem_min_size` is at least two and
every node has at least two neighbours, the subproblem that is split off a complete solution has at least two customers,
whatever the draw of the seed and the order of the hash set; its matrices have cells and are freed as allocated. -/
theorem C95_decomposition (atan2 : α → α → α) (sqrt : α → α) (sort : List (α × ℕ) → List (α × ℕ)) (ctx : Ctx α)
    (nbrs : ℕ → Option (List ℕ)) (size w : ℕ) (order : List ℕ → List ℕ) (x : Individual α) (hn : 2 ≤ ctx.n)
    (hx : Spec.IsPartition ctx.n x.phenotype) (hg : x.genotype = x.phenotype.flatten)
    (hord : ∀ l, (order l).Perm l) (hsize : 2 ≤ size)
    (hnb : ∀ v < ctx.n, ∃ vs, nbrs v = some vs ∧ 2 ≤ vs.length ∧ vs.Nodup ∧ ∀ u ∈ vs, 1 ≤ u ∧ u < ctx.n)
    (sub rest : Individual α) (mapping : List ℕ) (h : Decomp.new atan2 ctx nbrs size w order x = some (sub, mapping, rest)) :
    3 ≤ mapping.length ∧ ∀ (d d' : DistMatrix α) (c : Correlation), d.fromMapping sqrt mapping = some d' →
      buildCorr sqrt sort d' = some c → Spec.FreedAsAllocated d'.storage ∧ Spec.FreedAsAllocated c.storage ∧
        Spec.SizePositive d'.storage ∧ Spec.SizePositive c.storage := by
  obtain ⟨s0, mapping', rest', chosen, e, -, h2, -, -, -, h6⟩ :=
    Decomp.decomposeGlobal_some ctx size w hn hx hg hord fun v hv => by
      obtain ⟨vs, a, -, -, b⟩ := hnb v hv
      exact ⟨vs, a, fun u hu => (b u hu).2⟩
  have hm : mapping' = mapping := by
    unfold Decomp.new at h
    rw [e, Option.bind_some] at h
    obtain ⟨s1, -, h⟩ := Option.bind_eq_some_iff.mp h
    obtain ⟨s2, -, h⟩ := Option.map_eq_some_iff.mp h
    simp only [Prod.mk.injEq] at h
    exact h.2.1
  subst hm
  have hl : mapping'.length = chosen.flatten.length + 1 := by rw [h2]; rfl
  have h3 : 3 ≤ mapping'.length := by
    rcases h6 with h | h
    · omega
    · have hw : w % (ctx.n - 1) < ctx.n := by
        have := Nat.mod_lt w (show 0 < ctx.n - 1 by omega)
        omega
      obtain ⟨vs, e, l, nd, b⟩ := hnb _ hw
      have hs : vs ⊆ chosen.flatten := by
        intro v hv
        have h0 := h vs e v hv (b v hv).1
        rw [h2, List.mem_cons] at h0
        rcases h0 with h0 | h0
        · have := (b v hv).1
          omega
        · exact h0
      have := (List.subperm_of_subset nd hs).length_le
      omega
  exact ⟨h3, fun d d' c h h' => C95_subproblem sqrt sort d d' c mapping' h3 h h'⟩

namespace AllocEx

/-- Three customers on a line, one per route. -/
def line : Ctx ℚ where
  n := 4
  dist a b := |(a : ℚ) - b|
  demand c := if c = 0 then 0 else 1
  cap := 5
  pen := 10
  lng c := c
  lat c := c

def near : ℕ → Option (List ℕ) := fun v => some (([1, 2, 3].erase v).take 2)

def single : Individual ℚ := { Individual.empty with genotype := [1, 2, 3], phenotype := [[1], [2], [3]] }

theorem near_ok : ∀ v < line.n, ∃ vs, near v = some vs ∧ 2 ≤ vs.length ∧ vs.Nodup ∧ ∀ u ∈ vs, 1 ≤ u ∧ u < line.n := by
  intro v hv
  have hv : v < 4 := hv
  refine ⟨_, rfl, ?_⟩
  show 2 ≤ _ ∧ _ ∧ ∀ u ∈ _, 1 ≤ u ∧ u < 4
  interval_cases v <;> decide

/-- What is split off with the seed customer 2, for a size. -/
def split2 : Individual ℚ × List ℕ × Individual ℚ :=
  (Decomp.new (fun _ _ => 0) line near 2 5 id single).get (by decide +kernel)

def split1 : Individual ℚ × List ℕ × Individual ℚ :=
  (Decomp.new (fun _ _ => 0) line near 1 5 id single).get (by decide +kernel)

/-- The distances of the subproblem with one customer. -/
def lone : DistMatrix ℚ := (whole.fromMapping ProgramEx.lib.sqrt split1.2.1).get (by decide +kernel)

def loneNear : Correlation := (buildCorr ProgramEx.lib.sqrt ProgramEx.lib.corrSort lone).get (by decide +kernel)

/-- With size two and seed 2 the subproblem has three nodes. -/
example : ∃ sub mapping rest, Decomp.new (fun _ _ => 0) line near 2 5 id single = some (sub, mapping, rest) ∧
    3 ≤ mapping.length ∧ mapping.length = 3 := by
  have h := C95_decomposition (fun _ _ => 0) id id line near 2 5 id single (by decide)
    (by unfold Spec.IsPartition; decide) rfl (fun _ => List.Perm.refl _) (by decide) near_ok split2.1 split2.2.2 split2.2.1
    (Option.some_get _).symm
  exact ⟨split2.1, split2.2.1, split2.2.2, (Option.some_get _).symm, h.1, by decide +kernel⟩

end AllocEx

/-- **C95 refuted** for subproblems when `decomposed_problem_min_size` is one: the subproblem has a single customer, and
its matrix of neighbours is an allocation of size zero. -/
theorem C95_decomposition_refuted : ∃ sub mapping rest d' c,
    Decomp.new (fun _ _ => 0) AllocEx.line AllocEx.near 1 5 id AllocEx.single = some (sub, mapping, rest) ∧
      AllocEx.whole.fromMapping ProgramEx.lib.sqrt mapping = some d' ∧
      buildCorr ProgramEx.lib.sqrt ProgramEx.lib.corrSort d' = some c ∧ ¬ Spec.SizePositive c.storage :=
  ⟨AllocEx.split1.1, AllocEx.split1.2.1, AllocEx.split1.2.2, AllocEx.lone, AllocEx.loneNear, (Option.some_get _).symm,
    (Option.some_get _).symm, (Option.some_get _).symm, by unfold Spec.SizePositive; decide +kernel⟩

end Verif
