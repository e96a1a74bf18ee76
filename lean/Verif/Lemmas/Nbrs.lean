import Verif.Lemmas.Good
import Verif.Props.Evaluate

/-! # Neighbour arrays and the broken-pairs distance of complete individuals -/

namespace Verif
open F64

variable {α : Type} [F64 α]

theorem evalNodes_succ0 (ctx : Ctx α) : ∀ (nodes : List ℕ) (a a' : EvalAcc α),
    evalNodes ctx nodes a = some a' → 0 ∉ nodes → a.last ≠ 0 →
    a'.succs[0]? = a.succs[0]? ∧ a'.last ≠ 0
  | [], a, a', h, _, hl => by
    simp only [evalNodes, Option.some.injEq] at h
    subst h
    exact ⟨rfl, hl⟩
  | x :: xs, a, a', h, h0, hl => by
    unfold evalNodes at h
    split at h
    · rename_i p s hp hs
      simp only [List.mem_cons, not_or] at h0
      obtain ⟨h1, h2⟩ := evalNodes_succ0 ctx xs _ _ h h0.2 (Ne.symm h0.1)
      obtain ⟨-, rfl⟩ := setIdx_eq_some hs
      refine ⟨h1.trans ?_, h2⟩
      simp [hl]
    · simp at h

theorem evalRoutes_succ0 (ctx : Ctx α) : ∀ (sol : List (List ℕ)) (idx : ℕ) (e e' : SolEval α),
    evalRoutes ctx sol idx e = some e' → 0 ∉ sol.flatten → sol ≠ [] →
    e'.succs[0]? = some ((sol.getLastD []).headD 0)
  | [], _, _, _, _, _, h => absurd rfl h
  | r :: rs, idx, e, e', h, h0, _ => by
    simp only [List.flatten_cons, List.mem_append, not_or] at h0
    unfold evalRoutes at h
    split at h
    · simp at h
    · rename_i a ha
      split at h
      · simp at h
      · rename_i succs hs
        dsimp only at h
        split at h
        · simp at h
        · cases rs with
          | cons r' rs =>
            rw [List.getLastD_cons]
            rw [evalRoutes_succ0 ctx (r' :: rs) _ _ _ h h0.2 (by simp)]
            rfl
          | nil =>
            simp only [evalRoutes, Option.some.injEq] at h
            subst h
            obtain ⟨hlt, rfl⟩ := setIdx_eq_some hs
            dsimp only
            cases r with
            | nil =>
              simp only [evalNodes, Option.some.injEq] at ha
              subst ha
              dsimp only at hlt ⊢
              simp [hlt]
            | cons x xs =>
              unfold evalNodes at ha
              split at ha
              · rename_i p s hp hs'
                simp only [List.mem_cons, not_or] at h0
                obtain ⟨h1, h2⟩ := evalNodes_succ0 ctx xs _ _ ha h0.1.2 (Ne.symm h0.1.1)
                obtain ⟨hlt', rfl⟩ := setIdx_eq_some hs'
                dsimp only at h1 hlt'
                rw [List.getElem?_set_ne h2, h1]
                simp [hlt']
              · simp at ha

namespace Spec

/-- `u` and `v` are consecutive stops of a route (the depot `0` being both ends of every route). -/
def Consec (R : List (List ℕ)) (u v : ℕ) : Prop :=
  ∃ r ∈ R, ∃ l1 l2, 0 :: (r ++ [0]) = l1 ++ u :: v :: l2

theorem exists_consec {n : ℕ} {R : List (List ℕ)} (h : IsPartition n R) {i : ℕ} (h1 : 1 ≤ i)
    (h2 : i < n) : ∃ u v, Consec R u i ∧ Consec R i v := by
  obtain ⟨r, hr, hi⟩ := List.mem_flatten.mp (h.mem_iff.mpr ⟨h1, h2⟩)
  obtain ⟨s, t, rfl⟩ := List.append_of_mem hi
  have e1 : ∃ l u, 0 :: s = l ++ [u] := by
    refine ⟨(0 :: s).dropLast, (0 :: s).getLast (by simp), (List.dropLast_append_getLast _).symm⟩
  have e2 : ∃ v l, t ++ [0] = v :: l := by
    cases t with
    | nil => exact ⟨0, [], rfl⟩
    | cons a t => exact ⟨a, t ++ [0], rfl⟩
  obtain ⟨l1, u, e1⟩ := e1
  obtain ⟨v, l2, e2⟩ := e2
  have e : 0 :: (s ++ i :: t ++ [0]) = l1 ++ u :: i :: v :: l2 := by
    have : 0 :: (s ++ i :: t ++ [0]) = (0 :: s) ++ i :: (t ++ [0]) := by simp
    rw [this, e1, e2]
    simp
  exact ⟨u, v, ⟨_, hr, l1, v :: l2, e⟩, ⟨_, hr, l1 ++ [u], l2, by rw [e]; simp⟩⟩

end Spec

namespace Individual

/-- What the broken-pairs distance reads: the neighbours of the customers and the last first stop. -/
theorem Good.nbrs {ctx : Ctx α} {x : Individual α} (h : x.Good ctx) {u v : ℕ}
    (hc : Spec.Consec x.phenotype u v) :
    (v ≠ 0 → x.predecessor v = some u) ∧ (u ≠ 0 → x.successor u = some v) := by
  obtain ⟨e, he⟩ := h.eval
  obtain ⟨r, hr, l1, l2, hl⟩ := hc
  have h0 : 0 ∉ x.phenotype.flatten := fun c => by
    have := h.part.mem_iff.mp c
    omega
  exact (evalRoutes_nbrs ctx _ _ _ _ he h.part.nodup h0).1 r hr l1 u v l2 hl

theorem Good.succ0 {ctx : Ctx α} {x : Individual α} (h : x.Good ctx) (hp : x.phenotype ≠ []) :
    x.successor 0 = some ((x.phenotype.getLastD []).headD 0) := by
  obtain ⟨e, he⟩ := h.eval
  have h0 : 0 ∉ x.phenotype.flatten := fun c => by
    have := h.part.mem_iff.mp c
    omega
  exact evalRoutes_succ0 ctx _ _ _ _ he h0 hp

theorem Good.geno_length {ctx : Ctx α} {x : Individual α} (h : x.Good ctx) :
    x.genotype.length = ctx.n - 1 := by
  rw [h.geno, h.part.length]

/-- The neighbour arrays of two individuals agree as far as they are read. -/
structure NbrEq (n : ℕ) (x y : Individual α) : Prop where
  geno : x.genotype.length = n - 1 ∧ y.genotype.length = n - 1
  at_ : ∀ i, 1 ≤ i → i < n → x.successor i = y.successor i ∧ x.predecessor i = y.predecessor i ∧
    (x.successor i).isSome ∧ (x.predecessor i).isSome
  zero : 2 ≤ n → x.successor 0 = y.successor 0 ∧ (x.successor 0).isSome

theorem Good.nbrEq {ctx ctx' : Ctx α} (hn : ctx'.n = ctx.n) {x y : Individual α} (hx : x.Good ctx)
    (hy : y.Good ctx') (e : x.phenotype = y.phenotype) : NbrEq ctx.n x y := by
  refine ⟨⟨hx.geno_length, hn ▸ hy.geno_length⟩, ?_, ?_⟩
  · intro i h1 h2
    obtain ⟨u, v, c1, c2⟩ := Spec.exists_consec hx.part h1 h2
    have a1 := (hx.nbrs c1).1 (by omega)
    have a2 := (hx.nbrs c2).2 (by omega)
    rw [e] at c1 c2
    have b1 := (hy.nbrs c1).1 (by omega)
    have b2 := (hy.nbrs c2).2 (by omega)
    rw [a1, a2, b1, b2]
    simp
  · intro h2
    have hp : x.phenotype ≠ [] := by
      intro hp
      have := hx.part.length
      rw [hp] at this
      simp at this
      omega
    rw [hx.succ0 hp, hy.succ0 (e ▸ hp), e]
    simp

theorem NbrEq.symm {n : ℕ} {x y : Individual α} (h : NbrEq n x y) : NbrEq n y x :=
  ⟨h.geno.symm, fun i h1 h2 => by
    obtain ⟨a, b, c, d⟩ := h.at_ i h1 h2
    exact ⟨a.symm, b.symm, a ▸ c, b ▸ d⟩, fun h2 => ⟨(h.zero h2).1.symm, (h.zero h2).1 ▸ (h.zero h2).2⟩⟩

theorem NbrEq.refl_right {n : ℕ} {x y : Individual α} (h : NbrEq n x y) : NbrEq n y y :=
  ⟨⟨h.geno.2, h.geno.2⟩, fun i h1 h2 => ⟨rfl, rfl, (h.symm.at_ i h1 h2).2.2⟩,
    fun h2 => ⟨rfl, (h.symm.zero h2).2⟩⟩

theorem brokenPairsLoop_congr {x y x' y' : Individual α} : ∀ (l : List ℕ) (k : ℕ),
    (∀ i ∈ l, x.brokenPairsAt y i = x'.brokenPairsAt y' i) →
    x.brokenPairsLoop y l k = x'.brokenPairsLoop y' l k
  | [], _, _ => rfl
  | i :: l, k, h => by
    unfold brokenPairsLoop
    rw [h i (by simp)]
    split
    · rfl
    · exact brokenPairsLoop_congr l _ fun j hj => h j (by simp [hj])

theorem brokenPairs_congr {n : ℕ} {x y x' y' : Individual α} (hx : NbrEq n x x') (hy : NbrEq n y y') :
    x.brokenPairs y = x'.brokenPairs y' := by
  unfold brokenPairs
  rw [hx.geno.1, hx.geno.2]
  apply brokenPairsLoop_congr
  intro i hi
  rw [List.mem_range'_1] at hi
  obtain ⟨a, b, -⟩ := hx.at_ i (by omega) (by omega)
  obtain ⟨c, d, -⟩ := hy.at_ i (by omega) (by omega)
  unfold brokenPairsAt
  rw [a, b, c, d, (hy.zero (by omega)).1]

/-- The distance loop in terms of the summands. -/
theorem brokenPairsLoop_sum {x y : Individual α} : ∀ (l : List ℕ) (k d : ℕ),
    x.brokenPairsLoop y l k = some d → ∃ c : ℕ → ℕ, (∀ i ∈ l, x.brokenPairsAt y i = some (c i)) ∧
      d = k + (l.map c).sum
  | [], k, d, h => by
    simp only [brokenPairsLoop, Option.some.injEq] at h
    exact ⟨fun _ => 0, by simp, by simp [h]⟩
  | i :: l, k, d, h => by
    unfold brokenPairsLoop at h
    split at h
    · simp at h
    · rename_i c hc
      obtain ⟨f, hf, e⟩ := brokenPairsLoop_sum l _ _ h
      refine ⟨fun j => if j = i then c else f j, ?_, ?_⟩
      · intro j hj
        by_cases hji : j = i
        · simp [hji, hc]
        · rw [List.mem_cons] at hj
          simp [hji, hf j (hj.resolve_left hji)]
      · have : l.map (fun j => if j = i then c else f j) = l.map f := by
          apply List.map_congr_left
          intro j hj
          split
          · rename_i hji
            have := hf j hj
            rw [hji, hc, Option.some.injEq] at this
            rw [hji, this]
          · rfl
        simp only [List.map_cons, if_pos, List.sum_cons, this, e]
        omega

theorem brokenPairsLoop_total {x y : Individual α} : ∀ (l : List ℕ) (k : ℕ),
    (∀ i ∈ l, (x.brokenPairsAt y i).isSome) → ∃ d, x.brokenPairsLoop y l k = some d
  | [], k, _ => ⟨k, rfl⟩
  | i :: l, k, h => by
    obtain ⟨c, hc⟩ := Option.isSome_iff_exists.mp (h i (by simp))
    unfold brokenPairsLoop
    rw [hc]
    exact brokenPairsLoop_total l _ fun j hj => h j (by simp [hj])

theorem brokenPairs_total {n : ℕ} {x y x' y' : Individual α} (hx : NbrEq n x x') (hy : NbrEq n y y') :
    ∃ d, x.brokenPairs y = some d := by
  unfold brokenPairs
  rw [hx.geno.1]
  apply brokenPairsLoop_total
  intro i hi
  rw [List.mem_range'_1] at hi
  obtain ⟨-, -, a, b⟩ := hx.at_ i (by omega) (by omega)
  obtain ⟨-, -, c, d⟩ := hy.at_ i (by omega) (by omega)
  obtain ⟨_, a⟩ := Option.isSome_iff_exists.mp a
  obtain ⟨_, b⟩ := Option.isSome_iff_exists.mp b
  obtain ⟨_, c⟩ := Option.isSome_iff_exists.mp c
  obtain ⟨_, d⟩ := Option.isSome_iff_exists.mp d
  obtain ⟨_, e⟩ := Option.isSome_iff_exists.mp (hy.zero (by omega)).2
  unfold brokenPairsAt
  rw [a, b, c, d, e]
  rfl

/-- Equal routes are at distance zero. -/
theorem brokenPairs_self {n : ℕ} {x y : Individual α} (h : NbrEq n x y) : x.brokenPairs y = some 0 := by
  rw [brokenPairs_congr h h.refl_right]
  unfold brokenPairs
  have : ∀ (l : List ℕ), (∀ i ∈ l, 1 ≤ i ∧ i < n) → y.brokenPairsLoop y l 0 = some 0 := by
    intro l
    induction l with
    | nil => intro _; rfl
    | cons i l ih =>
      intro hl
      obtain ⟨h1, h2⟩ := hl i (by simp)
      obtain ⟨a, b, c, d⟩ := h.symm.at_ i h1 h2
      obtain ⟨s, c⟩ := Option.isSome_iff_exists.mp c
      obtain ⟨p, d⟩ := Option.isSome_iff_exists.mp d
      obtain ⟨z, e⟩ := Option.isSome_iff_exists.mp (h.symm.zero (by omega)).2
      unfold brokenPairsLoop
      have : y.brokenPairsAt y i = some 0 := by
        unfold brokenPairsAt
        rw [c, d, e]
        simp
        omega
      rw [this]
      exact ih fun j hj => hl j (by simp [hj])
  apply this
  intro i hi
  rw [List.mem_range'_1, h.geno.2] at hi
  omega

end Individual
end Verif
