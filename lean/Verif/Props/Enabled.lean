import Verif.Lemmas.AnyLocalOpt
import Verif.Props.LocalSearch
import Mathlib.Logic.Relation

/-!
# C77: the local search makes only moves that the settings enable
-/

namespace Verif
open F64 LS Spec

/-- One change of the routes by a move that the settings `f` enable. -/
inductive Spec.Change (f : MoveFlags) (R R' : List (List ℕ)) : Prop
  | move (u : ℕ) (v : Ref) (m : MoveKind) : enabled f m = true → MoveEffect R u v m R' → Change f R R'
  | swapStar (r1 r2 : ℕ) : f.swapStar = true → r1 ≠ r2 → SwapStarEffect R r1 r2 R' → Change f R R'

section
variable {α : Type} [F64 α] {ctx : Ctx α} {f : MoveFlags}

theorem Placed.parts {r v u : ℕ} {p q A B : List ℕ} {pu : Ref} {c : α} (h : Placed ctx r p v q u pu c A B) :
    p ++ q = A ++ B := by
  cases h with
  | inPlace => rfl
  | before A B e _ => rw [e, List.append_assoc]
  | after A B e _ => rw [e, List.append_assoc]

theorem GoodBest.effect {s : LS α} {R R' : List (List ℕ)} {r1 r2 : ℕ} {b : BestSwap α}
    (h : GoodBest ctx s R r1 r2 b R') (hb : b ≠ SwapStar.best0) : SwapStarEffect R r1 r2 R' := by
  cases h with
  | none => exact absurd rfl hb
  | both p1 q1 p2 q2 A B C D u v pu pv cu cv h1 h2 pl1 pl2 =>
    have := SwapStarEffect.both (R := R) (r1 := r1) (r2 := r2) u v p1 q1 p2 q2 A B C D (by simpa using h1)
      (by simpa using h2) pl1.parts pl2.parts
    simpa using this
  | relocU p q A B u h1 h2 =>
    have := SwapStarEffect.relocU (R := R) (r1 := r1) (r2 := r2) u p q A B (by simpa using h1) h2
    simpa using this
  | relocV p q A B v h1 h2 =>
    have := SwapStarEffect.relocV (R := R) (r1 := r1) (r2 := r2) v p q A B (by simpa using h1) h2
    simpa using this

theorem Accepted.change {pen : α} {R R' : List (List ℕ)} (h : Accepted ctx f pen R R') : Change f R R' := by
  cases h with
  | move _ _ _ _ hm he => exact .move _ _ _ he hm
  | swap _ _ hne hg hb _ hs => exact .swapStar _ _ hs hne (hg.effect hb)

theorem Steps.changes {pen : α} {k : ℕ} {R R' : List (List ℕ)} (h : Steps ctx f pen k R R') :
    Relation.ReflTransGen (Change f) R R' := by
  induction h with
  | zero => exact .refl
  | succ _ ha ih => exact ih.tail ha.change

/-- **C77**. Whatever the earlier state, the random choices and the arithmetic: a run of the local search
changes the routes only by moves that the settings enable, one after the other. -/
theorem C77_only_enabled (atan2 : α → α → α) (ctx : Ctx α) (f : MoveFlags) (ω : Oracle) (fuel : ℕ)
    (penMult : α) (s : LS α) (x : Individual α)
    (hA : Arith ctx) (hs : Ready s) (hn : NbrOK ctx s) (hp : IsPartition ctx.n x.phenotype)
    (hlen : x.phenotype.length = s.numRoutes) (s' : LS α) (y : Individual α)
    (hrun : LS.run atan2 ctx f ω fuel penMult s x = some (s', y)) :
    ∃ R, Relation.ReflTransGen (Change f) x.phenotype R ∧ y.phenotype.Perm R := by
  obtain ⟨R, k, -, hperm, -, st, -⟩ := run_quiet hA hs hn hp hlen hrun
  exact ⟨R, st.changes, hperm⟩

/-- **C77**, nothing enabled. Then the routes stay as they are, up to their order. -/
theorem C77_all_off (atan2 : α → α → α) (ctx : Ctx α) (f : MoveFlags) (ω : Oracle) (fuel : ℕ)
    (penMult : α) (s : LS α) (x : Individual α)
    (hA : Arith ctx) (hs : Ready s) (hn : NbrOK ctx s) (hp : IsPartition ctx.n x.phenotype)
    (hlen : x.phenotype.length = s.numRoutes) (s' : LS α) (y : Individual α)
    (hrun : LS.run atan2 ctx f ω fuel penMult s x = some (s', y))
    (hoff : ∀ m, enabled f m = false) (hsw : f.swapStar = false) : y.phenotype.Perm x.phenotype := by
  obtain ⟨R, st, hperm⟩ := C77_only_enabled atan2 ctx f ω fuel penMult s x hA hs hn hp hlen s' y hrun
  suffices R = x.phenotype from this ▸ hperm
  induction st with
  | refl => rfl
  | tail _ hc _ =>
    cases hc with
    | move u v m he _ => rw [hoff m] at he; simp at he
    | swapStar _ _ he => rw [hsw] at he; simp at he

/-- **C77**, only the reversal within a route enabled. Then no customer changes its route. -/
theorem C77_intra_only (atan2 : α → α → α) (ctx : Ctx α) (f : MoveFlags) (ω : Oracle) (fuel : ℕ)
    (penMult : α) (s : LS α) (x : Individual α)
    (hA : Arith ctx) (hs : Ready s) (hn : NbrOK ctx s) (hp : IsPartition ctx.n x.phenotype)
    (hlen : x.phenotype.length = s.numRoutes) (s' : LS α) (y : Individual α)
    (hrun : LS.run atan2 ctx f ω fuel penMult s x = some (s', y))
    (hoff : ∀ m, enabled f m = true → m = .twoOptIntraReverse) (hsw : f.swapStar = false) :
    ∃ R, y.phenotype.Perm R ∧ List.Forall₂ List.Perm R x.phenotype := by
  obtain ⟨R, st, hperm⟩ := C77_only_enabled atan2 ctx f ω fuel penMult s x hA hs hn hp hlen s' y hrun
  refine ⟨R, hperm, ?_⟩
  clear hperm
  induction st with
  | refl => exact List.forall₂_same.mpr fun _ _ => .refl _
  | @tail R1 R2 _ hc ih =>
    cases hc with
    | move u v m he hm =>
      obtain rfl := hoff m he
      cases hm with
      | twoOptIntraReverse c r p m q _ _ hr =>
        rw [List.forall₂_iff_get] at ih ⊢
        refine ⟨by simpa using ih.1, fun i h1 h2 => ?_⟩
        have := ih.2 i (by simpa using h1) h2
        simp only [List.get_eq_getElem, List.getElem_set] at this ⊢
        split
        · rename_i e
          subst e
          refine .trans ?_ this
          obtain ⟨_, hr⟩ := List.getElem?_eq_some_iff.mp hr
          rw [hr]
          exact ((List.reverse_perm _).append_left _).append_right _
        · exact this
    | swapStar _ _ he => rw [hsw] at he; simp at he

/-- **C77**, the other direction. The list tried for a customer and its neighbours holds every enabled move;
the list tried for an empty route holds every enabled move that can fill one; the depot list leaves out the
moves that exchange customers and the reversal within a route. -/
theorem C77_lists (f : MoveFlags) (m : MoveKind) :
    (m ∈ f.neighbor ↔ enabled f m = true) ∧
    (m ∈ f.emptyRoute ↔ enabled f m = true ∧ ∃ (R : List (List ℕ)) (u r : ℕ) (R' : List (List ℕ)),
      R[r]? = some [] ∧ MoveEffect R u (.start r) m R') ∧
    (m ∈ f.depot ↔ enabled f m = true ∧ m ∉ ([.swapOneWithOne, .swapTwoWithOne, .swapTwoWithTwo,
      .twoOptIntraReverse] : List MoveKind)) := by
  have hN : m ∈ f.neighbor ↔ enabled f m = true := by
    cases m <;> simp [MoveFlags.neighbor, enabled]
  refine ⟨hN, ?_, ?_⟩
  · have hE : m ∈ f.emptyRoute ↔ enabled f m = true ∧
        m ∈ ([.relocateSingle, .relocateDouble, .relocateDoubleReverse, .twoOptInter] : List MoveKind) := by
      cases m <;> simp [MoveFlags.emptyRoute, enabled]
    rw [hE]
    refine and_congr_right fun _ => ⟨fun h => ?_, fun ⟨R, u, r, R', _, hm⟩ => ?_⟩
    · simp only [List.mem_cons, List.not_mem_nil, or_false] at h
      rcases h with rfl | rfl | rfl | rfl
      · exact ⟨[[1, 2], []], 1, 1, _, rfl, .relocateSingle (.inter 0 1 [] [2] [] [] (by decide) rfl rfl rfl)⟩
      · exact ⟨[[1, 2], []], 1, 1, _, rfl, .relocateDouble 2 (.inter 0 1 [] [] [] [] (by decide) rfl rfl rfl)⟩
      · exact ⟨[[1, 2], []], 1, 1, _, rfl,
          .relocateDoubleReverse 2 (.inter 0 1 [] [] [] [] (by decide) rfl rfl rfl)⟩
      · exact ⟨[[1, 2], []], 1, 1, _, rfl, .twoOptInter 0 1 [] [2] [] [] (by decide) rfl rfl rfl⟩
    · cases hm <;> simp_all
  · cases m <;> simp [MoveFlags.depot, enabled]


end

namespace MoveEx

/-- Only the reversal within a route. -/
def intra : MoveFlags := ⟨false, false, false, false, false, false, true, false, false, false⟩

/-- Exact distances and a route with a detour: 0-2-1-3-0 on a line. -/
def indX : Individual ℚ := { ind with phenotype := [[2, 1, 3], [4], []], genotype := [2, 1, 3, 4] }

def runIntra (f : MoveFlags) : Option (List (List ℕ)) :=
  (LS.run (fun _ _ => 0) ctxB f (fun _ => 0) 10 1 ls indX).map fun p => p.2.phenotype

theorem ctxB_arith : Arith ctxB := arith_rat fun a b => by
  refine ⟨abs_nonneg _, le_trans ?_ four_le_maxv⟩
  have ha : ((min a 4 : ℕ) : ℚ) ≤ 4 := by exact_mod_cast min_le_right a 4
  have hb : ((min b 4 : ℕ) : ℚ) ≤ 4 := by exact_mod_cast min_le_right b 4
  have ha0 : (0 : ℚ) ≤ (min a 4 : ℕ) := Nat.cast_nonneg _
  have hb0 : (0 : ℚ) ≤ (min b 4 : ℕ) := Nat.cast_nonneg _
  simp only [ctxB]
  rw [abs_le]; constructor <;> linarith

/-- `C77_intra_only` applies to a run that changes something: the detour goes, the other route stays. -/
example : ∃ s' y, LS.run (fun _ _ => 0) ctxB intra (fun _ => 0) 10 1 ls indX = some (s', y) ∧
    y.phenotype = [[2, 3, 1], [4], []] ∧
    ∃ R, y.phenotype.Perm R ∧ List.Forall₂ List.Perm R [[2, 1, 3], [4], []] := by
  have h : runIntra intra = some [[2, 3, 1], [4], []] := by decide +kernel
  obtain ⟨⟨s', y⟩, hrun, e⟩ := Option.map_eq_some_iff.mp h
  refine ⟨s', y, hrun, e, ?_⟩
  exact C77_intra_only _ ctxB intra _ _ _ ls indX ctxB_arith (C10_new_ready _ _ _ _ _ _ _)
    ⟨ls_nbr.gran, ls_nbr.cols, ls_nbr.len, ls_nbr.nbr, ls_nbr.cust⟩
    (by rw [Spec.IsPartition]; decide) rfl s' y hrun (fun m => by cases m <;> simp [enabled, intra]) rfl

end MoveEx
end Verif
