import Verif.Model.Search

/-!
# What the search never changes, whatever the state
-/

namespace Verif
open F64

variable {α : Type} [F64 α]

theorem of_bind {β γ : Type} {o : Option β} {f : β → Option γ} {y : γ} {P : Prop}
    (h : ∀ a, f a = some y → P) (hb : o.bind f = some y) : P := by
  obtain ⟨a, -, ha⟩ := Option.bind_eq_some_iff.mp hb
  exact h a ha

/-- The fields that fix the shape of the neighbour lists. -/
structure SameShape (s s' : LS α) : Prop where
  corr : s'.corr.length = s.corr.length
  cols : s'.corrCols = s.corrCols
  gran : s'.granularity = s.granularity

theorem SameShape.refl (s : LS α) : SameShape s s := ⟨rfl, rfl, rfl⟩

theorem SameShape.trans {s s' s'' : LS α} (h : SameShape s s') (h' : SameShape s' s'') :
    SameShape s s'' := ⟨h'.1.trans h.1, h'.2.trans h.2, h'.3.trans h.3⟩

namespace LS

theorem updateRoute_shape {ctx : Ctx α} {r : ℕ} {s s' : LS α} (h : updateRoute ctx r s = some s') :
    SameShape s s' := by
  obtain ⟨l, -, rfl⟩ := Option.map_eq_some_iff.mp h
  exact ⟨rfl, rfl, rfl⟩

theorem updateRoutes_shape {ctx : Ctx α} {r1 r2 : ℕ} {s s' : LS α} (h : updateRoutes ctx r1 r2 s = some s') :
    SameShape s s' := by
  obtain ⟨s1, h1, h2⟩ := Option.bind_eq_some_iff.mp h
  split at h2
  · exact (updateRoute_shape h1).trans (updateRoute_shape h2)
  · cases h2; exact updateRoute_shape h1

theorem updateBoth_shape {ctx : Ctx α} {r1 r2 : ℕ} {s s' : LS α} (h : updateBoth ctx r1 r2 s = some s') :
    SameShape s s' := by
  obtain ⟨s1, h1, h2⟩ := Option.bind_eq_some_iff.mp h
  exact (updateRoute_shape h1).trans (updateRoute_shape h2)

theorem perform_shape {ctx : Ctx α} {m : MoveKind} {u v : Ref} {s s' : LS α}
    (h : m.perform ctx s u v = some s') : SameShape s s' := by
  have key : ∀ h : Heap, SameShape s { s with heap := h } := fun _ => ⟨rfl, rfl, rfl⟩
  revert h
  cases m <;> simp only [MoveKind.perform, Move.relocateSinglePerform, Move.relocateDoublePerform,
    Move.relocateDoubleReversePerform, Move.swapOneWithOnePerform, Move.swapTwoWithOnePerform,
    Move.swapTwoWithTwoPerform, Move.twoOptIntraReversePerform, Move.twoOptInterReversePerform,
    Move.twoOptInterPerform] <;> repeat
    first
      | exact fun h => (key _).trans (updateRoutes_shape h)
      | exact fun h => (key _).trans (updateBoth_shape h)
      | exact fun h => (key _).trans (updateRoute_shape h)
      | refine of_bind fun _ => ?_

theorem tryMoves_shape {ctx : Ctx α} {u v : Ref} : ∀ (ms : List MoveKind) {s : LS α} {p : LS α × Bool},
    tryMoves ctx u v ms s = some p → SameShape s p.1
  | [], s, p, h => by cases h; exact .refl _
  | m :: ms, s, p, h => by
    rw [tryMoves] at h
    refine of_bind (fun d h => ?_) h
    split at h
    · obtain ⟨s1, h1, rfl⟩ := Option.map_eq_some_iff.mp h
      have := perform_shape h1
      exact ⟨this.1, this.2, this.3⟩
    · exact tryMoves_shape ms h

theorem tryPair_shape {ctx : Ctx α} {f : MoveFlags} {u v : Ref} {s : LS α} {p : LS α × Bool}
    (h : tryPair ctx f u v s = some p) : SameShape s p.1 := by
  rw [tryPair] at h
  obtain ⟨q, h1, h⟩ := Option.bind_eq_some_iff.mp h
  have e1 := tryMoves_shape _ h1
  split at h
  · cases h; exact e1
  · refine of_bind (fun d h => ?_) h
    split at h
    · exact e1.trans (tryMoves_shape _ h)
    · cases h; exact e1

theorem vLoop_shape {ctx : Ctx α} {f : MoveFlags} {lc u : ℕ} {lt : ℤ} : ∀ (vs : List ℕ) {s : LS α}
    {imp : Bool} {p : LS α × Bool}, vLoop ctx f lc u lt vs s imp = some p → SameShape s p.1
  | [], s, imp, p, h => by cases h; exact .refl _
  | v :: vs, s, imp, p, h => by
    rw [vLoop] at h
    refine of_bind (fun ru h => ?_) h
    refine of_bind (fun rv h => ?_) h
    split at h
    · obtain ⟨q, h1, h⟩ := Option.bind_eq_some_iff.mp h
      exact (tryPair_shape h1).trans (vLoop_shape vs h)
    · exact vLoop_shape vs h

theorem uStep_shape {ctx : Ctx α} {f : MoveFlags} {lc u : ℕ} {ω : Oracle} {s : LS α}
    {p : LS α × Bool} (h : uStep ctx f lc ω u s = some p) : SameShape s p.1 := by
  rw [uStep] at h
  obtain ⟨sc, h1, h⟩ := Option.bind_eq_some_iff.mp h
  obtain ⟨q, h2, h⟩ := Option.bind_eq_some_iff.mp h
  obtain ⟨q', h3, rfl⟩ := Option.map_eq_some_iff.mp h
  have e1 : SameShape s sc.1 := by
    rw [neighbours] at h1
    obtain ⟨cor, hc, h1⟩ := Option.bind_eq_some_iff.mp h1
    obtain ⟨k, -, rfl⟩ := Option.map_eq_some_iff.mp h1
    rw [topSlice] at hc
    split at hc
    · next hle =>
      cases hc
      split
      · have hl := (shuffle_perm (ω.sub 1) ((s.corr.drop (u * s.corrCols)).take s.granularity)).length_eq
        refine ⟨?_, rfl, rfl⟩
        simp only [storeSlice, List.length_append, List.length_take, List.length_drop, hl]
        omega
      · exact .refl _
    · cases hc
  have e2 := vLoop_shape _ h2
  have e3 : SameShape q.1 q'.1 := by
    rw [emptyStep] at h3
    split at h3
    · refine of_bind (fun r h3 => ?_) h3
      exact tryMoves_shape _ h3
    · cases h3; exact .refl _
  exact e1.trans (SameShape.trans ⟨e2.1, e2.2, e2.3⟩ e3)

/-- A customer whose slice leaves the allocation stops the loop. -/
theorem uLoop_none {ctx : Ctx α} {f : MoveFlags} {lc : ℕ} {ω : Oracle} {w : ℕ} : ∀ (us : List ℕ) (i : ℕ)
    (s : LS α) (imp : Bool), w ∈ us → s.corr.length < w * s.corrCols + s.granularity →
    uLoop ctx f lc ω i us s imp = none
  | [], _, _, _, h, _ => by simp at h
  | u :: us, i, s, imp, hw, hlt => by
    rw [uLoop]
    cases e : uStep ctx f lc (ω.sub i) u s with
    | none => rfl
    | some p =>
      rw [Option.bind_some]
      by_cases hu : w = u
      · subst hu
        rw [uStep, neighbours, topSlice, if_neg (by omega)] at e
        cases e
      · obtain ⟨h1, h2, h3⟩ := uStep_shape e
        exact uLoop_none us _ _ _ ((List.mem_cons.mp hw).resolve_left hu) (by rw [h1, h2, h3]; exact hlt)

end LS
end Verif
