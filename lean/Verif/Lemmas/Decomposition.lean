import Verif.Lemmas.GeneticInv
import Verif.Lemmas.Matrix
import Verif.Model.Decomposition

/-! # Decomposition: selecting, renumbering and writing back -/

namespace Verif
open F64

namespace Decomp

/-! ### `route_for_customer` -/

theorem writeRoute_some (r : ℕ) : ∀ (l m : List ℕ), (∀ c ∈ l, c < m.length) →
    ∃ m', writeRoute r l m = some m' ∧ m'.length = m.length ∧
      ∀ v, m'[v]? = if v ∈ l then some r else m[v]?
  | [], m, _ => ⟨m, rfl, rfl, by simp⟩
  | c :: l, m, h => by
    have hc : c < m.length := h c (by simp)
    obtain ⟨m', e, h1, h2⟩ := writeRoute_some r l (m.set c r) (fun v hv => by
      rw [List.length_set]; exact h v (by simp [hv]))
    refine ⟨m', ?_, by simpa using h1, fun v => ?_⟩
    · rw [writeRoute, setIdx_of_lt _ hc, Option.bind_some, e]
    · rw [h2]
      by_cases hv : v ∈ l
      · simp [hv]
      · by_cases hvc : v = c
        · subst hvc
          simp [hv, hc]
        · simp [hv, hvc, List.getElem?_set_ne (Ne.symm hvc)]

/-- The table records, for every visited node, a route that visits it, and `0` for the others. -/
theorem routeOf_some : ∀ (ls : List (List ℕ)) (r : ℕ) (m : List ℕ), (∀ l ∈ ls, ∀ c ∈ l, c < m.length) →
    ∃ m', routeOf r ls m = some m' ∧ m'.length = m.length ∧
      ∀ v < m.length, (∃ k l, ls[k]? = some l ∧ v ∈ l ∧ m'[v]? = some (r + k)) ∨
        ((∀ l ∈ ls, v ∉ l) ∧ m'[v]? = m[v]?)
  | [], r, m, _ => ⟨m, rfl, rfl, fun v _ => Or.inr ⟨by simp, rfl⟩⟩
  | l :: ls, r, m, h => by
    obtain ⟨m1, e1, l1, g1⟩ := writeRoute_some r l m (h l (by simp))
    obtain ⟨m2, e2, l2, g2⟩ := routeOf_some ls (r + 1) m1 (fun l' hl c hc => by
      rw [l1]; exact h l' (by simp [hl]) c hc)
    refine ⟨m2, by rw [routeOf, e1, Option.bind_some, e2], l2.trans l1, fun v hv => ?_⟩
    rcases g2 v (by omega) with ⟨k, l', hk, hvl, e⟩ | ⟨hn, e⟩
    · exact Or.inl ⟨k + 1, l', by simpa using hk, hvl, by rw [e]; congr 1; omega⟩
    · by_cases hvl : v ∈ l
      · refine Or.inl ⟨0, l, rfl, hvl, ?_⟩
        rw [e, g1, if_pos hvl]; rfl
      · refine Or.inr ⟨?_, ?_⟩
        · intro l' hl'
          rw [List.mem_cons] at hl'
          rcases hl' with rfl | hl'
          · exact hvl
          · exact hn l' hl'
        · rw [e, g1, if_neg hvl]

/-! ### Selecting routes -/

theorem foldl_setInsert : ∀ (l a : List ℕ), (a ++ l).Nodup → l.foldl setInsert a = a ++ l
  | [], a, _ => by simp
  | x :: l, a, h => by
    have hx : x ∉ a := by
      rw [List.nodup_append] at h
      intro hxa
      exact h.2.2 x hxa x (by simp) rfl
    rw [List.foldl_cons, setInsert, if_neg hx, foldl_setInsert l (a ++ [x]) (by simpa using h)]
    simp

/-- The routes with the listed numbers. -/
def pick (ph : List (List ℕ)) (rs : List ℕ) : List (List ℕ) := rs.map fun r => ph.getD r []

theorem pick_flatten_sublist_perm {ph : List (List ℕ)} {rs : List ℕ} (hnd : rs.Nodup)
    (hlt : ∀ r ∈ rs, r < ph.length) : ∃ us, (us ++ pick ph rs).Perm ph := by
  refine ⟨pick ph ((List.range ph.length).filter fun i => decide (i ∉ rs)), ?_⟩
  have h1 : ((List.range ph.length).filter fun i => decide (i ∈ rs)).Perm rs := by
    rw [List.perm_ext_iff_of_nodup (List.nodup_range.filter _) hnd]
    intro a
    simp only [List.mem_filter, List.mem_range, decide_eq_true_eq]
    exact ⟨fun h => h.2, fun h => ⟨hlt a h, h⟩⟩
  have h2 := (List.filter_append_perm (fun i => decide (i ∉ rs)) (List.range ph.length))
  have h3 : ((List.range ph.length).filter fun i => !decide (i ∉ rs)).Perm rs := by
    refine List.Perm.trans (List.Perm.of_eq ?_) h1
    apply List.filter_congr
    simp
  have h4 : pick ph (List.range ph.length) = ph := by
    apply List.ext_getElem
    · simp [pick]
    · intro i h _
      simp only [pick, List.length_map, List.length_range] at h
      simp [pick, h]
  unfold pick
  rw [← List.map_append]
  refine ((List.Perm.append_left _ h3.symm).trans h2).map _ |>.trans ?_
  exact List.Perm.of_eq h4

/-- What the loop over the neighbours keeps: no number twice, all in range, and the customers are those
of the selected routes. -/
structure Sel (ph : List (List ℕ)) (p : List ℕ × List ℕ) : Prop where
  nodup : p.2.Nodup
  lt : ∀ r ∈ p.2, r < ph.length
  cust : p.1.Perm (pick ph p.2).flatten

theorem Sel.cust_nodup {ph : List (List ℕ)} {p : List ℕ × List ℕ} (h : Sel ph p)
    (hnd : ph.flatten.Nodup) : p.1.Nodup := by
  obtain ⟨us, hus⟩ := pick_flatten_sublist_perm h.nodup h.lt
  have := (hus.flatten.nodup_iff).mpr hnd
  rw [List.flatten_append, List.nodup_append] at this
  exact h.cust.nodup_iff.mpr this.2.1

theorem Sel.insert {ph : List (List ℕ)} {cs rs : List ℕ} (h : Sel ph (cs, rs))
    (hnd : ph.flatten.Nodup) {r : ℕ} {l : List ℕ} (hl : ph[r]? = some l) (hr : r ∉ rs) :
    Sel ph (l.foldl setInsert cs, setInsert rs r) := by
  have hrl : r < ph.length := (List.getElem?_eq_some_iff.mp hl).1
  have e : setInsert rs r = rs ++ [r] := by rw [setInsert, if_neg hr]
  have hlt : ∀ a ∈ rs ++ [r], a < ph.length := by
    intro a ha
    rw [List.mem_append, List.mem_singleton] at ha
    rcases ha with ha | rfl
    · exact h.lt a ha
    · exact hrl
  have hn : (rs ++ [r]).Nodup := by
    have h1 : rs.Nodup := h.nodup
    rw [List.nodup_append]
    refine ⟨h1, by simp, ?_⟩
    intro a ha b hb
    rw [List.mem_singleton] at hb
    subst hb
    exact fun e => hr (e ▸ ha)
  have hpick : pick ph (rs ++ [r]) = pick ph rs ++ [l] := by
    simp [pick, List.getD_eq_getElem?_getD, hl]
  have hp : (cs ++ l).Perm (pick ph (rs ++ [r])).flatten := by
    rw [hpick]
    simpa using h.cust.append_right l
  have hcn : (cs ++ l).Nodup := by
    obtain ⟨us, hus⟩ := pick_flatten_sublist_perm hn hlt
    have := (hus.flatten.nodup_iff).mpr hnd
    rw [List.flatten_append, List.nodup_append] at this
    exact hp.nodup_iff.mpr this.2.1
  rw [e, foldl_setInsert _ _ hcn]
  exact ⟨hn, hlt, hp⟩

theorem select_some {size : ℕ} {rf : List ℕ} {ph : List (List ℕ)} (hnd : ph.flatten.Nodup) :
    ∀ (vs cs rs : List ℕ), Sel ph (cs, rs) →
      (∀ v ∈ vs, ∃ r, rf[v]? = some r ∧ r < ph.length) →
      ∃ p, select size rf ph vs cs rs = some p ∧ Sel ph p ∧ (∀ r ∈ rs, r ∈ p.2) ∧
        (∀ v vs', vs = v :: vs' → cs.length < size → ∀ r, rf[v]? = some r → r ∈ p.2) ∧
        (size ≤ p.1.length ∨ ∀ v ∈ vs, ∀ r, rf[v]? = some r → r ∈ p.2)
  | [], cs, rs, h, _ => ⟨_, rfl, h, fun _ h => h, by simp, Or.inr (by simp)⟩
  | v :: vs, cs, rs, h, hv => by
    unfold select
    split
    · rename_i hs
      exact ⟨_, rfl, h, fun _ h => h, fun _ _ _ h2 => absurd h2 (by omega), Or.inl hs⟩
    · obtain ⟨r, er, hr⟩ := hv v (by simp)
      have hv' : ∀ v ∈ vs, ∃ r, rf[v]? = some r ∧ r < ph.length := fun v hv2 => hv v (by simp [hv2])
      rw [er, Option.bind_some, List.getElem?_eq_getElem hr, Option.bind_some]
      have fin : ∀ p : List ℕ × List ℕ, r ∈ p.2 →
          (size ≤ p.1.length ∨ ∀ v ∈ vs, ∀ r, rf[v]? = some r → r ∈ p.2) →
          (∀ v' vs', v :: vs = v' :: vs' → cs.length < size → ∀ r, rf[v']? = some r → r ∈ p.2) ∧
          (size ≤ p.1.length ∨ ∀ v' ∈ v :: vs, ∀ r, rf[v']? = some r → r ∈ p.2) := by
        intro p hrp h3
        refine ⟨?_, h3.imp id fun h3 => ?_⟩
        · rintro v' vs' e2 - r' hr'
          simp only [List.cons.injEq] at e2
          obtain ⟨rfl, rfl⟩ := e2
          rw [er, Option.some.injEq] at hr'
          exact hr' ▸ hrp
        · intro v' hv' r' hr'
          rw [List.mem_cons] at hv'
          rcases hv' with rfl | hv'
          · rw [er, Option.some.injEq] at hr'
            exact hr' ▸ hrp
          · exact h3 v' hv' r' hr'
      split
      · rename_i hm
        obtain ⟨p, e, h1, h2, -, h3⟩ := select_some hnd vs cs rs h hv'
        exact ⟨p, e, h1, h2, fin p (h2 r hm) h3⟩
      · rename_i hm
        obtain ⟨p, e, h1, h2, -, h3⟩ := select_some hnd vs _ _
          (h.insert hnd (List.getElem?_eq_getElem hr) hm) hv'
        exact ⟨p, e, h1, fun a ha => h2 a (RRSol.mem_setInsert.mpr (Or.inl ha)),
          fin p (h2 r (RRSol.mem_setInsert.mpr (Or.inr rfl))) h3⟩

theorem mapM_pick {ph : List (List ℕ)} : ∀ (rs : List ℕ), (∀ r ∈ rs, r < ph.length) →
    (rs.mapM fun r => ph[r]?) = some (pick ph rs)
  | [], _ => rfl
  | r :: rs, h => by
    have hr : r < ph.length := h r (by simp)
    rw [List.mapM_cons, mapM_pick rs (fun a ha => h a (by simp [ha]))]
    simp [pick, hr]

theorem unselected_eq (rs : List ℕ) : ∀ (ph : List (List ℕ)) (k : ℕ),
    unselected rs k ph = ((ph.zipIdx k).filter fun p => decide (p.2 ∉ rs)).map Prod.fst
  | [], _ => rfl
  | l :: ls, k => by
    rw [unselected, List.zipIdx_cons, List.filter_cons]
    split
    · rename_i h
      rw [if_neg (by simpa using h), unselected_eq rs ls]
    · rename_i h
      rw [if_pos (by simpa using h), List.map_cons, unselected_eq rs ls]

/-- Unselected and selected routes together are the routes. -/
theorem unselected_perm {ph : List (List ℕ)} {rs : List ℕ} (hnd : rs.Nodup)
    (hlt : ∀ r ∈ rs, r < ph.length) : (unselected rs 0 ph ++ pick ph rs).Perm ph := by
  have h0 := (List.filter_append_perm (fun p : List ℕ × ℕ => decide (p.2 ∉ rs)) ph.zipIdx).map Prod.fst
  rw [List.zipIdx_map_fst, List.map_append, ← unselected_eq] at h0
  refine List.Perm.trans (List.Perm.append_left _ ?_) h0
  have h1 : ((ph.zipIdx.filter fun p => !decide (p.2 ∉ rs)).map Prod.snd).Perm rs := by
    have hn : ((ph.zipIdx.filter fun p => !decide (p.2 ∉ rs)).map Prod.snd).Nodup := by
      have : (ph.zipIdx.map Prod.snd).Nodup := by
        rw [List.zipIdx_map_snd]; exact List.nodup_range'
      exact this.sublist (List.filter_sublist.map _)
    rw [List.perm_ext_iff_of_nodup hn hnd]
    intro a
    simp only [List.mem_map, List.mem_filter]
    constructor
    · rintro ⟨p, ⟨-, h⟩, rfl⟩
      simpa using h
    · intro h
      refine ⟨(ph.getD a [], a), ⟨?_, by simpa using h⟩, rfl⟩
      rw [List.mem_iff_getElem?]
      exact ⟨a, by simp [hlt a h]⟩
  have h2 : (ph.zipIdx.filter fun p => !decide (p.2 ∉ rs)).map Prod.fst
      = pick ph ((ph.zipIdx.filter fun p => !decide (p.2 ∉ rs)).map Prod.snd) := by
    unfold pick
    rw [List.map_map]
    apply List.map_congr_left
    rintro ⟨l, i⟩ hp
    have := List.mem_zipIdx' (List.mem_filter.mp hp).1
    simp [this.1, this.2]
  rw [h2]
  exact (h1.map _).symm

/-! ### Renumbering -/

theorem renumberRoute_some : ∀ (l : List ℕ) (i : ℕ) (m : List ℕ), i + l.length ≤ m.length →
    renumberRoute l i m = some (List.range' i l.length, i + l.length,
      m.take i ++ l ++ m.drop (i + l.length))
  | [], i, m, _ => by simp [renumberRoute]
  | c :: l, i, m, h => by
    rw [List.length_cons] at h
    rw [renumberRoute, setIdx_of_lt _ (by omega), Option.bind_some,
      renumberRoute_some l (i + 1) (m.set i c) (by rw [List.length_set]; omega)]
    simp only [Option.map_some, Option.some.injEq, Prod.mk.injEq, List.length_cons, List.range'_succ,
      true_and]
    refine ⟨by omega, ?_⟩
    rw [List.take_set, List.drop_set, if_pos (by omega)]
    have : (m.take (i + 1)).set i c = m.take i ++ [c] := by
      rw [List.take_add_one, List.getElem?_eq_getElem (by omega : i < m.length)]
      rw [List.set_append_right _ _ (by simp)]
      have : i - (m.take i).length = 0 := by simp; omega
      rw [this]; rfl
    rw [this]
    have e : i + 1 + l.length = i + (l.length + 1) := by omega
    rw [e]
    simp

/-- The consecutive numbers given to the routes. -/
def numbered : ℕ → List (List ℕ) → List (List ℕ)
  | _, [] => []
  | i, l :: ls => List.range' i l.length :: numbered (i + l.length) ls

theorem renumber_some : ∀ (ls : List (List ℕ)) (i : ℕ) (m : List ℕ), i + ls.flatten.length ≤ m.length →
    renumber ls i m = some (numbered i ls,
      m.take i ++ ls.flatten ++ m.drop (i + ls.flatten.length))
  | [], i, m, _ => by simp [renumber, numbered]
  | l :: ls, i, m, h => by
    rw [List.flatten_cons, List.length_append] at h
    rw [renumber, renumberRoute_some l i m (by omega), Option.bind_some,
      renumber_some ls (i + l.length) _ (by
        rw [List.length_append, List.length_append, List.length_take, List.length_drop]; omega)]
    simp only [Option.map_some, Option.some.injEq, Prod.mk.injEq, numbered, true_and]
    have e1 : (m.take i ++ l).length = i + l.length := by
      rw [List.length_append, List.length_take]; omega
    rw [List.take_append_of_le_length (by omega), List.take_of_length_le (by omega),
      List.drop_append, List.drop_eq_nil_of_le (by omega), e1]
    simp [List.drop_drop, Nat.add_assoc]

theorem numbered_flatten : ∀ (ls : List (List ℕ)) (i : ℕ),
    (numbered i ls).flatten = List.range' i ls.flatten.length
  | [], i => by simp [numbered]
  | l :: ls, i => by
    rw [numbered, List.flatten_cons, numbered_flatten ls, List.flatten_cons, List.length_append,
      List.range'_append_1]

theorem numbered_length : ∀ (ls : List (List ℕ)) (i : ℕ), (numbered i ls).length = ls.length
  | [], _ => rfl
  | _ :: ls, _ => by simp [numbered, numbered_length ls]

/-- Reading the numbers through the mapping gives the routes back. -/
theorem numbered_map (m : List ℕ) : ∀ (ls : List (List ℕ)) (i : ℕ) (pre : List ℕ),
    pre.length = i → (∃ suf, m = pre ++ ls.flatten ++ suf) →
    (numbered i ls).map (fun l => l.map fun c => m.getD c 0) = ls
  | [], _, _, _, _ => rfl
  | l :: ls, i, pre, hp, ⟨suf, hm⟩ => by
    rw [numbered, List.map_cons, numbered_map m ls (i + l.length) (pre ++ l)
      (by rw [List.length_append, hp]) ⟨suf, by rw [hm]; simp⟩]
    congr 1
    apply List.ext_getElem
    · simp
    · intro k h1 h2
      simp only [List.getElem_map, List.getElem_range', Nat.one_mul]
      have : m[i + k]? = some l[k] := by
        rw [hm, List.flatten_cons, List.append_assoc, List.getElem?_append_right (by omega), hp,
          Nat.add_sub_cancel_left, List.append_assoc, List.getElem?_append_left h2,
          List.getElem?_eq_getElem h2]
      simp [List.getD_eq_getElem?_getD, this]

/-! ### Writing back -/

theorem mapM_mapping {m : List ℕ} : ∀ (l : List ℕ), (∀ c ∈ l, c < m.length) →
    (l.mapM fun c => m[c]?) = some (l.map fun c => m.getD c 0)
  | [], _ => rfl
  | c :: l, h => by
    have hc : c < m.length := h c (by simp)
    rw [List.mapM_cons, mapM_mapping l (fun a ha => h a (by simp [ha]))]
    simp [hc]

theorem mapBack_some {m : List ℕ} : ∀ (ls : List (List ℕ)), (∀ l ∈ ls, ∀ c ∈ l, c < m.length) →
    mapBack m ls = some ((ls.map fun l => l.map fun c => m.getD c 0).filter fun l => decide (l ≠ []))
  | [], _ => rfl
  | l :: ls, h => by
    rw [mapBack, mapM_mapping l (h l (by simp)), Option.bind_some,
      mapBack_some ls (fun a ha => h a (by simp [ha]))]
    simp only [Option.map_some, Option.some.injEq, List.map_cons, List.filter_cons]
    by_cases hl : l = []
    · subst hl; simp
    · simp [hl]

theorem filter_flatten (ls : List (List ℕ)) : (ls.filter fun l => decide (l ≠ [])).flatten = ls.flatten := by
  induction ls with
  | nil => rfl
  | cons l ls ih =>
    rw [List.filter_cons]
    by_cases hl : l = []
    · subst hl; simpa using ih
    · rw [if_pos (by simpa using hl), List.flatten_cons, List.flatten_cons, ih]

end Decomp
end Verif
