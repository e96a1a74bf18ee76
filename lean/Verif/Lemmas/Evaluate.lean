import Verif.Model.Evaluate
import Mathlib.Data.List.Nodup
import Mathlib.Algebra.BigOperators.Group.List.Basic

namespace Verif
open F64

variable {α : Type} [F64 α]

theorem setIdx_of_lt {β : Type} {l : List β} {i : ℕ} (x : β) (h : i < l.length) :
    setIdx l i x = some (l.set i x) := by simp [setIdx, h]

theorem setIdx_eq_some {β : Type} {l l' : List β} {i : ℕ} {x : β} (h : setIdx l i x = some l') :
    i < l.length ∧ l' = l.set i x := by
  unfold setIdx at h
  split at h
  · rename_i hi; exact ⟨hi, by simpa using h.symm⟩
  · simp at h

theorem resize_length {β : Type} (l : List β) (k : ℕ) (x : β) : (resize l k x).length = k := by
  simp [resize]; omega

theorem getLastD_append_ne {β : Type} {l1 l2 : List β} (h : l2 ≠ []) (d : β) :
    (l1 ++ l2).getLastD d = l2.getLastD d := by
  rw [List.getLastD_eq_getLast?, List.getLastD_eq_getLast?, List.getLast?_append_of_ne_nil _ h]

theorem getLastD_mem {β : Type} {l : List β} (h : l ≠ []) (d : β) : l.getLastD d ∈ l := by
  rw [List.getLastD_eq_getLast?, List.getLast?_eq_some_getLast h]
  exact List.getLast_mem h

/-- Nodes in range: the inner loop succeeds. -/
theorem evalNodes_some (ctx : Ctx α) (n : ℕ) :
    ∀ (nodes : List ℕ) (a : EvalAcc α), (∀ x ∈ nodes, x < n) → a.last < n →
      a.preds.length = n → a.succs.length = n →
      ∃ a', evalNodes ctx nodes a = some a' ∧ a'.preds.length = n ∧ a'.succs.length = n ∧
        a'.last < n ∧ a'.last = nodes.getLastD a.last ∧
        a'.load = nodes.foldl (fun s x => s +. ctx.demand x) a.load := by
  intro nodes
  induction nodes with
  | nil => intro a _ hl hp hs; exact ⟨a, rfl, hp, hs, hl, rfl, rfl⟩
  | cons x xs ih =>
    intro a hx hl hp hs
    have hxn : x < n := hx x (by simp)
    unfold evalNodes
    rw [setIdx_of_lt _ (by omega), setIdx_of_lt _ (by omega)]
    obtain ⟨a', h1, h2, h3, h4, h5, h6⟩ := ih
      { last := x, load := a.load +. ctx.demand x, dist := a.dist +. ctx.dist a.last x,
        preds := a.preds.set x a.last, succs := a.succs.set a.last x }
      (fun y hy => hx y (by simp [hy])) hxn (by simpa using hp) (by simpa using hs)
    refine ⟨a', h1, h2, h3, h4, ?_, ?_⟩
    · rw [h5, List.getLastD_cons]
    · rw [h6]; simp

/-- Values computed by the inner loop, exact arithmetic. -/
theorem evalNodes_rat (ctx : Ctx ℚ) :
    ∀ (nodes : List ℕ) (a a' : EvalAcc ℚ), evalNodes ctx nodes a = some a' →
      a'.last = nodes.getLastD a.last ∧
      a'.load = a.load + Spec.routeLoad ctx.demand nodes ∧
      a'.dist + ctx.dist a'.last 0
        = a.dist + Spec.pathDist ctx.dist (a.last :: (nodes ++ [0])) := by
  intro nodes
  induction nodes with
  | nil =>
    intro a a' h
    simp only [evalNodes, Option.some.injEq] at h
    subst h
    simp [Spec.routeLoad, Spec.pathDist]
  | cons x xs ih =>
    intro a a' h
    unfold evalNodes at h
    split at h
    · rename_i p s hp hs
      obtain ⟨h1, h2, h3⟩ := ih _ _ h
      refine ⟨?_, ?_, ?_⟩
      · rw [h1, List.getLastD_cons]
      · rw [h2]; simp [Spec.routeLoad]; ring
      · rw [h3]; simp only [rat_add, List.cons_append, Spec.pathDist]; ring
    · simp at h

/-- Neighbour arrays written by the inner loop. -/
theorem evalNodes_nbrs (ctx : Ctx α) :
    ∀ (nodes : List ℕ) (a a' : EvalAcc α), evalNodes ctx nodes a = some a' →
      (a.last :: nodes).Nodup →
      (∀ l1 u v l2, a.last :: nodes = l1 ++ u :: v :: l2 →
        a'.preds[v]? = some u ∧ a'.succs[u]? = some v) ∧
      (∀ x, x ∉ nodes → a'.preds[x]? = a.preds[x]?) ∧
      (∀ x, x ∉ (a.last :: nodes).dropLast → a'.succs[x]? = a.succs[x]?) := by
  intro nodes
  induction nodes with
  | nil =>
    intro a a' h _
    simp only [evalNodes, Option.some.injEq] at h
    subst h
    refine ⟨?_, fun _ _ => rfl, fun _ _ => rfl⟩
    intro l1 u v l2 h
    have := congrArg List.length h
    simp at this; omega
  | cons x xs ih =>
    intro a a' h hnd
    unfold evalNodes at h
    split at h
    · rename_i p s hp hs
      obtain ⟨hxl, rfl⟩ := setIdx_eq_some hp
      obtain ⟨hll, rfl⟩ := setIdx_eq_some hs
      have hnd' : (x :: xs).Nodup := (List.nodup_cons.mp hnd).2
      have hlast : a.last ∉ x :: xs := (List.nodup_cons.mp hnd).1
      have hxx : x ∉ xs := (List.nodup_cons.mp hnd').1
      obtain ⟨h1, h2, h3⟩ := ih _ _ h hnd'
      refine ⟨?_, ?_, ?_⟩
      · intro l1 u v l2 he
        cases l1 with
        | nil =>
          simp only [List.nil_append, List.cons.injEq] at he
          obtain ⟨rfl, rfl, rfl⟩ := he
          constructor
          · rw [h2 x hxx]; simp [hxl]
          · rw [h3]
            · simp [hll]
            · intro hc; exact hlast (List.dropLast_subset _ hc)
        | cons w l1 =>
          simp only [List.cons_append, List.cons.injEq] at he
          exact h1 l1 u v l2 he.2
      · intro y hy
        rw [h2 y (fun hc => hy (by simp [hc]))]
        have : x ≠ y := fun hc => hy (by simp [hc])
        simp [List.getElem?_set, this]
      · intro y hy
        have hy' : y ≠ a.last ∧ y ∉ (x :: xs).dropLast := by
          simpa [List.dropLast_cons_cons] using hy
        rw [h3 y hy'.2]
        simp [List.getElem?_set, Ne.symm hy'.1]
    · simp at h

/-- All nodes in range: evaluation does not panic. -/
theorem evalRoutes_some (ctx : Ctx α) (n : ℕ) (hn : 0 < n) :
    ∀ (sol : List (List ℕ)) (idx : ℕ) (e : SolEval α), (∀ r ∈ sol, ∀ x ∈ r, x < n) →
      e.preds.length = n → e.succs.length = n → e.routes.length = idx + sol.length →
      ∃ e', evalRoutes ctx sol idx e = some e' ∧ e'.preds.length = n ∧ e'.succs.length = n ∧
        e'.routes.length = e.routes.length := by
  intro sol
  induction sol with
  | nil => intro idx e _ h1 h2 _; exact ⟨e, rfl, h1, h2, rfl⟩
  | cons r rs ih =>
    intro idx e hr h1 h2 h3
    obtain ⟨a, ha, hp, hs, hl, -, -⟩ := evalNodes_some ctx n r ⟨0, lit 0, lit 0, e.preds, e.succs⟩
      (hr r (by simp)) hn h1 h2
    unfold evalRoutes
    simp only [ha]
    rw [setIdx_of_lt _ (by omega)]
    simp only []
    rw [setIdx_of_lt _ (by rw [h3]; simp)]
    simp only []
    obtain ⟨e', h4, h5, h6, h7⟩ := ih (idx + 1)
      { cost := e.cost +. routeCost (a.dist +. ctx.dist a.last 0) (a.load -. ctx.cap) ctx.pen
        feasible := if approxGt (a.load -. ctx.cap) (lit 0) then false else e.feasible
        routes := e.routes.set idx ⟨a.dist +. ctx.dist a.last 0, a.load -. ctx.cap,
          routeCost (a.dist +. ctx.dist a.last 0) (a.load -. ctx.cap) ctx.pen⟩
        preds := a.preds
        succs := a.succs.set a.last 0 } (fun r' h => hr r' (by simp [h])) hp (by simpa using hs)
        (by simp [h3]; omega)
    exact ⟨e', h4, h5, h6, by simpa using h7⟩

/-- Values of the outer loop, exact arithmetic. -/
theorem evalRoutes_rat (ctx : Ctx ℚ) :
    ∀ (sol : List (List ℕ)) (idx : ℕ) (e e' : SolEval ℚ),
      evalRoutes ctx sol idx e = some e' → e.routes.length = idx + sol.length →
      e'.cost = e.cost + Spec.solCost ctx.dist ctx.demand ctx.cap ctx.pen sol ∧
      (e'.feasible = true ↔
        e.feasible = true ∧ Spec.CapFeasible ctx.demand ctx.cap (1 / 1000000) sol) ∧
      e'.routes = e.routes.take idx ++ sol.map (fun r =>
        { distance := Spec.routeDist ctx.dist r
          overload := Spec.routeLoad ctx.demand r - ctx.cap
          cost := Spec.routeCost ctx.dist ctx.demand ctx.cap ctx.pen r }) := by
  intro sol
  induction sol with
  | nil =>
    intro idx e e' h hlen
    simp only [evalRoutes, Option.some.injEq] at h
    subst h
    simp only [List.length_nil, Nat.add_zero] at hlen
    simp [Spec.solCost, Spec.CapFeasible, ← hlen]
  | cons r rs ih =>
    intro idx e e' h hlen
    unfold evalRoutes at h
    split at h
    · simp at h
    · rename_i a ha
      obtain ⟨-, hload, hdist⟩ := evalNodes_rat ctx r _ _ ha
      split at h
      · simp at h
      · simp only [] at h
        split at h
        · simp at h
        · rename_i succs hs routes hroutes
          obtain ⟨hidx, rfl⟩ := setIdx_eq_some hroutes
          obtain ⟨h1, h2, h3⟩ := ih _ _ _ h (by simp [hlen]; omega)
          simp only [rat_lit, rat_add, rat_sub, zero_add] at hload hdist h1 h2 h3
          have hd : a.dist + ctx.dist a.last 0 = Spec.routeDist ctx.dist r := hdist
          have hcost : routeCost (a.dist + ctx.dist a.last 0) (a.load - ctx.cap) ctx.pen
              = Spec.routeCost ctx.dist ctx.demand ctx.cap ctx.pen r := by
            simp [routeCost, Spec.routeCost, hd, hload]
          refine ⟨?_, ?_, ?_⟩
          · rw [h1, hcost]
            simp [Spec.solCost]; ring
          · rw [h2]
            simp only [Spec.CapFeasible, List.forall_mem_cons, rat_approxGt, hload]
            by_cases hc : (0:ℚ) + 1/1000000 < Spec.routeLoad ctx.demand r - ctx.cap
            · simp only [hc, decide_true, if_true, Bool.false_eq_true, false_and, false_iff]
              rintro ⟨_, h', _⟩
              linarith
            · simp only [hc, decide_false, Bool.false_eq_true, if_false]
              constructor
              · rintro ⟨h', h''⟩; exact ⟨h', by linarith, h''⟩
              · rintro ⟨h', _, h''⟩; exact ⟨h', h''⟩
          · rw [h3, hcost, hd, hload]
            rw [List.take_set]
            have : (List.take (idx + 1) e.routes).length = idx + 1 := by
              simp; omega
            rw [List.map_cons, show idx + 1 = idx + 1 from rfl]
            rw [List.take_succ_eq_append_getElem (by omega)]
            rw [List.set_append_right _ _ (by simp)]
            simp [Nat.min_eq_left (Nat.le_of_lt hidx)]

/-- Neighbour arrays after the outer loop. -/
theorem evalRoutes_nbrs (ctx : Ctx α) :
    ∀ (sol : List (List ℕ)) (idx : ℕ) (e e' : SolEval α),
      evalRoutes ctx sol idx e = some e' → sol.flatten.Nodup → 0 ∉ sol.flatten →
      (∀ r ∈ sol, ∀ l1 u v l2, 0 :: (r ++ [0]) = l1 ++ u :: v :: l2 →
        (v ≠ 0 → e'.preds[v]? = some u) ∧ (u ≠ 0 → e'.succs[u]? = some v)) ∧
      (∀ x, x ≠ 0 → x ∉ sol.flatten → e'.preds[x]? = e.preds[x]? ∧ e'.succs[x]? = e.succs[x]?) := by
  intro sol
  induction sol with
  | nil =>
    intro idx e e' h _ _
    simp only [evalRoutes, Option.some.injEq] at h
    subst h
    simp
  | cons r rs ih =>
    intro idx e e' h hnd h0
    simp only [List.flatten_cons, List.nodup_append, List.mem_append, not_or] at hnd h0
    unfold evalRoutes at h
    split at h
    · simp at h
    · rename_i a ha
      have hnd0 : (0 :: r).Nodup := List.nodup_cons.mpr ⟨h0.1, hnd.1⟩
      obtain ⟨hn1, hn2, hn3⟩ := evalNodes_nbrs ctx r _ _ ha hnd0
      split at h
      · simp at h
      · simp only [] at h
        split at h
        · simp at h
        · rename_i succs hs _ routes hroutes
          obtain ⟨hlastlt, rfl⟩ := setIdx_eq_some hs
          obtain ⟨h1, h2⟩ := ih _ _ _ h hnd.2.1 h0.2
          simp only [] at h2 hn1 hn2 hn3
          have hlast : a.last = r.getLastD 0 := by
            clear h1 h2 hs hlastlt h hn1 hn2 hn3 hnd0 h0 hnd ih hroutes
            have key : ∀ (nodes : List ℕ) (a a' : EvalAcc α), evalNodes ctx nodes a = some a' →
                a'.last = nodes.getLastD a.last := by
              intro nodes
              induction nodes with
              | nil => intro a a' h; simp only [evalNodes, Option.some.injEq] at h; subst h; rfl
              | cons x xs ih =>
                intro a a' h
                unfold evalNodes at h
                split at h
                · rw [ih _ _ h, List.getLastD_cons]
                · simp at h
            exact key _ _ _ ha
          refine ⟨?_, ?_⟩
          · intro r' hr' l1 u v l2 he
            rcases List.mem_cons.mp hr' with rfl | hr'
            · -- this route
              rcases List.eq_nil_or_concat l2 with rfl | ⟨l2', z, rfl⟩
              · -- last pair: v = 0
                have he' : (0 :: r') ++ [0] = (l1 ++ [u]) ++ [v] := by simpa using he
                obtain ⟨he1, he2⟩ := List.append_inj' he' rfl
                simp only [List.cons.injEq, and_true] at he2
                subst he2
                refine ⟨fun h => absurd rfl h, fun hu => ?_⟩
                have hul : u = a.last := by
                  have := congrArg (fun l => l.getLastD 0) he1
                  rw [hlast]
                  cases r' with
                  | nil => simpa using this.symm
                  | cons y ys => simpa using this.symm
                have humem : u ∈ r' := by
                  have : u ∈ 0 :: r' := by rw [he1]; simp
                  simpa [hu] using this
                rw [(h2 u hu (fun hc => hnd.2.2 u humem u hc rfl)).2]
                subst hul
                simp [hlastlt]
              · have he' : (0 :: r') ++ [0] = (l1 ++ u :: v :: l2') ++ [z] := by simpa using he
                obtain ⟨he1, he2⟩ := List.append_inj' he' rfl
                obtain ⟨g1, g2⟩ := hn1 l1 u v l2' he1
                have hvr : v ∈ r' := by
                  have hnd1 := hnd0
                  cases l1 with
                  | nil =>
                    simp only [List.nil_append, List.cons.injEq] at he1
                    rw [he1.2]; simp
                  | cons w l1 =>
                    simp only [List.cons_append, List.cons.injEq] at he1
                    rw [he1.2]; simp
                have hv0 : v ≠ 0 := fun hc => h0.1 (hc ▸ hvr)
                refine ⟨fun _ => ?_, fun hu => ?_⟩
                · rw [(h2 v hv0 (fun hc => hnd.2.2 v hvr v hc rfl)).1]; exact g1
                · have hur : u ∈ r' := by
                    have : u ∈ 0 :: r' := by rw [he1]; simp
                    simpa [hu] using this
                  rw [(h2 u hu (fun hc => hnd.2.2 u hur u hc rfl)).2]
                  have hne : a.last ≠ u := by
                    rw [hlast]
                    intro hc
                    -- u is followed by v inside 0 :: r', so it is not the last element
                    have : (0 :: r').getLastD 0 = u := by
                      cases r' with
                      | nil => simpa using hc
                      | cons y ys => simpa using hc
                    rw [he1] at this hnd0
                    have hmem : u ∈ v :: l2' := by
                      rw [← this, show l1 ++ u :: v :: l2' = (l1 ++ [u]) ++ (v :: l2') by simp,
                        getLastD_append_ne (by simp)]
                      exact getLastD_mem (by simp) _
                    have := (List.nodup_append.mp hnd0).2.1
                    exact (List.nodup_cons.mp this).1 hmem
                  simp [hne, g2]
            · exact h1 r' hr' l1 u v l2 he
          · intro x hx0 hx
            simp only [List.flatten_cons, List.mem_append, not_or] at hx
            obtain ⟨g1, g2⟩ := h2 x hx0 hx.2
            refine ⟨by rw [g1]; exact hn2 x hx.1, ?_⟩
            rw [g2]
            have hne : a.last ≠ x := by
              rw [hlast]
              cases r with
              | nil => simpa using Ne.symm hx0
              | cons y ys =>
                intro hc; apply hx.1; rw [← hc]; exact getLastD_mem (by simp) _
            rw [List.getElem?_set_ne hne]
            apply hn3
            intro hc
            have := List.dropLast_subset _ hc
            simp [hx0, hx.1] at this

end Verif
