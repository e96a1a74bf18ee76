import Verif.SpecLS

/-!
# `update_route` recomputes the data of a route
-/

namespace Verif
open F64 LS

variable {α : Type} [F64 α]

theorem distFrom_append (ctx : Ctx α) : ∀ (l m : List Ref) (p : Ref) (acc : α),
    distFrom ctx p acc (l ++ m) =
      distFrom ctx ((p :: l).getLast (by simp)) (distFrom ctx p acc l) m
  | [], _, _, _ => rfl
  | x :: l, m, p, acc => by
    simp only [List.cons_append, distFrom]
    rw [distFrom_append ctx l m x]
    rfl

section scan
variable (ctx : Ctx α) (angle : ℕ → ℤ) (r : ℕ)

theorem scan_totals : ∀ (l : List Ref) (a : Scan α),
    (l.foldl (scanNode ctx angle r) a).dist = distFrom ctx a.prev a.dist l ∧
    (l.foldl (scanNode ctx angle r) a).load = loadFrom ctx a.load l ∧
    (l.foldl (scanNode ctx angle r) a).num = a.num + l.countP (fun x => !x.isDepot)
  | [], _ => ⟨rfl, rfl, rfl⟩
  | x :: l, a => by
    obtain ⟨h1, h2, h3⟩ := scan_totals l (scanNode ctx angle r a x)
    refine ⟨?_, ?_, ?_⟩
    · rw [List.foldl_cons, h1]; rfl
    · rw [List.foldl_cons, h2]; rfl
    · rw [List.foldl_cons, h3, List.countP_cons]
      simp only [scanNode]
      cases x.isDepot <;> simp; omega

theorem scan_notin : ∀ (l : List Ref) (a : Scan α) (x : Ref), x ∉ l →
    (l.foldl (scanNode ctx angle r) a).rt x = a.rt x ∧
    (l.foldl (scanNode ctx angle r) a).pos x = a.pos x ∧
    (l.foldl (scanNode ctx angle r) a).cumD x = a.cumD x ∧
    (l.foldl (scanNode ctx angle r) a).cumL x = a.cumL x
  | [], _, _, _ => ⟨rfl, rfl, rfl, rfl⟩
  | y :: l, a, x, hx => by
    rw [List.mem_cons, not_or] at hx
    obtain ⟨h1, h2, h3, h4⟩ := scan_notin l (scanNode ctx angle r a y) x hx.2
    rw [List.foldl_cons, h1, h2, h3, h4]
    simp [scanNode, hx.1]

theorem scan_node : ∀ (P Q : List Ref) (a : Scan α) (x : Ref), (P ++ x :: Q).Nodup →
    ((P ++ x :: Q).foldl (scanNode ctx angle r) a).rt x = some r ∧
    ((P ++ x :: Q).foldl (scanNode ctx angle r) a).pos x = a.position + P.length ∧
    ((P ++ x :: Q).foldl (scanNode ctx angle r) a).cumD x = distFrom ctx a.prev a.dist (P ++ [x]) ∧
    ((P ++ x :: Q).foldl (scanNode ctx angle r) a).cumL x = loadFrom ctx a.load (P ++ [x])
  | [], Q, a, x, hnd => by
    rw [List.nil_append, List.nodup_cons] at hnd
    obtain ⟨h1, h2, h3, h4⟩ := scan_notin ctx angle r Q (scanNode ctx angle r a x) x hnd.1
    rw [List.nil_append, List.foldl_cons, h1, h2, h3, h4]
    simp [scanNode, distFrom, loadFrom]
  | y :: P, Q, a, x, hnd => by
    rw [List.cons_append, List.nodup_cons] at hnd
    obtain ⟨h1, h2, h3, h4⟩ := scan_node P Q (scanNode ctx angle r a y) x hnd.2
    rw [List.cons_append, List.foldl_cons, h1, h2, h3, h4]
    refine ⟨rfl, ?_, rfl, rfl⟩
    simp [scanNode]; omega

theorem scan_sector : ∀ (l : List Ref) (a : Scan α),
    (l.foldl (scanNode ctx angle r) a).sector = l.foldl (fun S x =>
      if x.isDepot then S else S.extend (angle x.number)) a.sector
  | [], _ => rfl
  | x :: l, a => by
    rw [List.foldl_cons, List.foldl_cons, scan_sector l]; rfl

end scan

theorem sector_custs (angle : ℕ → ℤ) (r : ℕ) : ∀ (l : List ℕ) (S : Sector), (∀ c ∈ l, c ≠ 0) →
    (l.map Ref.cust ++ [Ref.fin r]).foldl (fun S x =>
      if x.isDepot then S else S.extend (angle x.number)) S = l.foldl (fun S c => S.extend (angle c)) S
  | [], S, _ => by simp [Ref.isDepot, Ref.number]
  | c :: l, S, h => by
    have hc := h c (by simp)
    rw [List.map_cons, List.cons_append, List.foldl_cons, List.foldl_cons,
      ← sector_custs angle r l _ (fun x hx => h x (by simp [hx]))]
    simp [Ref.isDepot, Ref.number, hc]

theorem countP_custs (l : List ℕ) (hl : ∀ c ∈ l, c ≠ 0) (r : ℕ) :
    (l.map Ref.cust ++ [Ref.fin r]).countP (fun x => !x.isDepot) = l.length := by
  rw [List.countP_append]
  have : (l.map Ref.cust).countP (fun x => !x.isDepot) = (l.map Ref.cust).length := by
    rw [List.countP_eq_length]
    intro x hx
    obtain ⟨c, hc, rfl⟩ := List.mem_map.mp hx
    simp [Ref.isDepot, Ref.number, hl c hc]
  rw [this]
  simp [Ref.isDepot, Ref.number]

/-- Data of one route only depends on the fields at its own nodes. -/
theorem RouteData.congr {ctx : Ctx α} {s s' : LS α} {r : ℕ} {l : List ℕ} (h : RouteData ctx s r l)
    (hrt : ∀ x ∈ routeRefs r l, s'.rt x = s.rt x) (hpos : ∀ x ∈ routeRefs r l, s'.pos x = s.pos x)
    (hD : ∀ x ∈ routeRefs r l, s'.cumD x = s.cumD x) (hL : ∀ x ∈ routeRefs r l, s'.cumL x = s.cumL x)
    (hnum : (s'.route r).num = (s.route r).num)
    (hdist : (s'.route r).distance = (s.route r).distance)
    (hload : (s'.route r).load = (s.route r).load)
    (hover : (s'.route r).overload = (s.route r).overload)
    (hcost : (s'.route r).cost = (s.route r).cost) (hpen : s'.pen = s.pen)
    (hsec : (s'.route r).sector = (s.route r).sector) (hang : s'.angle = s.angle) : RouteData ctx s' r l where
  rt x hx := by rw [hrt x hx]; exact h.rt x hx
  start := by
    have hm : Ref.start r ∈ routeRefs r l := by simp [routeRefs]
    rw [hpos _ hm, hD _ hm, hL _ hm]; exact h.start
  node P x Q e := by
    have hm : x ∈ routeRefs r l := by
      rw [routeRefs, e]; simp
    rw [hpos _ hm, hD _ hm, hL _ hm]; exact h.node P x Q e
  num := by rw [hnum]; exact h.num
  distance := by rw [hdist]; exact h.distance
  load := by rw [hload]; exact h.load
  overload := by rw [hload, hover]; exact h.overload
  cost := by rw [hcost, hdist, hover, hpen]; exact h.cost
  sector := by rw [hsec, hang]; exact h.sector

/-- What `update_route` leaves alone. -/
structure SameOutside (r : ℕ) (l : List ℕ) (s s' : LS α) : Prop where
  rt : ∀ x ∉ routeRefs r l, s'.rt x = s.rt x
  pos : ∀ x ∉ routeRefs r l, s'.pos x = s.pos x
  cumD : ∀ x ∉ l.map Ref.cust ++ [Ref.fin r], s'.cumD x = s.cumD x
  cumL : ∀ x ∉ l.map Ref.cust ++ [Ref.fin r], s'.cumL x = s.cumL x
  route : ∀ r' ≠ r, s'.route r' = s.route r'
  empty : ∀ r', r' ∈ s'.empty ↔ (if r' = r then l = [] else r' ∈ s.empty)
  stamp : (s'.route r).lastModified = s.moveCount
  swap : (s'.route r).lastTestedSwapStar = (s.route r).lastTestedSwapStar
  rest : s'.lastTested = s.lastTested ∧ s'.delRem = s.delRem ∧ s'.angle = s.angle ∧
    s'.numRoutes = s.numRoutes ∧ s'.inserts = s.inserts ∧ s'.moveCount = s.moveCount ∧
    s'.customers = s.customers ∧ s'.corr = s.corr ∧ s'.corrCols = s.corrCols ∧
    s'.granularity = s.granularity ∧ s'.pen = s.pen

/-- The heap after `update_route`: only the outer ends are reset to null. -/
def clearEnds (r : ℕ) (h : Heap) : Heap :=
  ⟨Function.update h.succ (.fin r) none, Function.update h.pred (.start r) none⟩

theorem clearEnds_eq {r : ℕ} {h : Heap} (hs : h.succ (.fin r) = none) (hp : h.pred (.start r) = none) :
    clearEnds r h = h := by
  cases h with
  | mk su pr =>
    simp only at hs hp
    simp only [clearEnds, Heap.mk.injEq]
    exact ⟨by rw [← hs, Function.update_eq_self], by rw [← hp, Function.update_eq_self]⟩

/-- `update_route` on a correctly linked route. -/
theorem updateRoute_spec (ctx : Ctx α) (s : LS α) (r : ℕ) (l : List ℕ)
    (hc : (routeRefs r l).IsChain (Linked s.heap)) (hnd : (routeRefs r l).Nodup)
    (hfin : s.heap.succ (.fin r) = none) (hpos : ∀ c ∈ l, c ≠ 0) (hlen : l.length ≤ ctx.n)
    (hcum : s.cumD (.start r) = lit 0 ∧ s.cumL (.start r) = lit 0) :
    ∃ s', updateRoute ctx r s = some s' ∧ s'.heap = clearEnds r s.heap ∧ RouteData ctx s' r l ∧
      SameOutside r l s s' := by
  have hw : s.heap.walk (s.fuel ctx) (s.heap.succ (.start r)) = some (l.map .cust ++ [.fin r]) := by
    have h1 := walk_chain (l.map .cust ++ [.fin r]) s.heap (s.fuel ctx) (.fin r) (List.IsChain.tail hc)
      (by simp [fuel]; omega) (by simp) hfin
    have h2 : s.heap.succ (.start r) = (l.map Ref.cust ++ [Ref.fin r]).head? := by
      cases l with
      | nil => exact (List.isChain_cons_cons.mp hc).1.1
      | cons y L => exact (List.isChain_cons_cons.mp hc).1.1
    rw [h2, h1]
  have hnd' : (l.map Ref.cust ++ [Ref.fin r]).Nodup := (List.nodup_cons.mp hnd).2
  have hst : Ref.start r ∉ l.map Ref.cust ++ [Ref.fin r] := (List.nodup_cons.mp hnd).1
  refine ⟨_, by rw [updateRoute, hw, Option.map_some], rfl, ?_, ?_⟩
  · obtain ⟨t1, t2, t3⟩ := scan_totals ctx s.angle r (l.map .cust ++ [.fin r]) (scanInit s r)
    obtain ⟨n1, n2, n3, n4⟩ := scan_notin ctx s.angle r (l.map .cust ++ [.fin r]) (scanInit s r)
      (.start r) hst
    constructor
    · intro x hx
      simp only [storeScan]
      rcases List.mem_cons.mp hx with rfl | hx
      · rw [n1]; simp [scanInit]
      · obtain ⟨P, Q, e⟩ := List.append_of_mem hx
        rw [e]
        exact (scan_node ctx s.angle r P Q _ x (e ▸ hnd')).1
    · simp only [storeScan]
      rw [n2, n3, n4]
      exact ⟨by simp [scanInit], hcum⟩
    · intro P x Q e
      simp only [storeScan]
      rw [e]
      obtain ⟨_, h2, h3, h4⟩ := scan_node ctx s.angle r P Q (scanInit s r) x (e ▸ hnd')
      rw [h2, h3, h4]
      refine ⟨by simp [scanInit]; omega, rfl, rfl⟩
    · simp only [storeScan, Function.update_self]
      rw [t3, countP_custs l hpos]; simp [scanInit]
    · simp only [storeScan, Function.update_self]
      rw [t1]; rfl
    · simp only [storeScan, Function.update_self]
      rw [t2]; rfl
    · simp only [storeScan, Function.update_self]
    · simp only [storeScan, Function.update_self]
    · simp only [storeScan, Function.update_self]
      rw [scan_sector, sector_custs s.angle r l _ hpos]; rfl
  · have hnin : ∀ x ∉ l.map Ref.cust ++ [Ref.fin r], _ := fun x hx =>
      scan_notin ctx s.angle r (l.map .cust ++ [.fin r]) (scanInit s r) x hx
    constructor
    · intro x hx
      simp only [routeRefs, List.mem_cons, not_or] at hx
      simp only [storeScan]
      rw [(hnin x hx.2).1]; simp [scanInit, hx.1]
    · intro x hx
      simp only [routeRefs, List.mem_cons, not_or] at hx
      simp only [storeScan]
      rw [(hnin x hx.2).2.1]; simp [scanInit, hx.1]
    · intro x hx
      simp only [storeScan]
      rw [(hnin x hx).2.2.1]; rfl
    · intro x hx
      simp only [storeScan]
      rw [(hnin x hx).2.2.2]; rfl
    · intro r' hr'
      simp [storeScan, hr']
    · intro r'
      have hn : (List.foldl (scanNode ctx s.angle r) (scanInit s r) (List.map Ref.cust l ++ [Ref.fin r])).num
          = l.length := by
        rw [(scan_totals ctx s.angle r (l.map Ref.cust ++ [Ref.fin r]) (scanInit s r)).2.2,
          countP_custs l hpos]
        simp [scanInit]
      simp only [storeScan, hn]
      by_cases hl : l = []
      · subst hl
        by_cases hm : r ∈ s.empty
        · by_cases e : r' = r
          · subst e; simp [hm]
          · simp [hm, e]
        · by_cases e : r' = r
          · subst e; simp [hm]
          · simp [hm, e]
      · have : l.length ≠ 0 := by simpa using hl
        by_cases e : r' = r
        · subst e; simp [this, hl]
        · simp [this, e]
    · simp [storeScan]
    · simp [storeScan]
    · exact ⟨rfl, rfl, rfl, rfl, rfl, rfl, rfl, rfl, rfl, rfl, rfl⟩

/-- Other routes keep their data. -/
theorem SameOutside.data {ctx : Ctx α} {s s' : LS α} {r r' : ℕ} {l l' : List ℕ}
    (hso : SameOutside r l s s') (hne : r' ≠ r) (hdis : List.Disjoint (routeRefs r' l') (routeRefs r l))
    (hd : RouteData ctx s r' l') : RouteData ctx s' r' l' := by
  have hd2 : ∀ x ∈ routeRefs r' l', x ∉ l.map Ref.cust ++ [Ref.fin r] :=
    fun x hx hm => hdis hx (List.mem_cons_of_mem _ hm)
  refine hd.congr (fun x hx => hso.rt x (fun hm => hdis hx hm)) (fun x hx => hso.pos x (fun hm => hdis hx hm))
    (fun x hx => hso.cumD x (hd2 x hx)) (fun x hx => hso.cumL x (hd2 x hx)) ?_ ?_ ?_ ?_ ?_ ?_ ?_ ?_ <;>
    first | rw [hso.route r' hne] | exact hso.rest.2.2.2.2.2.2.2.2.2.2 | exact hso.rest.2.2.1

end Verif
