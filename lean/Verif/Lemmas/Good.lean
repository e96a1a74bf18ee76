import Verif.Lemmas.Run
import Verif.Model.RuinRecreate

/-! # Complete, evaluated individuals and the search history -/

namespace Verif
open F64

variable {α : Type} [F64 α]

/-- An individual that visits every customer exactly once, whose giant tour is the concatenation of its
routes and whose evaluation is the one computed for its routes. -/
structure Individual.Good (ctx : Ctx α) (x : Individual α) : Prop where
  part : Spec.IsPartition ctx.n x.phenotype
  geno : x.genotype = x.phenotype.flatten
  eval : ∃ e, Verif.evaluate ctx e x.phenotype = some x.evaluation

theorem eval_rat {ctx : Ctx ℚ} {e e' : SolEval ℚ} {sol : List (List ℕ)}
    (h : evaluate ctx e sol = some e') :
    e'.cost = Spec.solCost ctx.dist ctx.demand ctx.cap ctx.pen sol ∧
    (e'.feasible = true ↔ Spec.CapFeasible ctx.demand ctx.cap (1 / 1000000) sol) ∧
    e'.routes = sol.map (fun r =>
        { distance := Spec.routeDist ctx.dist r
          overload := Spec.routeLoad ctx.demand r - ctx.cap
          cost := Spec.routeCost ctx.dist ctx.demand ctx.cap ctx.pen r }) := by
  obtain ⟨h1, h2, h3⟩ := evalRoutes_rat ctx sol 0 _ _ h (by simp [SolEval.reset, resize_length])
  exact ⟨by simpa using h1, by simpa using h2, by simpa using h3⟩

namespace Individual.Good

variable {ctx : Ctx ℚ} {x : Individual ℚ}

theorem cost (h : x.Good ctx) :
    x.cost = Spec.solCost ctx.dist ctx.demand ctx.cap ctx.pen x.phenotype := by
  obtain ⟨e, he⟩ := h.eval
  exact (eval_rat he).1

theorem feasible (h : x.Good ctx) :
    x.isFeasible = true ↔ Spec.CapFeasible ctx.demand ctx.cap (1 / 1000000) x.phenotype := by
  obtain ⟨e, he⟩ := h.eval
  exact (eval_rat he).2.1

theorem routes (h : x.Good ctx) : x.evaluation.routes = x.phenotype.map (fun r =>
        { distance := Spec.routeDist ctx.dist r
          overload := Spec.routeLoad ctx.demand r - ctx.cap
          cost := Spec.routeCost ctx.dist ctx.demand ctx.cap ctx.pen r }) := by
  obtain ⟨e, he⟩ := h.eval
  exact (eval_rat he).2.2

end Individual.Good

/-- How the search history is written: an individual is recorded only if it is complete, evaluated under
the penalty of the moment (one with `P`), feasible, has `nv` routes and is cheaper than the recorded best
by more than the comparison tolerance. -/
inductive HistRun (P : α → Prop) (ctx : Ctx α) (nv : ℕ) : History α → History α → Prop
  | refl (h : History α) : HistRun P ctx nv h h
  | step {h h' : History α} {pen : α} {x : Individual α} (hr : HistRun P ctx nv h h')
      (hp : P pen) (hx : x.Good (RR.ctxAt ctx pen)) (hf : x.isFeasible = true) (hl : x.phenotype.length = nv)
      (hc : approxLt x.cost h'.bestCost = true) : HistRun P ctx nv h (h'.add x)

theorem HistRun.trans {P : α → Prop} {ctx : Ctx α} {nv : ℕ} {h h' h'' : History α}
    (a : HistRun P ctx nv h h') (b : HistRun P ctx nv h' h'') : HistRun P ctx nv h h'' := by
  induction b with
  | refl => exact a
  | step _ hp hx hf hl hc ih => exact .step ih hp hx hf hl hc

end Verif
