import Verif.Lemmas.Repr
import Verif.Props.Correlation
import Verif.Model.Program

/-!
# Instances with fewer nodes than the neighbour lists need
-/

namespace Verif
open F64

variable {α : Type} [F64 α]

/-! ## The size of the neighbour lists -/

theorem writeRow_size : ∀ (l : List (ℕ × ℕ)) (i : ℕ) (m m' : RawMatrix ℕ),
    l.foldlM (fun (m : RawMatrix ℕ) p => m.set i p.2 p.1) m = some m' →
    m'.cells.length = m.cells.length ∧ m'.cols = m.cols
  | [], _, m, m', h => by
    simp only [List.foldlM_nil, Option.pure_def, Option.some.injEq] at h
    subst h; exact ⟨rfl, rfl⟩
  | p :: l, i, m, m', h => by
    rw [List.foldlM_cons] at h
    obtain ⟨m1, h1, h2⟩ := Option.bind_eq_some_iff.mp h
    obtain ⟨e1, e2⟩ := writeRow_size l i m1 m' h2
    unfold RawMatrix.set at h1
    split at h1
    · cases h1
      exact ⟨e1.trans (by simp), e2⟩
    · cases h1

theorem corrRows_size (sqrt : α → α) (sort : List (α × ℕ) → List (α × ℕ)) (d : DistMatrix α) (k : ℕ) :
    ∀ (l : List ℕ) (m m' : RawMatrix ℕ), l.foldlM (fun m i =>
      (d.getVec sqrt i 0 d.locations.length).bind fun v =>
        writeRow m i (((sort (corrCandidates v i)).take k).map Prod.snd)) m = some m' →
    m'.cells.length = m.cells.length ∧ m'.cols = m.cols
  | [], m, m', h => by
    simp only [List.foldlM_nil, Option.pure_def, Option.some.injEq] at h
    subst h; exact ⟨rfl, rfl⟩
  | i :: l, m, m', h => by
    rw [List.foldlM_cons] at h
    obtain ⟨m1, h1, h2⟩ := Option.bind_eq_some_iff.mp h
    obtain ⟨e1, e2⟩ := corrRows_size sqrt sort d k l m1 m' h2
    obtain ⟨v, -, h3⟩ := Option.bind_eq_some_iff.mp h1
    obtain ⟨e3, e4⟩ := writeRow_size _ _ _ _ h3
    exact ⟨e1.trans e3, e2.trans e4⟩

/-- However the lists were sorted, there is room for `min 200 (n - 2)` entries per node. -/
theorem buildCorr_size {sqrt : α → α} {sort : List (α × ℕ) → List (α × ℕ)} {d : DistMatrix α} {c : Correlation}
    (h : buildCorr sqrt sort d = some c) : 2 ≤ d.locations.length ∧
      c.width = min 200 (d.locations.length - 2) ∧ c.storage.cells.length = d.locations.length * c.width := by
  unfold buildCorr at h
  split at h
  · cases h
  · obtain ⟨m, h1, rfl⟩ := Option.map_eq_some_iff.mp h
    obtain ⟨e1, -⟩ := corrRows_size _ _ _ _ _ _ _ h1
    exact ⟨by omega, rfl, e1.trans (by simp [RawMatrix.new])⟩

theorem buildDist_locations {sqrt : α → α} {locs : List (Coord α)} {pre rd : Bool} {m : Option (List (List α))}
    {d : DistMatrix α} (h : buildDist sqrt locs pre rd m = some d) : d.locations = locs := by
  unfold buildDist at h
  split at h
  · obtain ⟨st, -, rfl⟩ := Option.map_eq_some_iff.mp h; rfl
  · split at h
    · obtain ⟨st, -, rfl⟩ := Option.map_eq_some_iff.mp h; rfl
    · cases h; rfl

/-! ## Every local search leaves the allocation -/

namespace LS

theorem updateRoute_lists {ctx : Ctx α} {r : ℕ} {s s' : LS α} (h : updateRoute ctx r s = some s') :
    s'.customers = s.customers ∧ SameShape s s' := by
  obtain ⟨l, -, rfl⟩ := Option.map_eq_some_iff.mp h
  exact ⟨rfl, rfl, rfl, rfl⟩

theorem loadRoutes_lists {ctx : Ctx α} : ∀ (ls : List (List ℕ)) (r : ℕ) (s s' : LS α),
    loadRoutes ctx r ls s = some s' → s'.customers = s.customers ∧ SameShape s s'
  | [], _, s, s', h => by
    simp only [loadRoutes, Option.some.injEq] at h
    subst h; exact ⟨rfl, .refl _⟩
  | l :: ls, r, s, s', h => by
    rw [loadRoutes] at h
    obtain ⟨s1, h1, h2⟩ := Option.bind_eq_some_iff.mp h
    obtain ⟨e1, e2⟩ := loadRoutes_lists ls _ _ _ h2
    unfold loadRoute at h1
    split at h1
    · obtain ⟨e3, e4⟩ := updateRoute_lists h1
      exact ⟨e1.trans e3, SameShape.trans ⟨e4.1, e4.2, e4.3⟩ e2⟩
    · cases h1

/-- A local search with lists that are too short for the last customer. -/
theorem run_none {atan2 : α → α → α} {ctx : Ctx α} {f : MoveFlags} {ω : Oracle} {fuel : ℕ} {penMult : α}
    {s : LS α} {x : Individual α} {w : ℕ} (hw : w ∈ s.customers)
    (hlt : s.corr.length < w * s.corrCols + s.granularity) :
    run atan2 ctx f ω fuel penMult s x = none := by
  unfold run
  cases h : loadIndividual ctx x ((s.reset).updatePenalty ctx penMult) with
  | none => rfl
  | some s1 =>
    obtain ⟨e1, e2⟩ : s1.customers = s.customers ∧ SameShape s s1 := by
      unfold loadIndividual at h
      obtain ⟨e1, e2⟩ := loadRoutes_lists _ _ _ _ h
      exact ⟨e1, e2.1, e2.2, e2.3⟩
    rw [Option.bind_some]
    have : search ctx f ω fuel s1 = none := by
      unfold search
      cases fuel with
      | zero => rfl
      | succ fuel =>
        rw [searchLoop, pass, uLoop_none (w := w), Option.bind_none, Option.bind_none]
        · rw [(shuffle_perm _ _).mem_iff, e1]; exact hw
        · show s1.corr.length < w * s1.corrCols + s1.granularity
          rw [e2.1, e2.2, e2.3]; exact hlt
    rw [this, Option.bind_none]

end LS

/-! ## The genetic algorithm -/

namespace GA

/-- A new algorithm, before its first individual. -/
structure Fresh (env : GAEnv α) (ctx : Ctx α) (g : GA α) : Prop where
  state : g.state = .created ∨ g.state = .init ∨ g.state = .terminated
  ls : g.ls = LS.new (RR.ctxAt ctx env.initialPen) env.split.numVehicles env.granularity env.angle env.corr
    env.corrCols (lit 1)
  none : g.numInitialized = 0
  hist : g.rr.hist = History.new

theorem educate_none {env : GAEnv α} {ctx : Ctx α} {ch : GAChoice α} {ω : Oracle} {g : GA α}
    (hls : env.lsEnabled = true) (hn : 2 ≤ ctx.n)
    (hlt : env.corr.length < (ctx.n - 1) * env.corrCols + env.granularity)
    (hg : g.ls = LS.new (RR.ctxAt ctx env.initialPen) env.split.numVehicles env.granularity env.angle env.corr
      env.corrCols (lit 1)) : educate env ctx ch ω g = none := by
  have h : localSearch env ctx (ω.sub 0) ch.fuel (lit 1) g = none := by
    unfold localSearch
    rw [if_pos hls, hg, LS.run_none (w := ctx.n - 1) ?_ ?_]
    · rfl
    · simp only [LS.new, RR.ctxAt, List.mem_range'_1]; omega
    · exact hlt
  rw [educate, h, Option.bind_none]

theorem runSplit_ls_eq {env : GAEnv α} {ctx : Ctx α} {k : ℕ} {g g' : GA α} (h : runSplit env ctx k g = some g') :
    g'.ls = g.ls := by
  obtain ⟨p, -, rfl⟩ := Option.map_eq_some_iff.mp h
  rfl

theorem iterate_fresh {env : GAEnv α} {ctx : Ctx α} {ch : GAChoice α} {g g' : GA α}
    (hls : env.lsEnabled = true) (hn : 2 ≤ ctx.n) (h1 : 1 ≤ env.initialIndividuals)
    (hlt : env.corr.length < (ctx.n - 1) * env.corrCols + env.granularity) (hg : Fresh env ctx g)
    (h : iterate env ctx ch g = some g') : Fresh env ctx g' := by
  unfold iterate at h
  split at h
  · cases h
    exact ⟨.inr (.inr rfl), hg.ls, hg.none, hg.hist⟩
  · rcases hg.state with e | e | e
    · rw [e] at h
      simp only [stepCreated] at h
      split at h
      · obtain ⟨g1, a1, h⟩ := Option.bind_eq_some_iff.mp h
        obtain ⟨g2, a2, h⟩ := Option.bind_eq_some_iff.mp h
        rw [educate_none hls hn hlt ((runSplit_ls_eq a1).trans hg.ls)] at a2
        cases a2
      · cases h
        exact ⟨.inr (.inl rfl), hg.ls, hg.none, hg.hist⟩
    · rw [e] at h
      simp only [stepInit, hg.none] at h
      rw [if_pos (by omega)] at h
      obtain ⟨p, a1, h⟩ := Option.bind_eq_some_iff.mp h
      unfold createInitial at a1
      obtain ⟨g1, a2, a3⟩ := Option.bind_eq_some_iff.mp a1
      rw [educate_none hls hn hlt ((runSplit_ls_eq a2).trans hg.ls)] at a3
      cases a3
    · rw [e] at h
      cases h
      exact hg

theorem steps_fresh {env : GAEnv α} {ctx : Ctx α} (hls : env.lsEnabled = true) (hn : 2 ≤ ctx.n)
    (h1 : 1 ≤ env.initialIndividuals)
    (hlt : env.corr.length < (ctx.n - 1) * env.corrCols + env.granularity) :
    ∀ (chs : List (GAChoice α)) (g g' : GA α), Fresh env ctx g → steps env ctx chs g = some g' → Fresh env ctx g'
  | [], g, g', hg, h => by cases h; exact hg
  | ch :: chs, g, g', hg, h => by
    rw [steps] at h
    split at h
    · cases h; exact hg
    · obtain ⟨g1, a1, h⟩ := Option.bind_eq_some_iff.mp h
      exact steps_fresh hls hn h1 hlt chs g1 g' (iterate_fresh hls hn h1 hlt hg a1) h

end GA

/-! ## The program -/

namespace Program

/-- On an instance with fewer than `granularity + 2` nodes no run finds a solution. -/
theorem main_small {lib : Lib α} {cfg : Settings α} {text : List Char} {ω : Oracle} {chs : List (GAChoice α)}
    {dchs : List (DGAChoice α)} {p : Parsed α} {out : Option (List Char)} (hp : parseInstance lib.num text = some p)
    (hsmall : p.nodes.length < cfg.granularity + 2) (hdec : p.nodes.length - 1 < cfg.decomposeLimit)
    (hls : cfg.lsEnabled = true) (h1 : 1 ≤ cfg.initialIndividuals)
    (h : main lib cfg text ω chs dchs = some out) : out = solutionFile (α := α) cfg.hasPath none := by
  unfold main at h
  rw [hp, Option.bind_some] at h
  obtain ⟨⟨d, c⟩, h2, h3⟩ := Option.bind_eq_some_iff.mp h
  obtain ⟨hist, h4, rfl⟩ := Option.map_eq_some_iff.mp h3
  unfold matrices at h2
  split at h2
  · cases h2
  · obtain ⟨d', h5, h6⟩ := Option.bind_eq_some_iff.mp h2
    obtain ⟨c', h7, h8⟩ := Option.map_eq_some_iff.mp h6
    cases h8
    obtain ⟨s1, s2, s3⟩ := buildCorr_size h7
    have hlen : d.locations.length = p.nodes.length := by rw [buildDist_locations h5]; simp [locations]
    rw [hlen] at s1 s2 s3
    unfold solve at h4
    rw [if_neg (by show ¬ cfg.decomposeLimit ≤ p.nodes.length - 1; omega)] at h4
    obtain ⟨g, h9, h10⟩ := Option.bind_eq_some_iff.mp h4
    have hf := GA.steps_fresh (env := gaEnv lib cfg (context lib p d) d c) (ctx := context lib p d) hls s1 h1 ?_
      chs _ g ⟨.inl rfl, rfl, rfl, rfl⟩ h9
    · split at h10
      · cases h10
        unfold written
        rw [hf.hist]; rfl
      · cases h10
    · show c.storage.cells.length < (p.nodes.length - 1) * c.width + cfg.granularity
      rw [s3]
      obtain ⟨n, hn⟩ : ∃ n, p.nodes.length = n + 1 := ⟨p.nodes.length - 1, by omega⟩
      rw [hn, Nat.add_sub_cancel, Nat.add_mul, Nat.one_mul]
      omega

end Program
end Verif
