import Verif.Model.LaunchOutput
import Verif.Props.LaunchExplicit
import Verif.Props.BestKeptDoubleExamples

/-!
# C84 and C88 from the command line on
-/

namespace Verif
open F64 Spec Dbl Program

section
variable {ρ : Rounding} {lib : Lib (Dbl ρ)} {yml : Mapping (Yaml (Dbl ρ))} {cl : CommandLine}
  {nodes : List (ℚ × ℚ × ℚ)} {cap : ℚ} {rows : List (List ℚ)} {text : List Char} {raw : List (List Char)}
  {lines pre : List (List (List Char))} {blocks : List Block} {ω : Oracle} {chs chs' : List (GAChoice (Dbl ρ))}
  {dchs dchs' : List (DGAChoice (Dbl ρ))} {out : List (List Char)}

/-- **C84** from the command line, instances in the plane with whole coordinates: with any suitable `config.yml` and any
command line, every solution printed is feasible, states its exact length under rounded distances and is strictly
cheaper than those before it. The solution file is the last one printed, and more calls only add to the output. -/
theorem C84_launch_plane (hroot : SqrtOK lib.sqrt) (ht : TextOf text raw)
    (hl : List.Forall₂ LaidOut raw lines) (hf : BlockFile lines pre blocks)
    (hd : Describes (fun w x => lib.num w = some x) (fun w n => parseUsize w = some n) blocks (fin cap)
      (dblNodes ρ nodes))
    (he : Euclidean blocks) (hr : DblStart lib chs dchs) (hload : DblLoads nodes cap) (hco : WholeCoords nodes)
    (hn27 : nodes.length ≤ 2 ^ 27) (hn : (yml.map Prod.fst).Nodup) (hs : Suits yml nodes.length)
    (h : launchOutput lib yml cl text ω chs dchs = some out) :
    ExactStream nodes cap (nearestDist nodes) out ∧
    (∀ file, launch lib yml cl text ω chs dchs = some file → file = some (out.getLast?.getD [])) ∧
    (∀ out', launchOutput lib yml cl text ω (chs ++ chs') (dchs ++ dchs') = some out' → out <+: out') := by
  obtain ⟨cfg, hcfg, h⟩ := Option.bind_eq_some_iff.mp h
  have ha := C86_settings hn hcfg
  obtain ⟨k1, k2, k3⟩ := C84_printed_plane (chs' := chs') (dchs' := dchs') hroot ht hl hf hd he
    ⟨hr.fleet, hr.lib, ⟨(asked_sizes ha hs).1, (asked_sizes ha hs).2⟩, hr.choices, hr.dchoices⟩ hload ha.rounding hco hn27 h
  refine ⟨k1, fun file hfile => ?_, fun out' h' => k3 out' ?_⟩
  · unfold launch at hfile
    rw [hcfg, Option.bind_some] at hfile
    obtain ⟨f, rfl⟩ := main_isSome ha.path hfile
    rw [k2 f hfile]
  · unfold launchOutput at h'
    rwa [hcfg, Option.bind_some] at h'

/-- **C84** from the command line, instances with an explicit lower-row matrix: the distances are the entries, rounded to
whole numbers. -/
theorem C84_launch_explicit (ht : TextOf text raw)
    (hl : List.Forall₂ LaidOut raw lines) (hf : BlockFile lines pre blocks)
    (hd : Describes (fun w x => lib.num w = some x) (fun w n => parseUsize w = some n) blocks (fin cap)
      (dblNodes ρ nodes))
    (he : ExplicitRows (fun w x => lib.num w = some x) blocks (dblRows ρ rows)) (hlen : rows.length + 1 = nodes.length)
    (hrow : ∀ (i : ℕ) (row : List ℚ), rows[i]? = some row → row.length = i + 1) {M : ℤ}
    (hnn : ∀ row ∈ rows, ∀ x ∈ row, 0 ≤ x ∧ x ≤ M) (h43 : M ≤ 2 ^ 43) (hM : 4 * (nodes.length * M) ≤ 2 ^ 53)
    (hr : DblStart lib chs dchs) (hload : DblLoads nodes cap) (hn : (yml.map Prod.fst).Nodup)
    (hs : Suits yml nodes.length) (h : launchOutput lib yml cl text ω chs dchs = some out) :
    ExactStream nodes cap (lowerRowDist true rows) out ∧
    (∀ file, launch lib yml cl text ω chs dchs = some file → file = some (out.getLast?.getD [])) ∧
    (∀ out', launchOutput lib yml cl text ω (chs ++ chs') (dchs ++ dchs') = some out' → out <+: out') := by
  obtain ⟨cfg, hcfg, h⟩ := Option.bind_eq_some_iff.mp h
  have ha := C86_settings hn hcfg
  obtain ⟨k1, k2, k3⟩ := C84_printed_explicit (chs' := chs') (dchs' := dchs') ht hl hf hd he hlen hrow
    (fun row h1 x h2 => ⟨(hnn row h1 x h2).1, (hnn row h1 x h2).2, .inl ha.rounding⟩) h43 hM
    ⟨hr.fleet, hr.lib, ⟨(asked_sizes ha hs).1, (asked_sizes ha hs).2⟩, hr.choices, hr.dchoices⟩ hload h
  rw [ha.rounding] at k1
  refine ⟨k1, fun file hfile => ?_, fun out' h' => k3 out' ?_⟩
  · unfold launch at hfile
    rw [hcfg, Option.bind_some] at hfile
    obtain ⟨f, rfl⟩ := main_isSome ha.path hfile
    rw [k2 f hfile]
  · unfold launchOutput at h'
    rwa [hcfg, Option.bind_some] at h'

/-- **C88** from the command line, instances in the plane, without decomposition: whatever the feasible subpopulation
holds after the calls `chs` is within the capacity, and if its cost is a number then after any further calls the cost
stated in the last printed solution is at most its length. -/
theorem C88_launch_plane (hroot : SqrtOK lib.sqrt) (ht : TextOf text raw)
    (hl : List.Forall₂ LaidOut raw lines) (hf : BlockFile lines pre blocks)
    (hd : Describes (fun w x => lib.num w = some x) (fun w n => parseUsize w = some n) blocks (fin cap)
      (dblNodes ρ nodes))
    (he : Euclidean blocks) (hr : DblStart lib (chs ++ chs') dchs) (hload : DblLoads nodes cap) (hco : WholeCoords nodes)
    (hn27 : nodes.length ≤ 2 ^ 27) (hn : (yml.map Prod.fst).Nodup) (hs : Suits yml nodes.length)
    (cfg : Settings (Dbl ρ)) (hcfg : configure yml cl = some cfg) (hlim : nodes.length - 1 < cfg.decomposeLimit)
    (xs : List (Individual (Dbl ρ))) (hh : held lib cfg text ω chs = some xs) (x : Individual (Dbl ρ)) (hx : x ∈ xs)
    (hnum : x.cost ≠ nan) (h : launchOutput lib yml cl text ω (chs ++ chs') dchs = some out) :
    IsPartition nodes.length x.phenotype ∧ CapFeasible (nodeDemand nodes) cap 0 x.phenotype ∧
    ∃ t R N, out.getLast? = some t ∧ readSolution t = some (R, N) ∧
      (N : ℚ) ≤ (x.phenotype.map (routeDist (nearestDist nodes))).sum := by
  have ha := C86_settings hn hcfg
  unfold launchOutput at h
  rw [hcfg, Option.bind_some] at h
  exact C88_kept_plane hroot ht hl hf hd he
    ⟨hr.fleet, hr.lib, ⟨(asked_sizes ha hs).1, (asked_sizes ha hs).2⟩, hr.choices, hr.dchoices⟩ hload ha.rounding hco hn27
    hlim hh hx hnum h

end

namespace LaunchEx
open DoubleEx

theorem printed_all : launchOutput lib yml cl ProgramEx.text DimacsDoubleEx.draws
    (DimacsDoubleEx.chs ++ DimacsDoubleEx.more) [] = some DimacsDoubleEx.printed := by
  decide +kernel

theorem printed_rows : launchOutput lib yml cl ExplicitEx.text DimacsDoubleEx.draws
    (DimacsDoubleEx.chs ++ DimacsDoubleEx.more) [] = some DimacsDoubleEx.printedRows := by
  decide +kernel

/-- C84 applies to the run of `LaunchExamples`: two solutions are printed, of cost 16 and 14. -/
example : ExactStream ProgramEx.nodes 20 (nearestDist ProgramEx.nodes) DimacsDoubleEx.printed ∧
    some "Route #1: 3 2 1\nCost 14\n".toList = some (DimacsDoubleEx.printed.getLast?.getD []) := by
  have h := C84_launch_plane (chs' := []) (dchs' := []) root_ok
    (textOf_lf ProgramEx.raw (by decide)) (forall₂_lineWords _) ProgramEx.blockFile describes ProgramEx.euclidean
    start_ok loads_ok coords_ok (by decide) nodup suits printed_all
  exact ⟨h.1, h.2.1 _ run⟩

/-- C84 with an explicit matrix. -/
example : ExactStream ProgramEx.nodes 10 (lowerRowDist true ExplicitEx.rows) DimacsDoubleEx.printedRows :=
  (C84_launch_explicit (M := 9) (chs' := []) (dchs' := []) (textOf_lf ExplicitEx.raw (by decide)) (forall₂_lineWords _)
    ExplicitEx.blockFile ExplicitEx.describesDbl ExplicitEx.explicitDbl rfl ExplicitEx.triangular
    (fun row hr x hx => ⟨(ExplicitEx.entries row hr x hx).1, (ExplicitEx.entries row hr x hx).2.1⟩) (by norm_num)
    (by decide) start_ok ExplicitEx.loads_ok nodup suits printed_rows).1

/-- What is held after four calls of the program, started with the options. -/
theorem held_four : ((Program.configure yml cl).bind fun cfg => (held lib cfg ProgramEx.text DimacsDoubleEx.draws
      (DimacsDoubleEx.chs ++ DimacsDoubleEx.more.take 2)).map fun xs =>
        (decide (3 < cfg.decomposeLimit), xs.map fun x => (x.phenotype, decide (x.cost = nan)))) =
    some (true, [([[3, 2, 1], [], [], []], false), ([[2, 3, 1], [], [], []], false)]) := by
  decide +kernel

/-- C88 applies to the second of the two. -/
example : (14 : ℚ) ≤ (([[2, 3, 1], [], [], []] : List (List ℕ)).map (routeDist (nearestDist ProgramEx.nodes))).sum := by
  obtain ⟨cfg, hcfg, hv⟩ := Option.bind_eq_some_iff.mp held_four
  obtain ⟨xs, hh, e⟩ := Option.map_eq_some_iff.mp hv
  simp only [Prod.mk.injEq, decide_eq_true_eq] at e
  obtain ⟨hlim, e⟩ := e
  obtain ⟨x, l, rfl, -, e⟩ := List.map_eq_cons_iff.mp e
  obtain ⟨y, l', rfl, e, -⟩ := List.map_eq_cons_iff.mp e
  simp only [Prod.mk.injEq, decide_eq_false_iff_not] at e
  have hp : launchOutput lib yml cl ProgramEx.text DimacsDoubleEx.draws
      ((DimacsDoubleEx.chs ++ DimacsDoubleEx.more.take 2) ++ DimacsDoubleEx.more.drop 2) [] =
      some DimacsDoubleEx.printed := printed_all
  obtain ⟨-, -, t, R, N, h1, h2, h3⟩ := C88_launch_plane (text := ProgramEx.text)
    (chs := DimacsDoubleEx.chs ++ DimacsDoubleEx.more.take 2) (chs' := DimacsDoubleEx.more.drop 2) root_ok
    (textOf_lf ProgramEx.raw (by decide)) (forall₂_lineWords _) ProgramEx.blockFile describes ProgramEx.euclidean
    start_ok loads_ok coords_ok (by decide) nodup suits cfg hcfg hlim _ hh y (by simp) e.2 hp
  have ht : t = "Route #1: 3 2 1\nCost 14\n".toList := by
    have : DimacsDoubleEx.printed.getLast? = some "Route #1: 3 2 1\nCost 14\n".toList := rfl
    rw [this] at h1
    exact (Option.some.inj h1).symm
  rw [ht, show readSolution "Route #1: 3 2 1\nCost 14\n".toList = some ([[3, 2, 1]], 14) by decide +kernel] at h2
  simp only [Option.some.injEq, Prod.mk.injEq] at h2
  rw [← h2.2, e.1] at h3
  exact_mod_cast h3

end LaunchEx
end Verif
