import Verif.Model.Parser
import Verif.SpecInstance
import Verif.SpecText
import Mathlib.Data.List.Forall2

/-!
# C51: parsing an instance file
-/

namespace Verif

open Spec

theorem isSep_iff (c : Char) : isSep c = true ↔ Blank c := by
  simp [isSep, Blank, or_assoc]

theorem splitSeps_blank {s : List Char} (h : ∀ c ∈ s, Blank c) (rest : List Char) :
    (splitSeps (s ++ rest) []).filter (fun w => w ≠ []) =
      (splitSeps rest []).filter (fun w => w ≠ []) := by
  induction s with
  | nil => rfl
  | cons c s ih =>
    have hc : isSep c = true := (isSep_iff c).2 (h c (by simp))
    simp only [List.cons_append, splitSeps, hc, if_true, List.reverse_nil]
    rw [List.filter_cons]
    simpa using ih (fun c hc => h c (by simp [hc]))

theorem splitSeps_word (w cur rest : List Char) (h : ∀ c ∈ w, ¬ Blank c)
    (hr : ∀ c, rest.head? = some c → Blank c) :
    ∃ tl, splitSeps (w ++ rest) cur = (cur.reverse ++ w) :: tl ∧
      tl.filter (fun w => w ≠ []) = (splitSeps rest []).filter (fun w => w ≠ []) := by
  induction w generalizing cur with
  | nil =>
    cases rest with
    | nil => exact ⟨[], by simp [splitSeps], by simp [splitSeps]⟩
    | cons c rest =>
      have hc : isSep c = true := (isSep_iff c).2 (hr c rfl)
      exact ⟨splitSeps rest [], by simp [splitSeps, hc], by simp [splitSeps, hc]⟩
  | cons c w ih =>
    have hc : isSep c = false := by
      have := h c (by simp)
      rw [← isSep_iff] at this; simpa using this
    obtain ⟨tl, h1, h2⟩ := ih (c :: cur) (fun c hc => h c (by simp [hc]))
    exact ⟨tl, by simp [splitSeps, hc, h1], h2⟩

theorem lineWords_laidOut {line : List Char} {ws : List (List Char)} (h : LaidOut line ws) :
    lineWords line = ws := by
  induction h with
  | blank hs =>
    have := splitSeps_blank hs []
    rw [List.append_nil] at this
    rw [lineWords, this]; rfl
  | @word s w rest ws hs hw hwb hr _ ih =>
    rw [lineWords, List.append_assoc, splitSeps_blank hs]
    obtain ⟨tl, h1, h2⟩ := splitSeps_word w [] rest hwb hr
    rw [h1, List.filter_cons_of_pos (by simp [hw]), h2, ← ih]
    rfl

theorem bufLines_append {line : List Char} (h : '\n' ∉ line) (rest cur : List Char) :
    bufLines (line ++ rest) cur = bufLines rest (line.reverse ++ cur) := by
  induction line generalizing cur with
  | nil => rfl
  | cons c line ih =>
    simp only [List.mem_cons, not_or] at h
    simp only [List.cons_append, bufLines, Ne.symm h.1, if_false]
    rw [ih h.2]; simp

theorem bufLines_textOf {text : List Char} {lines : List (List Char)} (h : TextOf text lines) :
    bufLines text [] = lines := by
  induction h with
  | nil => rfl
  | @lf line text lines h1 h2 _ ih =>
    rw [bufLines_append h1]
    simp only [List.append_nil, bufLines, if_true, ih, List.cons.injEq, and_true]
    split
    · rename_i cur heq
      exact absurd (List.mem_reverse.1 (heq ▸ List.mem_cons_self)) h2
    · simp
  | @crlf line text lines h1 h2 _ ih =>
    rw [bufLines_append h1]
    simp [bufLines, ih]

/-- Lines that do not start with a reserved key are skipped. -/
theorem findKey_append {key : List Char} (hk : key ∈ reservedKeys) (pre rest : List (List (List Char)))
    (h : ∀ line ∈ pre, ∀ w, line.head? = some w → w ∉ reservedKeys) :
    findKey key (pre ++ rest) = findKey key rest := by
  induction pre with
  | nil => rfl
  | cons line pre ih =>
    rw [List.cons_append, findKey, if_neg, ih (fun l hl => h l (by simp [hl]))]
    intro h1
    exact h line (by simp) key h1 hk

theorem findKey_blocks {key : List Char} (hk : key ∈ reservedKeys) (blocks : List Block)
    (hb : ∀ b ∈ blocks, ∀ line ∈ b.body, ∀ w, line.head? = some w → w ∉ reservedKeys)
    (hn : ((blocks.map Block.key).filter (fun k => k ∈ reservedKeys)).Nodup)
    {b : Block} (hm : b ∈ blocks) (hbk : b.key = key) :
    ∃ tl, findKey key (blocks.map Block.lines).flatten = some (b.key :: b.args, b.body ++ tl) := by
  induction blocks with
  | nil => simp at hm
  | cons c blocks ih =>
    rw [List.map_cons, List.flatten_cons, Block.lines, List.cons_append, findKey]
    by_cases hc : c.key = key
    · rw [if_pos (by simp [hc])]
      rcases List.mem_cons.1 hm with rfl | hm
      · exact ⟨_, rfl⟩
      · exfalso
        rw [List.map_cons, List.filter_cons, if_pos (by simpa [hc] using hk), List.nodup_cons] at hn
        apply hn.1
        rw [List.mem_filter]
        exact ⟨List.mem_map.2 ⟨b, hm, by rw [hbk, hc]⟩, by simpa [hc] using hk⟩
    · rw [if_neg (by simpa using hc)]
      have hm' : b ∈ blocks := by
        rcases List.mem_cons.1 hm with rfl | hm
        · exact absurd hbk hc
        · exact hm
      rw [findKey_append hk _ _ (hb c (by simp))]
      apply ih (fun b hb' => hb b (by simp [hb'])) _ hm'
      rw [List.map_cons, List.filter_cons] at hn
      split at hn
      · exact (List.nodup_cons.1 hn).2
      · exact hn

theorem findKey_file {lines pre : List (List (List Char))} {blocks : List Block}
    (hf : BlockFile lines pre blocks) {b : Block} (hm : b ∈ blocks) (hk : b.key ∈ reservedKeys) :
    ∃ tl, findKey b.key lines = some (b.key :: b.args, b.body ++ tl) := by
  rw [hf.lines_eq, findKey_append hk _ _ hf.pre_plain]
  exact findKey_blocks hk blocks hf.body_plain hf.once hm rfl

/-- Reading the first entries of a section. -/
theorem mapM_section {β γ : Type} (f : β → Option γ) (vals : List γ) (body : List β)
    (h : ∀ (i : ℕ) (v : γ), vals[i]? = some v → ∃ line, body[i]? = some line ∧ f line = some v) :
    (body.take vals.length).mapM f = some vals := by
  induction vals generalizing body with
  | nil => simp
  | cons v vals ih =>
    obtain ⟨line, h1, h2⟩ := h 0 v (by simp)
    cases body with
    | nil => simp at h1
    | cons l body =>
      have hl : l = line := by simpa using h1
      subst hl
      have := ih body (fun i v' hv => by simpa using h (i + 1) v' (by simpa using hv))
      simp [List.mapM_cons, h2, this]

theorem take_append_section {β : Type} (body tl : List β) (n : ℕ) (h : n ≤ body.length) :
    (body ++ tl).take n = body.take n := List.take_append_of_le_length h

theorem section_length {β γ : Type} (vals : List γ) (body : List β)
    (h : ∀ (i : ℕ) (v : γ), vals[i]? = some v → ∃ line, body[i]? = some line) : vals.length ≤ body.length := by
  by_contra hlt
  obtain ⟨line, h1⟩ := h body.length vals[body.length] (by simp)
  simp at h1

theorem createNodes_eq {α : Type} (nodes : List (α × α × α)) :
    createNodes (nodes.map fun p => (p.1, p.2.1)) (nodes.map fun p => p.2.2) =
      nodes.mapIdx fun i p => (⟨i + 1, p.1, p.2.1, p.2.2⟩ : PNode α) := by
  unfold createNodes
  rw [List.zip_map']
  apply List.ext_getElem?
  intro i
  simp only [List.getElem?_mapIdx, List.getElem?_map, Option.map_map]
  rfl

theorem parse_common {α : Type} (num : List Char → Option α)
    {lines pre : List (List (List Char))} {blocks : List Block} {cap : α} {nodes : List (α × α × α)}
    (hf : BlockFile lines pre blocks)
    (hd : Describes (fun w x => num w = some x) (fun w n => parseUsize w = some n) blocks cap nodes) :
    parseDimension lines = some nodes.length ∧ parseCapacity num lines = some cap ∧
      parseCoords num lines nodes.length = some (nodes.map fun p => (p.1, p.2.1)) ∧
      parseDemands num lines nodes.length = some (nodes.map fun p => p.2.2) := by
  refine ⟨?_, ?_, ?_, ?_⟩
  · obtain ⟨b, hb, hk, w, hw, hn⟩ := hd.dimension
    obtain ⟨tl, h⟩ := findKey_file hf hb (by rw [hk]; decide)
    rw [hk] at h
    simp only [parseDimension, h, Option.bind_some, List.getElem?_cons_succ, hw, hn]
  · obtain ⟨b, hb, hk, w, hw, hn⟩ := hd.capacity
    obtain ⟨tl, h⟩ := findKey_file hf hb (by rw [hk]; decide)
    rw [hk] at h
    simp only [parseCapacity, h, Option.bind_some, List.getElem?_cons_succ, hw, hn]
  · obtain ⟨b, hb, hk, hc⟩ := hd.coords
    obtain ⟨tl, h⟩ := findKey_file hf hb (by rw [hk]; decide)
    rw [hk] at h
    have hlen := section_length nodes b.body (fun i v hv => by
      obtain ⟨line, x, y, h1, _⟩ := hc i v hv; exact ⟨line, h1⟩)
    simp only [parseCoords, h, Option.bind_some]
    rw [take_append_section _ _ _ hlen]
    have := mapM_section (fun line : List (List Char) =>
        (line[1]?.bind num).bind fun x => (line[2]?.bind num).map fun y => (x, y))
      (nodes.map fun p => (p.1, p.2.1)) b.body (fun i v hv => by
        rw [List.getElem?_map, Option.map_eq_some_iff] at hv
        obtain ⟨p, hp, rfl⟩ := hv
        obtain ⟨line, x, y, h1, h2, h3, h4, h5⟩ := hc i p hp
        exact ⟨line, h1, by simp [h2, h3, h4, h5]⟩)
    rw [List.length_map] at this
    exact this
  · obtain ⟨b, hb, hk, hc⟩ := hd.demands
    obtain ⟨tl, h⟩ := findKey_file hf hb (by rw [hk]; decide)
    rw [hk] at h
    have hlen := section_length nodes b.body (fun i v hv => by
      obtain ⟨line, x, h1, _⟩ := hc i v hv; exact ⟨line, h1⟩)
    simp only [parseDemands, h, Option.bind_some]
    rw [take_append_section _ _ _ hlen]
    have := mapM_section (fun line : List (List Char) => line[1]?.bind num)
      (nodes.map fun p => p.2.2) b.body (fun i v hv => by
        rw [List.getElem?_map, Option.map_eq_some_iff] at hv
        obtain ⟨p, hp, rfl⟩ := hv
        obtain ⟨line, w, h1, h2, h3⟩ := hc i p hp
        exact ⟨line, h1, by simp [h2, h3]⟩)
    rw [List.length_map] at this
    exact this

theorem readFile_eq {text : List Char} {raw : List (List Char)} {lines : List (List (List Char))}
    (ht : TextOf text raw) (hl : List.Forall₂ LaidOut raw lines) : readFile text = lines := by
  rw [readFile, bufLines_textOf ht]
  induction hl generalizing text with
  | nil => rfl
  | @cons a b raw lines h1 _ ih =>
    rw [List.map_cons, lineWords_laidOut h1]
    congr 1
    cases ht with
    | lf _ _ h => exact ih h
    | crlf _ _ h => exact ih h

/-- C51, Euclidean instances. For every text made of laid-out lines (any blanks, tabs, colons, either
line end) whose lines are blocks in any order describing capacity `cap` and the given nodes, parsing
yields exactly that capacity and those nodes in order, with ids 1, 2, …, and no matrix. -/
theorem C51_parse_euclidean {α : Type} (num : List Char → Option α) {text : List Char}
    {raw : List (List Char)} {lines pre : List (List (List Char))} {blocks : List Block} {cap : α}
    {nodes : List (α × α × α)} (ht : TextOf text raw) (hl : List.Forall₂ LaidOut raw lines)
    (hf : BlockFile lines pre blocks)
    (hd : Describes (fun w x => num w = some x) (fun w n => parseUsize w = some n) blocks cap nodes)
    (he : Euclidean blocks) :
    parseInstance num text =
      some ⟨nodes.mapIdx fun i p => ⟨i + 1, p.1, p.2.1, p.2.2⟩, cap, none⟩ := by
  obtain ⟨h1, h2, h3, h4⟩ := parse_common num hf hd
  have h5 : parseEdgeWeightType lines = some false := by
    obtain ⟨b, hb, hk, hw⟩ := he
    obtain ⟨tl, h⟩ := findKey_file hf hb (by rw [hk]; decide)
    rw [hk] at h
    simp only [parseEdgeWeightType, h, Option.bind_some, List.getElem?_cons_succ, hw]; decide
  simp only [parseInstance, readFile_eq ht hl, h1, h2, h3, h4, h5, createNodes_eq,
    Option.bind_eq_bind, Option.bind_some, Bool.false_eq_true, if_false]

/-- C51, explicit instances: additionally the rows of the lower-row matrix are returned as written
(one row for each node but the first). -/
theorem C51_parse_explicit {α : Type} (num : List Char → Option α) {text : List Char}
    {raw : List (List Char)} {lines pre : List (List (List Char))} {blocks : List Block} {cap : α}
    {nodes : List (α × α × α)} {rows : List (List α)} (ht : TextOf text raw)
    (hl : List.Forall₂ LaidOut raw lines) (hf : BlockFile lines pre blocks)
    (hd : Describes (fun w x => num w = some x) (fun w n => parseUsize w = some n) blocks cap nodes)
    (he : ExplicitRows (fun w x => num w = some x) blocks rows)
    (hr : rows.length + 1 = nodes.length) :
    parseInstance num text =
      some ⟨nodes.mapIdx fun i p => ⟨i + 1, p.1, p.2.1, p.2.2⟩, cap, some rows⟩ := by
  obtain ⟨h1, h2, h3, h4⟩ := parse_common num hf hd
  have h5 : parseEdgeWeightType lines = some true := by
    obtain ⟨b, hb, hk, hw⟩ := he.type
    obtain ⟨tl, h⟩ := findKey_file hf hb (by rw [hk]; decide)
    rw [hk] at h
    simp only [parseEdgeWeightType, h, Option.bind_some, List.getElem?_cons_succ, hw]; decide
  have h6 : parseEdgeWeightFormat lines = some () := by
    obtain ⟨b, hb, hk, hw⟩ := he.format
    obtain ⟨tl, h⟩ := findKey_file hf hb (by rw [hk]; decide)
    rw [hk] at h
    simp only [parseEdgeWeightFormat, h, Option.bind_some, List.getElem?_cons_succ, hw]; decide
  have h7 : parseLowerRow num lines nodes.length = some rows := by
    obtain ⟨b, hb, hk, hc⟩ := he.weights
    obtain ⟨tl, h⟩ := findKey_file hf hb (by rw [hk]; decide)
    rw [hk] at h
    have hlen := section_length rows b.body (fun i v hv => by
      obtain ⟨line, h1, _⟩ := hc i v hv; exact ⟨line, h1⟩)
    simp only [parseLowerRow, h, Option.bind_some]
    rw [if_neg (by omega), ← hr, Nat.add_sub_cancel, take_append_section _ _ _ hlen]
    apply mapM_section
    intro i v hv
    obtain ⟨line, hl1, hl2⟩ := hc i v hv
    refine ⟨line, hl1, ?_⟩
    clear hl1 hv
    induction hl2 with
    | nil => rfl
    | cons h _ ih => simp [List.mapM_cons, h, ih]
  simp only [parseInstance, readFile_eq ht hl, h1, h2, h3, h4, h5, h6, h7, createNodes_eq,
    Option.bind_eq_bind, Option.bind_some, if_true]

/-- Reading the word of a natural number gives that number (used for the dimension line): every
non-empty string of decimal digits of value below `2 ^ 64`. -/
theorem C51_dimension_word (w : List Char) (n : ℕ) (h : readNat w = some n) (hn : n < 2 ^ 64) :
    parseUsize w = some n := by
  unfold readNat at h
  split at h
  · rename_i hw
    have hp : stripPlus w = w := by
      cases w with
      | nil => rfl
      | cons c w =>
        have hc : c ≠ '+' := by
          rintro rfl
          simp [show ('+' : Char).isDigit = false from rfl] at hw
        simp [stripPlus, hc]
    unfold parseUsize
    simp only [hp]
    rw [if_pos hw]
    have hv : w.foldl (fun n c => n * 10 + (c.toNat - 48)) 0 = n := by
      rw [← Option.some.inj h]
      congr 1
      funext n c
      rw [Nat.mul_comm]
    rw [hv, if_pos hn]
  · exact absurd h (by simp)

theorem laidOut_cons_blank {c : Char} (hc : Blank c) {l : List Char} {ws : List (List Char)}
    (h : LaidOut l ws) : LaidOut (c :: l) ws := by
  cases h with
  | blank hs => exact .blank (by simpa [hc] using hs)
  | @word s w rest ws hs hw hwb hr h =>
    exact .word (s := c :: s) (by simpa [hc] using hs) hw hwb hr h

theorem laidOut_splitSeps (l cur : List Char) (hcur : ∀ c ∈ cur, ¬ Blank c) :
    LaidOut (cur.reverse ++ l) ((splitSeps l cur).filter (fun w => w ≠ [])) := by
  induction l generalizing cur with
  | nil =>
    rw [splitSeps]
    by_cases h : cur = []
    · subst h; exact .blank (by simp)
    · rw [List.filter_cons_of_pos (by simp [h])]
      exact .word (s := []) (by simp) (by simp [h]) (by simpa using hcur) (by simp) (.blank (by simp))
  | cons c l ih =>
    rw [splitSeps]
    by_cases hc : isSep c = true
    · have hb := (isSep_iff c).1 hc
      rw [if_pos hc]
      have h0 := ih [] (by simp)
      by_cases h : cur = []
      · subst h
        rw [List.filter_cons_of_neg (by simp)]
        exact laidOut_cons_blank hb h0
      · rw [List.filter_cons_of_pos (by simp [h])]
        exact .word (s := []) (rest := c :: l) (by simp) (by simp [h]) (by simpa using hcur)
          (by simpa using hb) (laidOut_cons_blank hb h0)
    · rw [if_neg hc]
      have hb : ¬ Blank c := fun h => hc ((isSep_iff c).2 h)
      have := ih (c :: cur) (by simpa [hb] using hcur)
      simpa using this

/-- C51, lines: every line is laid out as exactly the words the parser sees. -/
theorem C51_lineWords (line : List Char) : LaidOut line (lineWords line) :=
  laidOut_splitSeps line [] (by simp)

theorem forall₂_lineWords (raw : List (List Char)) : List.Forall₂ LaidOut raw (raw.map lineWords) := by
  induction raw with
  | nil => exact .nil
  | cons l raw ih => exact .cons (C51_lineWords l) ih

theorem textOf_lf (raw : List (List Char)) (h : ∀ l ∈ raw, '\n' ∉ l ∧ '\r' ∉ l) :
    TextOf (raw.map (fun l => l ++ ['\n'])).flatten raw := by
  induction raw with
  | nil => exact .nil
  | cons l raw ih =>
    have := TextOf.lf (h l (by simp)).1 (h l (by simp)).2 (ih (fun l hl => h l (by simp [hl])))
    simpa using this

/-! A case of C51 meeting all hypotheses: scrambled header, tabs, colons, trailing sections. -/

/-- The lines of a small file. -/
def exampleRaw : List (List Char) :=
  ["CAPACITY : 100".toList, "NAME: x".toList, "EDGE_WEIGHT_TYPE:\tEUC_2D".toList, "DIMENSION 2".toList,
    "NODE_COORD_SECTION".toList, " 1 3 4".toList, "2\t5 6 ".toList, "DEMAND_SECTION".toList,
    "1 0".toList, "2 7".toList, "EOF".toList]

/-- The blocks of the small file. -/
def exampleBlocks : List Block :=
  [⟨"CAPACITY".toList, ["100".toList], []⟩, ⟨"NAME".toList, ["x".toList], []⟩,
    ⟨"EDGE_WEIGHT_TYPE".toList, ["EUC_2D".toList], []⟩, ⟨"DIMENSION".toList, ["2".toList], []⟩,
    ⟨"NODE_COORD_SECTION".toList, [],
      [["1".toList, "3".toList, "4".toList], ["2".toList, "5".toList, "6".toList]]⟩,
    ⟨"DEMAND_SECTION".toList, [], [["1".toList, "0".toList], ["2".toList, "7".toList]]⟩,
    ⟨"EOF".toList, [], []⟩]

example : parseInstance readNat (exampleRaw.map (fun l => l ++ ['\n'])).flatten =
    some ⟨[⟨1, 3, 4, 0⟩, ⟨2, 5, 6, 7⟩], 100, none⟩ := by
  refine C51_parse_euclidean (nodes := [(3, 4, 0), (5, 6, 7)]) (blocks := exampleBlocks) (pre := [])
    readNat (textOf_lf exampleRaw (by decide)) (forall₂_lineWords _) ⟨by decide, by decide, ?_, by decide⟩
    ⟨?_, ?_, ?_, ?_⟩ ?_
  · intro b hb line hl w hw
    simp only [exampleBlocks, List.mem_cons, List.not_mem_nil, or_false] at hb
    rcases hb with rfl | rfl | rfl | rfl | rfl | rfl | rfl <;> simp only [List.not_mem_nil] at hl
    all_goals
      simp only [List.mem_cons, List.not_mem_nil, or_false] at hl
      rcases hl with rfl | rfl <;> (cases hw; decide)
  · exact ⟨exampleBlocks[3], by simp [exampleBlocks], by decide, "2".toList, by decide, by decide⟩
  · exact ⟨exampleBlocks[0], by simp [exampleBlocks], by decide, "100".toList, by decide, by decide⟩
  · refine ⟨exampleBlocks[4], by simp [exampleBlocks], by decide, ?_⟩
    intro i p hp
    match i, hp with
    | 0, hp => cases hp; exact ⟨_, _, _, rfl, rfl, rfl, by decide, by decide⟩
    | 1, hp => cases hp; exact ⟨_, _, _, rfl, rfl, rfl, by decide, by decide⟩
    | i + 2, hp => simp at hp
  · refine ⟨exampleBlocks[5], by simp [exampleBlocks], by decide, ?_⟩
    intro i p hp
    match i, hp with
    | 0, hp => cases hp; exact ⟨_, _, rfl, rfl, by decide⟩
    | 1, hp => cases hp; exact ⟨_, _, rfl, rfl, by decide⟩
    | i + 2, hp => simp at hp
  · exact ⟨exampleBlocks[2], by simp [exampleBlocks], by decide, by decide⟩

end Verif
