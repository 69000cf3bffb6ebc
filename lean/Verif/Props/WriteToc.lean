import Verif.Lemmas.Stable
import Verif.Props.Writing

/-!
# Properties of tables of contents in files: recognised, stable (C44, C45)
-/

set_option linter.unusedSimpArgs false

namespace MdToc.Props

open MdToc.Spec

/-- The marker, without the white space around it, does not start as a list item. -/
def NotItem (marker : Str) : Prop :=
  ∀ c, Trimmed isPySpace marker c → ∀ x ∈ c.head?, x ≠ '-' ∧ x ≠ '+' ∧ x ≠ '*' ∧ isAsciiDigit x = false

theorem item_not_marker {marker l b : Str} (hm : NotItem marker) (hb : IsItem b) (hl : l = b ∨ l = b ++ ['\n']) : ¬ IsMarker marker l := by
  rintro ⟨c, h1, h2⟩
  obtain ⟨-, n, x, r, e, hx⟩ := hb
  obtain ⟨r', e'⟩ : ∃ r', l = List.replicate n ' ' ++ x :: r' := by
    rcases hl with hl | hl
    · exact ⟨r, by rw [hl, e]⟩
    · exact ⟨r ++ ['\n'], by rw [hl, e]; simp⟩
  have hh : c.head? = some x := by
    obtain ⟨a, z, h3, h4, h5, h6, h7⟩ := h1
    rw [e', List.append_assoc] at h3
    rcases List.append_eq_append_iff.mp h3 with ⟨s, h8, h9⟩ | ⟨s, h8, h9⟩
    · cases s with
      | nil =>
        simp only [List.nil_append] at h9
        cases c with
        | nil =>
          simp only [List.nil_append] at h9
          have := h5 x (by rw [← h9]; simp)
          rw [itemChar_space hx] at this
          simp at this
        | cons y c => simp at h9; simp [h9.1]
      | cons y s =>
        simp at h9
        have := h4 x (by rw [h8]; simp [h9.1])
        rw [itemChar_space hx] at this
        simp at this
    · cases s with
      | nil =>
        simp only [List.nil_append] at h9
        cases c with
        | nil =>
          simp only [List.nil_append] at h9
          have := h5 x (by rw [h9]; simp)
          rw [itemChar_space hx] at this
          simp at this
        | cons y c => simp at h9; simp [h9.1]
      | cons y s =>
        have hy : y = ' ' := by
          have : y ∈ List.replicate n ' ' := by rw [h8]; simp
          exact (List.mem_replicate.mp this).2
        subst hy
        cases c with
        | nil =>
          simp only [List.nil_append] at h9
          have := h5 x (by rw [h9]; simp)
          rw [itemChar_space hx] at this
          simp at this
        | cons y c =>
          simp at h9
          have := h6 y (by simp)
          rw [h9.1] at this
          exact absurd this (by decide)
  have := hm c h2 x (by simp [hh])
  rcases hx with h | h | h | h
  · exact this.1 h
  · exact this.2.1 h
  · exact this.2.2.1 h
  · rw [this.2.2.2] at h; simp at h

theorem markerText_list {E : Env} (hE : E.Lawful) (o : Options) (hm : isOrdered o = true ∨ o.listMarker ∈ bullets) (k : Nat) {m : Str}
    (e : m = markerText (isOrdered o) (usedMarker o.parser (isOrdered o) o.listMarker) k) :
    m = ['-'] ∨ m = ['+'] ∨ m = ['*'] ∨
      ∃ d e, m = d ++ [e] ∧ d ≠ [] ∧ (∀ c ∈ d, E.isDigit c = true) ∧ (e = '.' ∨ e = ')') := by
  unfold markerText at e
  by_cases ho : isOrdered o = true
  · rw [if_pos ho] at e
    right; right; right
    have hd : ∀ c ∈ (toString k).toList, E.isDigit c = true := by
      intro c hc
      rw [← natStr_eq] at hc
      have := natStr_digits _ _ hc
      rw [hE.digit_ascii c ?_]
      · exact this
      · simp [isAsciiDigit] at this
        have h2 : c.toNat ≤ 57 := this.2
        omega
    have hne : (toString k).toList ≠ [] := by
      intro h
      simp at h
    have := C32_used_marker o.parser o.listMarker
    rw [← ho] at this
    unfold delimiters at this
    split at this
    · simp at this
      rw [this] at e
      exact ⟨_, '.', e, hne, hd, .inl rfl⟩
    · simp at this
      rcases this with h | h
      · rw [h] at e
        exact ⟨_, '.', e, hne, hd, .inl rfl⟩
      · rw [h] at e
        exact ⟨_, ')', e, hne, hd, .inr rfl⟩
  · rw [if_neg ho] at e
    rcases hm with h | h
    · exact absurd h ho
    · simp only [usedMarker, if_neg ho] at e
      simp [bullets] at h
      rcases h with h | h | h <;> rw [h] at e <;> simp [e]

/-! ### C44 -/

/-- A table of contents with links is recognisable. -/
theorem toc_recognisable {E : Env} (hE : E.Lawful) {o : Options} (hp : o.parser ≠ .redcarpet ∨ o.noIndentation = true) (hl : o.noLinks = false)
    (hn : IsEol o.newline []) {fn text out : Str} (h : buildToc E o fn (some ⟨text, false⟩) = .ok out) {marker : Str} (hm : NotItem marker) :
    ∃ core, Recognisable E.isDigit out core marker o.newline ∧
      core.filter (fun c => c != '\n' && c != '\r') = out.filter (fun c => c != '\n' && c != '\r') := by
  obtain ⟨es, f, ho, hi, hf, hmk, hind⟩ := entries_items hE h
  by_cases hes : es = []
  · subst hes
    simp at ho
    subst ho
    refine ⟨[], ⟨⟨[], by simp, by simp, by simp⟩, .inl rfl, ?_, hn⟩, rfl⟩
    intro ls hls
    have : ls = [] := by rw [← reads_lines hls false]; rfl
    subst this
    simp
  · obtain ⟨core, ls, h1, h2, h3, h4, h5, h6⟩ := items_core hn (es.map f) (by simpa using hes) (by
      intro b hb
      obtain ⟨e, he, rfl⟩ := List.mem_map.mp hb
      exact hi e he)
    replace h6 := h6 (by
      intro b hb c hc
      rw [List.getLast?_map] at hb
      cases hlast : es.getLast? with
      | none => simp [hlast] at hb
      | some e =>
        simp [hlast] at hb
        subst hb
        have e1 : f e = (List.replicate e.indent ' ' ++ markerText (isOrdered o) (usedMarker o.parser (isOrdered o) o.listMarker) e.number ++
          " ".toList ++ "[".toList ++ e.text ++ "](#".toList ++ e.anchor) ++ [')'] := by
          rw [hf e (List.mem_of_getLast? hlast)]
          simp [Entry.content, hl]
        rw [e1, List.getLast?_append] at hc
        simp at hc
        subst hc
        decide)
    refine ⟨core, ⟨by rw [ho]; exact h1, .inr ?_, ?_, eol_of_head hn h5⟩, ?_⟩
    · rw [h6]
      cases es with
      | nil => exact absurd rfl hes
      | cons e es =>
        have he : e.indent = 0 := hind hp e (by simp)
        refine ⟨0, _, "[".toList ++ e.text ++ "](#".toList ++ e.anchor ++ ")".toList ++ (es.map f).flatten, by omega, ?_, markerText_list hE o (hmk hes) e.number rfl, ?_⟩
        · simp [hf e (by simp), he, Entry.content, hl]
        · simp [IsBlank]
    · intro ls' hls'
      have := reads_lines h3 false
      rw [reads_lines hls' false] at this
      subst this
      intro l hl'
      obtain ⟨b, hb, hb'⟩ := h4 l hl'
      exact item_not_marker hm hb hb'
    · rw [h6, ho]
      clear ho hind hf h1 h6 hes
      induction es with
      | nil => rfl
      | cons e es ih =>
        simp only [List.map_cons, List.flatten_cons, List.filter_append]
        rw [eol_filter hn, item_filter (hi e (by simp)).1, ih (fun e he => hi e (by simp [he])) (fun _ => hmk (by simp))]
        simp

/-- **C44**: a table of contents with links is recognisable, for every document. Not so for redcarpet with indentation: see `C44_violation_redcarpet`. -/
theorem C44_recognisable_partial {E : Env} (hE : E.Lawful) {o : Options} (hp : o.parser ≠ .redcarpet ∨ o.noIndentation = true) (hl : o.noLinks = false)
    (hn : IsEol o.newline []) {fn text out : Str} (h : buildToc E o fn (some ⟨text, false⟩) = .ok out) {marker : Str} (hm : NotItem marker) :
    ∃ core, Recognisable E.isDigit out core marker o.newline := by
  obtain ⟨core, h, -⟩ := toc_recognisable hE hp hl hn h hm
  exact ⟨core, h⟩

/-- **C44**: once written it is the first table of contents of the file, between the written markers, and complete. -/
theorem C44_recognised_partial {E : Env} (hE : E.Lawful) {o : Options} (hp : o.parser ≠ .redcarpet ∨ o.noIndentation = true) (hl : o.noLinks = false)
    (hn : IsEol o.newline []) {fn text out : Str} (h : buildToc E o fn (some ⟨text, false⟩) = .ok out) {marker : Str} (hm : NotItem marker)
    (hg : GoodMarker marker) {fs : FS} {f : Str} {ls : List Str} (hf : HasLines fs f ls) {before removed after : List Str}
    (hc : Cut E.isDigit marker ls before removed after) (he : IsEol o.newline after.flatten) {b : Bool} {tr : List Str}
    (hw : writeString E fs f out marker o.newline = .ok (b, tr)) :
    ∃ ls' m mid m', HasLines (lastFS fs f tr) f ls' ∧ FirstTable E.isDigit marker ls' before m mid m' after ∧
      joined mid = out.filter (fun c => c != '\n' && c != '\r') := by
  obtain ⟨core, hr, hcore⟩ := toc_recognisable hE hp hl hn h hm
  obtain ⟨_, _, hw1, hlast⟩ := C37_outside_preserved E hf out marker o.newline hc hr.1
  rw [hw] at hw1
  injection hw1 with hw1
  injection hw1 with e1 e2
  subst e1; subst e2
  obtain ⟨hf1, text', hf2, hR⟩ := hf
  obtain ⟨mid, hrd, ht, hj, -⟩ := written_lines hR hc hg hr he
  refine ⟨_, _, _, _, ⟨hf1, _, ?_, hrd⟩, ht, by rw [hj, hcore]⟩
  unfold lastFS
  rw [hlast]
  simp [FS.write]

/-- The default marker meets the hypotheses. -/
theorem default_notItem : NotItem "<!--TOC-->".toList := by
  intro c hc
  rw [trimmed_iff] at hc
  subst hc
  decide

theorem default_good : GoodMarker "<!--TOC-->".toList := ⟨by simp [IsNewline], '<', by decide, by decide⟩

example : ∃ core, Recognisable asciiEnv.isDigit "1. [a\\]](#a)\n   1. [b](#b)\n".toList core "<!--TOC-->".toList "\n".toList :=
  C44_recognisable_partial (o := { ordered := true }) asciiEnv_lawful (.inl (by decide)) rfl (.inl rfl) (fn := "-".toList)
    (text := "#  a]\n## b\n".toList) (by decide +kernel) default_notItem

/-- **C44** is false for redcarpet: the first heading has level 3, the table is not recognised at the second run. -/
theorem C44_violation_redcarpet :
    buildToc asciiEnv { parser := .redcarpet } "a.md".toList (some ⟨"<!--TOC-->\n### a\n".toList, false⟩) = .ok "        - [a](#a)\n".toList ∧
    (writeString asciiEnv (fun _ => some ⟨"<!--TOC-->\n### a\n".toList, false⟩) "a.md".toList "        - [a](#a)\n".toList "<!--TOC-->".toList "\n".toList).map (·.2.getLast?) =
      .ok (some "<!--TOC-->\n\n        - [a](#a)\n\n<!--TOC-->\n### a\n".toList) ∧
    buildToc asciiEnv { parser := .redcarpet } "a.md".toList (some ⟨"<!--TOC-->\n\n        - [a](#a)\n\n<!--TOC-->\n### a\n".toList, false⟩) =
      .ok "        - [a](#a)\n".toList ∧
    (writeString asciiEnv (fun _ => some ⟨"<!--TOC-->\n\n        - [a](#a)\n\n<!--TOC-->\n### a\n".toList, false⟩) "a.md".toList "        - [a](#a)\n".toList "<!--TOC-->".toList "\n".toList).map (·.2.getLast?) =
      .ok (some "<!--TOC-->\n\n        - [a](#a)\n\n<!--TOC-->\n<!--TOC-->\n\n        - [a](#a)\n\n<!--TOC-->\n### a\n".toList) := by
  decide +kernel

/-- Without links: the table of contents of an empty heading is not recognised. -/
theorem C44_violation_noLinks :
    buildToc asciiEnv { noLinks := true } "a.md".toList (some ⟨"<!--TOC-->\n#\n".toList, false⟩) = .ok "- \n".toList ∧
    (writeString asciiEnv (fun _ => some ⟨"<!--TOC-->\n#\n".toList, false⟩) "a.md".toList "- \n".toList "<!--TOC-->".toList "\n".toList).map (·.2.getLast?) =
      .ok (some "<!--TOC-->\n\n-\n\n<!--TOC-->\n#\n".toList) ∧
    (writeString asciiEnv (fun _ => some ⟨"<!--TOC-->\n\n-\n\n<!--TOC-->\n#\n".toList, false⟩) "a.md".toList "- \n".toList "<!--TOC-->".toList "\n".toList).map (·.2.getLast?) =
      .ok (some "<!--TOC-->\n\n-\n\n<!--TOC-->\n<!--TOC-->\n\n-\n\n<!--TOC-->\n#\n".toList) := by
  decide +kernel

/-! ### C45 -/

/-- A file in which the table of contents can be written without changing the headings: the lines before the region, except for the skipped ones, start and end outside of code
blocks, and the replaced lines and the marker are neither headings nor code fences. -/
def CleanRegion (o : Options) (marker : Str) (before removed : List Str) : Prop :=
  o.skipLines.toNat ≤ before.length ∧ (o.parser ≠ .redcarpet → Outside o.parser (before.drop o.skipLines.toNat)) ∧
    (∀ l ∈ removed, PlainLine o.parser l) ∧ PlainLine o.parser (marker ++ ['\n'])

theorem toc_core {E : Env} (hE : E.Lawful) {o : Options} (hn : IsEol o.newline []) {fn text out : Str} (h : buildToc E o fn (some ⟨text, false⟩) = .ok out) :
    ∃ core cl, TrimmedRight isPySpace out core ∧ Reads core cl ∧ (∀ l ∈ cl, ∃ b, IsItem b ∧ (l = b ∨ l = b ++ ['\n'])) ∧ IsEol o.newline core := by
  obtain ⟨es, f, ho, hi, -⟩ := entries_items hE h
  by_cases hes : es = []
  · subst hes
    simp at ho
    subst ho
    exact ⟨[], [], ⟨[], by simp, by simp, by simp⟩, .nil, by simp, hn⟩
  · obtain ⟨core, ls, h1, h2, h3, h4, h5, h6⟩ := items_core hn (es.map f) (by simpa using hes) (by
      intro b hb
      obtain ⟨e, he, rfl⟩ := List.mem_map.mp hb
      exact hi e he)
    exact ⟨core, ls, by rw [ho]; exact h1, h3, h4, eol_of_head hn h5⟩

/-- **C45**: the table of contents of the file is the same after it was written to the file. -/
theorem C45_stable {E : Env} (hE : E.Lawful) {o : Options} (hk : 1 ≤ o.keep) (hn : IsEol o.newline []) {fs : FS} {f : Str} {ls : List Str} (hf : HasLines fs f ls)
    {marker : Str} (hg : GoodMarker marker) {before removed after : List Str} (hc : Cut E.isDigit marker ls before removed after)
    (he : IsEol o.newline after.flatten) (hr : CleanRegion o marker before removed) {out : Str} (h : buildToc E o f (fs f) = .ok out)
    {b : Bool} {tr : List Str} (hw : writeString E fs f out marker o.newline = .ok (b, tr)) :
    buildToc E o f (lastFS fs f tr f) = .ok out := by
  obtain ⟨hf1, text, hf2, hR⟩ := hf
  rw [hf2] at h
  obtain ⟨core, cl, ht, hcl, hitems, heol⟩ := toc_core hE hn h
  obtain ⟨_, _, hw1, hlast⟩ := C37_outside_preserved E ⟨hf1, text, hf2, hR⟩ out marker o.newline hc ht
  rw [hw] at hw1
  injection hw1 with hw1
  injection hw1 with e1 e2
  subst e1; subst e2
  obtain ⟨mid, hR', hmid⟩ := written_reads hR hc hg hcl (by obtain ⟨_, _, _, h⟩ := ht; exact h) heol he
  have hfs : lastFS fs f tr f = some ⟨before.flatten ++ block core marker o.newline ++ after.flatten, false⟩ := by
    unfold lastFS
    rw [hlast]
    simp [FS.write]
  rw [hfs]
  have hskip := buildToc_skip h
  obtain ⟨hr1, hr2, hr3, hr4⟩ := hr
  have els := cut_lines hc
  obtain ⟨va, vb, hv⟩ := seenLines_around (p := o.parser) hr2 (decide (f ≠ stdinName)) after
  have hplain : ∀ l ∈ (marker ++ ['\n']) :: mid ++ [marker ++ ['\n']], PlainLine o.parser l := by
    intro l hl
    have : l = marker ++ ['\n'] ∨ l ∈ mid := by
      simp at hl
      rcases hl with h | h | h
      · exact .inl h
      · exact .inr h
      · exact .inl h
    rcases this with rfl | hl
    · exact hr4
    · rcases hmid l hl with rfl | hl | ⟨z, hz, rfl, hz'⟩
      · exact newline_plain _
      · obtain ⟨i, hi, hi'⟩ := hitems l hl
        exact isItem_plain _ hi hi'
      · obtain ⟨i, hi, hi'⟩ := hitems z hz
        rcases hi' with rfl | rfl
        · exact isItem_plain _ hi (.inr rfl)
        · simp at hz'
  have hv1 : SeenLines o.parser (decide (f ≠ stdinName)) (ls.drop o.skipLines.toNat) (va ++ (removed ++ vb)) := by
    have := hv removed hr3
    rwa [← List.drop_append_of_le_length hr1, ← List.append_assoc, ← els] at this
  have hv2 : SeenLines o.parser (decide (f ≠ stdinName)) ((before ++ ((marker ++ ['\n']) :: mid ++ [marker ++ ['\n']] ++ after)).drop o.skipLines.toNat)
      (va ++ ((marker ++ ['\n']) :: mid ++ [marker ++ ['\n']] ++ vb)) := by
    have := hv _ hplain
    rwa [← List.drop_append_of_le_length hr1] at this
  rw [buildToc_seen hskip hR hv1] at h
  rw [buildToc_seen hskip hR' hv2]
  have hl1 := seen_isLine hR hv1
  have hl2 := seen_isLine hR' hv2
  have hsame : ∀ ms, (∀ l ∈ ms, IsLine l) → (∀ l ∈ ms, PlainLine o.parser l) → ∀ st,
      hdrRun E o (va ++ (ms ++ vb)) st = hdrRun E o (va ++ vb) st := by
    intro ms h1 h2 st
    rw [hdrRun_append, hdrRun_append]
    congr 1
    funext st
    rw [hdrRun_append, hdrRun_plain hk h1 h2]
    rfl
  rw [hsame _ (fun l hl => hl2 l (by simp at hl ⊢; tauto)) hplain]
  rw [hsame _ (fun l hl => hl1 l (by simp [hl])) hr3] at h
  exact h

/-- **C45**: a second run on the file does not change it. -/
theorem C45_second_run {E : Env} (hE : E.Lawful) {o : Options} (hp : o.parser ≠ .redcarpet ∨ o.noIndentation = true) (hl : o.noLinks = false)
    (hk : 1 ≤ o.keep) (hn : IsEol o.newline []) {fs : FS} {f : Str} {ls : List Str} (hf : HasLines fs f ls)
    {marker : Str} (hg : GoodMarker marker) (hm : NotItem marker) {before removed after : List Str} (hc : Cut E.isDigit marker ls before removed after)
    (he : IsEol o.newline after.flatten) (hr : CleanRegion o marker before removed) {out : Str} (h : buildToc E o f (fs f) = .ok out)
    {b : Bool} {tr : List Str} (hw : writeString E fs f out marker o.newline = .ok (b, tr)) {out' : Str}
    (h' : buildToc E o f (lastFS fs f tr f) = .ok out') :
    ∃ b' tr', writeString E (lastFS fs f tr) f out' marker o.newline = .ok (b', tr') ∧ tr'.getLast? = tr.getLast? := by
  rw [C45_stable hE hk hn hf hg hc he hr h hw] at h'
  injection h' with h'
  subst h'
  have h2 := h
  obtain ⟨hf1, text, hf2, hR⟩ := hf
  rw [hf2] at h2
  obtain ⟨core, hcore⟩ := C44_recognisable_partial hE hp hl hn h2 hm
  exact C38_twice_partial E ⟨hf1, text, hf2, hR⟩ hc hg hcore he hw

theorem not_heading_line {p : Parser} {l b : Str} (hb : Body l b) (h : '#' ∉ b) : ¬ ∃ n t, Heading p true l n t := by
  rintro ⟨n, t, b', rest, c, hb', hh⟩
  have := body_unique hb hb'
  subst this
  apply h
  by_cases hp : p = .redcarpet
  · rw [if_pos hp] at hh
    obtain ⟨⟨h1, h2, h3, -⟩, -⟩ := hh
    rw [h3]; simp; left; omega
  · rw [if_neg hp] at hh
    obtain ⟨⟨k, h0, h1, h2, h3, -⟩, -⟩ := hh
    rw [h3]; simp; left; omega

theorem not_opening_line {l : Str} (h : ∀ c ∈ l, ¬ IsFenceChar c) : ¬ ∃ c n, OpensWith l c n := by
  rintro ⟨c, m, k, rest, -, h3, hc, e, -⟩
  exact h c (by rw [e]; simp; omega) hc

theorem default_plain (p : Parser) : PlainLine p ("<!--TOC-->".toList ++ ['\n']) :=
  ⟨not_opening_line (by simp [IsFenceChar]), not_heading_line (b := "<!--TOC-->".toList) ⟨[], ['\n'], by simp, by simp, by decide⟩ (by decide)⟩

/-- The hypotheses of **C45** are met: a closed code block, the marker, two headings. -/
example : ∃ before removed after, Cut asciiEnv.isDigit "<!--TOC-->".toList
      ["```\n".toList, "# x\n".toList, "```\n".toList, "<!--TOC-->\n".toList, "# a\n".toList, "# a\n".toList] before removed after ∧
    CleanRegion {} "<!--TOC-->".toList before removed ∧ IsEol ['\n'] after.flatten := by
  refine ⟨["```\n".toList, "# x\n".toList, "```\n".toList], ["<!--TOC-->\n".toList], ["# a\n".toList, "# a\n".toList],
    .inl ⟨_, ⟨rfl, isMarker_iff.mpr (by decide +kernel), ?_, ?_⟩, rfl⟩, ⟨by simp, fun _ => ?_, ?_, default_plain _⟩, .inl rfl⟩
  · simp only [isMarker_iff]; decide +kernel
  · simp only [isMarker_iff]; decide +kernel
  · have h := Outside.block (p := .github) (l := "```\n".toList) (c := '`') (n := 3) (ms := ["# x\n".toList]) (e := "```\n".toList) .nil
      ⟨0, ['\n'], by omega, by omega, .inl rfl, rfl, by simp, by simp⟩
      (by
        intro m hm
        simp at hm
        subst hm
        rintro ⟨k, j, rest, h1, h2, h3, -⟩
        have h4 : ∀ y ∈ ("# x\n".toList).head?, y ≠ '#' := by
          show ∀ y ∈ (['#', ' ', 'x', '\n'] : Str).head?, y ≠ '#'
          have h3 : (['#', ' ', 'x', '\n'] : Str) = List.replicate k ' ' ++ List.replicate j '`' ++ rest := h3
          rw [h3]
          obtain ⟨j, rfl⟩ : ∃ j', j = j' + 1 := ⟨j - 1, by omega⟩
          cases k <;> simp [List.replicate_succ]
        exact h4 '#' (by decide) rfl)
      ⟨0, 3, ['\n'], by omega, by omega, rfl, by simp⟩
    simpa using h
  · intro l hl
    simp only [List.mem_singleton] at hl
    subst hl
    exact default_plain _

example : buildToc asciiEnv {} "a.md".toList (some ⟨"```\n# x\n```\n<!--TOC-->\n# a\n# a\n".toList, false⟩) = .ok "- [a](#a)\n- [a](#a-1)\n".toList ∧
    (writeString asciiEnv (fun _ => some ⟨"```\n# x\n```\n<!--TOC-->\n# a\n# a\n".toList, false⟩) "a.md".toList "- [a](#a)\n- [a](#a-1)\n".toList "<!--TOC-->".toList "\n".toList).map
      (·.2.getLast?) = .ok (some "```\n# x\n```\n<!--TOC-->\n\n- [a](#a)\n- [a](#a-1)\n\n<!--TOC-->\n# a\n# a\n".toList) := by
  decide +kernel

end MdToc.Props
