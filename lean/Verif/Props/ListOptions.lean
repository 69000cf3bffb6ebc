import Verif.Props.Numbers
import Verif.Props.Locality
import Verif.Props.Meta

/-!
# C93: the options of the list change nothing but the list
-/

set_option linter.unusedSimpArgs false

namespace MdToc.Props

open MdToc.Spec

/-- The number of an entry of level `n` after the entries `b`. -/
def placeNumber (counts : Bool) (b : List Entry) (n : Nat) : Nat := if counts then numberAfter (b.map (·.level)) n else 1

/-- The indentation of an entry of level `n` after the entries `b`. -/
def placeIndent (flat cm ordered : Bool) (marker : Str) (b : List Entry) (n : Nat) : Nat :=
  if flat then 0 else if cm then
    match b.getLast? with
    | none => 0
    | some q => if q.level < n then q.indent + (markerText ordered marker q.number).length + 1 else lastIndent n b
  else 4 * (n - 1)

/-- The numbers and the indentation of every run. -/
theorem run_placed {o : Options} {hs : List Header} {es : List Entry} {st : TocState} {m : Str} (h : Run o (TocState.init m) hs es st) :
    Each (fun b e => e.number = placeNumber o.counts b e.level ∧ e.indent = placeIndent o.noIndentation o.parser.cmarkLike o.effOrdered o.effMarker b e.level) es := by
  have h1 : Each (fun b e => e.number = placeNumber o.counts b e.level) es := by
    unfold placeNumber
    cases hco : o.counts with
    | false =>
      intro pre e post heq
      exact h.no_count hco e (by rw [heq]; simp)
    | true => exact (run_numbers h hco).2
  have h2 : Each (fun b e => e.indent = placeIndent o.noIndentation o.parser.cmarkLike o.effOrdered o.effMarker b e.level) es := by
    unfold placeIndent
    cases hni : o.noIndentation with
    | true =>
      intro pre e post heq
      exact h.no_indent hni e (by rw [heq]; simp)
    | false =>
      cases hc : o.parser.cmarkLike with
      | false =>
        intro pre e post heq
        exact h.redcarpet_indent hc hni e (by rw [heq]; simp)
      | true =>
        intro pre e post heq
        have := (run_indents h hc hni).2.2 pre e post heq
        unfold IndentedAfter at this
        simp only [Bool.false_eq_true, if_false, if_true]
        cases hl : pre.getLast? with
        | none => rw [hl] at this; exact this
        | some q =>
          rw [hl] at this
          simp only at this ⊢
          split
          · rename_i hlt; rw [if_pos hlt] at this; exact this
          · rename_i hlt; rw [if_neg hlt] at this; exact this
  exact fun pre e post heq => ⟨h1 pre e post heq, h2 pre e post heq⟩

theorem markerText_length {ordered : Bool} {m m' : Str} (h : m.length = m'.length) (k : Nat) : (markerText ordered m k).length = (markerText ordered m' k).length := by
  unfold markerText
  split <;> simp [h]

theorem placeIndent_marker {flat cm ordered : Bool} {m m' : Str} (h : m.length = m'.length) : placeIndent flat cm ordered m = placeIndent flat cm ordered m' := by
  funext b n
  unfold placeIndent
  split
  · rfl
  · split
    · split
      · rfl
      · rw [markerText_length h]
    · rfl

/-- A marker which is accepted has one character. -/
theorem markerOk_length {p : Parser} {ordered : Bool} {m : Str} (h : markerOk p ordered m = true) : m.length = 1 := by
  unfold markerOk at h
  split at h
  · have := List.mem_of_elem_eq_true h
    revert this
    cases p <;> simp [Parser.closingMarkers] <;> first | (rintro (rfl | rfl) <;> rfl) | (rintro rfl; rfl)
  · have := List.mem_of_elem_eq_true h
    revert this
    simp [bulletMarkers]
    rintro (rfl | rfl | rfl) <;> rfl

/-- Two tables of the same document with the same headings. -/
theorem table_info {E : Env} {o o' : Options} (hp : o'.parser = o.parser) (hn : o'.noLinks = o.noLinks) (hk : o'.keep = o.keep) {vs : List Str} {out out' : Str} {es es' : List Entry}
    (ht : Table E o vs out es) (ht' : Table E o' vs out' es') : es'.map (fun e => (e.level, e.text, e.anchor)) = es.map (fun e => (e.level, e.text, e.anchor)) := by
  obtain ⟨⟨heads, as, d, g1, g2, g3, g4⟩, -⟩ := ht
  obtain ⟨⟨heads', as', d', g1', g2', g3', g4'⟩, -⟩ := ht'
  rw [hp, hn] at g1'
  rw [hp] at g2'
  rw [hp, hk] at g4'
  have := headings_unique g1 g1'
  subst this
  rw [g2] at g2'
  injection g2' with g2'
  injection g2' with g2'
  subst g2'
  rw [g4, g4']

theorem looks_options {o o' : Options} (hp : o'.parser = o.parser) (hs : o'.skipLines = o.skipLines) {fn text : Str} {vs : List Str} (h : Looks o fn text vs) : Looks o' fn text vs := by
  unfold Looks at h ⊢
  rw [hp, hs]
  exact h

/-- **C93**: whatever the kind of list, the indentation, the list marker, the check of the list and the line ending: the entries are the same headings, with the same texts and links. -/
theorem C93_entries {E : Env} {o o' : Options} (hp : o'.parser = o.parser) (hn : o'.noLinks = o.noLinks) (hk : o'.keep = o.keep) (hs : o'.skipLines = o.skipLines)
    {fn text out out' : Str} (h : buildToc E o fn (some ⟨text, false⟩) = .ok out) (h' : buildToc E o' fn (some ⟨text, false⟩) = .ok out') {vs : List Str} (hv : Looks o fn text vs) :
    ∃ es es', Table E o vs out es ∧ Table E o' vs out' es' ∧ es'.map (fun e => (e.level, e.text, e.anchor)) = es.map (fun e => (e.level, e.text, e.anchor)) := by
  obtain ⟨_, es, _, -, ht⟩ := buildToc_run h hv
  obtain ⟨_, es', _, -, ht'⟩ := buildToc_run h' (looks_options hp hs hv)
  exact ⟨es, es', ht, ht', table_info hp hn hk ht ht'⟩

/-- **C93**: with the same kind of list and indentation also the numbers and the indentation are the same, whatever the list marker, the check of the list and the line ending. -/
theorem C93_places {E : Env} {o o' : Options} (hp : o'.parser = o.parser) (hn : o'.noLinks = o.noLinks) (hk : o'.keep = o.keep) (hs : o'.skipLines = o.skipLines)
    (ho : o'.ordered = o.ordered) (hc : o'.constantOrdered = o.constantOrdered) (hi : o'.noIndentation = o.noIndentation)
    {fn text out out' : Str} (h : buildToc E o fn (some ⟨text, false⟩) = .ok out) (h' : buildToc E o' fn (some ⟨text, false⟩) = .ok out') {vs : List Str} (hv : Looks o fn text vs) :
    ∃ es, Table E o vs out es ∧ Table E o' vs out' es := by
  obtain ⟨_, es, _, hr, ht⟩ := buildToc_run h hv
  obtain ⟨_, es', _, hr', ht'⟩ := buildToc_run h' (looks_options hp hs hv)
  have hinfo := table_info hp hn hk ht ht'
  have heo : o'.effOrdered = o.effOrdered := by unfold Options.effOrdered; rw [ho, hc]
  have hco : o'.counts = o.counts := by unfold Options.counts; rw [heo, hc]
  have hsame : es' = es := by
    by_cases hes : es = []
    · subst hes; simpa using hinfo
    · have hes' : es' ≠ [] := by
        rintro rfl
        simp at hinfo
        exact hes (by simpa using hinfo)
      have l1 := markerOk_length (hr.info.2.2.2.2 hes)
      have l2 := markerOk_length (hr'.info.2.2.2.2 hes')
      have h1 := run_placed hr
      have h2 := run_placed hr'
      rw [hco, hi, hp, heo, placeIndent_marker (m' := o.effMarker) (by rw [l1, l2])] at h2
      exact entries_ext hinfo h2 h1
  subst hsame
  exact ⟨es', ht, ht'⟩

/-- **C93**: a table which is built with the check of the list is built without it too, and is the same. -/
theorem C93_no_check {E : Env} {o : Options} {fn text out : Str} (h : buildToc E o fn (some ⟨text, false⟩) = .ok out) :
    buildToc E { o with noListCoherence := true } fn (some ⟨text, false⟩) = .ok out := by
  obtain ⟨vs, hv⟩ := looks_exists o fn text
  obtain ⟨heads, hh⟩ := headings_exists o.parser o.noLinks vs
  obtain ⟨c1, c2, c3, c4, c5, c6⟩ := (C75_exact hv hh).mp ⟨out, h⟩
  obtain ⟨out', h'⟩ := (C75_exact (E := E) (o := { o with noListCoherence := true }) hv hh).mpr ⟨c1, c2, c3, c4, .inr (.inl rfl), c6⟩
  obtain ⟨es, ht, ht'⟩ := C93_places (o := o) (o' := { o with noListCoherence := true }) rfl rfl rfl rfl rfl rfl rfl h h' hv
  rw [h', ht.2, ht'.2]

/-- **C93**: a table which is built with indentation is built without it too: the same lines, without the spaces in front. -/
theorem C93_flat {E : Env} {o : Options} {fn text out : Str} (h : buildToc E o fn (some ⟨text, false⟩) = .ok out) {vs : List Str} (hv : Looks o fn text vs) :
    ∃ out' es, buildToc E { o with noIndentation := true } fn (some ⟨text, false⟩) = .ok out' ∧ Table E o vs out es ∧
      Table E { o with noIndentation := true } vs out' (es.map (fun e => { e with indent := 0 })) := by
  obtain ⟨heads, hh⟩ := headings_exists o.parser o.noLinks vs
  obtain ⟨c1, c2, c3, c4, c5, c6⟩ := (C75_exact hv hh).mp ⟨out, h⟩
  obtain ⟨out', h'⟩ := (C75_exact (E := E) (o := { o with noIndentation := true }) hv hh).mpr ⟨c1, c2, c3, c4, .inl rfl, c6⟩
  obtain ⟨_, es, _, hr, ht⟩ := buildToc_run h hv
  obtain ⟨_, es', _, hr', ht'⟩ := buildToc_run h' (looks_options (o := o) rfl rfl hv)
  have hinfo := table_info (o := o) (o' := { o with noIndentation := true }) rfl rfl rfl ht ht'
  have h1 := run_placed hr
  have h2 := run_placed hr'
  have hsame : es' = es.map (fun e => { e with indent := 0 }) := by
    refine entries_ext (N := placeNumber o.counts) (I := fun _ _ => 0) ?_ (fun pre e post heq => ?_) (fun pre e post heq => ?_)
    · rw [hinfo, List.map_map]; rfl
    · have := h2 pre e post heq
      exact ⟨this.1, by rw [this.2]; simp [placeIndent]⟩
    · obtain ⟨pre0, r0, rfl, e1, e2⟩ := List.map_eq_append_iff.mp heq
      obtain ⟨x, post0, rfl, e3, e4⟩ := List.map_eq_cons_iff.mp e2
      have := (h1 pre0 x post0 rfl).1
      subst e1 e3
      refine ⟨?_, rfl⟩
      simp only [placeNumber, List.map_map, Function.comp_def] at this ⊢
      exact this
  subst hsame
  exact ⟨out', es, h', ht, ht'⟩

/-- **C93**: another list marker which is accepted gives the same table with the other marker. -/
theorem C93_marker {E : Env} {o : Options} {m : Str} (hm : isOrdered o = true ∨ m ∈ bullets) {fn text out : Str} (h : buildToc E o fn (some ⟨text, false⟩) = .ok out) {vs : List Str}
    (hv : Looks o fn text vs) :
    ∃ out' es, buildToc E { o with listMarker := m } fn (some ⟨text, false⟩) = .ok out' ∧ Table E o vs out es ∧ Table E { o with listMarker := m } vs out' es := by
  obtain ⟨heads, hh⟩ := headings_exists o.parser o.noLinks vs
  obtain ⟨c1, c2, c3, c4, c5, c6⟩ := (C75_exact hv hh).mp ⟨out, h⟩
  obtain ⟨out', h'⟩ := (C75_exact (E := E) (o := { o with listMarker := m }) hv hh).mpr ⟨c1, c2, c3, hm.imp_right .inl, c5, c6⟩
  obtain ⟨es, ht, ht'⟩ := C93_places (o := o) (o' := { o with listMarker := m }) rfl rfl rfl rfl rfl rfl rfl h h' hv
  exact ⟨out', es, h', ht, ht'⟩

/-- **C93**: the line ending changes nothing but the line ending. -/
theorem C93_newline {E : Env} {o : Options} {nl : Str} {fn text out : Str} (h : buildToc E o fn (some ⟨text, false⟩) = .ok out) {vs : List Str} (hv : Looks o fn text vs) :
    ∃ out' es, buildToc E { o with newline := nl } fn (some ⟨text, false⟩) = .ok out' ∧ Table E o vs out es ∧ Table E { o with newline := nl } vs out' es := by
  obtain ⟨heads, hh⟩ := headings_exists o.parser o.noLinks vs
  have hx := (C75_exact hv hh).mp ⟨out, h⟩
  obtain ⟨out', h'⟩ := (C75_exact (E := E) (o := { o with newline := nl }) hv hh).mpr hx
  obtain ⟨es, ht, ht'⟩ := C93_places (o := o) (o' := { o with newline := nl }) rfl rfl rfl rfl rfl rfl rfl h h' hv
  exact ⟨out', es, h', ht, ht'⟩

/-- **C93**: an ordered list can be built with the constant number too: the same headings, texts and links, all numbers 1. -/
theorem C93_constant {E : Env} {o : Options} (ho : isOrdered o = true) {fn text out : Str} (h : buildToc E o fn (some ⟨text, false⟩) = .ok out) {vs : List Str} (hv : Looks o fn text vs) :
    ∃ out' es es', buildToc E { o with constantOrdered := true } fn (some ⟨text, false⟩) = .ok out' ∧ Table E o vs out es ∧ Table E { o with constantOrdered := true } vs out' es' ∧
      es'.map (fun e => (e.level, e.text, e.anchor)) = es.map (fun e => (e.level, e.text, e.anchor)) ∧ ∀ e ∈ es', e.number = 1 := by
  obtain ⟨heads, hh⟩ := headings_exists o.parser o.noLinks vs
  obtain ⟨c1, c2, c3, c4, c5, c6⟩ := (C75_exact hv hh).mp ⟨out, h⟩
  obtain ⟨out', h'⟩ := (C75_exact (E := E) (o := { o with constantOrdered := true }) hv hh).mpr ⟨c1, c2, c3, .inl (by simp [isOrdered]), c5, by simp⟩
  obtain ⟨_, es, _, -, ht⟩ := buildToc_run h hv
  obtain ⟨_, es', _, hr', ht'⟩ := buildToc_run h' (looks_options (o := o) rfl rfl hv)
  exact ⟨out', es, es', h', ht, ht', table_info (o := o) (o' := { o with constantOrdered := true }) rfl rfl rfl ht ht', hr'.no_count (by simp [Options.counts])⟩

/-! ### The theorems apply -/

/-- The hypotheses hold: a document with sections, and the tables with the other options. -/
example : buildToc asciiEnv { ordered := true } "a.md".toList (some ⟨"# a\n## b\n## c\n# d\n".toList, false⟩) =
      .ok "1. [a](#a)\n   1. [b](#b)\n   2. [c](#c)\n2. [d](#d)\n".toList ∧
    buildToc asciiEnv { ordered := true, noIndentation := true } "a.md".toList (some ⟨"# a\n## b\n## c\n# d\n".toList, false⟩) =
      .ok "1. [a](#a)\n1. [b](#b)\n2. [c](#c)\n2. [d](#d)\n".toList ∧
    buildToc asciiEnv { ordered := true, constantOrdered := true, listMarker := [')'] } "a.md".toList (some ⟨"# a\n## b\n## c\n# d\n".toList, false⟩) =
      .ok "1) [a](#a)\n   1) [b](#b)\n   1) [c](#c)\n1) [d](#d)\n".toList ∧
    buildToc asciiEnv { noListCoherence := true, newline := ['\r', '\n'] } "a.md".toList (some ⟨"# a\n## b\n## c\n# d\n".toList, false⟩) =
      .ok "- [a](#a)\r\n  - [b](#b)\r\n  - [c](#c)\r\n- [d](#d)\r\n".toList := by
  decide +kernel

/-- The other direction of `C93_no_check` fails: the check refuses some documents. -/
example : buildToc asciiEnv {} "a.md".toList (some ⟨"## a\n# b\n".toList, false⟩) = .error .TocDoesNotRenderAsCoherentList ∧
    buildToc asciiEnv { noListCoherence := true } "a.md".toList (some ⟨"## a\n# b\n".toList, false⟩) = .ok "- [a](#a)\n- [b](#b)\n".toList := by
  decide +kernel

end MdToc.Props
