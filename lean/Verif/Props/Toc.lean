import Verif.Lemmas.Headings

/-!
# Properties of the table of contents: entries, numbers, indentation (C21-C29, C32, C33)
-/

set_option linter.unusedSimpArgs false

namespace MdToc.Props

open MdToc.Spec

/-- The list is ordered. -/
abbrev isOrdered (o : Options) : Bool := o.ordered || o.constantOrdered

/-- `out` is the text of the entries `es`, and these are the listed headings of the lines `vs` in order, with the anchors which `build_anchor_link`
gives to all the headings one after the other. -/
def Table (E : Env) (o : Options) (vs : List Str) (out : Str) (es : List Entry) : Prop :=
  (∃ heads as d, Headings o.parser o.noLinks vs heads ∧ anchorRun E o.parser (fun _ => 0) (heads.map Prod.snd) = .ok (as, d) ∧
    as.length = heads.length ∧
    es.map (fun e => (e.level, e.text, e.anchor)) =
      ((heads.zip as).filter (fun x => listed o.parser o.keep x.1.1)).map (fun x => (x.1.1, x.1.2, x.2))) ∧
  out = (es.map (Entry.line (isOrdered o) o.noLinks (usedMarker o.parser (isOrdered o) o.listMarker) o.newline)).flatten

/-- `build_toc` gets the lines `vs` of the text to look at for headings. -/
def Looks (o : Options) (fn text : Str) (vs : List Str) : Prop :=
  ∃ ls, Reads text ls ∧ SeenLines o.parser (decide (fn ≠ "-".toList)) (ls.drop o.skipLines.toNat) vs

theorem looks_exists (o : Options) (fn text : Str) : ∃ vs, Looks o fn text vs := by
  obtain ⟨ls, h⟩ := reads_exists text
  obtain ⟨vs, h'⟩ := seenLines_exists o.parser (decide (fn ≠ "-".toList)) (ls.drop o.skipLines.toNat)
  exact ⟨vs, ls, h, h'⟩

theorem effOrdered_eq (o : Options) : o.effOrdered = isOrdered o := by
  unfold Options.effOrdered isOrdered; rw [Bool.or_comm]

theorem closingMarkers_eq (p : Parser) (m : Str) : p.closingMarkers.contains m = decide (m ∈ delimiters p) := by
  cases p <;> simp [Parser.closingMarkers, delimiters]

theorem bulletMarkers_eq (m : Str) : bulletMarkers.contains m = decide (m ∈ bullets) := by
  simp [bulletMarkers, bullets]

theorem effMarker_eq (o : Options) : o.effMarker = usedMarker o.parser (isOrdered o) o.listMarker := by
  unfold Options.effMarker usedMarker
  simp only [effOrdered_eq, closingMarkers_eq]
  have hd : defaultClosingMarker = ".".toList := rfl
  have hdm : ".".toList ∈ delimiters o.parser := by cases o.parser <;> decide
  have hbm : "-".toList ∉ delimiters o.parser := by cases o.parser <;> decide
  have hb : defaultBullet = "-".toList := rfl
  by_cases ho : isOrdered o = true
  · rw [ho, if_pos rfl]
    by_cases h1 : (o.ordered && o.listMarker == defaultBullet) = true
    · rw [if_pos h1, hd]
      have : o.listMarker = "-".toList := by simp at h1; rw [h1.2]; rfl
      rw [this, if_neg hbm]
      simp [hdm]
    · rw [if_neg h1]
      by_cases h2 : o.listMarker ∈ delimiters o.parser <;> simp [h2, hd]
  · have h1 : o.ordered = false := by
      unfold isOrdered at ho; simp at ho; exact ho.1
    simp [ho, h1]

theorem options_line (o : Options) :
    o.line = Entry.line (isOrdered o) o.noLinks (usedMarker o.parser (isOrdered o) o.listMarker) o.newline := by
  funext e
  unfold Options.line
  rw [effOrdered_eq, effMarker_eq]

theorem buildToc_skip {E : Env} {o : Options} {fn : Str} {src : Option Source} {out : Str} (h : buildToc E o fn src = .ok out) : o.skipLines ≥ 0 := by
  unfold buildToc at h
  by_contra hs
  rw [if_pos hs] at h
  simp at h

/-- A successful run. -/
theorem buildToc_run {E : Env} {o : Options} {fn text out : Str} (h : buildToc E o fn (some ⟨text, false⟩) = .ok out) {vs : List Str} (hv : Looks o fn text vs) :
    ∃ hs es st, Run o (TocState.init o.effMarker) hs es st ∧ Table E o vs out es := by
  obtain ⟨ls, hr, hv⟩ := hv
  have hs := buildToc_skip h
  rw [buildToc_seen hs hr hv] at h
  cases hh : hdrRun E o vs (TocState.init o.effMarker) with
  | error e => rw [hh] at h; simp [Except.map] at h
  | ok st' =>
    rw [hh] at h
    simp only [Except.map] at h
    injection h with h
    obtain ⟨hds, h1, st'', h2, d2, h3⟩ := hdrRun_ok hh
    obtain ⟨heads, as, d', g1, g2, g3, g4⟩ := listedHeaders_ok (seen_isLine hr hv) h1
    obtain ⟨es, hrun⟩ := run_of_addRun h2
    have hi := hrun.info
    refine ⟨hds, es, st'', hrun, ⟨heads, as, d', g1, g2, g3, ?_⟩, ?_⟩
    · rw [hi.1, g4]
    · rw [← h, ← options_line]
      unfold TocState.out
      rw [h3, hi.2.1]
      rfl

/-! ### C21 -/

/-- **C21** -/
theorem C21_entries {E : Env} {o : Options} {fn text out : Str} (h : buildToc E o fn (some ⟨text, false⟩) = .ok out) {vs : List Str}
    (hv : Looks o fn text vs) : ∃ es, Table E o vs out es := by
  obtain ⟨hs, es, st, -, ht⟩ := buildToc_run h hv
  exact ⟨es, ht⟩

/-- The levels of the entries are those of the listed headings. -/
theorem table_levels {E : Env} {o : Options} {vs : List Str} {out : Str} {es : List Entry} (h : Table E o vs out es) {heads : List (Nat × Str)}
    (hh : Headings o.parser o.noLinks vs heads) :
    es.map (fun e => (e.level, e.text)) = heads.filter (fun x => listed o.parser o.keep x.1) := by
  obtain ⟨⟨heads', as, d, h1, -, h3, h4⟩, -⟩ := h
  have := headings_unique h1 hh
  subst this
  have e1 : es.map (fun e => (e.level, e.text)) = (es.map (fun e => (e.level, e.text, e.anchor))).map (fun x => (x.1, x.2.1)) := by
    simp [List.map_map, Function.comp_def]
  rw [e1, h4, List.map_map]
  clear h1 hh h4 e1
  induction heads' generalizing as with
  | nil => simp
  | cons x t ih =>
    cases as with
    | nil => simp at h3
    | cons a as =>
      have := ih as (by simpa using h3)
      simp only [List.zip_cons_cons, List.filter_cons]
      by_cases hx : listed o.parser o.keep x.1
      · simp only [hx, if_true, List.map_cons, this]
        rfl
      · simp only [hx, this, Bool.false_eq_true, if_false]

/-- **C21**: the entries are the listed headings: the levels and texts are determined by the lines. -/
theorem C21_headings {E : Env} {o : Options} {fn text out : Str} (h : buildToc E o fn (some ⟨text, false⟩) = .ok out) {vs : List Str}
    (hv : Looks o fn text vs) {heads : List (Nat × Str)} (hh : Headings o.parser o.noLinks vs heads) :
    ∃ es, Table E o vs out es ∧ es.map (fun e => (e.level, e.text)) = heads.filter (fun x => listed o.parser o.keep x.1) := by
  obtain ⟨es, ht⟩ := C21_entries h hv
  exact ⟨es, ht, table_levels ht hh⟩

/-! ### C23 -/

/-- **C23**, cmark-like parsers: the listed headings are those with a level up to `keep_header_levels`. -/
theorem C23_levels_partial {E : Env} {o : Options} (hp : o.parser ≠ .redcarpet) {fn text out : Str} (h : buildToc E o fn (some ⟨text, false⟩) = .ok out) {vs : List Str}
    (hv : Looks o fn text vs) {heads : List (Nat × Str)} (hh : Headings o.parser o.noLinks vs heads) :
    ∃ es, Table E o vs out es ∧ es.map (fun e => (e.level, e.text)) = heads.filter (fun x => decide ((x.1 : Int) ≤ o.keep)) ∧
      ∀ e ∈ es, (e.level : Int) ≤ o.keep := by
  obtain ⟨es, ht, he⟩ := C21_headings h hv hh
  have hl : ∀ n, listed o.parser o.keep n = decide ((n : Int) ≤ o.keep) := by
    intro n; simp [listed, hp]
  simp only [hl] at he
  refine ⟨es, ht, he, ?_⟩
  intro e hm
  have : (e.level, e.text) ∈ heads.filter (fun x => decide ((x.1 : Int) ≤ o.keep)) := by
    rw [← he]; exact List.mem_map.mpr ⟨e, hm, rfl⟩
  simpa using (List.mem_filter.mp this).2

/-- For redcarpet all the headings are listed. -/
theorem C23_redcarpet {E : Env} {o : Options} (hp : o.parser = .redcarpet) {fn text out : Str} (h : buildToc E o fn (some ⟨text, false⟩) = .ok out) {vs : List Str}
    (hv : Looks o fn text vs) {heads : List (Nat × Str)} (hh : Headings o.parser o.noLinks vs heads) :
    ∃ es, Table E o vs out es ∧ es.map (fun e => (e.level, e.text)) = heads := by
  obtain ⟨es, ht, he⟩ := C21_headings h hv hh
  refine ⟨es, ht, ?_⟩
  rw [he]
  apply List.filter_eq_self.mpr
  intro a _
  simp [listed, hp]

/-- **C23 is false** for redcarpet. -/
theorem C23_violation : buildToc asciiEnv { parser := .redcarpet, keep := 1 } "a.md".toList (some ⟨"# a\n## b\n".toList, false⟩) =
    .ok "- [a](#a)\n    - [b](#b)\n".toList := by decide +kernel

/-! ### Coherence, C28 -/

theorem entry_levels {heads : List (Nat × Str)} {es : List Entry} {q : Nat → Bool} (h : es.map (fun e => (e.level, e.text)) = heads.filter (fun x => q x.1)) :
    es.map (·.level) = (heads.map Prod.fst).filter q := by
  have : es.map (·.level) = (es.map (fun e => (e.level, e.text))).map Prod.fst := by simp [List.map_map, Function.comp_def]
  rw [this, h, List.filter_map]
  rfl

/-- **C28**, first half: if the table is built then the levels are those of a proper list. -/
theorem C28_ok_coherent {E : Env} {o : Options} (h1 : o.noIndentation = false) (h2 : o.noListCoherence = false) {fn text out : Str}
    (h : buildToc E o fn (some ⟨text, false⟩) = .ok out) {vs : List Str} (hv : Looks o fn text vs) {heads : List (Nat × Str)}
    (hh : Headings o.parser o.noLinks vs heads) : Coherent ((heads.map Prod.fst).filter (listed o.parser o.keep)) := by
  obtain ⟨hs, es, st, hr, ht⟩ := buildToc_run h hv
  rw [← entry_levels (table_levels ht hh)]
  exact (hr.coherent h1 h2).1

/-- The state of the loop after some of the lines. -/
theorem hdrRun_state {E : Env} {o : Options} {pre : List Str} (hl : ∀ l ∈ pre, IsLine l) {st1 : TocState}
    (h : hdrRun E o pre (TocState.init o.effMarker) = .ok st1) :
    ∃ hs es st2 d, Run o (TocState.init o.effMarker) hs es st2 ∧ Table E o pre st1.out es ∧ st1 = { st2 with dup := d } := by
  obtain ⟨hds, h1, st2, h2, d2, h3⟩ := hdrRun_ok h
  obtain ⟨heads', as, d', g1, g2, g3, g4⟩ := listedHeaders_ok hl h1
  obtain ⟨es, hrun⟩ := run_of_addRun h2
  have hi := hrun.info
  refine ⟨hds, es, st2, d2, hrun, ⟨⟨heads', as, d', g1, g2, g3, ?_⟩, ?_⟩, h3⟩
  · rw [hi.1, g4]
  · rw [← options_line]
    unfold TocState.out
    rw [h3]
    simp only [hi.2.1]
    rfl

/-- A failed run: at the line `l` after the lines `pre`, for which the entries are `es`. -/
theorem buildToc_failed {E : Env} {o : Options} {fn text : Str} {e : Exn} (hs : o.skipLines ≥ 0) (h : buildToc E o fn (some ⟨text, false⟩) = .error e) {vs : List Str}
    (hv : Looks o fn text vs) :
    ∃ pre l post hs es st d, vs = pre ++ l :: post ∧ IsLine l ∧ Run o (TocState.init o.effMarker) hs es st ∧ Table E o pre st.out es ∧
      (∀ x ∈ es, 1 ≤ x.level ∧ x.level ≤ 6) ∧ st.prev ≤ 6 ∧
      (getMdHeader E l d o.keep o.parser o.noLinks = .error e ∨
        ∃ n t a d', Heading o.parser o.noLinks l n t ∧ buildAnchorLink E t d o.parser = .ok (a, d') ∧ listed o.parser o.keep n = true ∧ 1 ≤ n ∧ n ≤ 6 ∧
          addHeader o st ⟨n, t, a, true⟩ = .error e) := by
  obtain ⟨ls, hr, hv⟩ := hv
  rw [buildToc_seen hs hr hv] at h
  have hlines := seen_isLine hr hv
  cases hh : hdrRun E o vs (TocState.init o.effMarker) with
  | ok st => rw [hh] at h; simp [Except.map] at h
  | error e' =>
    rw [hh] at h
    simp only [Except.map] at h
    injection h with h
    subst h
    obtain ⟨pre, l, post, st1, rfl, h1, h2⟩ := hdrRun_error hh
    have hl : IsLine l := hlines l (by simp)
    obtain ⟨hds, es, st2, d, hrun, ht, he⟩ := hdrRun_state (fun x hx => hlines x (by simp [hx])) h1
    have hlev : ∀ x ∈ es, 1 ≤ x.level ∧ x.level ≤ 6 := by
      obtain ⟨⟨heads, as, d, g1, -, g3, g4⟩, -⟩ := ht
      intro x hx
      have : (x.level, x.text, x.anchor) ∈ es.map (fun e => (e.level, e.text, e.anchor)) := List.mem_map.mpr ⟨x, hx, rfl⟩
      rw [g4] at this
      obtain ⟨y, hy, e⟩ := List.mem_map.mp this
      have hy' := (List.of_mem_zip (List.mem_filter.mp hy).1).1
      have := headings_bounds g1 y.1 hy'
      simp at e
      rw [← e.1]
      exact ⟨this.1, this.2.1⟩
    have hprev : st2.prev ≤ 6 := by
      rw [hrun.info.2.2.1]
      cases hg : (es.map (·.level)).getLast? with
      | none => simp [TocState.init]
      | some n =>
        obtain ⟨x, hx, rfl⟩ := List.mem_map.mp (List.mem_of_getLast? hg)
        exact (hlev x hx).2
    have hout : st1.out = st2.out := by rw [he]; rfl
    rw [hout] at ht
    refine ⟨pre, l, post, hds, es, st2, st1.dup, rfl, hl, hrun, ht, hlev, hprev, ?_⟩
    rcases h2 with h2 | ⟨hd, hs', d', h2, hvis, h3⟩
    · exact .inl h2
    · right
      rcases getMdHeader_line hl h2 with ⟨-, h4, -⟩ | ⟨n, t, a, h4, h5, h6⟩
      · simp at h4
      · simp at h6
        obtain ⟨rfl, rfl⟩ := h6
        simp at hvis
        have hb := heading_no_newline h4
        refine ⟨n, t, a, d', h4, h5, hvis, hb.2.1, hb.2.2, ?_⟩
        rw [he, addHeader_dup, hvis] at h3
        cases ha : addHeader o st2 ⟨n, t, a, true⟩ with
        | ok s => rw [ha] at h3; simp [Except.map] at h3
        | error e => rw [ha] at h3; simp only [Except.map] at h3; injection h3 with h3; rw [h3]

/-- **C28**, second half: the exception means that the levels are not those of a proper list. -/
theorem C28_error_incoherent {E : Env} {o : Options} {fn text : Str}
    (h : buildToc E o fn (some ⟨text, false⟩) = .error .TocDoesNotRenderAsCoherentList) {vs : List Str} (hv : Looks o fn text vs) {heads : List (Nat × Str)}
    (hh : Headings o.parser o.noLinks vs heads) :
    o.noIndentation = false ∧ o.noListCoherence = false ∧ ¬ Coherent ((heads.map Prod.fst).filter (listed o.parser o.keep)) := by
  have hs : o.skipLines ≥ 0 := by
    by_contra hs
    unfold buildToc at h
    rw [if_pos hs] at h
    simp at h
  obtain ⟨pre, l, post, hds, es, st, d, rfl, hl, hrun, ht, hlev, hprev, h | ⟨n, t, a, d', h1, h2, h3, h4, h5, h6⟩⟩ := buildToc_failed hs h hv
  · rcases getMdHeader_err hl h with ⟨-, h⟩ | ⟨-, n, t, -, h | h | h | ⟨-, h | h⟩⟩ <;> exact absurd h (by decide)
  · rcases addHeader_err h6 h4 h5 hprev with ⟨h, -⟩ | ⟨-, hni, hin⟩ | ⟨h, -⟩
    · exact absurd h (by decide)
    · have hnc : o.noListCoherence = false := by
        unfold incoherent at hin
        simp at hin
        exact hin.1
      refine ⟨hni, hnc, ?_⟩
      intro hcoh
      obtain ⟨h', hh'⟩ := headings_exists o.parser o.noLinks pre
      obtain ⟨h'', hh''⟩ := headings_exists o.parser o.noLinks post
      have := headings_unique hh (headings_append hh' (.heading h1 hh''))
      rw [this] at hcoh
      rw [List.map_append, List.map_cons, List.filter_append, List.filter_cons, if_pos h3] at hcoh
      have e : ∀ (a b : List Nat) (x : Nat), a ++ x :: b = (a ++ [x]) ++ b := by simp
      rw [e] at hcoh
      have hcs := (coherent_snoc.mp (coherent_prefix hcoh)).2
      rw [← entry_levels (table_levels ht hh')] at hcs
      obtain ⟨-, hf⟩ := hrun.coherent hni hnc
      have hp := hrun.info.2.2.1
      unfold incoherent firstFor prevFor at hin
      simp [hnc] at hin
      obtain ⟨hc1, hc2⟩ := hcs
      rcases hin with hin | hin
      · cases hg : (es.map (·.level)).head? with
        | none => rw [hg] at hf; simp at hf; rw [if_pos hf] at hin; omega
        | some f =>
          rw [hg] at hf; simp at hf
          have := hc1 f (by rw [hg]; simp)
          split at hin <;> omega
      · cases hg : (es.map (·.level)).getLast? with
        | none => rw [hg] at hp; simp [TocState.init] at hp; rw [if_pos hp] at hin; omega
        | some f =>
          rw [hg] at hp; simp at hp
          have := hc2 f (by rw [hg]; simp)
          split at hin <;> omega
    · exact absurd h (by decide)

/-! ### C29 -/

/-- **C29** -/
theorem C29_no_exception (E : Env) {o : Options} (h : o.noListCoherence = true ∨ o.noIndentation = true) (fn text : Str) :
    buildToc E o fn (some ⟨text, false⟩) ≠ .error .TocDoesNotRenderAsCoherentList := by
  intro he
  obtain ⟨vs, hv⟩ := looks_exists o fn text
  obtain ⟨heads, hh⟩ := headings_exists o.parser o.noLinks vs
  obtain ⟨h1, h2, -⟩ := C28_error_incoherent he hv hh
  rcases h with h | h
  · rw [h] at h2; simp at h2
  · rw [h] at h1; simp at h1

/-- **C29** -/
theorem C29_no_indentation {E : Env} {o : Options} (hni : o.noIndentation = true) {fn text out : Str} (h : buildToc E o fn (some ⟨text, false⟩) = .ok out) {vs : List Str}
    (hv : Looks o fn text vs) : ∃ es, Table E o vs out es ∧ ∀ e ∈ es, e.indent = 0 := by
  obtain ⟨hs, es, st, hr, ht⟩ := buildToc_run h hv
  exact ⟨es, ht, hr.no_indent hni⟩

/-! ### C24, C25 -/

/-- **C24** -/
theorem C24_numbers_coherent {E : Env} {o : Options} (h1 : o.ordered = true) (h2 : o.constantOrdered = false) {fn text out : Str}
    (h : buildToc E o fn (some ⟨text, false⟩) = .ok out) {vs : List Str} (hv : Looks o fn text vs) {heads : List (Nat × Str)}
    (hh : Headings o.parser o.noLinks vs heads) (hc : Coherent ((heads.map Prod.fst).filter (listed o.parser o.keep))) :
    ∃ es, Table E o vs out es ∧ Each (fun before e => e.number = siblingNumber (before.map (·.level)) e.level) es := by
  obtain ⟨hs, es, st, hr, ht⟩ := buildToc_run h hv
  rw [← entry_levels (table_levels ht hh)] at hc
  exact ⟨es, ht, (hr.numbers (by simp [Options.counts, Options.effOrdered, h1, h2]) hc).2⟩

/-- **C24**: with the coherence check the levels are always those of a proper list. -/
theorem C24_numbers_checked {E : Env} {o : Options} (h1 : o.ordered = true) (h2 : o.constantOrdered = false) (h3 : o.noIndentation = false)
    (h4 : o.noListCoherence = false) {fn text out : Str} (h : buildToc E o fn (some ⟨text, false⟩) = .ok out) {vs : List Str} (hv : Looks o fn text vs) :
    ∃ es, Table E o vs out es ∧ Each (fun before e => e.number = siblingNumber (before.map (·.level)) e.level) es := by
  obtain ⟨heads, hh⟩ := headings_exists o.parser o.noLinks vs
  exact C24_numbers_coherent h1 h2 h hv hh (C28_ok_coherent h3 h4 h hv hh)

/-- **C25** -/
theorem C25_constant {E : Env} {o : Options} (h1 : o.constantOrdered = true) {fn text out : Str}
    (h : buildToc E o fn (some ⟨text, false⟩) = .ok out) {vs : List Str} (hv : Looks o fn text vs) :
    isOrdered o = true ∧ ∃ es, Table E o vs out es ∧ ∀ e ∈ es, e.number = 1 := by
  obtain ⟨hs, es, st, hr, ht⟩ := buildToc_run h hv
  exact ⟨by simp [isOrdered, h1], es, ht, hr.no_count (by simp [Options.counts, h1])⟩

/-! ### C26, C27 -/

/-- **C26** -/
theorem C26_nested_coherent {E : Env} {o : Options} (hp : o.parser ≠ .redcarpet) (h1 : o.noIndentation = false) {fn text out : Str}
    (h : buildToc E o fn (some ⟨text, false⟩) = .ok out) {vs : List Str} (hv : Looks o fn text vs) {heads : List (Nat × Str)}
    (hh : Headings o.parser o.noLinks vs heads) (hc : Coherent ((heads.map Prod.fst).filter (listed o.parser o.keep))) :
    ∃ es, Table E o vs out es ∧ Each (Nested (isOrdered o) (usedMarker o.parser (isOrdered o) o.listMarker)) es := by
  obtain ⟨hs, es, st, hr, ht⟩ := buildToc_run h hv
  rw [← entry_levels (table_levels ht hh)] at hc
  refine ⟨es, ht, ?_⟩
  rw [← effMarker_eq, ← effOrdered_eq]
  exact (hr.nested (cmarkLike_of_ne hp) h1 hc).2

/-- **C26** with the coherence check. -/
theorem C26_nested_checked {E : Env} {o : Options} (hp : o.parser ≠ .redcarpet) (h1 : o.noIndentation = false) (h2 : o.noListCoherence = false) {fn text out : Str}
    (h : buildToc E o fn (some ⟨text, false⟩) = .ok out) {vs : List Str} (hv : Looks o fn text vs) :
    ∃ es, Table E o vs out es ∧ Each (Nested (isOrdered o) (usedMarker o.parser (isOrdered o) o.listMarker)) es := by
  obtain ⟨heads, hh⟩ := headings_exists o.parser o.noLinks vs
  exact C26_nested_coherent hp h1 h hv hh (C28_ok_coherent h1 h2 h hv hh)

/-- **C27** -/
theorem C27_redcarpet_indentation {E : Env} {o : Options} (hp : o.parser = .redcarpet) (h1 : o.noIndentation = false) {fn text out : Str}
    (h : buildToc E o fn (some ⟨text, false⟩) = .ok out) {vs : List Str} (hv : Looks o fn text vs) :
    ∃ es, Table E o vs out es ∧ ∀ e ∈ es, e.indent = 4 * (e.level - 1) := by
  obtain ⟨hs, es, st, hr, ht⟩ := buildToc_run h hv
  exact ⟨es, ht, hr.redcarpet_indent (by rw [hp]; rfl) h1⟩

/-! ### C33 -/

/-- **C33** -/
theorem C33_limit {E : Env} {o : Options} (hp : o.parser ≠ .redcarpet) (hg : o.parser ≠ .goldmark) {fn text out : Str}
    (h : buildToc E o fn (some ⟨text, false⟩) = .ok out) {vs : List Str} (hv : Looks o fn text vs) :
    ∃ es, Table E o vs out es ∧ ∀ e ∈ es, 1 ≤ e.number ∧ e.number ≤ 999999999 := by
  obtain ⟨hs, es, st, hr, ht⟩ := buildToc_run h hv
  refine ⟨es, ht, fun e he => ⟨(hr.info.2.2.2.1 e he).2, ?_⟩⟩
  refine hr.limit ?_ e he
  cases hq : o.parser <;> simp_all [Parser.limited]

/-- **C33**: the exception comes at a heading for which there is an entry of the same level numbered 999999999 before, and
only for numbered lists of parsers with that limit. -/
theorem C33_overflow {E : Env} {o : Options} {fn text : Str}
    (h : buildToc E o fn (some ⟨text, false⟩) = .error .GithubOverflowOrderedListMarker) {vs : List Str} (hv : Looks o fn text vs) :
    o.parser ≠ .redcarpet ∧ o.parser ≠ .goldmark ∧ o.ordered = true ∧ o.constantOrdered = false ∧
      ∃ pre l post n t out es, vs = pre ++ l :: post ∧ Heading o.parser o.noLinks l n t ∧ listed o.parser o.keep n = true ∧ Table E o pre out es ∧
        (∀ e ∈ es, e.number ≤ 999999999) ∧ ∃ e ∈ es, e.level = n ∧ e.number = 999999999 := by
  have hs : o.skipLines ≥ 0 := by
    by_contra hs
    unfold buildToc at h
    rw [if_pos hs] at h
    simp at h
  obtain ⟨pre, l, post, hds, es, st, d, rfl, hl, hrun, ht, hlev, hprev, h | ⟨n, t, a, d', h1, h2, h3, h4, h5, h6⟩⟩ := buildToc_failed hs h hv
  · rcases getMdHeader_err hl h with ⟨-, h⟩ | ⟨-, n, t, -, h | h | h | ⟨-, h | h⟩⟩ <;> exact absurd h (by decide)
  · rcases addHeader_err h6 h4 h5 hprev with ⟨-, h⟩ | ⟨h, -⟩ | ⟨h, -⟩
    · obtain ⟨-, hc, hlim, hmax⟩ := nextCounter_err h h4
      have hcc : o.ordered = true ∧ o.constantOrdered = false := by
        unfold Options.counts Options.effOrdered at hc
        simp at hc
        cases h1 : o.constantOrdered <;> simp_all
      refine ⟨?_, ?_, hcc.1, hcc.2, pre, l, post, n, t, _, es, rfl, h1, h3, ht, hrun.limit hlim, ?_⟩
      · intro hq; rw [hq] at hlim; simp [Parser.limited] at hlim
      · intro hq; rw [hq] at hlim; simp [Parser.limited] at hlim
      · simp only at hmax
        have hm : maxMarkerNumber = 999999999 := rfl
        rw [hm] at hmax
        have hq : 999999999 ≤ (st.counter n).getD 0 := by
          by_cases hq : (st.counter n).isNone = true ∨ (if st.prev = 0 then n else st.prev) < n
          · rw [if_pos hq] at hmax; omega
          · rw [if_neg hq] at hmax; omega
        cases hcn : st.counter n with
        | none => rw [hcn] at hq; simp at hq
        | some k =>
          obtain ⟨e, he, e1, e2⟩ := hrun.counter_mem hc hcn
          have := hrun.limit hlim e he
          rw [hcn] at hq
          simp at hq
          exact ⟨e, he, e1, by omega⟩
    · exact absurd h (by decide)
    · exact absurd h (by decide)

/-! ### C32 -/

/-- **C32**: the marker of an ordered list is always one of the parser. -/
theorem C32_used_marker (p : Parser) (given : Str) : usedMarker p true given ∈ delimiters p := by
  unfold usedMarker
  by_cases h : given ∈ delimiters p
  · simp [h]
  · rw [if_pos rfl, if_neg h]; cases p <;> decide

theorem markerOk_eq (o : Options) : markerOk o.parser o.effOrdered o.effMarker =
    (isOrdered o || decide (o.listMarker ∈ bullets)) := by
  unfold markerOk
  rw [effMarker_eq, effOrdered_eq]
  by_cases ho : isOrdered o = true
  · rw [ho, if_pos rfl, closingMarkers_eq]
    simp [C32_used_marker]
  · simp only [Bool.not_eq_true] at ho
    rw [ho, bulletMarkers_eq]
    simp [usedMarker]

/-- **C32**: a valid marker, or any marker for an ordered list, does not raise `ValueError`: when it is raised, `skip_lines` is negative or `get_md_header`
raises it on one of the lines. -/
theorem C32_valid {E : Env} {o : Options} (hm : isOrdered o = true ∨ o.listMarker ∈ bullets) {fn text : Str}
    (h : buildToc E o fn (some ⟨text, false⟩) = .error .ValueError) {vs : List Str} (hv : Looks o fn text vs) :
    o.skipLines < 0 ∨ ∃ l ∈ vs, ∃ d, getMdHeader E l d o.keep o.parser o.noLinks = .error .ValueError := by
  by_cases hs : o.skipLines ≥ 0
  · right
    obtain ⟨pre, l, post, hds, es, st, d, rfl, hl, hrun, ht, hlev, hprev, h | ⟨n, t, a, d', h1, h2, h3, h4, h5, h6⟩⟩ := buildToc_failed hs h hv
    · exact ⟨l, by simp, d, h⟩
    · rcases addHeader_err h6 h4 h5 hprev with ⟨h, -⟩ | ⟨h, -⟩ | ⟨-, h⟩
      · exact absurd h (by decide)
      · exact absurd h (by decide)
      · rw [markerOk_eq] at h
        simp at h
        rcases hm with hm | hm
        · simp [h.1] at hm
        · exact absurd hm h.2
  · left; omega

/-- **C32**: with an invalid bullet the table is built only if it is empty, that is if no heading is listed. -/
theorem C32_invalid {E : Env} {o : Options} (ho : isOrdered o = false) (hm : o.listMarker ∉ bullets) {fn text out : Str}
    (h : buildToc E o fn (some ⟨text, false⟩) = .ok out) {vs : List Str} (hv : Looks o fn text vs) {heads : List (Nat × Str)}
    (hh : Headings o.parser o.noLinks vs heads) : out = [] ∧ ∀ x ∈ heads, listed o.parser o.keep x.1 = false := by
  obtain ⟨hs, es, st, hr, ht⟩ := buildToc_run h hv
  have hes : es = [] := by
    by_contra hne
    have := hr.info.2.2.2.2 hne
    rw [markerOk_eq, ho] at this
    simp [hm] at this
  have hl := table_levels ht hh
  obtain ⟨-, h2⟩ := ht
  subst hes
  refine ⟨by simpa using h2, ?_⟩
  intro x hx
  have := hl.symm
  rw [List.map_nil, List.filter_eq_nil_iff] at this
  simpa using this x hx

/-- **C32**: and the exception is `ValueError` or one that `get_md_header` raises on one of the lines. -/
theorem C32_invalid_error {E : Env} {o : Options} (ho : isOrdered o = false) (hm : o.listMarker ∉ bullets) {fn text : Str} {e : Exn}
    (h : buildToc E o fn (some ⟨text, false⟩) = .error e) {vs : List Str} (hv : Looks o fn text vs) :
    e = .ValueError ∨ ∃ l ∈ vs, ∃ d, getMdHeader E l d o.keep o.parser o.noLinks = .error e := by
  by_cases hs : o.skipLines ≥ 0
  · obtain ⟨pre, l, post, hds, es, st, d, rfl, hl, hrun, ht, hlev, hprev, h | ⟨n, t, a, d', h1, h2, h3, h4, h5, h6⟩⟩ := buildToc_failed hs h hv
    · exact .inr ⟨l, by simp, d, h⟩
    · left
      have hes : es = [] := by
        by_contra hne
        have := hrun.info.2.2.2.2 hne
        rw [markerOk_eq, ho] at this
        simp [hm] at this
      rcases addHeader_err h6 h4 h5 hprev with ⟨-, h⟩ | ⟨-, hni, hin⟩ | ⟨h, -⟩
      · obtain ⟨-, hc, -⟩ := nextCounter_err h h4
        unfold Options.counts at hc
        rw [effOrdered_eq, ho] at hc
        simp at hc
      · exfalso
        subst hes
        have := (hrun.nil_inv rfl).1
        subst this
        unfold incoherent firstFor prevFor at hin
        simp [TocState.init] at hin
        simp [hin.1] at hin
        omega
      · exact h
  · left
    unfold buildToc at h
    rw [if_pos hs] at h
    injection h with h
    exact h.symm

/-! ### Examples and counterexamples -/

/-- A document which meets the hypotheses of the theorems on the numbers, the indentation and the coherence: there are siblings, children, a heading in a code block, a heading which is too
deep, and equal headings. -/
example : buildToc asciiEnv { ordered := true } "a.md".toList
      (some ⟨"# a\n## b\n```\n# x\n```\n## c\n### b\n#### deep\n## e\n# f\n## g\n".toList, false⟩) =
    .ok "1. [a](#a)\n   1. [b](#b)\n   2. [c](#c)\n      1. [b](#b-1)\n   3. [e](#e)\n2. [f](#f)\n   1. [g](#g)\n".toList := by
  decide +kernel

example : buildToc asciiEnv { constantOrdered := true, listMarker := ")".toList } "-".toList (some ⟨"# a\n# b\n## c".toList, false⟩) =
    .ok "1) [a](#a)\n1) [b](#b)\n   1) [c](#c)\n".toList := by decide +kernel

example : buildToc asciiEnv { parser := .redcarpet, noLinks := true } "a.md".toList (some ⟨"# a\n## b\n### c\n".toList, false⟩) =
    .ok "- a\n    - b\n        - c\n".toList := by decide +kernel

example : buildToc asciiEnv { noIndentation := true } "a.md".toList (some ⟨"# a\n### b\n## c\n".toList, false⟩) =
    .ok "- [a](#a)\n- [b](#b)\n- [c](#c)\n".toList := by decide +kernel

/-- The exceptions of C28 and C32. -/
example : buildToc asciiEnv {} "a.md".toList (some ⟨"# a\n### b\n".toList, false⟩) = .error .TocDoesNotRenderAsCoherentList ∧
    buildToc asciiEnv {} "a.md".toList (some ⟨"## a\n# b\n".toList, false⟩) = .error .TocDoesNotRenderAsCoherentList ∧
    buildToc asciiEnv { listMarker := "x".toList } "a.md".toList (some ⟨"# a\n".toList, false⟩) = .error .ValueError ∧
    buildToc asciiEnv { listMarker := "x".toList } "a.md".toList (some ⟨"a\n".toList, false⟩) = .ok [] ∧
    buildToc asciiEnv { listMarker := "x".toList, ordered := true } "a.md".toList (some ⟨"# a\n".toList, false⟩) = .ok "1. [a](#a)\n".toList := by
  decide +kernel

/-- The exception of C33 at the limit of the counter. -/
example : (increaseIndex (fun _ => some 999999999) 1 1 .github).isOk = false ∧ (increaseIndex (fun _ => some 999999998) 1 1 .github).isOk = true ∧
    (increaseIndex (fun _ => some 999999999) 1 1 .goldmark).isOk = true := by
  decide +kernel

/-- **C24 fails without the coherence check**: the last entry is the first child of `c` but is numbered 2. -/
theorem C24_violation : buildToc asciiEnv { ordered := true, noListCoherence := true } "a.md".toList
      (some ⟨"# a\n## b\n# c\n### d\n## e\n".toList, false⟩) =
    .ok "1. [a](#a)\n   1. [b](#b)\n2. [c](#c)\n   1. [d](#d)\n2. [e](#e)\n".toList ∧
    siblingNumber [1, 2, 1, 3] 2 = 1 := by decide +kernel

/-- **C26 fails without the coherence check**: `c` is a child of `a` but is not indented. -/
theorem C26_violation : buildToc asciiEnv { noListCoherence := true } "a.md".toList (some ⟨"# a\n### b\n## c\n".toList, false⟩) =
    .ok "- [a](#a)\n  - [b](#b)\n- [c](#c)\n".toList := by decide +kernel

end MdToc.Props
