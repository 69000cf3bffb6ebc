import Verif.Props.Slug
import Verif.Props.TocMore
import Verif.Props.WriteToc
import Verif.Spec.Simple

/-!
# Whole documents: C63, and C02, C05 for tables
-/

set_option linter.unusedSimpArgs false

namespace MdToc

open MdToc.Spec

/-- A counter is at most the number of entries. -/
theorem Run.counter_le {o : Options} {hs : List Header} {es : List Entry} {st' : TocState} {m : Str} (h : Run o (TocState.init m) hs es st') (c : Nat) :
    (st'.counter c).getD 0 ≤ es.length := by
  induction h with
  | nil => simp [TocState.init]
  | @snoc hs es st1 st2 h hr ha ih =>
    obtain ⟨-, -, -, -, -, hn, -⟩ := addHeader_ok ha
    unfold nextCounter at hn
    rw [List.length_append, List.length_singleton]
    split at hn
    · obtain ⟨-, e, -⟩ := increaseIndex_ok hn
      rw [e]
      by_cases hcc : c = h.headerType
      · subst hcc
        simp only [if_true, Option.getD_some]
        have hle : ∀ (q : Prop) [Decidable q] (x : Nat), (if q then 0 else x) ≤ x := by
          intro q _ x; split <;> omega
        have h1 := hle ((st1.counter h.headerType).isNone = true ∨ st1.prev < h.headerType) ((st1.counter h.headerType).getD 0)
        have h2 := hle ((st1.counter h.headerType).isNone = true ∨ h.headerType < h.headerType) ((st1.counter h.headerType).getD 0)
        split <;> omega
      · simp only [hcc, if_false]
        omega
    · injection hn with hn
      rw [← hn]
      omega

theorem inserted_length {s t : Str} (h : Inserted s t) : s.length ≤ t.length := by
  induction h <;> simp <;> omega

theorem inserted_mem {s t : Str} (h : Inserted s t) {c : Char} (hc : c ∈ t) : c ∈ s ∨ ∃ d ∈ s, IsBracket d := by
  induction h with
  | nil => simp at hc
  | keep x _ ih =>
    rcases List.mem_cons.mp hc with rfl | hc
    · exact .inl (by simp)
    · rcases ih hc with h | ⟨d, hd, hb⟩
      · exact .inl (by simp [h])
      · exact .inr ⟨d, by simp [hd], hb⟩
  | ins x hx _ ih => exact .inr ⟨x, by simp, hx⟩

/-- A label with a visible character comes from a text with one. -/
theorem padded_visible {c : Str} (h : ∃ x ∈ label c, isBlankChar x = false) : ∃ x ∈ padded c, isBlankChar x = false := by
  obtain ⟨x, hx, hb⟩ := h
  rcases inserted_mem (Props.C11_only_inserts false (padded c)) hx with h | ⟨d, hd, hd'⟩
  · exact ⟨x, h, hb⟩
  · refine ⟨d, hd, ?_⟩
    rcases hd' with rfl | rfl <;> decide

/-- `get_md_header` on a line of a document, for the cmark-like parsers: only a blank or long label, or the anchor can raise. -/
theorem getMdHeader_reason {E : Env} {p : Parser} (hp : p ≠ .redcarpet) {l : Str} (hl : IsLine l) {d : Dup} {keep : Int} (hk : keep ≥ 1) {noLinks : Bool} {e : Exn}
    (h : getMdHeader E l d keep p noLinks = .error e) :
    ∃ n t, Heading p noLinks l n t ∧
      ((noLinks = false ∧ ((∀ x ∈ t, isBlankChar x = true) ∨ 999 < t.length)) ∨ buildAnchorLink E t d p = .error e) := by
  obtain ⟨b, hb, hne, -⟩ := hl.body
  have hnl : ∀ c ∈ b, ¬ IsNewline c := by
    obtain ⟨u, v, -, -, h2⟩ := hb
    exact fun c hc h => h.elim (h2 c hc).1 (h2 c hc).2
  have fin : ∀ n t v, getAtxHeading l keep p noLinks = .ok [⟨some n, some t, v⟩] → buildAnchorLink E t d p = .error e := by
    intro n t v hg
    unfold getMdHeader at h
    rw [hg] at h
    simp only [bind, Except.bind, headersOf] at h
    cases hbl : buildAnchorLink E t d p with
    | ok r => rw [hbl] at h; simp at h
    | error e' =>
      rw [hbl] at h
      injection h with h
      rw [h]
  have fin0 : getAtxHeading l keep p noLinks ≠ .ok [⟨none, none, false⟩] := by
    intro hg
    unfold getMdHeader at h
    rw [hg] at h
    simp [bind, Except.bind, headersOf] at h
  have hpc := cmarkLike_of_ne hp
  by_cases hex : ∃ n rest, IsAtx p b n rest
  · obtain ⟨n, rest, h1⟩ := hex
    obtain ⟨c, hc, hg⟩ := atxCmark_heading hpc h1 hnl
    have hg' := hg keep noLinks true
    rw [← atxSubline_cmark hpc] at hg'
    have hga := getAtxHeading_body hb hne hk p noLinks
    rw [hg'] at hga
    cases noLinks
    · refine ⟨n, label c, ⟨b, rest, c, hb, by rw [if_neg hp]; exact ⟨h1, hc, by simp⟩⟩, ?_⟩
      simp only [Bool.false_eq_true, if_false] at hga
      rw [Props.linkText_eq] at hga
      by_cases hs : stripChain (padded c) = []
      · left
        refine ⟨rfl, .inl ?_⟩
        intro x hx
        by_contra hxb
        obtain ⟨y, hy, hyb⟩ := padded_visible ⟨x, hx, by simpa using hxb⟩
        have := Props.stripChain_keeps hyb hy
        rw [hs] at this
        simp at this
      · rw [if_neg hs] at hga
        by_cases hlen : (padded c).length > 999
        · left
          refine ⟨rfl, .inr ?_⟩
          have := inserted_length (Props.C11_only_inserts false (padded c))
          unfold label
          omega
        · rw [if_neg hlen] at hga
          simp only [Except.map] at hga
          exact .inr (fin _ _ _ hga)
    · refine ⟨n, c, ⟨b, rest, c, hb, by rw [if_neg hp]; exact ⟨h1, hc, by simp⟩⟩, ?_⟩
      simp only [if_true, Except.map] at hga
      exact .inr (fin _ _ _ hga)
  · exact absurd ((Props.C08_levels hpc hb hne hk noLinks).2 hex) fin0

theorem headings_mem {p : Parser} {nl : Bool} {vs : List Str} {hs : List (Nat × Str)} (h : Headings p nl vs hs) {l : Str} (hl : l ∈ vs) {n : Nat} {t : Str}
    (hh : Heading p nl l n t) : (n, t) ∈ hs := by
  induction h with
  | nil => simp at hl
  | other h1 _ ih =>
    rcases List.mem_cons.mp hl with rfl | hl
    · exact absurd ⟨n, t, hh⟩ h1
    · exact ih hl
  | heading h1 _ ih =>
    rcases List.mem_cons.mp hl with rfl | hl
    · obtain ⟨rfl, rfl⟩ := heading_unique hh h1
      simp
    · simp [ih hl]

namespace Props

/-! ### C63 -/

/-- The slug of a text with tags and emphasis, as in C60. -/
def SlugOf (E : Env) (p : Parser) (t b : Str) : Prop :=
  ∃ u v, WithoutTags (RemovedTag p) (E.lower t) u ∧ LinksUnmarked E.isPCat u v ∧ b = (if p = .gitlab then collapse false (slug E.isWord v) else slug E.isWord v)

/-- **C63**, general form: when `build_toc` succeeds for the cmark-like parsers. -/
theorem buildToc_succeeds {E : Env} {o : Options} (hp : o.parser ≠ .redcarpet) (hs : o.skipLines ≥ 0) (hk : o.keep ≥ 1)
    (hm : isOrdered o = true ∨ o.listMarker ∈ bullets) {fn text : Str} {vs : List Str} (hv : Looks o fn text vs) {heads : List (Nat × Str)}
    (hh : Headings o.parser o.noLinks vs heads) (hn : heads.length ≤ 999999999)
    (hl : o.noLinks = true ∨ ∀ x ∈ heads, (∃ c ∈ x.2, isBlankChar c = false) ∧ x.2.length ≤ 999)
    (hc : o.noIndentation = true ∨ o.noListCoherence = true ∨ Coherent ((heads.map Prod.fst).filter (listed o.parser o.keep)))
    (hb : ∀ x ∈ heads, ∃ b, BaseSlug E o.parser x.2 b) : ∃ out, buildToc E o fn (some ⟨text, false⟩) = .ok out := by
  cases hbt : buildToc E o fn (some ⟨text, false⟩) with
  | ok out => exact ⟨out, rfl⟩
  | error e =>
    exfalso
    have hpc := cmarkLike_of_ne hp
    obtain ⟨pre, l, post, hds, es, st, d, rfl, hline, hrun, ht, hlev, hprev, h | ⟨n, t, a, d', h1, h2, h3, h4, h5, h6⟩⟩ := buildToc_failed hs hbt hv
    · obtain ⟨n, t, h1, h2⟩ := getMdHeader_reason hp hline hk h
      have hx := headings_mem hh (l := l) (by simp) h1
      rcases h2 with ⟨hnl, h2⟩ | h2
      · rcases hl with hl | hl
        · rw [hl] at hnl; simp at hnl
        · obtain ⟨⟨c, hc1, hc2⟩, h3⟩ := hl _ hx
          rcases h2 with h2 | h2
          · rw [h2 c hc1] at hc2; simp at hc2
          · simp at h3; omega
      · obtain ⟨b, d0, hb⟩ := hb _ hx
        have := buildAnchorLink_cmark (E := E) hpc t d
        rw [hb, h2] at this
        simp [Except.map] at this
    · rcases addHeader_err h6 h4 h5 hprev with ⟨rfl, hnc⟩ | ⟨rfl, -, -⟩ | ⟨-, hmk⟩
      · obtain ⟨-, -, -, hlt⟩ := nextCounter_err hnc h4
        have hle := hrun.counter_le n
        have hlen : es.length < heads.length := by
          obtain ⟨h', hh'⟩ := headings_exists o.parser o.noLinks pre
          obtain ⟨h'', hh''⟩ := headings_exists o.parser o.noLinks post
          rw [headings_unique hh (headings_append hh' (.heading h1 hh''))]
          have := congrArg List.length (table_levels ht hh')
          have hf := List.length_filter_le (fun x : Nat × Str => listed o.parser o.keep x.1) h'
          simp at this ⊢
          omega
        have e9 : maxMarkerNumber = 999999999 := rfl
        rw [e9] at hlt
        simp only at hlt
        split at hlt <;> split at hlt <;> omega
      · obtain ⟨g1, g2, g3⟩ := C28_error_incoherent hbt hv hh
        rcases hc with hc | hc | hc
        · rw [hc] at g1; simp at g1
        · rw [hc] at g2; simp at g2
        · exact g3 hc
      · rw [markerOk_eq] at hmk
        simp only [Bool.or_eq_false_iff, decide_eq_false_iff_not] at hmk
        rcases hm with hm | hm
        · unfold isOrdered at hm
          simp_all
        · exact hmk.2 hm

theorem forall₂_mem {α β : Type} {R : α → β → Prop} {l : List α} {m : List β} (h : List.Forall₂ R l m) {x : α} (hx : x ∈ l) : ∃ y, R x y := by
  induction h with
  | nil => simp at hx
  | cons h1 _ ih =>
    rcases List.mem_cons.mp hx with rfl | hx
    · exact ⟨_, h1⟩
    · exact ih hx

theorem forall₂_base {E : Env} (hE : E.Lawful) {p : Parser} (hp : p ≠ .redcarpet) {ts bs : List Str} (hn : ∀ t ∈ ts, ¬ HasInteriorNewline t)
    (h : List.Forall₂ (SlugOf E p) ts bs) : List.Forall₂ (BaseSlug E p) ts bs := by
  induction h with
  | nil => exact .nil
  | cons h1 _ ih =>
    refine .cons ?_ (ih (fun t ht => hn t (by simp [ht])))
    obtain ⟨u, v, g1, g2, rfl⟩ := h1
    exact C60_slug hE hp (hn _ (by simp)) g1 g2

/-- **C63**: the table of contents of an ordinary document, for the cmark-like parsers: it is built, its entries are the headings up to the requested level, each with its slug, numbered when it comes
again; it is a properly numbered and indented list. -/
theorem C63_document {E : Env} (hE : E.Lawful) {o : Options} (hp : o.parser ≠ .redcarpet) (hs : o.skipLines ≥ 0) (hk : o.keep ≥ 1)
    (hm : isOrdered o = true ∨ o.listMarker ∈ bullets) {fn text : Str} {vs : List Str} (hv : Looks o fn text vs) {heads : List (Nat × Str)}
    (hh : Headings o.parser o.noLinks vs heads) (hn : heads.length ≤ 999999999)
    (hl : o.noLinks = true ∨ ∀ x ∈ heads, (∃ c ∈ x.2, isBlankChar c = false) ∧ x.2.length ≤ 999)
    (hc : o.noIndentation = true ∨ o.noListCoherence = true ∨ Coherent ((heads.map Prod.fst).filter (fun n : Nat => decide ((n : Int) ≤ o.keep))))
    {bs : List Str} (hb : List.Forall₂ (SlugOf E o.parser) (heads.map Prod.snd) bs) (hsha : ∀ b ∈ bs, ∀ b' ∈ bs, E.sha1 b = E.sha1 b' → b = b') :
    ∃ es : List Entry, buildToc E o fn (some ⟨text, false⟩) =
        .ok (es.map (Entry.line (isOrdered o) o.noLinks (usedMarker o.parser (isOrdered o) o.listMarker) o.newline)).flatten ∧
      es.map (fun e => (e.level, e.text, e.anchor)) = ((heads.zip (numbered bs)).filter (fun x => decide ((x.1.1 : Int) ≤ o.keep))).map (fun x => (x.1.1, x.1.2, x.2)) ∧
      (¬ (o.ordered = true ∧ o.constantOrdered = false) → ∀ e ∈ es, e.number = 1) ∧
      (o.noIndentation = true → ∀ e ∈ es, e.indent = 0) ∧
      (Coherent (es.map (·.level)) → o.ordered = true → o.constantOrdered = false → Each (fun before e => e.number = siblingNumber (before.map (·.level)) e.level) es) ∧
      (Coherent (es.map (·.level)) → o.noIndentation = false → Each (Nested (isOrdered o) (usedMarker o.parser (isOrdered o) o.listMarker)) es) := by
  have hlist : ∀ n, listed o.parser o.keep n = decide ((n : Int) ≤ o.keep) := by
    intro n; simp [listed, hp]
  have hlist' : listed o.parser o.keep = (fun n : Nat => decide ((n : Int) ≤ o.keep)) := funext hlist
  rw [← hlist'] at hc
  have hpc := cmarkLike_of_ne hp
  have hbase := forall₂_base hE hp (fun t ht => by
    obtain ⟨x, hx, rfl⟩ := List.mem_map.mp ht
    exact noInterior (headings_bounds hh x hx).2.2) hb
  obtain ⟨out, hbt⟩ := buildToc_succeeds (E := E) hp hs hk hm hv hh hn hl hc
    (fun x hx => forall₂_mem hbase (List.mem_map.mpr ⟨x, hx, rfl⟩))
  obtain ⟨hds, es, st, hr, ht⟩ := buildToc_run hbt hv
  obtain ⟨⟨heads', as, d, g1, g2, g3, g4⟩, g5⟩ := ht
  have := headings_unique g1 hh
  subst this
  obtain ⟨d', hrun⟩ := C01_duplicates_numbered hpc hbase hsha
  rw [g2] at hrun
  injection hrun with hrun
  have has : as = numbered bs := congrArg Prod.fst hrun
  subst has
  refine ⟨es, by rw [hbt, g5], ?_, ?_, fun h => hr.no_indent h, ?_, ?_⟩
  · rw [g4]
    simp only [hlist]
  · intro hcnt
    refine hr.no_count ?_
    rw [Options.counts, effOrdered_eq]
    unfold isOrdered
    rcases Bool.eq_false_or_eq_true o.ordered with h1 | h1 <;> rcases Bool.eq_false_or_eq_true o.constantOrdered with h2 | h2 <;> simp_all
  · intro hcoh h1 h2
    exact (hr.numbers (by simp [Options.counts, Options.effOrdered, h1, h2]) hcoh).2
  · intro hcoh hni
    rw [← effMarker_eq, ← effOrdered_eq]
    exact (hr.nested hpc hni hcoh).2

/-- The anchor of a redcarpet heading. -/
def redcarpetSlug (s : Str) : Str :=
  if s ≠ [] ∧ redcarpetWords s = [] then "part-".toList ++ hex (djb2 5381 s) else hyphenate ((redcarpetWords s).map (·.map asciiLower))

theorem anchorRun_redcarpet {E : Env} {ts : List Str} (h : ∀ t ∈ ts, ¬ HasInteriorNewline t) (d : Dup) :
    anchorRun E .redcarpet d ts = .ok (ts.map redcarpetSlug, d) := by
  induction ts with
  | nil => rfl
  | cons t ts ih =>
    simp only [anchorRun, C04_redcarpet_anchor E (h t (by simp)), ih (fun t ht => h t (by simp [ht]))]
    rfl

/-- **C63**, for redcarpet: all the headings are entries, whatever their text is. -/
theorem C63_redcarpet {E : Env} {o : Options} (hp : o.parser = .redcarpet) (hs : o.skipLines ≥ 0) (hk : o.keep ≥ 1)
    (hm : isOrdered o = true ∨ o.listMarker ∈ bullets) {fn text : Str} {ls : List Str} (hr : Reads text ls) {heads : List (Nat × Str)}
    (hh : Headings .redcarpet o.noLinks (ls.drop o.skipLines.toNat) heads)
    (hc : o.noIndentation = true ∨ o.noListCoherence = true ∨ Coherent (heads.map Prod.fst)) :
    ∃ es : List Entry, buildToc E o fn (some ⟨text, false⟩) =
        .ok (es.map (Entry.line (isOrdered o) o.noLinks (usedMarker .redcarpet (isOrdered o) o.listMarker) o.newline)).flatten ∧
      es.map (fun e => (e.level, e.text, e.anchor)) = heads.map (fun x => (x.1, x.2, redcarpetSlug x.2)) ∧
      (¬ (o.ordered = true ∧ o.constantOrdered = false) → ∀ e ∈ es, e.number = 1) ∧
      (Coherent (heads.map Prod.fst) → o.ordered = true → o.constantOrdered = false → Each (fun before e => e.number = siblingNumber (before.map (·.level)) e.level) es) ∧
      (∀ e ∈ es, e.indent = if o.noIndentation = true then 0 else 4 * (e.level - 1)) := by
  have hlist : ∀ n, listed o.parser o.keep n = true := by
    intro n; simp [listed, hp]
  have hv : Looks o fn text (ls.drop o.skipLines.toNat) := ⟨ls, hr, by unfold SeenLines; rw [if_pos hp]⟩
  rw [← hp] at hh
  obtain ⟨out, hbt⟩ : ∃ out, buildToc E o fn (some ⟨text, false⟩) = .ok out := by
    cases hbt : buildToc E o fn (some ⟨text, false⟩) with
    | ok out => exact ⟨out, rfl⟩
    | error e =>
      exfalso
      obtain ⟨pre, l, post, hds, es, st, d, hpre, hline, hrun, ht, hlev, hprev, h | ⟨n, t, a, d', h1, h2, h3, h4, h5, h6⟩⟩ := buildToc_failed hs hbt hv
      · rcases getMdHeader_err hline h with ⟨h, -⟩ | ⟨h, -⟩
        · omega
        · exact h hp
      · rcases addHeader_err h6 h4 h5 hprev with ⟨rfl, hnc⟩ | ⟨rfl, -, -⟩ | ⟨-, hmk⟩
        · have := (nextCounter_err hnc h4).2.2.1
          rw [hp] at this
          exact absurd this (by decide)
        · obtain ⟨g1, g2, g3⟩ := C28_error_incoherent hbt hv hh
          rw [List.filter_eq_self.mpr (fun n _ => hlist n)] at g3
          rcases hc with hc | hc | hc
          · rw [hc] at g1; simp at g1
          · rw [hc] at g2; simp at g2
          · exact g3 hc
        · rw [markerOk_eq] at hmk
          simp only [Bool.or_eq_false_iff, decide_eq_false_iff_not] at hmk
          rcases hm with hm | hm
          · unfold isOrdered at hm
            simp_all
          · exact hmk.2 hm
  obtain ⟨hds, es, st, hrun, ht⟩ := buildToc_run hbt hv
  have hlev : es.map (·.level) = heads.map Prod.fst := by
    have := entry_levels (table_levels ht hh)
    rwa [List.filter_eq_self.mpr (fun n _ => hlist n)] at this
  obtain ⟨⟨heads', as, d, g1, g2, g3, g4⟩, g5⟩ := ht
  have := headings_unique g1 hh
  subst this
  have ha := anchorRun_redcarpet (E := E) (ts := heads'.map Prod.snd) (fun t ht => by
    obtain ⟨x, hx, rfl⟩ := List.mem_map.mp ht
    exact noInterior (headings_bounds hh x hx).2.2) (fun _ => 0)
  rw [hp] at g2
  rw [g2] at ha
  injection ha with ha
  have has : as = _ := congrArg Prod.fst ha
  refine ⟨es, by rw [hbt, g5, hp], ?_, ?_, ?_, ?_⟩
  · rw [g4, List.filter_eq_self.mpr (fun x _ => hlist _), has]
    simp only [List.map_map]
    clear * -
    induction heads' with
    | nil => rfl
    | cons x l ih => simpa using ih
  · intro hcnt
    refine hrun.no_count ?_
    rw [Options.counts, effOrdered_eq]
    unfold isOrdered
    rcases Bool.eq_false_or_eq_true o.ordered with h1 | h1 <;> rcases Bool.eq_false_or_eq_true o.constantOrdered with h2 | h2 <;> simp_all
  · intro hcoh h1 h2
    rw [← hlev] at hcoh
    exact (hrun.numbers (by simp [Options.counts, Options.effOrdered, h1, h2]) hcoh).2
  · intro e he
    by_cases hni : o.noIndentation = true
    · rw [if_pos hni]; exact hrun.no_indent hni e he
    · rw [if_neg hni]
      exact hrun.redcarpet_indent (by rw [hp]; rfl) (by simpa using hni) e he

/-- A document for redcarpet. -/
example : Headings .redcarpet false (["x\n".toList, "# A *b*\n".toList, "## C & d ##\n".toList].drop 0) [(1, "A *b*".toList), (2, "C & d".toList)] ∧
    Reads "x\n# A *b*\n## C & d ##\n".toList ["x\n".toList, "# A *b*\n".toList, "## C & d ##\n".toList] ∧ redcarpetSlug "C & d".toList = "c-d".toList := by
  refine ⟨.other ?_ (.heading ?_ (.heading ?_ .nil)), (reads_iff (bad := false)).mpr (by decide +kernel), by decide +kernel⟩
  · rintro ⟨n, t, b, rest, c, hb, hh⟩
    have := body_unique hb (b' := "x".toList) ⟨[], ['\n'], rfl, by simp, by decide⟩
    subst this
    rw [if_pos rfl] at hh
    obtain ⟨⟨h1, -, h3, -⟩, -⟩ := hh
    obtain ⟨n, rfl⟩ : ∃ m, n = m + 1 := ⟨n - 1, by omega⟩
    simp [List.replicate_succ] at h3
  · refine ⟨"# A *b*".toList, " A *b*".toList, "A *b*".toList, ⟨[], ['\n'], rfl, by simp, by decide⟩, ?_⟩
    rw [if_pos rfl]
    exact ⟨⟨by omega, by omega, rfl, by simp⟩, ⟨[' '], [], [], by decide +kernel, by simp, by simp, by simp, by simp, by simp⟩, by decide, by decide +kernel⟩
  · refine ⟨"## C & d ##".toList, " C & d ##".toList, "C & d".toList, ⟨[], ['\n'], rfl, by simp, by decide⟩, ?_⟩
    rw [if_pos rfl]
    exact ⟨⟨by omega, by omega, rfl, by simp⟩, ⟨[' '], [' '], "##".toList, by decide +kernel, by simp, by simp, by simp, by simp, by simp⟩, by decide, by decide +kernel⟩

/-! ### C63 for simple documents -/

theorem not_heading_start {p : Parser} {nl : Bool} {l b : Str} (hb : Body l b) (h : ∀ c ∈ b.head?, c ≠ ' ' ∧ c ≠ '#') : ¬ ∃ n t, Heading p nl l n t := by
  rintro ⟨n, t, b', rest, c, hb', hh⟩
  have := body_unique hb hb'
  subst this
  by_cases hp : p = .redcarpet
  · rw [if_pos hp] at hh
    obtain ⟨⟨h1, h2, h3, -⟩, -⟩ := hh
    obtain ⟨n, rfl⟩ : ∃ m, n = m + 1 := ⟨n - 1, by omega⟩
    exact (h '#' (by rw [h3]; simp [List.replicate_succ])).2 rfl
  · rw [if_neg hp] at hh
    obtain ⟨⟨k, h0, h1, h2, h3, -⟩, -⟩ := hh
    obtain ⟨n, rfl⟩ : ∃ m, n = m + 1 := ⟨n - 1, by omega⟩
    cases k with
    | zero => exact (h '#' (by rw [h3]; simp [List.replicate_succ])).2 rfl
    | succ k => exact (h ' ' (by rw [h3]; simp [List.replicate_succ])).1 rfl

theorem not_opening_start {l : Str} (h : ∀ c ∈ l.head?, c ≠ ' ' ∧ ¬ IsFenceChar c) : ¬ ∃ c n, OpensWith l c n := by
  rintro ⟨c, n, k, rest, -, h3, hc, e, -⟩
  obtain ⟨n, rfl⟩ : ∃ m, n = m + 1 := ⟨n - 1, by omega⟩
  cases k with
  | zero => exact (h c (by rw [e]; simp [List.replicate_succ])).2 hc
  | succ k => exact (h ' ' (by rw [e]; simp [List.replicate_succ])).1 rfl

theorem body_line {b : Str} (h : ∀ c ∈ b, ¬ IsNewline c) : Body (b ++ ['\n']) b :=
  ⟨[], ['\n'], by simp, by simp, fun c hc => ⟨fun e => h c hc (.inl e), fun e => h c hc (.inr e)⟩⟩

theorem escapeBrackets_none {s : Str} (h : ∀ c ∈ s, c ≠ '\\' ∧ c ≠ '[' ∧ c ≠ ']') (b : Bool) : escapeBrackets b s = s := by
  induction s generalizing b with
  | nil => rfl
  | cons c s ih =>
    have h1 := h c (by simp)
    rw [escapeBrackets, if_neg h1.1, if_neg (by rintro ⟨h | h, -⟩; exact h1.2.1 h; exact h1.2.2 h), ih (fun x hx => h x (by simp [hx]))]

theorem label_none {s : Str} (h : ∀ c ∈ s, c ≠ '\\' ∧ c ≠ '[' ∧ c ≠ ']') : label s = s := by
  have hp : padded s = s := by
    unfold padded
    rw [if_neg]
    intro e
    exact (h _ (List.mem_of_getLast? e)).1 rfl
  rw [label, hp, escapeBrackets_none h]

/-- A simple heading. -/
theorem simple_heading {p : Parser} (hp : p ≠ .redcarpet) (nl : Bool) {n : Nat} (h1 : 1 ≤ n) (h6 : n ≤ 6) {s : Str} (hs : SimpleText s) :
    Heading p nl (List.replicate n '#' ++ ' ' :: s ++ ['\n']) n s := by
  obtain ⟨s0, s1, s2, s3, s4⟩ := hs
  have hx : ∀ c ∈ s, c ≠ '#' ∧ c ≠ '\\' ∧ c ≠ '[' ∧ c ≠ ']' ∧ ¬ IsNewline c ∧ c ≠ '\t' := by
    intro c hc
    obtain ⟨g1, g2, g3⟩ := s2 c hc
    refine ⟨?_, ?_, ?_, ?_, ?_, ?_⟩ <;> try (rintro rfl; first | exact g3 (by decide) | exact absurd g1 (by decide))
    rintro (rfl | rfl) <;> exact absurd g1 (by decide)
  have hsp : ∀ c, c ≠ '\t' → c ≠ ' ' → atxSpace p c = false := by
    intro c c1 c2; cases p <;> simp [atxSpace, c1, c2]
  have hno : ∀ x ∈ ' ' :: s, x ≠ '#' := by
    intro x hx'
    rcases List.mem_cons.mp hx' with rfl | hx'
    · decide
    · exact (hx x hx').1
  refine ⟨List.replicate n '#' ++ ' ' :: s, ' ' :: s, s, body_line ?_, ?_⟩
  · intro c hc
    rcases List.mem_append.mp hc with hc | hc
    · rw [List.mem_replicate] at hc
      rw [hc.2]; rintro (h | h) <;> exact absurd h (by decide)
    · rcases List.mem_cons.mp hc with rfl | hc
      · rintro (h | h) <;> exact absurd h (by decide)
      · exact (hx c hc).2.2.2.2.1
  · rw [if_neg hp]
    refine ⟨⟨0, by omega, h1, h6, by simp, ?_⟩, ⟨?_, ?_⟩, ?_⟩
    · intro c hc
      simp at hc; subst hc
      cases p <;> rfl
    · rintro ⟨a0, b0, a1, b1, a2, e, hb0, -, -, hh, -⟩
      cases b0 with
      | nil => exact absurd rfl hb0
      | cons y b0 => exact absurd (hh y (by simp)) (hno y (by rw [e]; simp))
    · intro _
      right
      refine ⟨?_, [' '], [], by simp, ?_, by simp, ?_, ?_⟩
      · rintro ⟨a, b, r, e, hb, hh, -⟩
        cases b with
        | nil => exact absurd rfl hb
        | cons y b => exact absurd (hh y (by simp)) (hno y (by rw [e]; simp))
      · intro x hx'
        simp at hx'; subst hx'
        cases p <;> rfl
      · intro x hx'
        exact hsp x (hx x (List.mem_of_head? hx')).2.2.2.2.2 (by rintro rfl; exact s3 hx')
      · intro x hx'
        exact hsp x (hx x (List.mem_of_getLast? hx')).2.2.2.2.2 (by rintro rfl; exact s4 hx')
    · rw [label_none (fun c hc => ⟨(hx c hc).2.1, (hx c hc).2.2.1, (hx c hc).2.2.2.1⟩)]
      simp

theorem reads_lines {ms : List Str} (h : ∀ m ∈ ms, ∃ b, m = b ++ ['\n'] ∧ ∀ c ∈ b, ¬ IsNewline c) {t : Str} {ls : List Str} (ht : Reads t ls) : Reads (ms.flatten ++ t) (ms ++ ls) := by
  induction ms with
  | nil => simpa using ht
  | cons m ms ih =>
    obtain ⟨b, rfl, hb⟩ := h m (by simp)
    have := Reads.line hb (.inl rfl) (ih (fun m hm => h m (by simp [hm])))
    simpa using this

theorem simple_reads {ls : List Str} {hs : List (Nat × Str)} (h : Simple ls hs) : ∀ m ∈ ls, ∃ b, m = b ++ ['\n'] ∧ ∀ c ∈ b, ¬ IsNewline c := by
  induction h with
  | nil => simp
  | text h1 _ ih =>
    intro m hm
    rcases List.mem_cons.mp hm with rfl | hm
    · exact ⟨_, rfl, h1.1⟩
    · exact ih m hm
  | heading h1 h6 hs _ ih =>
    intro m hm
    rcases List.mem_cons.mp hm with rfl | hm
    · refine ⟨_, rfl, ?_⟩
      intro c hc
      rcases List.mem_append.mp hc with hc | hc
      · rw [List.mem_replicate] at hc
        rw [hc.2]; rintro (h | h) <;> exact absurd h (by decide)
      · rcases List.mem_cons.mp hc with rfl | hc
        · rintro (h | h) <;> exact absurd h (by decide)
        · have := (hs.2.2.1 c hc).1
          rintro (rfl | rfl) <;> exact absurd this (by decide)
    · exact ih m hm
  | @code info ms ls hs h1 h2 _ ih =>
    intro m hm
    simp only [List.cons_append, List.mem_cons, List.mem_append] at hm
    rcases hm with rfl | hm | rfl | hm
    · refine ⟨_, rfl, ?_⟩
      intro c hc
      rcases List.mem_append.mp hc with hc | hc
      · have : c = '`' := by simpa using hc
        rw [this]; rintro (h | h) <;> exact absurd h (by decide)
      · exact (h1 c hc).1
    · obtain ⟨b, rfl, hb⟩ := h2 m hm
      exact ⟨b, rfl, fun c hc => (hb c hc).1⟩
    · exact ⟨"```".toList, rfl, by intro c hc; have : c = '`' := by simpa using hc
                                   rw [this]; rintro (h | h) <;> exact absurd h (by decide)⟩
    · exact ih m hm

theorem simple_seen {p : Parser} (hp : p ≠ .redcarpet) (file nl : Bool) {ls : List Str} {hs : List (Nat × Str)} (h : Simple ls hs) :
    ∃ vs, Seen p file ls vs ∧ Headings p nl vs hs := by
  induction h with
  | nil => exact ⟨[], .nil, .nil⟩
  | @text l ls hs h1 _ ih =>
    obtain ⟨vs, i1, i2⟩ := ih
    refine ⟨_, .line (not_opening_start ?_) i1, .other (not_heading_start (body_line h1.1) ?_) i2⟩
    · cases l with
      | nil => intro c hc; simp at hc; subst hc; exact ⟨by decide, by decide⟩
      | cons x l =>
        intro c hc
        simp at hc; subst hc
        have := h1.2 x (by simp)
        simp at this
        exact ⟨this.1, by rintro (h | h); exact this.2.2.1 h; exact this.2.2.2 h⟩
    · intro c hc
      have := h1.2 c hc
      simp at this
      exact ⟨this.1, this.2.1⟩
  | @heading n s ls hs h1 h6 hs _ ih =>
    obtain ⟨vs, i1, i2⟩ := ih
    refine ⟨_, .line (not_opening_start ?_) i1, .heading (simple_heading hp nl h1 h6 hs) i2⟩
    obtain ⟨n, rfl⟩ : ∃ m, n = m + 1 := ⟨n - 1, by omega⟩
    intro c hc
    simp [List.replicate_succ] at hc
    subst hc
    exact ⟨by decide, by decide⟩
  | @code info ms ls hs h1 h2 _ ih =>
    obtain ⟨vs, i1, i2⟩ := ih
    refine ⟨"```\n".toList :: vs, .block (c := '`') (n := 3) ?_ ?_ ?_ i1, .other (not_heading_start (b := "```".toList) (body_line (b := "```".toList) ?_) ?_) i2⟩
    · refine ⟨0, info ++ ['\n'], by omega, by omega, .inl rfl, by simp [List.replicate_succ], ?_, fun _ hc => ?_⟩
      · intro x hx
        cases info with
        | nil => simp at hx; subst hx; decide
        | cons y info => simp at hx; subst hx; exact (h1 y (by simp)).2
      · rcases List.mem_append.mp hc with hc | hc
        · exact (h1 _ hc).2 rfl
        · simp at hc
    · rintro m hm ⟨k, j, rest, -, hj, e, -⟩
      obtain ⟨b, rfl, hb⟩ := h2 m hm
      have : '`' ∈ b ++ ['\n'] := by rw [e]; simp; omega
      rcases List.mem_append.mp this with hc | hc
      · exact (hb _ hc).2 rfl
      · simp at hc
    · exact ⟨0, 3, ['\n'], by omega, by omega, rfl, by simp⟩
    · intro c hc
      have : c = '`' := by simpa using hc
      rw [this]; rintro (h | h) <;> exact absurd h (by decide)
    · intro c hc
      simp at hc; subst hc; exact ⟨by decide, by decide⟩

theorem simple_texts {ls : List Str} {hs : List (Nat × Str)} (h : Simple ls hs) : ∀ x ∈ hs, SimpleText x.2 := by
  induction h with
  | nil => simp
  | text _ _ ih => exact ih
  | heading _ _ hs _ ih =>
    intro x hx
    rcases List.mem_cons.mp hx with rfl | hx
    · exact hs
    · exact ih x hx
  | code _ _ _ ih => exact ih

theorem simpleSlug_eq {E : Env} (hE : E.Lawful) {s : Str} (h : ∀ c ∈ s, c.toNat < 127 ∧ c ≠ '_') : slug E.isWord (s.map asciiLower) = simpleSlug s := by
  induction s with
  | nil => rfl
  | cons c s ih =>
    have ih := ih (fun x hx => h x (by simp [hx]))
    obtain ⟨hc, hu⟩ := h c (by simp)
    have hlow : (asciiLower c).toNat < 128 := by
      have hall : ∀ n < 127, (asciiLower (Char.ofNat n)).toNat < 128 := by decide +kernel
      have := hall c.toNat hc
      rwa [Char.ofNat_toNat] at this
    have key : ∀ n < 127, Char.ofNat n ≠ '_' →
        (if asciiLower (Char.ofNat n) = ' ' then some '-'
          else if asciiLower (Char.ofNat n) = '-' ∨ (isAsciiAlpha (asciiLower (Char.ofNat n)) || isAsciiDigit (asciiLower (Char.ofNat n)) || asciiLower (Char.ofNat n) == '_') = true
            then some (asciiLower (Char.ofNat n)) else none) =
        (if Char.ofNat n = ' ' then some '-'
          else if 'A' ≤ Char.ofNat n ∧ Char.ofNat n ≤ 'Z' then some (Char.ofNat ((Char.ofNat n).toNat + 32))
          else if ('a' ≤ Char.ofNat n ∧ Char.ofNat n ≤ 'z') ∨ ('0' ≤ Char.ofNat n ∧ Char.ofNat n ≤ '9') ∨ Char.ofNat n = '-' then some (Char.ofNat n) else none) := by
      decide +kernel
    have := key c.toNat hc (by rwa [Char.ofNat_toNat])
    rw [Char.ofNat_toNat] at this
    have e1 : ∀ (x : Char) (t : Str), slug E.isWord (x :: t) = (if x = ' ' then some '-' else if x = '-' ∨ E.isWord x = true then some x else none).toList ++ slug E.isWord t := by
      intro x t; rw [slug]; split
      · rfl
      · split <;> rfl
    have e2 : simpleSlug (c :: s) = (if c = ' ' then some '-' else if 'A' ≤ c ∧ c ≤ 'Z' then some (Char.ofNat (c.toNat + 32))
        else if ('a' ≤ c ∧ c ≤ 'z') ∨ ('0' ≤ c ∧ c ≤ '9') ∨ c = '-' then some c else none).toList ++ simpleSlug s := by
      rw [simpleSlug]; split
      · rfl
      · split
        · rfl
        · split <;> rfl
    rw [List.map_cons, e1, e2, ih, hE.word_ascii _ hlow, this]

/-- **C63**, for simple documents: nothing but the description of the document in the hypotheses. -/
theorem C63_simple {E : Env} (hE : E.Lawful) {o : Options} (hp : o.parser ≠ .redcarpet) (hs : o.skipLines = 0) (hk : o.keep ≥ 1)
    (hm : isOrdered o = true ∨ o.listMarker ∈ bullets) {fn : Str} {ls : List Str} {heads : List (Nat × Str)} (h : Simple ls heads) (hn : heads.length ≤ 999999999)
    (hc : o.noIndentation = true ∨ o.noListCoherence = true ∨ Coherent ((heads.map Prod.fst).filter (fun n : Nat => decide ((n : Int) ≤ o.keep))))
    (hsha : ∀ b b', E.sha1 b = E.sha1 b' → b = b') :
    ∃ es : List Entry, buildToc E o fn (some ⟨ls.flatten, false⟩) =
        .ok (es.map (Entry.line (isOrdered o) o.noLinks (usedMarker o.parser (isOrdered o) o.listMarker) o.newline)).flatten ∧
      es.map (fun e => (e.level, e.text, e.anchor)) =
        ((heads.zip (numbered (heads.map (fun x => if o.parser = .gitlab then collapse false (simpleSlug x.2) else simpleSlug x.2)))).filter (fun x => decide ((x.1.1 : Int) ≤ o.keep))).map
          (fun x => (x.1.1, x.1.2, x.2)) ∧
      (¬ (o.ordered = true ∧ o.constantOrdered = false) → ∀ e ∈ es, e.number = 1) ∧
      (o.noIndentation = true → ∀ e ∈ es, e.indent = 0) ∧
      (Coherent (es.map (·.level)) → o.ordered = true → o.constantOrdered = false → Each (fun before e => e.number = siblingNumber (before.map (·.level)) e.level) es) ∧
      (Coherent (es.map (·.level)) → o.noIndentation = false → Each (Nested (isOrdered o) (usedMarker o.parser (isOrdered o) o.listMarker)) es) := by
  obtain ⟨vs, hv, hh⟩ := simple_seen hp (decide (fn ≠ "-".toList)) o.noLinks h
  have ht := simple_texts h
  have hr : Reads ls.flatten ls := by
    have := reads_lines (simple_reads h) .nil
    simpa using this
  refine C63_document hE hp (by omega) hk hm ⟨ls, hr, ?_⟩ hh hn (.inr ?_) hc ?_ (fun b _ b' _ => hsha b b')
  · rw [hs]
    unfold SeenLines
    rw [if_neg hp]
    exact hv
  · intro x hx
    obtain ⟨s0, s1, s2, s3, s4⟩ := ht x hx
    refine ⟨?_, s1⟩
    cases hx2 : x.2 with
    | nil => exact absurd hx2 s0
    | cons c t =>
      refine ⟨c, by simp, ?_⟩
      have h1 := (s2 c (by rw [hx2]; simp)).1
      have h2 : c ≠ ' ' := by rintro rfl; rw [hx2] at s3; exact s3 rfl
      unfold isBlankChar
      simp only [Bool.or_eq_false_iff, beq_eq_false_iff_ne]
      refine ⟨⟨⟨⟨⟨h2, ?_⟩, ?_⟩, ?_⟩, ?_⟩, ?_⟩ <;> (rintro rfl; exact absurd h1 (by decide))
  · clear hh hn hc hv hr
    have : ∀ x ∈ heads, SlugOf E o.parser x.2 (if o.parser = .gitlab then collapse false (simpleSlug x.2) else simpleSlug x.2) := by
      intro x hx
      obtain ⟨s0, s1, s2, s3, s4⟩ := ht x hx
      have hlt : ∀ c ∈ x.2, c.toNat < 128 := fun c hc => by have := (s2 c hc).2.1; omega
      have hall : ∀ n < 127, 32 ≤ n → Char.ofNat n ∉ "#&*<[\\]_`".toList → Plain (asciiLower (Char.ofNat n)) := by decide +kernel
      have hpl : ∀ c ∈ x.2.map asciiLower, Plain c := by
        intro c hc
        obtain ⟨d, hd, rfl⟩ := List.mem_map.mp hc
        obtain ⟨d1, d2, d3⟩ := s2 d hd
        have := hall d.toNat d2 d1
        rw [Char.ofNat_toNat] at this
        exact this d3
      refine ⟨x.2.map asciiLower, x.2.map asciiLower, ?_, linksUnmarked_of_unmarked (unmarked_of_unwrapped (.plain hpl)), ?_⟩
      · rw [hE.lower_ascii _ hlt]
        exact withoutTags_plain (fun hm => (hpl _ hm).2.2.2.2.2.1 rfl)
      · rw [simpleSlug_eq hE (fun c hc => ⟨(s2 c hc).2.1, by rintro rfl; exact (s2 _ hc).2.2 (by decide)⟩)]
    revert this
    generalize heads = hl
    intro this
    induction hl with
    | nil => exact .nil
    | cons x hl ih => exact .cons (this x (by simp)) (ih (fun y hy => this y (by simp [hy])))

/-- A simple document. -/
example : Simple ["# My Title!\n".toList, "Some *text* here\n".toList, "\n".toList, "```sh\n".toList, "# no heading\n".toList, "```\n".toList, "## What's new in v2\n".toList, "# My title\n".toList]
      [(1, "My Title!".toList), (2, "What's new in v2".toList), (1, "My title".toList)] ∧
    numbered ([(1, "My Title!".toList), (2, "What's new in v2".toList), (1, "My title".toList)].map (fun x : Nat × Str => simpleSlug x.2)) =
      ["my-title".toList, "whats-new-in-v2".toList, "my-title-1".toList] ∧
    Coherent [1, 2, 1] := by
  refine ⟨?_, by decide +kernel, ⟨by simp, ?_⟩⟩
  · refine .heading (n := 1) (s := "My Title!".toList) (by omega) (by omega) ⟨by decide, by decide, by decide +kernel, by decide, by decide +kernel⟩ ?_
    refine .text (l := "Some *text* here".toList) ⟨by unfold IsNewline; decide +kernel, by decide +kernel⟩ ?_
    refine .text (l := []) ⟨by simp, by simp⟩ ?_
    refine .code (info := "sh".toList) (ms := ["# no heading\n".toList]) (by unfold IsNewline; decide +kernel) ?_ ?_
    · intro m hm
      simp only [List.mem_singleton] at hm
      exact ⟨"# no heading".toList, by rw [hm]; rfl, by unfold IsNewline; decide +kernel⟩
    refine .heading (n := 2) (s := "What's new in v2".toList) (by omega) (by omega) ⟨by decide, by decide, by decide +kernel, by decide, by decide +kernel⟩ ?_
    exact .heading (n := 1) (s := "My title".toList) (by omega) (by omega) ⟨by decide, by decide, by decide +kernel, by decide, by decide +kernel⟩ .nil
  · intro pre a b post e
    rcases pre with _ | ⟨x, _ | ⟨y, _ | ⟨z, pre⟩⟩⟩ <;> simp at e <;> omega

/-! ### C02 and C05 for tables -/

/-- **C02**, the part that holds, for the table of contents of any document: its anchors are pairwise distinct if no base slug of a heading is another one followed by a hyphen and a number. -/
theorem C02_table_partial {E : Env} {o : Options} (hp : o.parser ≠ .redcarpet) {fn text out : Str} (h : buildToc E o fn (some ⟨text, false⟩) = .ok out)
    {vs : List Str} (hv : Looks o fn text vs) {heads : List (Nat × Str)} (hh : Headings o.parser o.noLinks vs heads)
    {bs : List Str} (hb : List.Forall₂ (BaseSlug E o.parser) (heads.map Prod.snd) bs) (hsha : ∀ b ∈ bs, ∀ b' ∈ bs, E.sha1 b = E.sha1 b' → b = b')
    (hd : ∀ b ∈ bs, ∀ b' ∈ bs, ∀ n : Nat, b ≠ b' ++ '-' :: (toString n).toList) :
    ∃ es, Table E o vs out es ∧ (es.map (·.anchor)).Nodup := by
  obtain ⟨hds, es, st, hr, ht⟩ := buildToc_run h hv
  refine ⟨es, ht, ?_⟩
  obtain ⟨⟨heads', as, d, g1, g2, g3, g4⟩, g5⟩ := ht
  have := headings_unique g1 hh
  subst this
  obtain ⟨d', hrun⟩ := C01_duplicates_numbered (cmarkLike_of_ne hp) hb hsha
  rw [g2] at hrun
  injection hrun with hrun
  have has : as = numbered bs := congrArg Prod.fst hrun
  have hnd := C02_anchors_unique_partial hd
  rw [← has] at hnd
  have : es.map (·.anchor) = ((heads'.zip as).filter (fun x => listed o.parser o.keep x.1.1)).map Prod.snd := by
    have := congrArg (List.map (fun x : Nat × Str × Str => x.2.2)) g4
    simpa [List.map_map, Function.comp_def] using this
  rw [this]
  refine List.Nodup.sublist (List.Sublist.map _ List.filter_sublist) ?_
  rw [List.map_snd_zip (by omega)]
  exact hnd

/-- **C05**, the part that holds, for the final anchors of gitlab: no two hyphens in a row if no base slug ends with a hyphen. -/
theorem C05_gitlab_run_partial {E : Env} {ts bs as : List Str} {d : Dup} (h : anchorRun E .gitlab (fun _ => 0) ts = .ok (as, d))
    (hb : List.Forall₂ (BaseSlug E .gitlab) ts bs) (hsha : ∀ b ∈ bs, ∀ b' ∈ bs, E.sha1 b = E.sha1 b' → b = b') (hl : ∀ b ∈ bs, b.getLast? ≠ some '-') :
    ∀ a ∈ as, NoDoubleHyphen a := by
  obtain ⟨d', hrun⟩ := C01_duplicates_numbered rfl hb hsha
  rw [h] at hrun
  injection hrun with hrun
  have has : as = numbered bs := congrArg Prod.fst hrun
  subst has
  have hnd : ∀ b ∈ bs, NoDoubleHyphen b := by
    clear hrun h hsha hl
    induction hb with
    | nil => simp
    | cons h1 _ ih =>
      intro b hb'
      rcases List.mem_cons.mp hb' with rfl | hb'
      · exact (C05_gitlab_collapse h1).1
      · exact ih b hb'
  intro a ha
  obtain ⟨i, hi, rfl⟩ := List.getElem_of_mem ha
  simp only [numbered, List.getElem_mapIdx]
  exact C05_gitlab_final_partial (hnd _ (List.getElem_mem _)) (hl _ (List.getElem_mem _)) _

/-- Repeated headings without such a hyphen. -/
example : (anchorRun asciiEnv .gitlab (fun _ => 0) ["a - b".toList, "A b".toList]).map Prod.fst = .ok ["a-b".toList, "a-b-1".toList] := by decide +kernel

end Props

end MdToc
