import Verif.Props.Meta
import Verif.Props.Document

/-!
# When a table is built: C75
-/

set_option linter.unusedSimpArgs false

namespace MdToc

open MdToc.Spec MdToc.Props

namespace Spec

/-- `s` without the characters `x` at both ends. -/
def trimmed (x : Char) (s : Str) : Str := (((s.dropWhile (· == x)).reverse).dropWhile (· == x)).reverse

/-- The label is empty: nothing is left after trimming each kind of white space once, in this order. -/
def EmptyLabel (c : Str) : Prop :=
  [' ', '\t', '\n', '\x0b', '\x0c', '\r'].foldl (fun s x => trimmed x s) (padded c) = []

end Spec

theorem stripChain_fold (c : Str) : stripChain (padded c) = [] ↔ EmptyLabel c := by
  unfold EmptyLabel stripChain
  simp only [List.foldl_cons, List.foldl_nil, trimmed, strip, rstrip, lstrip]

/-- The heading with the text `c` has a slug. -/
def Props.HasSlug (E : Env) (p : Parser) (c : Str) : Prop := ∃ b, BaseSlug E p c b

/-- What must hold for a line so that it does not end the run. -/
def Props.Readable (E : Env) (p : Parser) (noLinks : Bool) (l : Str) : Prop :=
  p = .redcarpet ∨ ∀ n c, Heading p true l n c →
    if noLinks = true then HasSlug E p c else ¬ EmptyLabel c ∧ (padded c).length ≤ 999 ∧ HasSlug E p (label c)

namespace Props

theorem hasSlug_iff {E : Env} {p : Parser} (hp : p ≠ .redcarpet) {t : Str} {d : Dup} : HasSlug E p t ↔ ∃ r, buildAnchorLink E t d p = .ok r := by
  rw [buildAnchorLink_cmark (cmarkLike_of_ne hp)]
  unfold HasSlug BaseSlug
  cases h : buildAnchorLink E t (fun _ => 0) p with
  | error e => simp [Except.map]
  | ok r => simp only [Except.map]; exact ⟨fun _ => ⟨_, rfl⟩, fun _ => ⟨r.1, r.2, rfl⟩⟩

/-- **C75** for one line: when `get_md_header` succeeds. -/
theorem C75_line {E : Env} {p : Parser} {l : Str} (hl : IsLine l) {d : Dup} {keep : Int} (hk : keep ≥ 1) {noLinks : Bool} :
    (∃ r, getMdHeader E l d keep p noLinks = .ok r) ↔ Readable E p noLinks l := by
  by_cases hp : p = .redcarpet
  · refine iff_of_true ?_ (.inl hp)
    cases h : getMdHeader E l d keep p noLinks with
    | ok r => exact ⟨r, rfl⟩
    | error e =>
      rcases getMdHeader_err hl h with ⟨h1, -⟩ | ⟨h1, -⟩
      · omega
      · exact absurd hp h1
  obtain ⟨b, hb, hne, -⟩ := hl.body
  have hnl : ∀ c ∈ b, ¬ IsNewline c := by
    obtain ⟨u, v, -, -, h2⟩ := hb
    exact fun c hc h => h.elim (h2 c hc).1 (h2 c hc).2
  have hpc := cmarkLike_of_ne hp
  by_cases hex : ∃ n rest, IsAtx p b n rest
  · obtain ⟨n, rest, h1⟩ := hex
    obtain ⟨c, hc, hg⟩ := atxCmark_heading hpc h1 hnl
    have hh : Heading p true l n c := ⟨b, rest, c, hb, by rw [if_neg hp]; exact ⟨h1, hc, by simp⟩⟩
    have hR : Readable E p noLinks l ↔
        if noLinks = true then HasSlug E p c else ¬ EmptyLabel c ∧ (padded c).length ≤ 999 ∧ HasSlug E p (label c) := by
      constructor
      · rintro (h | h)
        · exact absurd h hp
        · exact h n c hh
      · intro h
        right
        intro n' c' hh'
        obtain ⟨rfl, rfl⟩ := heading_unique hh hh'
        exact h
    rw [hR]
    have hga := getAtxHeading_body hb hne hk p noLinks
    rw [atxSubline_cmark hpc, hg] at hga
    have fin : ∀ t v, getAtxHeading l keep p noLinks = .ok [⟨some n, some t, v⟩] →
        ((∃ r, getMdHeader E l d keep p noLinks = .ok r) ↔ HasSlug E p t) := by
      intro t v hgt
      rw [hasSlug_iff hp (d := d)]
      unfold getMdHeader
      rw [hgt]
      simp only [bind, Except.bind, headersOf]
      cases buildAnchorLink E t d p with
      | error e => simp
      | ok r => simp
    cases noLinks
    · simp only [Bool.false_eq_true, if_false] at hga ⊢
      rw [linkText_eq] at hga
      by_cases hs : stripChain (padded c) = []
      · rw [if_pos hs] at hga
        refine iff_of_false ?_ (fun h => h.1 ((stripChain_fold c).mp hs))
        rintro ⟨r, h⟩
        unfold getMdHeader at h
        rw [hga] at h
        simp [Except.map, bind, Except.bind] at h
      · rw [if_neg hs] at hga
        by_cases hlen : (padded c).length > 999
        · rw [if_pos hlen] at hga
          refine iff_of_false ?_ (fun h => absurd h.2.1 (by omega))
          rintro ⟨r, h⟩
          unfold getMdHeader at h
          rw [hga] at h
          simp [Except.map, bind, Except.bind] at h
        · rw [if_neg hlen] at hga
          simp only [Except.map] at hga
          rw [fin _ _ hga]
          exact ⟨fun h => ⟨fun h' => hs ((stripChain_fold c).mpr h'), by omega, h⟩, fun h => h.2.2⟩
    · simp only [if_true, Except.map] at hga ⊢
      exact fin _ _ hga
  · refine iff_of_true ?_ (.inr ?_)
    · have := (C08_levels hpc hb hne hk noLinks).2 hex
      unfold getMdHeader
      rw [this]
      exact ⟨_, rfl⟩
    · rintro n c ⟨b', rest, c', hb', hh⟩
      rw [if_neg hp, body_unique hb' hb] at hh
      exact absurd ⟨n, rest, hh.1⟩ hex

theorem looks_isLine {o : Options} {fn text : Str} {vs : List Str} (hv : Looks o fn text vs) : ∀ l ∈ vs, IsLine l := by
  obtain ⟨ls, hr, hv⟩ := hv
  exact seen_isLine hr hv

/-- **C75**: when `build_toc` succeeds, except for the overflow of the numbers of a list. -/
theorem C75_success {E : Env} {o : Options} {fn text : Str} {vs : List Str} (hv : Looks o fn text vs) {heads : List (Nat × Str)}
    (hh : Headings o.parser o.noLinks vs heads) (hn : heads.length ≤ 999999999) :
    (∃ out, buildToc E o fn (some ⟨text, false⟩) = .ok out) ↔
      o.skipLines ≥ 0 ∧ (vs ≠ [] → o.keep ≥ 1) ∧ (∀ l ∈ vs, Readable E o.parser o.noLinks l) ∧
        (isOrdered o = true ∨ o.listMarker ∈ bullets ∨ ∀ x ∈ heads, listed o.parser o.keep x.1 = false) ∧
        (o.noIndentation = true ∨ o.noListCoherence = true ∨ Coherent ((heads.map Prod.fst).filter (listed o.parser o.keep))) := by
  constructor
  · rintro ⟨out, h⟩
    have hs := buildToc_skip h
    have hline := looks_isLine hv
    have hmem : ∀ l ∈ vs, ∃ d r, getMdHeader E l d o.keep o.parser o.noLinks = .ok r := by
      obtain ⟨ls, hr, hv'⟩ := hv
      rw [buildToc_seen hs hr hv'] at h
      cases hrun : hdrRun E o vs (TocState.init o.effMarker) with
      | error e => rw [hrun] at h; simp [Except.map] at h
      | ok st =>
        obtain ⟨hs', h1, -⟩ := hdrRun_ok hrun
        exact fun l hl => listedHeaders_mem h1 hl
    have hk : vs ≠ [] → o.keep ≥ 1 := by
      intro hne
      obtain ⟨l, hl⟩ := List.exists_mem_of_ne_nil _ hne
      obtain ⟨d, r, hg⟩ := hmem l hl
      by_contra hk
      simp [getMdHeader, getAtxHeading, hk, bind, Except.bind] at hg
    refine ⟨hs, hk, ?_, ?_, ?_⟩
    · intro l hl
      obtain ⟨d, r, hg⟩ := hmem l hl
      exact (C75_line (hline l hl) (hk (List.ne_nil_of_mem hl))).mp ⟨r, hg⟩
    · by_cases h1 : isOrdered o = true
      · exact .inl h1
      · by_cases h2 : o.listMarker ∈ bullets
        · exact .inr (.inl h2)
        · exact .inr (.inr (C32_invalid (by simpa using h1) h2 h hv hh).2)
    · by_cases h1 : o.noIndentation = true
      · exact .inl h1
      · by_cases h2 : o.noListCoherence = true
        · exact .inr (.inl h2)
        · exact .inr (.inr (C28_ok_coherent (by simpa using h1) (by simpa using h2) h hv hh))
  · rintro ⟨hs, hk, hread, hm, hc⟩
    cases hbt : buildToc E o fn (some ⟨text, false⟩) with
    | ok out => exact ⟨out, rfl⟩
    | error e =>
      exfalso
      obtain ⟨pre, l, post, hds, es, st, d, rfl, hline, hrun, ht, hlev, hprev, h | ⟨n, t, a, d', h1, h2, h3, h4, h5, h6⟩⟩ := buildToc_failed hs hbt hv
      · obtain ⟨r, hr⟩ := (C75_line (d := d) hline (hk (by simp))).mpr (hread l (by simp))
        rw [hr] at h
        simp at h
      · rcases addHeader_err h6 h4 h5 hprev with ⟨rfl, hnc⟩ | ⟨rfl, -, -⟩ | ⟨-, hmk⟩
        · obtain ⟨-, -, -, hlt⟩ := nextCounter_err hnc h4
          have hle := hrun.counter_le n
          have hlen : es.length < heads.length := by
            obtain ⟨h', hh'⟩ := headings_exists o.parser o.noLinks pre
            obtain ⟨h'', hh''⟩ := headings_exists o.parser o.noLinks post
            rw [headings_unique hh (headings_append hh' (.heading h1 hh''))]
            have := congrArg List.length (table_levels ht hh')
            have hf := List.length_filter_le (fun x : Nat × Str => listed o.parser o.keep x.1) h'
            simp at this ⊢
            omega
          have e9 : maxMarkerNumber = 999999999 := rfl
          rw [e9] at hlt
          simp only at hlt
          split at hlt <;> split at hlt <;> omega
        · obtain ⟨g1, g2, g3⟩ := C28_error_incoherent hbt hv hh
          rcases hc with hc | hc | hc
          · rw [hc] at g1; simp at g1
          · rw [hc] at g2; simp at g2
          · exact g3 hc
        · rw [markerOk_eq] at hmk
          simp only [Bool.or_eq_false_iff, decide_eq_false_iff_not] at hmk
          rcases hm with hm | hm | hm
          · unfold isOrdered at hm
            simp_all
          · exact hmk.2 hm
          · have := hm _ (headings_mem hh (l := l) (by simp) h1)
            rw [h3] at this
            simp at this

/-- **C75**: for redcarpet, only the options and the levels of the headings matter. -/
theorem C75_redcarpet {E : Env} {o : Options} (hp : o.parser = .redcarpet) (hs : o.skipLines ≥ 0) (hk : o.keep ≥ 1) (hm : isOrdered o = true ∨ o.listMarker ∈ bullets)
    (hc : o.noIndentation = true ∨ o.noListCoherence = true) {fn text : Str} {vs : List Str} (hv : Looks o fn text vs) {heads : List (Nat × Str)}
    (hh : Headings o.parser o.noLinks vs heads) (hn : heads.length ≤ 999999999) : ∃ out, buildToc E o fn (some ⟨text, false⟩) = .ok out :=
  (C75_success hv hh hn).mpr ⟨hs, fun _ => hk, fun _ _ => .inl hp, hm.imp_right .inl, hc.imp_right .inl⟩

/-- **C75**: one unreadable heading anywhere in the document ends the run, and so also hides the headings before. -/
theorem C75_one_line_fails {E : Env} {o : Options} {fn text : Str} {vs : List Str} (hv : Looks o fn text vs) {l : Str} (hl : l ∈ vs)
    (hr : ¬ Readable E o.parser o.noLinks l) : ∃ e, buildToc E o fn (some ⟨text, false⟩) = .error e := by
  cases h : buildToc E o fn (some ⟨text, false⟩) with
  | error e => exact ⟨e, rfl⟩
  | ok out =>
    exfalso
    have hs := buildToc_skip h
    have hline := looks_isLine hv
    obtain ⟨ls, hr', hv'⟩ := hv
    rw [buildToc_seen hs hr' hv'] at h
    cases hrun : hdrRun E o vs (TocState.init o.effMarker) with
    | error e => rw [hrun] at h; simp [Except.map] at h
    | ok st =>
      obtain ⟨hs', h1, -⟩ := hdrRun_ok hrun
      obtain ⟨d, r, hg⟩ := listedHeaders_mem h1 hl
      have hk : o.keep ≥ 1 := by
        by_contra hk
        simp [getMdHeader, getAtxHeading, hk, bind, Except.bind] at hg
      exact hr ((C75_line (hline l hl) hk).mp ⟨r, hg⟩)

/-- The line `#` is readable without links and unreadable with them: a document with it has a table only with `no_links`. -/
example : Readable asciiEnv .github true "#\n".toList ∧ ¬ Readable asciiEnv .github false "#\n".toList ∧ Readable asciiEnv .github false "# a *b*\n".toList ∧
    ¬ EmptyLabel "a".toList ∧ EmptyLabel "\x0b\x0c".toList ∧ ¬ EmptyLabel "\x0b \x0b".toList := by
  have hl : ∀ s : Str, (∀ c ∈ s, c ≠ '\n' ∧ c ≠ '\r') → IsLine (s ++ ['\n']) := by
    intro s hs
    exact ⟨s, by simp, .inl rfl, fun c hc h => h.elim (hs c hc).1 (hs c hc).2⟩
  refine ⟨?_, ?_, ?_, by unfold EmptyLabel; decide +kernel, by unfold EmptyLabel; decide +kernel, by unfold EmptyLabel; decide +kernel⟩
  · exact (C75_line (d := fun _ => 0) (hl ['#'] (by decide)) (keep := 3) (by decide)).mp (by
      cases h : getMdHeader asciiEnv (['#'] ++ ['\n']) (fun _ => 0) 3 .github true with
      | ok r => exact ⟨r, rfl⟩
      | error e =>
        have : (getMdHeader asciiEnv (['#'] ++ ['\n']) (fun _ => 0) 3 .github true).toBool = true := by decide +kernel
        rw [h] at this; simp [Except.toBool] at this)
  · rw [show "#\n".toList = ['#'] ++ ['\n'] from rfl, ← C75_line (d := fun _ => 0) (hl ['#'] (by decide)) (keep := 3) (by decide)]
    rintro ⟨r, h⟩
    have : (getMdHeader asciiEnv (['#'] ++ ['\n']) (fun _ => 0) 3 .github false).toBool = false := by decide +kernel
    rw [h] at this; simp [Except.toBool] at this
  · rw [show "# a *b*\n".toList = "# a *b*".toList ++ ['\n'] from rfl, ← C75_line (d := fun _ => 0) (hl "# a *b*".toList (by decide +kernel)) (keep := 3) (by decide)]
    cases h : getMdHeader asciiEnv ("# a *b*".toList ++ ['\n']) (fun _ => 0) 3 .github false with
    | ok r => exact ⟨r, rfl⟩
    | error e =>
      have : (getMdHeader asciiEnv ("# a *b*".toList ++ ['\n']) (fun _ => 0) 3 .github false).toBool = true := by decide +kernel
      rw [h] at this; simp [Except.toBool] at this

end Props

end MdToc
