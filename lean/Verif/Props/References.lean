import Verif.Lemmas.EmphLoose
import Verif.Props.Links
import Verif.Props.Success

/-!
# Reference links: C52, C71
-/

set_option linter.unusedSimpArgs false

namespace MdToc.Props

open MdToc.Spec

/-- **C52** is false for all texts with a reference link, not only for single texts: the exception of a missing key is raised. -/
theorem C52_violation_references {E : Env} {s : Str} (p : Parser) (h : Reference E.isPCat s) : removeEmphasis E s p = .error .KeyError := by
  obtain ⟨a, b, r, rfl, hbr, h1, h2, h0, ha, hb⟩ := h
  have hnul : (text a ++ '[' :: (text b ++ (']' :: '[' :: r))).filter (· != '\x00') = text a ++ '[' :: (text b ++ (']' :: '[' :: r)) := by
    rw [List.filter_eq_self]
    intro c hc
    simp only [bne_iff_ne, ne_eq]
    rintro rfl
    simp only [List.mem_append, List.mem_cons, Char.reduceEq, false_or] at hc
    rcases hc with hc | hc | hc
    · obtain ⟨q, hq, hc⟩ := List.mem_flatMap.mp hc
      obtain ⟨u, v, e⟩ := List.append_of_mem hq
      exact Cmark.placed_nul_piece (ha u q v e) hc
    · obtain ⟨q, hq, hc⟩ := List.mem_flatMap.mp hc
      obtain ⟨u, v, e⟩ := List.append_of_mem hq
      exact Cmark.placed_nul_piece (hb u q v e) hc
    · exact h0 hc
  unfold removeEmphasis
  simp only [hnul, Cmark.parseInlines_reference ha hb hbr h1 h2, bind, Except.bind]

/-- **C52**, exactly, for texts of characters, escapes, code spans, inline HTML, autolinks, runs and brackets without inline links: the removal of emphasis raises an exception if and only if
some bracket is closed and has a label behind it which is not empty. -/
theorem C52_references_exact {E : Env} {ps : List Piece} (h : PlacedLoose E.isPCat ps) (p : Parser) :
    (removeEmphasis E (text ps) p = .error .KeyError ↔ RefersFrom 0 ps) ∧ ((∃ t, removeEmphasis E (text ps) p = .ok t) ↔ ¬ RefersFrom 0 ps) := by
  obtain ⟨h1, h2⟩ := Cmark.parseInlines_loose h
  have hnul := Cmark.loose_nul h
  unfold removeEmphasis
  simp only [hnul, bind, Except.bind]
  by_cases hr : RefersFrom 0 ps
  · rw [h1 hr]
    simp [hr]
  · obtain ⟨rs, hrs⟩ := h2 hr
    rw [hrs]
    simp [hr]

theorem openAfter_str : ∀ (k : Nat) (s : Str), openAfter k (s.map .char) = openIn k s := by
  intro k s
  induction s generalizing k with
  | nil => rfl
  | cons c s ih =>
    simp only [List.map_cons, openAfter, openIn, Piece.char.injEq, ih]

/-- **C52**, exactly, for texts with plain characters and square brackets: an exception is raised if and only if an open bracket is closed and right behind it there is an opening bracket and then no
bracket; without an exception nothing is removed. -/
theorem C52_brackets_exact {E : Env} {s : Str} (hs : ∀ c ∈ s, Plain c ∨ c = '[' ∨ c = ']') (hl : ¬ [']', '('] <:+: s) (p : Parser) :
    (removeEmphasis E s p = .error .KeyError ↔ ∃ x y, s = x ++ ']' :: '[' :: y ∧ 1 ≤ openIn 0 x ∧ y.head? ≠ some '[' ∧ y.head? ≠ some ']') ∧
    (removeEmphasis E s p = .ok s ↔ ¬ ∃ x y, s = x ++ ']' :: '[' :: y ∧ 1 ≤ openIn 0 x ∧ y.head? ≠ some '[' ∧ y.head? ≠ some ']') := by
  have hpl : PlacedLoose E.isPCat (s.map .char) := by
    intro x q y e
    obtain ⟨x0, r, e0, rfl, e2⟩ := List.map_eq_append_iff.mp e
    obtain ⟨c, y0, rfl, rfl, rfl⟩ := List.map_eq_cons_iff.mp e2
    rw [Cmark.text_chars, Cmark.text_chars]
    rcases hs c (by rw [e0]; simp) with h | rfl | rfl
    · exact .inl (.inl h)
    · exact .inl (.inr (.inr (.inr (.inl rfl))))
    · refine .inr ⟨rfl, fun h => hl ?_⟩
      cases y0 with
      | nil => simp at h
      | cons d y0 =>
        simp only [List.head?_cons, Option.some.injEq] at h
        subst h
        exact ⟨x0, y0, by rw [e0]; simp⟩
  have hiff : RefersFrom 0 (s.map .char) ↔ ∃ x y, s = x ++ ']' :: '[' :: y ∧ 1 ≤ openIn 0 x ∧ y.head? ≠ some '[' ∧ y.head? ≠ some ']' := by
    constructor
    · rintro ⟨x, y, e, h1, h2⟩
      obtain ⟨x0, r, e0, rfl, e2⟩ := List.map_eq_append_iff.mp e
      obtain ⟨c, y0, rfl, e3, rfl⟩ := List.map_eq_cons_iff.mp e2
      injection e3 with e3
      subst e3
      rw [Cmark.text_chars] at h2
      rw [openAfter_str] at h1
      obtain ⟨z, rfl, h3, h4⟩ := Cmark.noLabel_fails h2
      exact ⟨x0, z, e0, h1, h3, h4⟩
    · rintro ⟨x, y, rfl, h1, h2, h3⟩
      refine ⟨x.map .char, (('[' :: y).map .char), by simp, by rw [openAfter_str]; exact h1, ?_⟩
      rw [Cmark.text_chars]
      unfold NoLabel
      cases y <;> simp_all
  have hst : text (s.map .char) = s := Cmark.text_chars s
  obtain ⟨g1, g2⟩ := C52_references_exact hpl p
  rw [hst, hiff] at g1 g2
  refine ⟨g1, ?_⟩
  rw [← g2]
  constructor
  · exact fun h => ⟨s, h⟩
  · rintro ⟨t, ht⟩
    have hno : ∀ d, d = '*' ∨ d = '_' → d ∉ s := by
      intro d hd hm
      rcases hs d hm with h | rfl | rfl
      · rcases hd with rfl | rfl <;> revert h <;> simp [Plain]
      · rcases hd with h | h <;> revert h <;> decide
      · rcases hd with h | h <;> revert h <;> decide
    have hnul : s.filter (· != '\x00') = s := by
      have := Cmark.loose_nul hpl
      rwa [hst] at this
    unfold removeEmphasis at ht ⊢
    simp only [hnul, bind, Except.bind] at ht ⊢
    cases hp : Cmark.parseInlines E s with
    | error e => rw [hp] at ht; cases ht
    | ok rs =>
      have := Cmark.parseInlines_none (hno '*' (.inl rfl)) (hno '_' (.inr rfl)) hp
      subst this
      rw [hp] at ht
      simp only [Except.ok.injEq] at ht ⊢
      exact Cmark.filterIndicesFrom_nil s 0

/-- Texts of both kinds. -/
example : removeEmphasis asciiEnv "see [[a]] [b][c".toList .github = .error .KeyError ∧ removeEmphasis asciiEnv "[a][]".toList .github = .ok "[a][]".toList ∧
    removeEmphasis asciiEnv "a] [1] ][b] [c] [d]".toList .github = .ok "a] [1] ][b] [c] [d]".toList ∧ removeEmphasis asciiEnv "[a][[b]".toList .github = .ok "[a][[b]".toList := by
  decide +kernel

/-- The hypotheses hold for them. -/
example : (∀ c ∈ "a] [1] ][b] [c] [d]".toList, Plain c ∨ c = '[' ∨ c = ']') ∧ ¬ [']', '('] <:+: "a] [1] ][b] [c] [d]".toList ∧
    (∀ c ∈ "see [[a]] [b][c".toList, Plain c ∨ c = '[' ∨ c = ']') ∧ ¬ [']', '('] <:+: "see [[a]] [b][c".toList ∧ openIn 0 "see [[a]] [b".toList = 1 := by
  unfold Plain
  decide +kernel

/-- **C71** is false for all documents with a heading which has a reference link in it: without links there is no table, at whatever level the heading is. -/
theorem C71_violation_references {E : Env} {o : Options} (hp : o.parser ≠ .redcarpet) (hn : o.noLinks = true) {fn txt : Str} {vs : List Str} (hv : Looks o fn txt vs) {l : Str} (hl : l ∈ vs)
    {n : Nat} {c : Str} (hc : Heading o.parser true l n c) (hlt : '<' ∉ E.lower c) (hr : Reference E.isPCat (E.lower c)) : ∃ e, buildToc E o fn (some ⟨txt, false⟩) = .error e := by
  refine C75_one_line_fails hv hl ?_
  rintro (h | h)
  · exact hp h
  · have := h n c hc
    rw [if_pos hn] at this
    obtain ⟨r, hr'⟩ := (hasSlug_iff hp (d := fun _ => 0)).mp this
    have hsame : removeHtmlTags E (E.lower c) o.parser = E.lower c := (removeHtmlTags_cut E o.parser (E.lower c)).same (.inl hlt)
    unfold buildAnchorLink at hr'
    split at hr'
    · cases hr'
    · rw [if_pos (cmarkLike_of_ne hp)] at hr'
      unfold baseAnchor at hr'
      simp only [hsame, C52_violation_references o.parser hr, bind, Except.bind] at hr'
      cases hr'

/-- A reference link with emphasis and a code span in its text, in the middle of a heading. -/
theorem demoReference : Reference asciiEnv.isPCat "see *the [notes [1] `of`][r] or* [x](y".toList := by
  refine ⟨"see ".toList.map .char ++ .strayOpen '*' 0 :: "the ".toList.map .char, "notes [1] ".toList.map .char ++ [.code 0 "of".toList], "r] or* [x](y".toList, by decide +kernel, by decide +kernel, by decide, by decide, by decide +kernel, ?_, ?_⟩
  · have := safeIn_ok (raws := []) (by simp) (punct := asciiEnv.isPCat) (post := "[notes [1] `of`][r] or* [x](y".toList) ("see ".toList.map .char ++ .strayOpen '*' 0 :: "the ".toList.map .char) [] (by decide +kernel)
    intro x p y e
    exact this x p y e
  · have := safeIn_ok (raws := []) (by simp) (punct := asciiEnv.isPCat) (post := "][r] or* [x](y".toList) ("notes [1] ".toList.map .char ++ [.code 0 "of".toList]) "see *the [".toList (by decide +kernel)
    intro x p y e
    have := this x p y e
    rwa [show "see *the [".toList ++ text x = text ("see ".toList.map .char ++ .strayOpen '*' 0 :: "the ".toList.map .char) ++ '[' :: text x by
      rw [show "see *the [".toList = text ("see ".toList.map .char ++ .strayOpen '*' 0 :: "the ".toList.map .char) ++ ['['] by decide +kernel]; simp] at this

example : removeEmphasis asciiEnv "see *the [notes [1] `of`][r] or* [x](y".toList .github = .error .KeyError := C52_violation_references _ demoReference

/-- A heading below the maximum level, with capital letters. -/
example : buildToc asciiEnv { noLinks := true } "a.md".toList (some ⟨"# A\n#### See *The [notes [1] `of`][r] or* [x](y\n".toList, false⟩) = .error .KeyError := by decide +kernel

/-- The hypotheses of `C71_violation_references` for this document. -/
example : ∃ vs l c, Looks { noLinks := true } "a.md".toList "# A\n#### See *The [notes [1] `of`][r] or* [x](y\n".toList vs ∧ l ∈ vs ∧ Heading .github true l 4 c ∧
    '<' ∉ asciiEnv.lower c ∧ Reference asciiEnv.isPCat (asciiEnv.lower c) := by
  have hnl : ∀ c ∈ "#### See *The [notes [1] `of`][r] or* [x](y".toList, ¬ IsNewline c := by
    unfold IsNewline
    decide +kernel
  have hr : Reads "# A\n#### See *The [notes [1] `of`][r] or* [x](y\n".toList ["# A\n".toList, "#### See *The [notes [1] `of`][r] or* [x](y\n".toList] := by
    have := reads_lines (ms := ["# A\n".toList, "#### See *The [notes [1] `of`][r] or* [x](y\n".toList]) (by
      intro m hm
      simp only [List.mem_cons, List.not_mem_nil, or_false] at hm
      rcases hm with rfl | rfl
      · exact ⟨"# A".toList, by decide, by unfold IsNewline; decide⟩
      · exact ⟨_, by decide +kernel, hnl⟩) Reads.nil
    rwa [List.append_nil, List.append_nil, show ["# A\n".toList, "#### See *The [notes [1] `of`][r] or* [x](y\n".toList].flatten = "# A\n#### See *The [notes [1] `of`][r] or* [x](y\n".toList by decide +kernel] at this
  have hno : ∀ l : Str, l.head? = some '#' → ¬ ∃ c n, OpensWith l c n := by
    intro l hl
    refine not_opening_start ?_
    rw [hl]
    rintro c hc
    injection hc with hc
    subst hc
    refine ⟨by decide, ?_⟩
    unfold IsFenceChar
    decide
  have hatx : IsAtx .github "#### See *The [notes [1] `of`][r] or* [x](y".toList 4 " See *The [notes [1] `of`][r] or* [x](y".toList :=
    ⟨0, by decide, by decide, by decide, by decide +kernel, by intro c hc; injection hc with hc; subst hc; rfl⟩
  obtain ⟨c, h1, h2⟩ := atxCmark_heading (p := .github) rfl hatx hnl
  have h3 := h2 3 true true
  have h4 : atxCmark .github 3 true true "#### See *The [notes [1] `of`][r] or* [x](y".toList = .ok (⟨some 4, some "See *The [notes [1] `of`][r] or* [x](y".toList, false⟩, false) := by decide +kernel
  rw [h4] at h3
  have hc : c = "See *The [notes [1] `of`][r] or* [x](y".toList := by
    simp only [if_true, Except.map, Except.ok.injEq, Prod.mk.injEq, AtxElem.mk.injEq, Option.some.injEq] at h3
    exact h3.1.2.1.symm
  subst hc
  refine ⟨_, _, _, ⟨_, hr, .line (hno _ rfl) (.line (hno _ rfl) .nil)⟩, List.mem_cons_of_mem _ List.mem_cons_self, ⟨_, _, _, body_line hnl, ⟨hatx, h1, rfl⟩⟩, by decide +kernel, ?_⟩
  have : asciiEnv.lower "See *The [notes [1] `of`][r] or* [x](y".toList = "see *the [notes [1] `of`][r] or* [x](y".toList := by decide +kernel
  rw [if_pos rfl, this]
  exact demoReference

end MdToc.Props
