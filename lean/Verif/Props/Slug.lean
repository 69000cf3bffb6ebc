import Verif.Props.Anchors
import Verif.Props.Inline
import Verif.Props.Links

/-!
# Slugs: C60
-/

set_option linter.unusedSimpArgs false

namespace MdToc.Props

open MdToc.Spec

theorem slug_eq {E : Env} (hE : E.Lawful) (p : Parser) (s : Str) : replaceChar ' ' '-' (punctuationFilter E s p) = slug E.isWord s := by
  have hsp : E.isWord ' ' = false := by rw [hE.word_ascii _ (by decide)]; decide
  rw [punctuationFilter_eq]
  induction s with
  | nil => rfl
  | cons c s ih =>
    unfold slug
    by_cases h1 : c = ' '
    · subst h1
      rw [if_pos rfl, ← ih]
      simp [isAnchorChar, replaceChar]
    · rw [if_neg h1]
      by_cases h2 : c = '-' ∨ E.isWord c = true
      · rw [if_pos h2, ← ih]
        have : isAnchorChar E c = true := by unfold isAnchorChar; rcases h2 with h | h <;> simp [h]
        rw [List.filter_cons_of_pos this]
        simp [replaceChar, h1]
      · rw [if_neg h2, ← ih]
        have : ¬ isAnchorChar E c = true := by
          unfold isAnchorChar
          rw [not_or] at h2
          simp [h1, h2.1]
          simpa using h2.2
        rw [List.filter_cons_of_neg this]

/-- The slug, given what the removal of emphasis returns. -/
theorem slug_of_removed {E : Env} (hE : E.Lawful) {p : Parser} (hp : p ≠ .redcarpet) {s u v : Str} (hn : ¬ HasInteriorNewline s)
    (h1 : WithoutTags (RemovedTag p) (E.lower s) u) (h2 : removeEmphasis E u p = .ok v) :
    BaseSlug E p s (if p = .gitlab then collapse false (slug E.isWord v) else slug E.isWord v) := by
  have hb : baseAnchor E s p = .ok (if p = .gitlab then collapse false (slug E.isWord v) else slug E.isWord v) := by
    unfold baseAnchor
    simp only [bind, Except.bind, C58_tags_removed hE hp h1, h2, slug_eq hE]
    congr 1
    split
    · unfold Re.sub
      rw [sub_hyphens _ _ _ _ (Nat.le_refl _)]
    · rfl
  rw [← split_length_gt_iff] at hn
  unfold BaseSlug buildAnchorLink
  rw [if_neg hn, if_pos (by cases p <;> first | rfl | exact absurd rfl hp)]
  simp only [bind, Except.bind, hb]
  simp

/-- **C60**: the slug of a heading is made from its text in lower case without HTML tags and without the delimiters of emphasis: spaces become hyphens; of the other characters only word characters and hyphens stay; for gitlab, runs of hyphens become one. -/
theorem C60_slug {E : Env} (hE : E.Lawful) {p : Parser} (hp : p ≠ .redcarpet) {s u v : Str} (hn : ¬ HasInteriorNewline s)
    (h1 : WithoutTags (RemovedTag p) (E.lower s) u) (h2 : LinksUnmarked E.isPCat u v) :
    BaseSlug E p s (if p = .gitlab then collapse false (slug E.isWord v) else slug E.isWord v) :=
  slug_of_removed hE hp hn h1 (C66_links_partial p h2)

theorem withoutTags_plain {tag : Str → Prop} {s : Str} (h : '<' ∉ s) : WithoutTags tag s s := by
  induction s with
  | nil => exact .nil
  | cons c s ih => exact .char (fun hc => h (by simp [hc])) (ih (fun hm => h (by simp [hm])))

/-- A heading to which `C60_slug` applies. -/
example : ¬ HasInteriorNewline "A <b>C</b> *New Idea*!".toList ∧ WithoutTags (RemovedTag .github) (asciiEnv.lower "A <b>C</b> *New Idea*".toList) "a c *new idea*".toList ∧
    LinksUnmarked asciiEnv.isPCat "a c *new idea*".toList "a c new idea".toList ∧ slug asciiEnv.isWord "a c new idea".toList = "a-c-new-idea".toList := by
  have hb : TagName ['b'] ∧ ¬ RawName ['b'] := ⟨⟨'b', [], rfl, by unfold Letter; decide, by simp⟩, by unfold RawName; decide +kernel⟩
  refine ⟨by rw [← split_length_gt_iff]; decide +kernel, ?_, ?_, by decide +kernel⟩
  · rw [show asciiEnv.lower "A <b>C</b> *New Idea*".toList = "a <b>c</b> *new idea*".toList by decide +kernel]
    refine .char (by decide) (.char (by decide) (.tag (x := "<b>".toList) (removed_open _ hb.1 hb.2 (.inl rfl))
      (.char (by decide) (.tag (x := "</b>".toList) (removed_close _ hb.1 hb.2) (withoutTags_plain (s := " *new idea*".toList) (by decide +kernel))))))
  · refine linksUnmarked_of_unmarked (unmarked_of_unwrapped (.emph (u := "a c ".toList) (w := "new idea".toList) (s := []) (t := []) (n := 0) (ch := '*')
      (by decide +kernel) (by simp [Blank]) (.inl rfl) (by decide +kernel) ⟨'n', rfl, by decide +kernel⟩ ⟨'a', rfl, by decide +kernel⟩ (by simp)
      (.plain (by simp))))

/-- **C60**, for a heading of ASCII letters, digits and harmless punctuation. -/
theorem C60_plain {E : Env} (hE : E.Lawful) {p : Parser} (hp : p ≠ .redcarpet) {s : Str} (ha : ∀ c ∈ s, c.toNat < 128) (h : ∀ c ∈ s, Plain c) :
    BaseSlug E p s (if p = .gitlab then collapse false (slug E.isWord (s.map asciiLower)) else slug E.isWord (s.map asciiLower)) := by
  have hpl : ∀ c ∈ s.map asciiLower, Plain c := by
    have hall : ∀ n < 128, Plain (Char.ofNat n) → Plain (asciiLower (Char.ofNat n)) := by decide +kernel
    intro c hc
    obtain ⟨d, hd, rfl⟩ := List.mem_map.mp hc
    have := hall d.toNat (ha d hd)
    rw [Char.ofNat_toNat] at this
    exact this (h d hd)
  have hl := hE.lower_ascii s ha
  refine C60_slug hE hp ?_ (u := s.map asciiLower) ?_ (linksUnmarked_of_unmarked (unmarked_of_unwrapped (.plain hpl)))
  · rintro ⟨a, x, b, n, c, y, d, rfl, -, hn, -⟩
    have := h n (by simp)
    rcases hn with rfl | rfl
    · exact this.2.1 rfl
    · exact this.2.2.1 rfl
  · rw [hl]
    exact withoutTags_plain (fun hm => (hpl _ hm).2.2.2.2.2.1 rfl)

example : (∀ c ∈ "What's new in v2.0 - (part 1)?".toList, c.toNat < 128) ∧ (∀ c ∈ "What's new in v2.0 - (part 1)?".toList, Plain c) ∧
    slug asciiEnv.isWord ("What's new in v2.0 - (part 1)?".toList.map asciiLower) = "whats-new-in-v20---part-1".toList := by decide +kernel

/-! ### C67 -/

theorem slug_append (w : Char → Bool) (s t : Str) : slug w (s ++ t) = slug w s ++ slug w t := by
  induction s with
  | nil => rfl
  | cons c s ih =>
    simp only [List.cons_append, slug, ih]
    split_ifs <;> rfl

/-- The brackets of a link leave nothing in the slug; the destination does. -/
theorem slug_fullShown {w : Char → Bool} (hw : ∀ c ∈ "[]()".toList, w c = false) (ps : List Part) :
    slug w (fullShown ps) = ps.flatMap fun | .piece p => slug w p.shown | .link a d => slug w (shown a) ++ slug w d := by
  have e : ∀ c ∈ "[]()".toList, ∀ t, slug w (c :: t) = slug w t := by
    intro c hc t
    have h1 := hw c hc
    have h2 : c ≠ ' ' ∧ c ≠ '-' := by
      have : ∀ c ∈ "[]()".toList, c ≠ ' ' ∧ c ≠ '-' := by decide
      exact this c hc
    simp [slug, h1, h2.1, h2.2]
  induction ps with
  | nil => rfl
  | cons p ps ih =>
    rw [show fullShown (p :: ps) = p.shown ++ fullShown ps from rfl, slug_append, ih, List.flatMap_cons]
    congr 1
    cases p with
    | piece p => rfl
    | link a d =>
      show slug w ('[' :: (shown a ++ (']' :: '(' :: (d ++ [')'])))) = _
      rw [e '[' (by decide), slug_append, e ']' (by decide), e '(' (by decide), slug_append, e ')' (by decide)]
      simp [slug]

theorem slug_fullRead (w : Char → Bool) (ps : List Part) :
    slug w (fullRead ps) = ps.flatMap fun | .piece p => slug w p.shown | .link a _ => slug w (shown a) := by
  induction ps with
  | nil => rfl
  | cons p ps ih =>
    rw [show fullRead (p :: ps) = p.read ++ fullRead ps from rfl, slug_append, ih, List.flatMap_cons]
    cases p <;> rfl

theorem word_brackets {E : Env} (hE : E.Lawful) : ∀ c ∈ "[]()".toList, E.isWord c = false := by
  intro c hc
  rw [hE.word_ascii _ (by revert c; decide)]
  revert c
  decide

/-- The slugs with and without the destinations are the same exactly if the destinations leave nothing. -/
theorem slug_read_iff {w : Char → Bool} (hw : ∀ c ∈ "[]()".toList, w c = false) (ps : List Part) :
    slug w (fullShown ps) = slug w (fullRead ps) ↔ ∀ a d, .link a d ∈ ps → slug w d = [] := by
  rw [slug_fullShown hw, slug_fullRead]
  have key : ∀ ps : List Part, (ps.flatMap fun | .piece p => slug w p.shown | .link a _ => slug w (shown a)).length ≤
        (ps.flatMap fun | .piece p => slug w p.shown | .link a d => slug w (shown a) ++ slug w d).length ∧
      ((ps.flatMap fun | .piece p => slug w p.shown | .link a d => slug w (shown a) ++ slug w d).length =
        (ps.flatMap fun | .piece p => slug w p.shown | .link a _ => slug w (shown a)).length → ∀ a d, .link a d ∈ ps → slug w d = []) := by
    intro ps
    induction ps with
    | nil => simp
    | cons p ps ih =>
      obtain ⟨ih1, ih2⟩ := ih
      cases p with
      | piece p =>
        simp only [List.flatMap_cons, List.length_append]
        refine ⟨by omega, fun h a d hm => ih2 (by omega) a d (by simpa using hm)⟩
      | link a d =>
        simp only [List.flatMap_cons, List.length_append]
        refine ⟨by omega, fun h a' d' hm => ?_⟩
        rcases List.mem_cons.mp hm with hm | hm
        · injection hm with h1 h2
          subst h1 h2
          exact List.length_eq_zero_iff.mp (by omega)
        · exact ih2 (by omega) a' d' hm
  constructor
  · intro h
    exact (key ps).2 (by rw [h])
  · intro h
    induction ps with
    | nil => rfl
    | cons p ps ih =>
      simp only [List.flatMap_cons]
      rw [ih (fun a d hm => h a d (by simp [hm]))]
      cases p with
      | piece p => rfl
      | link a d => simp [h a d (by simp)]

/-- **C67**, part: links whose destination has neither letters, digits, underscores, hyphens nor spaces do not change the slug: it is the one of the text that a reader sees.  The condition is necessary, except for gitlab.
Missing: the destinations of all other links become part of the slug (`C67_violation`). -/
theorem C67_links_partial {E : Env} (hE : E.Lawful) {p : Parser} (hp : p ≠ .redcarpet) {s : Str} {ps : List Part} (hn : ¬ HasInteriorNewline s)
    (h1 : WithoutTags (RemovedTag p) (E.lower s) (fullText ps)) (h2 : AllPlaced E.isPCat ps) (h3 : Balanced (ps.map Part.outer)) (h4 : Uncrossed (ps.map Part.outer)) :
    ((∀ a d, .link a d ∈ ps → slug E.isWord d = []) →
      BaseSlug E p s (if p = .gitlab then collapse false (slug E.isWord (fullRead ps)) else slug E.isWord (fullRead ps))) ∧
    (p ≠ .gitlab → BaseSlug E p s (slug E.isWord (fullRead ps)) → ∀ a d, .link a d ∈ ps → slug E.isWord d = []) := by
  have hb := C60_slug hE hp hn h1 ⟨ps, rfl, rfl, h2, h3, h4⟩
  have hi := slug_read_iff (word_brackets hE) ps
  constructor
  · intro h
    rwa [hi.mpr h] at hb
  · intro hg h
    rw [if_neg hg] at hb
    exact hi.mp (by
      obtain ⟨d1, e1⟩ := hb
      obtain ⟨d2, e2⟩ := h
      rw [e1] at e2
      injection e2 with e2
      injection e2)

/-- **C67** is false in general: a reader sees `foo`. -/
theorem C67_violation : BaseSlug asciiEnv .github "[foo](bar)".toList "foobar".toList ∧
    fullText [.link ("foo".toList.map .char) "bar".toList] = "[foo](bar)".toList ∧ fullRead [.link ("foo".toList.map .char) "bar".toList] = "foo".toList := by
  refine ⟨?_, by decide +kernel, by decide +kernel⟩
  have h : (buildAnchorLink asciiEnv "[foo](bar)".toList (fun _ => 0) .github).toOption.map Prod.fst = some "foobar".toList := by decide +kernel
  unfold BaseSlug
  cases hb : buildAnchorLink asciiEnv "[foo](bar)".toList (fun _ => 0) .github with
  | error e => rw [hb] at h; simp [Except.toOption] at h
  | ok x =>
    rw [hb] at h
    simp only [Except.toOption, Option.map_some, Option.some.injEq] at h
    exact ⟨x.2, by rw [← h]⟩

/-- A link which meets the condition of `C67_links_partial`. -/
example : AllPlaced asciiEnv.isPCat [.link ("foo".toList.map .char) "/?#".toList] ∧ slug asciiEnv.isWord "/?#".toList = [] ∧
    WithoutTags (RemovedTag .github) (asciiEnv.lower "[Foo](/?#)".toList) (fullText [.link ("foo".toList.map .char) "/?#".toList]) := by
  have hb : Balanced ("foo".toList.map .char) := by
    have := balanced_chars .nil "foo".toList
    rwa [List.append_nil] at this
  refine ⟨?_, by decide +kernel, ?_⟩
  · have := partsIn_ok (raws := []) (ends := []) (by simp) (by simp) (punct := asciiEnv.isPCat) [.link ("foo".toList.map .char) "/?#".toList] [] (by decide +kernel) (by
      intro a d hm
      simp only [List.mem_singleton, Part.link.injEq] at hm
      rw [hm.1]
      exact ⟨hb, uncrossed_of (by decide +kernel)⟩)
    intro x p y e
    simpa using this x p y e
  · rw [show asciiEnv.lower "[Foo](/?#)".toList = "[foo](/?#)".toList by decide +kernel,
      show fullText [.link ("foo".toList.map .char) "/?#".toList] = "[foo](/?#)".toList by decide +kernel]
    exact withoutTags_plain (by decide +kernel)

end MdToc.Props
