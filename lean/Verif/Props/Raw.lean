import Verif.Props.Markup

/-!
# Autolinks and inline HTML keep their characters: C86
-/

set_option linter.unusedSimpArgs false

namespace MdToc.Props

open MdToc.Spec Cmark

/-- An autolink of CommonMark: a scheme of 2 to 32 characters, a colon, and characters which are not control characters, spaces or angle brackets. -/
def CMAutolink (x : Str) : Prop :=
  ∃ c r u, x = '<' :: (c :: r) ++ ':' :: u ++ ['>'] ∧ Letter c ∧ (∀ d ∈ r, Letter d ∨ Digit d ∨ d ∈ ['+', '.', '-']) ∧ 1 ≤ r.length ∧ r.length ≤ 31 ∧
    ∀ d ∈ u, 32 < d.toNat ∧ d ≠ '<' ∧ d ≠ '>'

/-- Autolinks and inline HTML of CommonMark. -/
def CMRaw (x : Str) : Prop :=
  CMAutolink x ∨ ScanEmail x ∨ (∃ n, CMOpen n x) ∨ (∃ n, CMClose n x) ∨ CMComment x ∨ HtmlInstruction x ∨ CMDeclaration x ∨ CMCData x

/-- An attribute of CommonMark with a value. -/
def ValuedAttribute (s : Str) : Prop := ∃ b n v, s = b ++ n ++ v ∧ b ≠ [] ∧ (∀ c ∈ b, WhiteSpace c) ∧ AttrName n ∧ ValueSpec False v

/-- An opening tag of CommonMark where every attribute has a value. -/
def ValuedOpen (x : Str) : Prop :=
  ∃ n a b e, x = '<' :: n ++ a ++ b ++ e ++ ['>'] ∧ TagName n ∧ Many ValuedAttribute a ∧ (∀ c ∈ b, WhiteSpace c) ∧ (e = [] ∨ e = ['/'])

/-- Some character of the text cannot be part of an email address, and there is no `@` before it. -/
def NoEmailStart (x : Str) : Prop := ∃ p c q, x = '<' :: p ++ c :: q ∧ '@' ∉ p ∧ c ≠ '@' ∧ ¬ EmailChar c

/-- The inline HTML and the email addresses of CommonMark that are protected. -/
def Protected (x : Str) : Prop :=
  '\x00' ∉ x ∧ (ScanEmail x ∨ ValuedOpen x ∨ (∃ n, CMClose n x) ∨ CMDeclaration x ∨ ScanCData x ∨ ((CMComment x ∨ ScanInstruction x) ∧ NoEmailStart x))

theorem noEmail_prefix {x : Str} (h : NoEmailStart x) : ∀ e, e <+: x → ¬ ScanEmail e := by
  rintro e ⟨z, he⟩ ⟨u, l, m, rfl, -, hu, -⟩
  obtain ⟨p, c, q, rfl, h1, h2, h3⟩ := h
  have he : u ++ '@' :: (l ++ m ++ ['>'] ++ z) = p ++ c :: q := by
    have := List.cons.inj (show '<' :: (u ++ '@' :: (l ++ m ++ ['>'] ++ z)) = '<' :: (p ++ c :: q) by have := he; simp only [List.cons_append, List.append_assoc] at this ⊢; exact this)
    exact this.2
  rcases List.append_eq_append_iff.mp he with ⟨a, rfl, e2⟩ | ⟨a, rfl, e2⟩
  · cases a with
    | nil => injection e2 with e2 _; exact h2 e2.symm
    | cons d a =>
      injection e2 with e2 _
      exact h1 (by rw [e2]; simp)
  · cases a with
    | nil => injection e2 with e2 _; exact h2 e2
    | cons d a =>
      injection e2 with e2 _
      exact h3 (hu c (by rw [e2]; simp))

theorem white_email {c : Char} (h : WhiteSpace c) : c ≠ '@' ∧ ¬ EmailChar c := by
  unfold EmailChar Letter Digit
  rcases h with rfl | rfl | rfl | rfl | rfl | rfl <;> decide

theorem name_at {n : Str} (h : TagName n) : '@' ∉ n := by
  obtain ⟨c, t, rfl, h1, h2⟩ := h
  intro hh
  rcases List.mem_cons.mp hh with rfl | hh
  · revert h1; unfold Letter; decide
  · have := h2 _ hh
    revert this; unfold Letter Digit; decide

theorem noEmail_white {p b q : Str} {x : Str} (hx : x = '<' :: p ++ b ++ q) (hp : '@' ∉ p) (hb : ∀ c ∈ b, WhiteSpace c) (hq : b = [] → NoEmailStart x) : NoEmailStart x := by
  cases b with
  | nil => exact hq rfl
  | cons c b =>
    obtain ⟨h1, h2⟩ := white_email (hb c (by simp))
    exact ⟨p, c, b ++ q, by rw [hx]; simp, hp, h1, h2⟩

theorem gt_email : ¬ EmailChar '>' := by unfold EmailChar Letter Digit; decide

theorem protected_raw {x : Str} (h : Protected x) : RawInline x := by
  obtain ⟨h0, h⟩ := h
  refine ⟨h0, ?_⟩
  rcases h with h | ⟨n, a, b, e, hx, h1, h2, h3, h4⟩ | ⟨n, h⟩ | h | h | ⟨h, hm⟩
  · exact .inl h
  · refine .inr ⟨noEmail_prefix ?_, .inl ⟨n, a, b, e, hx, h1, ?_, h3, h4⟩⟩
    · have : ∀ a, Many ValuedAttribute a → ∀ x, x = '<' :: n ++ a ++ b ++ e ++ ['>'] → NoEmailStart x := by
        intro a h2 x hx
        cases h2 with
        | nil =>
          refine noEmail_white (p := n) (b := b) (q := e ++ ['>']) (by rw [hx]; simp) (name_at h1) h3 ?_
          rintro rfl
          refine ⟨n ++ e, '>', [], by rw [hx]; simp, ?_, by decide, gt_email⟩
          rcases h4 with rfl | rfl
          · simpa using name_at h1
          · simpa using name_at h1
        | @cons y t hy ht =>
          obtain ⟨b', n', v, rfl, hb0, hb, -⟩ := hy
          exact noEmail_white (p := n) (b := b') (q := n' ++ v ++ t ++ b ++ e ++ ['>']) (by rw [hx]; simp) (name_at h1) hb (fun h => absurd h hb0)
      exact this a h2 x hx
    · clear hx h0
      induction h2 with
      | nil => exact .nil
      | cons hy _ ih =>
        refine .cons ?_ ih
        obtain ⟨b', n', v, rfl, hb0, hb, hn, a', c', v', rfl, ha, hc, hv⟩ := hy
        exact ⟨b', n', a', c', v', by simp, hb0, hb, hn, ha, hc, .inr hv⟩
  · refine .inr ⟨noEmail_prefix ?_, .inr (.inl ⟨n, h⟩)⟩
    obtain ⟨h1, b, hx, hb⟩ := h
    have hn : '@' ∉ '/' :: n := by simpa using name_at h1
    refine noEmail_white (p := '/' :: n) (b := b) (q := ['>']) (by rw [hx]) hn hb ?_
    rintro rfl
    exact ⟨'/' :: n, '>', [], by rw [hx]; simp, hn, by decide, gt_email⟩
  · refine .inr ⟨noEmail_prefix ?_, .inr (.inr (.inr (.inr (.inr (.inl h)))))⟩
    obtain ⟨n, a, b, hx, h1, h2, h3, h4, h5⟩ := h
    refine noEmail_white (p := '!' :: n) (b := a) (q := b ++ ['>']) (by rw [hx]; simp) ?_ h4 (fun h => absurd h h3)
    intro hh
    rcases List.mem_cons.mp hh with hh | hh
    · revert hh; decide
    · have := h2 _ hh
      revert this; unfold Upper; decide
  · refine .inr ⟨noEmail_prefix ?_, .inr (.inr (.inr (.inr (.inr (.inr h)))))⟩
    obtain ⟨b, hx, -⟩ := h
    exact ⟨['!'], '[', "CDATA[".toList ++ b ++ "]]>".toList, by rw [hx]; simp, by decide, by decide, by unfold EmailChar Letter Digit; decide⟩
  · refine .inr ⟨noEmail_prefix hm, ?_⟩
    rcases h with h | h
    · exact .inr (.inr (.inr (.inl h)))
    · exact .inr (.inr (.inr (.inr (.inl h))))

theorem shown_append' (a b : List Piece) : shown (a ++ b) = shown a ++ shown b := by simp [shown]

theorem protected_form {x : Str} (h : Protected x) : ∃ ins, x = '<' :: (ins ++ ['>']) := by
  rcases h.2 with ⟨u, l, m, rfl, -⟩ | ⟨n, a, b, e, rfl, -⟩ | ⟨n, -, b, rfl, -⟩ | ⟨n, a, b, rfl, -⟩ | ⟨b, rfl, -⟩ | ⟨⟨b, rfl, -⟩ | ⟨b, rfl, -⟩, -⟩
  · exact ⟨u ++ '@' :: l ++ m, by simp⟩
  · exact ⟨n ++ a ++ b ++ e, by simp⟩
  · exact ⟨'/' :: n ++ b, by simp⟩
  · exact ⟨'!' :: (n ++ a ++ b), by simp⟩
  · exact ⟨"![CDATA[".toList ++ b ++ "]]".toList, by simp⟩
  · exact ⟨"!--".toList ++ b ++ "--".toList, by simp⟩
  · exact ⟨"?".toList ++ b ++ "?".toList, by simp⟩

/-- **C86**, part: inside a text with emphasis the email addresses, tags with values for all attributes, comments and so on stay as they are.
Missing: autolinks and attributes without values, for which this is false (`C86_violation_autolink`, `C86_violation_attribute`). -/
theorem C86_kept_partial {E : Env} {x : Str} (h : Protected x) (p : Parser) {ps qs : List Piece} {ins : Str} (hi : x = '<' :: (ins ++ ['>'])) (h1 : Placed E.isPCat (ps ++ .raw ins :: qs))
    (h2 : Balanced (ps ++ .raw ins :: qs)) (h3 : Uncrossed (ps ++ .raw ins :: qs)) : removeEmphasis E (text ps ++ x ++ text qs) p = .ok (shown ps ++ x ++ shown qs) := by
  subst hi
  refine C64_markup_removed p ⟨ps ++ .raw ins :: qs, ?_, ?_, h1, h2, h3⟩
  · rw [text_append, text_cons]; simp [Piece.text]
  · rw [shown_append', shown_cons]; simp [Piece.shown, Piece.text]

/-- **C86**, part: between plain texts they stay as they are. -/
theorem C86_plain_partial {E : Env} {x : Str} (h : Protected x) (p : Parser) {u v : Str} (hu : ∀ c ∈ u, Plain c) (hv : ∀ c ∈ v, Plain c) :
    removeEmphasis E (u ++ x ++ v) p = .ok (u ++ x ++ v) := by
  obtain ⟨ins, hi⟩ := protected_form h
  have hleaf : ∀ q ∈ u.map Piece.char ++ .raw ins :: v.map Piece.char, q.Leaf := by
    intro q hq
    simp only [List.mem_append, List.mem_cons, List.mem_map] at hq
    rcases hq with ⟨c, -, rfl⟩ | rfl | ⟨c, -, rfl⟩ <;> exact trivial
  have hpl : Placed E.isPCat (u.map .char ++ .raw ins :: v.map .char) := by
    rw [placed_iff]
    refine placedFrom_chars u _ [] hu ⟨?_, ?_⟩
    · show RawInline _
      rw [← hi]
      exact protected_raw h
    · have := placedFrom_chars (punct := E.isPCat) v [] ([] ++ u ++ (Piece.raw ins).text) hv trivial
      rwa [List.append_nil] at this
  have := C64_no_emphasis p hleaf hpl
  rw [text_append, text_cons, text_chars, text_chars] at this
  rw [hi]
  simpa [Piece.text] using this

/-- **C86** is violated by autolinks: their underscores are taken for emphasis. -/
theorem C86_violation_autolink : CMAutolink "<http://a.b/_c_>".toList ∧ removeEmphasis asciiEnv "<http://a.b/_c_>".toList .github = .ok "<http://a.b/c>".toList := by
  refine ⟨⟨'h', "ttp".toList, "//a.b/_c_".toList, by decide, by unfold Letter; decide, by unfold Letter Digit; decide, by decide, by decide, by decide⟩, by decide +kernel⟩

/-- **C86** is violated by tags with an attribute without a value. -/
theorem C86_violation_attribute : CMOpen "a".toList "<a b c=\"*d*\">".toList ∧ removeEmphasis asciiEnv "<a b c=\"*d*\">".toList .github = .ok "<a b c=\"d\">".toList := by
  refine ⟨⟨" b c=\"*d*\"".toList, [], [], by decide, ⟨'a', [], rfl, by unfold Letter; decide, by simp⟩, ?_, by simp, .inl rfl⟩, by decide +kernel⟩
  refine .cons (x := " b".toList) (t := " c=\"*d*\"".toList) ⟨[' '], ['b'], [], by decide, .inl ⟨trivial, by simp, by simp [WhiteSpace]⟩, ⟨'b', [], rfl, .inl (by unfold Letter; decide), by simp⟩, .inl rfl⟩ ?_
  refine .cons (x := " c=\"*d*\"".toList) (t := []) ⟨[' '], ['c'], "=\"*d*\"".toList, by decide, .inl ⟨trivial, by simp, by simp [WhiteSpace]⟩, ⟨'c', [], rfl, .inl (by unfold Letter; decide), by simp⟩, .inr ?_⟩ .nil
  exact ⟨[], [], "\"*d*\"".toList, by decide, by simp, by simp, .inr (.inr ⟨"*d*".toList, by decide, by decide⟩)⟩

/-- Protected texts with asterisks and underscores. -/
example : Protected "<me_and_you@a-b.org>".toList ∧ Protected "<a b=\"*c*\" d = _e_ />".toList ∧ Protected "</a>".toList ∧ Protected "<!-- *a* b@c -->".toList ∧ Protected "<?php *a* ?>".toList ∧
    Protected "<!DOCTYPE _a_>".toList ∧ Protected "<![CDATA[*a*]]>".toList := by
  refine ⟨⟨by decide, .inl ?_⟩, ⟨by decide, .inr (.inl ?_)⟩, ⟨by decide, .inr (.inr (.inl ?_))⟩, ⟨by decide, .inr (.inr (.inr (.inr (.inr ⟨.inl ?_, ?_⟩))))⟩,
    ⟨by decide, .inr (.inr (.inr (.inr (.inr ⟨.inr ?_, ?_⟩))))⟩, ⟨by decide, .inr (.inr (.inr (.inl ?_)))⟩, ⟨by decide, .inr (.inr (.inr (.inr (.inl ?_))))⟩⟩
  · refine ⟨"me_and_you".toList, "a-b".toList, ".org".toList, by decide, by decide, by unfold EmailChar Letter Digit; decide, ?_, .cons (x := ".org".toList) (t := []) ⟨"org".toList, rfl, ?_⟩ .nil⟩
    · exact ⟨by decide, by unfold Letter Digit; decide, ⟨'a', rfl, by decide⟩, ⟨'b', rfl, by decide⟩⟩
    · exact ⟨by decide, by unfold Letter Digit; decide, ⟨'o', rfl, by decide⟩, ⟨'g', rfl, by decide⟩⟩
  · refine ⟨"a".toList, " b=\"*c*\" d = _e_".toList, [' '], ['/'], by decide, ⟨'a', [], rfl, by unfold Letter; decide, by simp⟩, ?_, by simp [WhiteSpace], .inr rfl⟩
    refine .cons (x := " b=\"*c*\"".toList) (t := " d = _e_".toList) ⟨[' '], ['b'], "=\"*c*\"".toList, by decide, by simp, by simp [WhiteSpace], ⟨'b', [], rfl, .inl (by unfold Letter; decide), by simp⟩, ?_⟩ ?_
    · exact ⟨[], [], "\"*c*\"".toList, by decide, by simp, by simp, .inr (.inr ⟨"*c*".toList, by decide, by decide⟩)⟩
    · refine .cons (x := " d = _e_".toList) (t := []) ⟨[' '], ['d'], " = _e_".toList, by decide, by simp, by simp [WhiteSpace], ⟨'d', [], rfl, .inl (by unfold Letter; decide), by simp⟩, ?_⟩ .nil
      exact ⟨[' '], [' '], "_e_".toList, by decide, by simp [WhiteSpace], by simp [WhiteSpace], .inl ⟨by simp, by unfold Unquoted WhiteSpace; decide⟩⟩
  · exact ⟨"a".toList, ⟨'a', [], rfl, by unfold Letter; decide, by simp⟩, [], by decide, by simp⟩
  · exact ⟨" *a* b@c ".toList, by decide, by decide +kernel, by decide +kernel, by decide +kernel, by decide +kernel⟩
  · exact ⟨"!--".toList, ' ', "*a* b@c -->".toList, by decide, by decide, by decide, by unfold EmailChar Letter Digit; decide⟩
  · refine ⟨"php *a* ".toList, by decide, ?_⟩
    intro u v e
    exact absurd (show '?' ∈ "php *a* ".toList by rw [e]; simp) (by decide)
  · exact ⟨"?php".toList, ' ', "*a* ?>".toList, by decide, by decide, by decide, by unfold EmailChar Letter Digit; decide⟩
  · exact ⟨"DOCTYPE".toList, [' '], "_a_".toList, by decide, by simp, by unfold Upper; decide, by simp, by simp [WhiteSpace], by decide⟩
  · refine ⟨"*a*".toList, by decide, ?_⟩
    intro u v e
    exact absurd (show ']' ∈ "*a*".toList by rw [e]; simp) (by decide)

/-- The pieces before and behind the tag of the example below. -/
def demoBefore : List Piece := .opens '*' 0 :: ("see ".toList.map .char ++ [])

/-- See `demoBefore`. -/
def demoBehind : List Piece := " now".toList.map .char ++ [.closes '*' 0]

/-- A comment inside emphasis. -/
example : Protected "<!--*c* -->".toList ∧ Placed asciiEnv.isPCat (demoBefore ++ .raw "!--*c* --".toList :: demoBehind) ∧ Balanced (demoBefore ++ .raw "!--*c* --".toList :: demoBehind) ∧
    Uncrossed (demoBefore ++ .raw "!--*c* --".toList :: demoBehind) ∧ text demoBefore = "*see ".toList ∧ shown demoBehind = " now".toList := by
  have hp : Protected "<!--*c* -->".toList :=
    ⟨by decide, .inr (.inr (.inr (.inr (.inr ⟨.inl ⟨"*c* ".toList, by decide, by decide +kernel, by decide +kernel, by decide +kernel, by decide +kernel⟩,
      "!--*c*".toList, ' ', "-->".toList, by decide, by decide, by decide, by unfold EmailChar Letter Digit; decide⟩))))⟩
  refine ⟨hp, placed_of_safe (raws := ["<!--*c* -->".toList]) (by simpa using protected_raw hp) (by decide +kernel), ?_, uncrossed_of (by decide +kernel), by decide +kernel, by decide +kernel⟩
  have h : Paired ("see ".toList.map .char ++ .raw "!--*c* --".toList :: (" now".toList.map .char ++ [])) := nested_chars (.leaf (by exact trivial) (nested_chars .nil _)) _
  have := Balanced.pair (c := '*') (n := 0) h .nil
  unfold demoBefore demoBehind
  simpa using this

end MdToc.Props
