import Verif.Lemmas.EmphClosed
import Verif.Props.Markup

/-!
# Emphasis and links: C52, C66
-/

set_option linter.unusedSimpArgs false

namespace MdToc.Props

open MdToc.Spec Cmark

/-- **C66**, part: the emphasis in the text of a link and the emphasis outside of it are removed independently of each other, and nothing else is removed: not in the destination, not the brackets.
Missing: a run in the text of a link which has no partner there may stand inside of emphasis (`C66_violation`). -/
theorem C66_links_partial {E : Env} {s t : Str} (p : Parser) (h : LinksUnmarked E.isPCat s t) : removeEmphasis E s p = .ok t :=
  removeEmphasis_parts h p

/-- **C66** is false in general: the first and the last underscore are removed, although the last one is in the text of a link and the first one is not; the one in the middle is the reason. -/
theorem C66_violation : removeEmphasis asciiEnv "_a [*b c_ d* e_](u)".toList .github = .ok "a [b c_ d e](u)".toList ∧
    removeEmphasis asciiEnv "_a [*b c d* e_](u)".toList .github = .ok "_a [b c d e_](u)".toList := by decide +kernel

/-- **C66** is also false for links with a title in parentheses, or with an escaped quote in the title: they are not seen as links, and an asterisk in the
text of the link is paired with one outside.  With a title in quotes both stay. -/
theorem C66_violation_title : removeEmphasis asciiEnv "[*a](b (t)) c*".toList .github = .ok "[a](b (t)) c".toList ∧
    removeEmphasis asciiEnv "[*a](b \"t\\\"\") c*".toList .github = .ok "[a](b \"t\\\"\") c".toList ∧
    removeEmphasis asciiEnv "[*a](b \"t\") c*".toList .github = .ok "[*a](b \"t\") c*".toList := by decide +kernel

/-- Without links there is nothing new: C64. -/
theorem linksUnmarked_of_unmarked {punct : Char → Bool} {s t : Str} (h : Unmarked punct s t) : LinksUnmarked punct s t := by
  obtain ⟨ps, rfl, rfl, h1, h2, h3⟩ := h
  refine ⟨ps.map .piece, (fullText_pieces ps).symm, ?_, ?_, ?_, ?_⟩
  · clear h1 h2 h3
    induction ps with
    | nil => rfl
    | cons p ps ih => rw [List.map_cons, shown_cons, ih]; rfl
  · intro x p y e
    obtain ⟨x', y', e1, e2, e3⟩ := List.map_eq_append_iff.mp e
    obtain ⟨p', y'', rfl, e4, rfl⟩ := List.map_eq_cons_iff.mp e3
    subst e1 e2 e4
    rw [fullText_pieces, fullText_pieces]
    exact h1 x' p' y'' rfl
  · rw [outer_pieces]; exact h2
  · rw [outer_pieces]; exact h3

/-! ### A concrete text -/

/-- The pieces are safe, between two texts. -/
def SafeIn (raws : List Str) (punct : Char → Bool) (post : Str) (pre : Str) : List Piece → Prop
  | [] => True
  | p :: ps => Safe raws punct pre (text ps ++ post) p ∧ SafeIn raws punct post (pre ++ p.text) ps

theorem safeIn_ok {raws : List Str} (hr : ∀ x ∈ raws, RawInline x) {punct : Char → Bool} {post : Str} : ∀ (ps : List Piece) (pre : Str),
    SafeIn raws punct post pre ps → ∀ x p y, ps = x ++ p :: y → p.Ok punct (pre ++ text x) (text y ++ post) := by
  intro ps
  induction ps with
  | nil => intro pre _ x p y e; simp at e
  | cons q ps ih =>
    rintro pre ⟨h1, h2⟩ x p y e
    cases x with
    | nil =>
      injection e with e1 e2
      subst e1 e2
      simpa [text] using safe_ok hr h1
    | cons z x =>
      injection e with e1 e2
      subst e1
      have := ih _ h2 x p y e2
      rwa [text_cons, ← List.append_assoc]

instance safeInDecidable (raws : List Str) (punct : Char → Bool) (post : Str) : ∀ (ps : List Piece) (pre : Str), Decidable (SafeIn raws punct post pre ps)
  | [], _ => .isTrue trivial
  | p :: ps, pre => @instDecidableAnd _ _ inferInstance (safeInDecidable raws punct post ps (pre ++ p.text))

/-- The same for parts, where the texts of links are balanced; what stands between parentheses is in a list or a destination. -/
def PartsIn (raws ends : List Str) (punct : Char → Bool) (pre : Str) : List Part → Prop
  | [] => True
  | .piece p :: ps => Safe raws punct pre (fullText ps) p ∧ PartsIn raws ends punct (pre ++ p.text) ps
  | .link a d :: ps => ((Dest d ∨ d ∈ ends) ∧ brackets 0 a = some 0 ∧ SafeIn raws punct (']' :: '(' :: (d ++ ')' :: fullText ps)) (pre ++ ['[']) a) ∧ PartsIn raws ends punct (pre ++ (Part.link a d).text) ps

theorem target_dest {d : Str} (h : Dest d) : Target d := ⟨[], d, [], by simp, by simp [Blanks], .inl h, fun _ => rfl, .inl (by simp [Blanks])⟩

theorem partsIn_ok {raws ends : List Str} (hr : ∀ x ∈ raws, RawInline x) (he : ∀ d ∈ ends, Target d) {punct : Char → Bool} : ∀ (ps : List Part) (pre : Str), PartsIn raws ends punct pre ps → (∀ a d, .link a d ∈ ps → Balanced a ∧ Uncrossed a) →
    ∀ x p y, ps = x ++ p :: y → p.Ok punct (pre ++ fullText x) (fullText y) := by
  intro ps
  induction ps with
  | nil => intro pre _ _ x p y e; simp at e
  | cons q ps ih =>
    intro pre h hb x p y e
    have hnext : PartsIn raws ends punct (pre ++ q.text) ps := by
      cases q with
      | piece q => exact h.2
      | link a d => exact h.2
    cases x with
    | nil =>
      injection e with e1 e2
      subst e1 e2
      have e0 : pre ++ fullText [] = pre := by simp [fullText]
      rw [e0]
      cases q with
      | piece q => exact safe_ok hr h.1
      | link a d =>
        obtain ⟨⟨h1, h2, h3⟩, -⟩ := h
        obtain ⟨h4, h5⟩ := hb a d (by simp)
        refine ⟨h1.elim target_dest (he d), h2, h4, h5, ?_⟩
        intro u r v e'
        have := safeIn_ok hr a (pre ++ ['[']) h3 u r v e'
        rw [show pre ++ '[' :: text u = pre ++ ['['] ++ text u by simp]
        exact this
    | cons z x =>
      injection e with e1 e2
      subst e1
      have := ih (pre ++ q.text) hnext (fun a d hm => hb a d (by simp [hm])) x p y e2
      rwa [fullText_cons, ← List.append_assoc]

instance (d : Str) : Decidable (Dest d) := by
  unfold Dest
  have : ∀ c : Char, Decidable (UniSpace c) := fun c => by unfold UniSpace; infer_instance
  infer_instance

instance partsInDecidable (raws ends : List Str) (punct : Char → Bool) : ∀ (ps : List Part) (pre : Str), Decidable (PartsIn raws ends punct pre ps)
  | [], _ => .isTrue trivial
  | .piece p :: ps, pre => @instDecidableAnd _ _ inferInstance (partsInDecidable raws ends punct ps (pre ++ p.text))
  | .link a d :: ps, pre => @instDecidableAnd _ _ inferInstance (partsInDecidable raws ends punct ps (pre ++ (Part.link a d).text))

/-- The text of the link of the example below. -/
def demoLink : List Piece := "the ".toList.map .char ++ .strayOpen '*' 0 :: ("args ".toList.map .char ++ .opens '_' 0 :: ("page".toList.map .char ++ .closes '_' 0 :: (" [1]".toList.map .char ++ [])))

/-- A destination in pointy brackets with a title. -/
def demoEnd : Str := " <a *b*> '_c_ (d'".toList

/-- What stands between the parentheses of the second link of the example below. -/
def demoEnds : List Str := [demoEnd]

theorem demoEnds_ok : ∀ d ∈ demoEnds, Target d := by
  intro d hd
  rw [List.mem_singleton.mp hd]
  refine ⟨" ".toList, "<a *b*>".toList, " '_c_ (d'".toList, rfl, by unfold Blanks; decide, .inr ⟨"a *b*".toList, rfl, by decide, by decide⟩, by decide, .inr ⟨" ".toList, "'_c_ (d'".toList, [], rfl, by decide, by unfold Blanks; decide, ⟨'\'', "_c_ (d".toList, rfl, by decide, by decide, by decide⟩, by unfold Blanks; decide⟩⟩

/-- The parts of the example below. -/
def demoParts : List Part :=
  .piece (.opens '*' 0) :: (("Read ".toList.map .char).map .piece ++ .link demoLink "https://x.org/a_b_(c)?d=1&e=*".toList :: ((" now".toList.map .char).map .piece ++
    .piece (.closes '*' 0) :: ((" or [".toList.map .char).map .piece ++ .link ("later".toList.map .char) demoEnd :: ("]".toList.map .char).map .piece)))

/-- A link inside emphasis; in the text of the link are emphasis and an asterisk without a partner, in the destination are underscores and an asterisk, and there is a second link with a title. -/
example : LinksUnmarked asciiEnv.isPCat "*Read [the *args _page_ [1]](https://x.org/a_b_(c)?d=1&e=*) now* or [[later]( <a *b*> '_c_ (d')]".toList
    "Read [the *args page [1]](https://x.org/a_b_(c)?d=1&e=*) now or [[later]( <a *b*> '_c_ (d')]".toList := by
  have hp : Paired ("page".toList.map .char) := by
    have := nested_chars .nil "page".toList
    rwa [List.append_nil] at this
  have hl : Balanced demoLink := balanced_chars (.strayOpen (balanced_chars (.pair hp (balanced_chars .nil _)) _)) _
  refine ⟨demoParts, by decide +kernel, by decide +kernel, ?_, ?_, uncrossed_of (by decide +kernel)⟩
  · have := partsIn_ok (raws := []) (ends := demoEnds) (by simp) demoEnds_ok (punct := asciiEnv.isPCat) demoParts [] (by decide +kernel) (by
      intro a d hm
      have : a = demoLink ∨ a = "later".toList.map .char := by
        simp only [demoParts, List.mem_cons, List.mem_append, List.mem_map, reduceCtorEq, and_false, exists_false, false_or, or_false, Part.link.injEq] at hm
        exact hm.imp (·.1) (·.1)
      rcases this with rfl | rfl
      · exact ⟨hl, uncrossed_of (by decide +kernel)⟩
      · exact ⟨by have := balanced_chars .nil "later".toList; rwa [List.append_nil] at this, uncrossed_of (by decide +kernel)⟩)
    intro x p y e
    simpa using this x p y e
  · unfold demoParts
    simp only [List.map_cons, List.map_append, outer_pieces]
    rw [show ∀ (a b c : List Piece) (p q r : Piece), p :: (a ++ q :: (b ++ r :: c)) = p :: ((a ++ q :: b) ++ r :: c) by intros; simp]
    exact .pair (nested_chars (.leaf (by exact trivial) (by have := nested_chars .nil " now".toList; rwa [List.append_nil] at this)) _) (balanced_chars (.leaf (by exact trivial) (by have := balanced_chars .nil "]".toList; rwa [List.append_nil] at this)) _)

/-! ### C52 with arbitrary destinations -/

/-- **C52**, part: no exception for the texts of `Spec.Calm`, where destinations and titles may be anything as long as the text does not end in the middle of them.
Missing: labels in brackets after `]`, see `C52_violation_references`; the other texts raise an exception or are not characterised. -/
theorem C52_calm_partial {E : Env} {s : Str} (p : Parser) (h : Calm E.isDigit (s.filter (· != '\x00'))) : ∃ t, removeEmphasis E s p = .ok t := by
  obtain ⟨rs, hrs⟩ := Cmark.parseInlines_total (Cmark.calm_safe h)
  unfold removeEmphasis
  simp only [bind, Except.bind, hrs]
  exact ⟨_, rfl⟩

theorem parens_none : ∀ (u : Str), '(' ∉ u → ')' ∉ u → parens 0 u = some 0 := by
  intro u
  induction u with
  | nil => intro _ _; rfl
  | cons c u ih =>
    intro h1 h2
    simp only [List.mem_cons, not_or] at h1 h2
    rw [parens, if_neg (Ne.symm h1.1), if_neg (Ne.symm h2.1)]
    exact ih h1.2 h2.2

/-- The texts of `Spec.Tame` are texts of `Spec.Calm`. -/
theorem calm_of_tame {isDigit : Char → Bool} {s : Str} (h : Tame isDigit s) : Calm isDigit s where
  no_cr := h.no_cr
  no_256 := h.no_256
  digits := h.digits
  label := by
    rintro a b rfl
    cases b with
    | nil => exact .inl (by simp)
    | cons c b =>
      by_cases hc : c = '['
      · subst hc
        exact absurd rfl (h.label a b)
      · exact .inl (by simpa using hc)
  dest := by
    intro a b e
    obtain ⟨u, v, rfl, hu⟩ := h.dest a b e
    have hnot : ∀ c, c ∈ "\\()<&".toList → c ∉ u := fun c hc hm => (hu c hm).2.2 hc
    refine .inl ⟨u, v, rfl, target_dest ⟨?_, ?_, ?_, parens_none u (hnot _ (by decide)) (hnot _ (by decide))⟩⟩
    · intro c hc
      obtain ⟨h1, h2, h3⟩ := hu c hc
      refine ⟨h1, ?_, ?_⟩
      · have hs : Cmark.isSpace c = false := by
          have : ∀ n : Fin 127, 33 ≤ n.val → Cmark.isSpace (Char.ofNat n.val) = false := by decide +kernel
          have := this ⟨c.toNat, by omega⟩ h1
          rwa [Char.ofNat_toNat] at this
        rw [← Cmark.space_iff, hs]
        simp
      · rintro rfl; exact hnot _ (by decide) hc
    · intro hh
      exact hnot '<' (by decide) (List.mem_of_mem_head? hh)
    · intro ha
      exact absurd ha (hnot _ (by decide))

/-- The text of the example below. -/
def demoCalm : Str := "[*w*](u_(v) \"t\") &amp; [x](<y z> 'r') [q](\\s \\*) <b@c.d> [r][] [k][[v]]!".toList

theorem split_pair {s a b : Str} {x y : Char} (e : s = a ++ x :: y :: b) : s[a.length]? = some x ∧ s[a.length + 1]? = some y ∧ b = s.drop (a.length + 2) := by
  subst e
  refine ⟨by simp, by simp [List.getElem?_append_right], ?_⟩
  rw [List.drop_append]
  simp

/-- Titles, pointy brackets, parentheses and backslashes in the destinations, an empty label. -/
example : Calm asciiEnv.isDigit demoCalm where
  no_cr := by decide +kernel
  no_256 := by decide +kernel
  digits := by
    intro _
    decide +kernel
  label := by
    intro a b e
    have h1 : demoCalm[a.length]? = some ']' := by rw [e]; simp
    have h2 : b = demoCalm.drop (a.length + 1) := by rw [e, List.drop_append]; simp
    have hl : a.length < 80 := by
      have := (List.getElem?_eq_some_iff.mp h1).1
      have e : demoCalm.length ≤ 80 := by decide +kernel
      omega
    have : ∀ i : Fin 80, demoCalm[i.val]? = some ']' → NoLabel (demoCalm.drop (i.val + 1)) := by decide +kernel
    rw [h2]
    exact this ⟨_, hl⟩ h1
  dest := by
    intro a b e
    right
    obtain ⟨h1, h2, rfl⟩ := split_pair e
    have hl : a.length < 80 := by
      have := (List.getElem?_eq_some_iff.mp h1).1
      have e : demoCalm.length ≤ 80 := by decide +kernel
      omega
    have h3 : ∀ i : Fin 80, demoCalm[i.val]? = some ']' → demoCalm[i.val + 1]? = some '(' → (demoCalm.drop (i.val + 2)).getLast? = some '!' := by decide +kernel
    refine ⟨⟨'!', h3 ⟨_, hl⟩ h1 h2, by decide⟩, ?_⟩
    intro x y e'
    have h4 : ∀ i : Fin 80, demoCalm[i.val]? = some '\\' → demoCalm[i.val + 1]? = some 's' ∨ demoCalm[i.val + 1]? = some '*' := by decide +kernel
    have h5 : demoCalm[a.length + 2 + x.length]? = some '\\' := by
      rw [← List.getElem?_drop, e']; simp
    have h6 : a.length + 2 + x.length < 80 := by
      have := (List.getElem?_eq_some_iff.mp h5).1
      have e : demoCalm.length ≤ 80 := by decide +kernel
      omega
    have h7 : demoCalm[a.length + 2 + x.length + 1]? = y[0]? := by
      rw [Nat.add_assoc, ← List.getElem?_drop, e', List.getElem?_append_right (by omega)]
      simp
    have h8 := h4 ⟨_, h6⟩ h5
    rw [h7] at h8
    cases y with
    | nil => simp at h8
    | cons d z =>
      refine ⟨d, z, rfl, ?_⟩
      simp only [List.getElem?_cons_zero, Option.some.injEq] at h8
      rcases h8 with rfl | rfl
      · exact ⟨by rw [← Cmark.space_iff]; decide, by decide⟩
      · exact ⟨by rw [← Cmark.space_iff]; decide, by decide⟩

end MdToc.Props
