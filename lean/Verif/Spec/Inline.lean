import Verif.Py

/-!
# Specification of the removal of markup inside headings

Nothing here depends on the model.
-/

namespace MdToc.Spec

/-- The second text is the first one without a piece that starts with `<` and ends with `>`. -/
def CutTag (s t : Str) : Prop := ∃ a m b, s = a ++ '<' :: (m ++ '>' :: b) ∧ t = a ++ b

/-- The second text is the first one without any number of such pieces, one after the other. -/
inductive CutTags : Str → Str → Prop
  | refl (s) : CutTags s s
  | step {s t u} : CutTag s t → CutTags t u → CutTags s u

/-- The second text is the first one without some of its characters, all of which satisfy the condition. -/
inductive Without (P : Char → Prop) : Str → Str → Prop
  | nil : Without P [] []
  | keep {c s t} : Without P s t → Without P (c :: s) (c :: t)
  | drop {c s t} : P c → Without P s t → Without P (c :: s) t

/-- The characters of a text at the positions of an increasing list. -/
def AtPositions (s : Str) (is : List Nat) (t : Str) : Prop :=
  is.Pairwise (· < ·) ∧ t.map some = is.map (fun i => s[i]?)

/-- The position lies in the Python range from `r.1` to `r.2`. -/
def InRange (r : Nat × Nat) (i : Nat) : Prop := r.1 ≤ i ∧ i < r.2

end MdToc.Spec

namespace MdToc.Spec

/-- A link destination that needs no interpretation, up to the closing parenthesis. -/
def PlainDest (t : Str) : Prop :=
  ∃ u v, t = u ++ ')' :: v ∧ ∀ c ∈ u, 33 ≤ c.toNat ∧ c.toNat ≤ 126 ∧ c ∉ "\\()<&".toList

/-- Texts for which the removal of emphasis is expected to work: no carriage return, no U+0100, only ASCII digits
in texts with `&`, and every `]` is followed by a plain destination in parentheses or by neither a parenthesis nor a bracket. -/
structure Tame (isDigit : Char → Bool) (s : Str) : Prop where
  no_cr : '\r' ∉ s
  no_256 : ∀ c ∈ s, c.toNat ≠ 256
  digits : '&' ∈ s → ∀ c ∈ s, isDigit c = true → '0' ≤ c ∧ c ≤ '9'
  label : ∀ a b, s ≠ a ++ ']' :: '[' :: b
  dest : ∀ a b, s = a ++ ']' :: '(' :: b → PlainDest b

end MdToc.Spec

namespace MdToc.Spec

/-- What follows `]` is not a label in brackets: it does not start with `[`, or it starts with `[[` or with the empty label `[]`. -/
def NoLabel (after : Str) : Prop := after.head? ≠ some '[' ∨ after[1]? = some '[' ∨ after[1]? = some ']'

/-- ASCII white space. -/
def AsciiWhite (c : Char) : Prop := c = ' ' ∨ c = '\t' ∨ c = '\n' ∨ c = '\x0c' ∨ c = '\r'

/-- ASCII punctuation. -/
def AsciiPunct (c : Char) : Prop :=
  (33 ≤ c.toNat ∧ c.toNat ≤ 47) ∨ (58 ≤ c.toNat ∧ c.toNat ≤ 64) ∨ (91 ≤ c.toNat ∧ c.toNat ≤ 96) ∨ (123 ≤ c.toNat ∧ c.toNat ≤ 126)

/-- Every run of `*` or of `_` can only open or only close: it stands before white space or the end of the text, or
between (the start of the text, white space or punctuation) and a character that is neither white space nor punctuation.
`punct` are the characters of the Unicode category P. -/
def OneSided (punct : Char → Bool) (s : Str) : Prop :=
  ∀ x c n y, s = x ++ List.replicate (n + 1) c ++ y → c = '*' ∨ c = '_' → y.head? ≠ some c →
    (∀ d ∈ y.head?, AsciiWhite d) ∨
    ((∀ d ∈ y.head?, ¬ AsciiPunct d ∧ punct d = false) ∧ ∀ d ∈ x.getLast?, AsciiWhite d ∨ AsciiPunct d)

end MdToc.Spec

namespace MdToc.Spec

/-- Two pieces of the text, of the same size 1 or 2, made of the same character, the first before the second. -/
structure DelimPair (s : Str) (a b u : Nat) : Prop where
  size : u = 1 ∨ u = 2
  order : a + u ≤ b
  char : ∃ c, (c = '*' ∨ c = '_') ∧ (∀ i, InRange (a, a + u) i → s[i]? = some c) ∧ (∀ i, InRange (b, b + u) i → s[i]? = some c)

/-- The position belongs to one of the pairs of pieces. -/
def InPairs (ps : List (Nat × Nat × Nat)) (i : Nat) : Prop :=
  ∃ p ∈ ps, InRange (p.1, p.1 + p.2.2) i ∨ InRange (p.2.1, p.2.1 + p.2.2) i

end MdToc.Spec

namespace MdToc.Spec

/-- A character without a meaning for the inline parser. -/
def Plain (c : Char) : Prop :=
  c ≠ '\x00' ∧ c ≠ '\n' ∧ c ≠ '\r' ∧ c ≠ '&' ∧ c ≠ '*' ∧ c ≠ '<' ∧ c ≠ '[' ∧ c ≠ '\\' ∧ c ≠ ']' ∧ c ≠ '_' ∧ c ≠ '`' ∧ c.toNat ≠ 256

/-- White space of Unicode. -/
def UniSpace (c : Char) : Prop :=
  AsciiWhite c ∨ c.toNat = 0xA0 ∨ c.toNat = 0x1680 ∨ (0x2000 ≤ c.toNat ∧ c.toNat ≤ 0x200A) ∨ c.toNat = 0x202F ∨ c.toNat = 0x205F ∨ c.toNat = 0x3000

/-- Neither white space nor punctuation.  (The code treats the characters 128 to 191 in a special way, they are left out.) -/
def WordChar (punct : Char → Bool) (c : Char) : Prop :=
  Plain c ∧ ¬ UniSpace c ∧ ¬ AsciiPunct c ∧ punct c = false ∧ ¬ (128 ≤ c.toNat ∧ c.toNat ≤ 191)

/-- A space or a tab. -/
def Blank (c : Char) : Prop := c = ' ' ∨ c = '\t'

/-- `t` is `s` without the delimiters of the emphasised phrases: a phrase starts and ends with a word character and has a run of `*` or `_`
on both sides, of the same length; before and after it there is a blank or the end of the text. -/
inductive Unwrapped (punct : Char → Bool) : Str → Str → Prop
  | plain {u : Str} : (∀ c ∈ u, Plain c) → Unwrapped punct u u
  | emph {u w s t : Str} {n : Nat} {ch : Char} : (∀ c ∈ u, Plain c) → (∀ c ∈ u.getLast?, Blank c) → ch = '*' ∨ ch = '_' →
      (∀ c ∈ w, Plain c) → (∃ c ∈ w.head?, WordChar punct c) → (∃ c ∈ w.getLast?, WordChar punct c) → (∀ c ∈ s.head?, Blank c) →
      Unwrapped punct s t → Unwrapped punct (u ++ List.replicate (n + 1) ch ++ w ++ List.replicate (n + 1) ch ++ s) (u ++ w ++ t)

end MdToc.Spec
