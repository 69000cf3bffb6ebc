import Verif.Py

/-!
# Specification of HTML tags

Names of tags and attributes, and texts without tags.  The syntax of tags is in `Spec/Html.lean`.
-/

namespace MdToc.Spec

/-- An ASCII letter. -/
def Letter (c : Char) : Prop := (65 ≤ c.toNat ∧ c.toNat ≤ 90) ∨ (97 ≤ c.toNat ∧ c.toNat ≤ 122)

/-- An ASCII digit. -/
def Digit (c : Char) : Prop := 48 ≤ c.toNat ∧ c.toNat ≤ 57

/-- A letter, then letters, digits and hyphens. -/
def TagName (n : Str) : Prop := ∃ c t, n = c :: t ∧ Letter c ∧ ∀ d ∈ t, Letter d ∨ Digit d ∨ d = '-'

/-- A letter, `_` or `:`, then letters, digits, `_`, `.`, `:` and `-`. -/
def AttrName (n : Str) : Prop :=
  ∃ c t, n = c :: t ∧ (Letter c ∨ c = '_' ∨ c = ':') ∧ ∀ d ∈ t, Letter d ∨ Digit d ∨ d = '_' ∨ d = '.' ∨ d = ':' ∨ d = '-'

/-- The names of the tags GitHub filters: the part before the first hyphen, in lower case. -/
def RawName (n : Str) : Prop :=
  (n.takeWhile (· != '-')).map asciiLower ∈ ["title", "textarea", "style", "xmp", "iframe", "noembed", "noframes", "script", "plaintext"].map String.toList

/-- `t` is the text `s` without its tags; outside the tags there is no `<`. -/
inductive WithoutTags (tag : Str → Prop) : Str → Str → Prop
  | nil : WithoutTags tag [] []
  | char {c : Char} {s t : Str} : c ≠ '<' → WithoutTags tag s t → WithoutTags tag (c :: s) (c :: t)
  | tag {x s t : Str} : tag x → WithoutTags tag s t → WithoutTags tag (x ++ s) t

end MdToc.Spec
