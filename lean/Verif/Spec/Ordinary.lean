import Verif.Env

/-!
# Specification of ordinary heading texts

Nothing here depends on the model.
-/

namespace MdToc.Spec

/-- The second text is the first one in lower case: ASCII characters one by one; any other character becomes one or more characters, each of them an ASCII
letter or outside of ASCII, not U+0100 (which is an upper case letter), and a digit only if the character is one. -/
inductive Lowered (isDigit : Char → Bool) : Str → Str → Prop
  | nil : Lowered isDigit [] []
  | ascii {c s t} : c.toNat < 128 → Lowered isDigit s t → Lowered isDigit (c :: s) (asciiLower c :: t)
  | other {c s t} (u : Str) : 128 ≤ c.toNat → u ≠ [] →
      (∀ d ∈ u, isAsciiAlpha d = true ∨ (128 ≤ d.toNat ∧ d.toNat ≠ 256 ∧ (isDigit d = true → isDigit c = true))) →
      Lowered isDigit s t → Lowered isDigit (c :: s) (u ++ t)

/-- What `str.lower` does in every CPython. -/
def LowerOk (E : Env) : Prop := ∀ s, Lowered E.isDigit s (E.lower s)

/-- Heading texts without a null character, with ASCII digits only if there is an `&`, and without an opening bracket right after a `>` (or after backslashes right after a `>`) if
there is a `<` right after a backslash before.  Square brackets, backslashes, links, titles, code spans, tags and emphasis are all allowed otherwise. -/
structure Ordinary (isDigit : Char → Bool) (c : Str) : Prop where
  no_nul : '\x00' ∉ c
  no_escaped : ∀ a k b, c = a ++ '>' :: (List.replicate k '\\' ++ '[' :: b) → ∀ x y, a ≠ x ++ '\\' :: '<' :: y
  digits : '&' ∈ c → ∀ d ∈ c, isDigit d = true → '0' ≤ d ∧ d ≤ '9'

end MdToc.Spec
