import Verif.Spec.Html

/-!
# Specification of inline HTML and autolinks inside a text with emphasis

The characters `*` and `_` of inline HTML and of autolinks are no delimiters of emphasis.  These are the kinds of inline HTML and
autolinks that the inline parser of the library takes for such; the definitions follow CommonMark except where said.  Nothing here
depends on the model.
-/

namespace MdToc.Spec

/-- An attribute: in contrast to CommonMark the `=` is mandatory and the value is not. -/
def ScanAttribute (s : Str) : Prop :=
  ∃ b n a c v, s = b ++ n ++ a ++ '=' :: c ++ v ∧ b ≠ [] ∧ (∀ x ∈ b, WhiteSpace x) ∧ AttrName n ∧ (∀ x ∈ a, WhiteSpace x) ∧ (∀ x ∈ c, WhiteSpace x) ∧ (v = [] ∨ AttrValue False v)

/-- An opening tag with such attributes. -/
def ScanOpen (x : Str) : Prop :=
  ∃ n a b e, x = '<' :: n ++ a ++ b ++ e ++ ['>'] ∧ TagName n ∧ Many ScanAttribute a ∧ (∀ c ∈ b, WhiteSpace c) ∧ (e = [] ∨ e = ['/'])

/-- A closing tag. -/
def ScanClose (x : Str) : Prop := ∃ n, CMClose n x

/-- An autolink: in contrast to CommonMark the scheme before the colon is missing. -/
def ScanUri (x : Str) : Prop := ∃ u, x = '<' :: ':' :: u ++ ['>'] ∧ ∀ c ∈ u, 32 < c.toNat ∧ c ≠ '<' ∧ c ≠ '>'

/-- A character of the name of an email address. -/
def EmailChar (c : Char) : Prop := Letter c ∨ Digit c ∨ c ∈ ".!#$%&'*+/=?^_`{|}~-".toList

/-- A part of the domain of an email address: up to 63 letters, digits and hyphens, no hyphen at the ends. -/
def EmailLabel (l : Str) : Prop :=
  l.length ≤ 63 ∧ (∀ c ∈ l, Letter c ∨ Digit c ∨ c = '-') ∧ (∃ c ∈ l.head?, c ≠ '-') ∧ ∃ c ∈ l.getLast?, c ≠ '-'

/-- An email address in angle brackets. -/
def ScanEmail (x : Str) : Prop :=
  ∃ u l m, x = '<' :: u ++ '@' :: l ++ m ++ ['>'] ∧ u ≠ [] ∧ (∀ c ∈ u, EmailChar c) ∧ EmailLabel l ∧ Many (fun y => ∃ k, y = '.' :: k ∧ EmailLabel k) m

/-- A tag or an autolink. -/
def ScanTag (x : Str) : Prop := ScanOpen x ∨ ScanClose x ∨ ScanUri x ∨ ScanEmail x

/-- Every `c` is followed by a character which is neither `c` nor one of `no`. -/
def Followed (c : Char) (no : Char → Prop) (b : Str) : Prop := ∀ u v, b = u ++ c :: v → ∃ d ∈ v.head?, d ≠ c ∧ ¬ no d

/-- A processing instruction; every `?` of its text is followed by a character of the text other than `?` and `>`. -/
def ScanInstruction (x : Str) : Prop := ∃ b, x = "<?".toList ++ b ++ "?>".toList ∧ Followed '?' (· = '>') b

/-- A CDATA section; every `]` of its text is followed by a character of the text other than `]`. -/
def ScanCData (x : Str) : Prop := ∃ b, x = "<![CDATA[".toList ++ b ++ "]]>".toList ∧ Followed ']' (fun _ => False) b

/-- Inline HTML and autolinks.  (Autolinks without character references; where an email address in angle brackets starts, it is one.) -/
def RawInline (x : Str) : Prop :=
  '\x00' ∉ x ∧ (ScanEmail x ∨ ((∀ e, e <+: x → ¬ ScanEmail e) ∧
    (ScanOpen x ∨ ScanClose x ∨ (ScanUri x ∧ '&' ∉ x) ∨ CMComment x ∨ ScanInstruction x ∨ CMDeclaration x ∨ ScanCData x)))

end MdToc.Spec
