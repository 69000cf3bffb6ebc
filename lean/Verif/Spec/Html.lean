import Verif.Spec.Tags

/-!
# Specification of inline HTML

The six kinds of inline HTML: opening tags, closing tags, comments, processing instructions, declarations and CDATA sections, first as the CommonMark specification (version 0.28, section 6.8, to which `/repo/md_toc/constants.py` refers) has them, then as the library has them.  `g` stands for the parsers `github` and `commonmarker`.
-/

namespace MdToc.Spec

/-- White space: space, tab, line feed, vertical tab, form feed, carriage return. -/
def WhiteSpace (c : Char) : Prop := c = ' ' ∨ c = '\t' ∨ c = '\n' ∨ c = '\x0b' ∨ c = '\x0c' ∨ c = '\r'

/-- A line ending. -/
def LineEnd (s : Str) : Prop := s = ['\n'] ∨ s = ['\r'] ∨ s = ['\r', '\n']

/-- What may stand before an attribute: white space, or (not for `g`) spaces and tabs or one line ending. -/
def Gap (g : Prop) (s : Str) : Prop :=
  (g ∧ s ≠ [] ∧ ∀ c ∈ s, WhiteSpace c) ∨ (¬ g ∧ ((s ≠ [] ∧ ∀ c ∈ s, c = ' ' ∨ c = '\t') ∨ LineEnd s))

/-- The characters of a value without quotes. -/
def Unquoted (g : Prop) (c : Char) : Prop :=
  c ≠ ' ' ∧ c ≠ '"' ∧ c ≠ '\'' ∧ c ≠ '=' ∧ c ≠ '<' ∧ c ≠ '>' ∧ c ≠ '`' ∧ (g ∨ (¬ WhiteSpace c ∧ c ≠ '\x00'))

/-- The value of an attribute: without quotes, in single or in double quotes. -/
def AttrValue (g : Prop) (v : Str) : Prop :=
  (v ≠ [] ∧ ∀ c ∈ v, Unquoted g c) ∨
  (∃ u, v = '\'' :: u ++ ['\''] ∧ ∀ c ∈ u, c ≠ '\'' ∧ c ≠ '\x00') ∨
  (∃ u, v = '"' :: u ++ ['"'] ∧ ∀ c ∈ u, c ≠ '"' ∧ c ≠ '\x00')

/-- An equals sign and a value, with white space around the sign. -/
def ValueSpec (g : Prop) (s : Str) : Prop :=
  ∃ a b v, s = a ++ '=' :: b ++ v ∧ (∀ c ∈ a, WhiteSpace c) ∧ (∀ c ∈ b, WhiteSpace c) ∧ AttrValue g v

/-- An attribute with what stands before it. -/
def Attribute (g : Prop) (s : Str) : Prop :=
  ∃ b n v, s = b ++ n ++ v ∧ Gap g b ∧ AttrName n ∧ (v = [] ∨ ValueSpec g v)

/-- A sequence of pieces. -/
inductive Many (A : Str → Prop) : Str → Prop
  | nil : Many A []
  | cons {x t : Str} : A x → Many A t → Many A (x ++ t)

/-- An opening tag.  `g` leaves out the filtered names. -/
def HtmlOpen (g : Prop) (x : Str) : Prop :=
  ∃ n a b e, x = '<' :: n ++ a ++ b ++ e ++ ['>'] ∧ TagName n ∧ (g → ¬ RawName n) ∧ Many (Attribute g) a ∧ (b = [] ∨ Gap g b) ∧ (e = [] ∨ e = ['/'])

/-- A closing tag.  `g` leaves out the filtered names and has at most one white space behind the name. -/
def HtmlClose (g : Prop) (x : Str) : Prop :=
  ∃ n b, x = '<' :: '/' :: n ++ b ++ ['>'] ∧ TagName n ∧ (g → ¬ RawName n) ∧ (b = [] ∨ (Gap g b ∧ (g → b.length = 1)))

/-- A comment of the library: at least two characters, no `>` except at the end, no `--` and no `->`, and no `-` at the end. -/
def HtmlComment (x : Str) : Prop :=
  ∃ u c, x = "<!--".toList ++ (u ++ [c]) ++ "-->".toList ∧ u ≠ [] ∧ c ≠ '-' ∧ '>' ∉ u ∧ ¬ ['-', '-'] <:+: u ∧ ¬ ['-', '>'] <:+: u ++ [c]

/-- A processing instruction. -/
def HtmlInstruction (x : Str) : Prop :=
  ∃ b, x = "<?".toList ++ b ++ "?>".toList ∧ ¬ "?>".toList <:+: b

/-- An upper case ASCII letter. -/
def Upper (c : Char) : Prop := 65 ≤ c.toNat ∧ c.toNat ≤ 90

/-- A declaration of the library: an upper case letter and at least one more character; for `g` upper case letters, a white space and at least one more character. -/
def HtmlDeclaration (g : Prop) (x : Str) : Prop :=
  ∃ n b, x = "<!".toList ++ (n ++ b) ++ [('>')] ∧ n ≠ [] ∧ (∀ c ∈ n, Upper c) ∧ '>' ∉ b ∧ ((¬ g ∧ b ≠ []) ∨ (g ∧ ∃ c t, b = c :: t ∧ WhiteSpace c ∧ t ≠ []))

/-- A CDATA section of the library: it is not empty. -/
def HtmlCData (x : Str) : Prop :=
  ∃ b, x = "<![CDATA[".toList ++ b ++ "]]>".toList ∧ b ≠ [] ∧ ¬ "]]>".toList <:+: b

/-- A comment of CommonMark: the text does not start with `>` or `->`, does not end with `-` and has no `--`. -/
def CMComment (x : Str) : Prop :=
  ∃ b, x = "<!--".toList ++ b ++ "-->".toList ∧ ¬ ['>'] <+: b ∧ ¬ ['-', '>'] <+: b ∧ ¬ ['-'] <:+ b ∧ ¬ ['-', '-'] <:+: b

/-- A declaration of CommonMark: a name of upper case letters, white space and a text without `>`. -/
def CMDeclaration (x : Str) : Prop :=
  ∃ n a b, x = "<!".toList ++ (n ++ a ++ b) ++ [('>')] ∧ n ≠ [] ∧ (∀ c ∈ n, Upper c) ∧ a ≠ [] ∧ (∀ c ∈ a, WhiteSpace c) ∧ '>' ∉ b

/-- A CDATA section of CommonMark: a text without `]]>`. -/
def CMCData (x : Str) : Prop := ∃ b, x = "<![CDATA[".toList ++ b ++ "]]>".toList ∧ ¬ "]]>".toList <:+: b

/-- An opening tag of CommonMark. -/
def CMOpen (n x : Str) : Prop :=
  ∃ a b e, x = '<' :: n ++ a ++ b ++ e ++ ['>'] ∧ TagName n ∧ Many (Attribute True) a ∧ (∀ c ∈ b, WhiteSpace c) ∧ (e = [] ∨ e = ['/'])

/-- A closing tag of CommonMark: a name and white space. -/
def CMClose (n x : Str) : Prop := TagName n ∧ ∃ b, x = '<' :: '/' :: n ++ b ++ ['>'] ∧ ∀ c ∈ b, WhiteSpace c

/-- The inline HTML that is removed: tags, and comments, instructions, declarations and CDATA sections without `<` in them. -/
def HtmlPiece (g : Prop) (x : Str) : Prop :=
  HtmlOpen g x ∨ HtmlClose g x ∨ ((HtmlComment x ∨ HtmlInstruction x ∨ HtmlDeclaration g x ∨ HtmlCData x) ∧ '<' ∉ x.tail)

/-- `t` is `s` without the pieces `L`, read from the left to the right: a piece of `L` is left out, and a character where no piece of `L` starts is kept. -/
inductive Deleted (L : Str → Prop) : Str → Str → Prop
  | nil : Deleted L [] []
  | piece {x s t : Str} : L x → Deleted L s t → Deleted L (x ++ s) t
  | char {c : Char} {s t : Str} : (∀ x y, c :: s = x ++ y → ¬ L x) → Deleted L s t → Deleted L (c :: s) (c :: t)

/-- `t` is `s` without inline HTML, one kind after the other. -/
def HtmlDeleted (g : Prop) (s t : Str) : Prop :=
  ∃ s1 s2 s3 s4 s5, Deleted (HtmlOpen g) s s1 ∧ Deleted (HtmlClose g) s1 s2 ∧ Deleted HtmlComment s2 s3 ∧ Deleted HtmlInstruction s3 s4 ∧
    Deleted (HtmlDeclaration g) s4 s5 ∧ Deleted HtmlCData s5 t

end MdToc.Spec
