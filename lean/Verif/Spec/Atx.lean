import Verif.Constants

/-!
# Specification of ATX headings

After sections 4.2 of CommonMark (0.30) and GFM (0.29), for one line without its newline.
-/

namespace MdToc.Spec

/-- White space in a heading: spaces, and tabs except for GFM 0.29. -/
def atxSpace (p : Parser) (c : Char) : Bool :=
  match p with
  | .github | .commonmarker => c == ' '
  | _ => c == ' ' || c == '\t'

/-- `line` is a heading of level `n` and `rest` is what follows the opening sequence. -/
def IsAtx (p : Parser) (line : Str) (n : Nat) (rest : Str) : Prop :=
  ∃ k, k ≤ 3 ∧ 1 ≤ n ∧ n ≤ 6 ∧
    line = List.replicate k ' ' ++ List.replicate n '#' ++ rest ∧ ∀ c ∈ rest.head?, atxSpace p c = true

/-- `c` is `s` without the white space at both ends. -/
def Trimmed (sp : Char → Bool) (s c : Str) : Prop :=
  ∃ l r, s = l ++ c ++ r ∧ (∀ x ∈ l, sp x = true) ∧ (∀ x ∈ r, sp x = true) ∧
    (∀ x ∈ c.head?, sp x = false) ∧ (∀ x ∈ c.getLast?, sp x = false)

/-- `rest` is `a` followed by a closing sequence of `#` and white space; the sequence must be preceded by
white space. -/
def ClosedBy (sp : Char → Bool) (rest a : Str) : Prop :=
  ∃ h b, rest = a ++ h ++ b ∧ h ≠ [] ∧ (∀ x ∈ h, x = '#') ∧ (∀ x ∈ b, sp x = true) ∧
    ∃ x ∈ a.getLast?, sp x = true

/-- The raw content of a heading: what is left without the closing sequence and the white space at both
ends. -/
def RawContent (sp : Char → Bool) (rest c : Str) : Prop :=
  (∃ a, ClosedBy sp rest a ∧ Trimmed sp a c) ∨ ((¬ ∃ a, ClosedBy sp rest a) ∧ Trimmed sp rest c)

/-- `rest` has nothing but two runs of `#` separated by white space. -/
def TwoRuns (sp : Char → Bool) (rest : Str) : Prop :=
  ∃ s0 h0 s1 h1 s2, rest = s0 ++ h0 ++ s1 ++ h1 ++ s2 ∧
    h0 ≠ [] ∧ s1 ≠ [] ∧ h1 ≠ [] ∧ (∀ x ∈ h0 ++ h1, x = '#') ∧ (∀ x ∈ s0 ++ s1 ++ s2, sp x = true)

/-- The text the code gives to a heading: the raw content, except for the defect of C09. -/
def HeadingText (sp : Char → Bool) (rest c : Str) : Prop :=
  (TwoRuns sp rest → c = []) ∧ (¬ TwoRuns sp rest → RawContent sp rest c)

/-- The number of backslashes at the end of `s`. -/
def trailingBackslashes (s : Str) : Nat := (s.reverse.takeWhile (· == '\\')).length

/-- The `[` or `]` after `pre` is escaped by a backslash. -/
def Escaped (pre : Str) : Prop := trailingBackslashes pre % 2 = 1

/-- Square bracket. -/
def IsBracket (c : Char) : Prop := c = '[' ∨ c = ']'

/-- Every square bracket of `s` is escaped. -/
def AllEscaped (s : Str) : Prop :=
  ∀ pre c post, s = pre ++ c :: post → IsBracket c → Escaped pre

/-- `t` is `s` with some backslashes inserted directly in front of square brackets. -/
inductive Inserted : Str → Str → Prop
  | nil : Inserted [] []
  | keep (c : Char) {s t} : Inserted s t → Inserted (c :: s) (c :: t)
  | ins (c : Char) {s t} : IsBracket c → Inserted s t → Inserted (c :: s) ('\\' :: c :: t)

/-- `s` with a backslash in front of every square bracket that has none; `odd` tells whether an odd number of
backslashes precedes `s`. -/
def escapeBrackets : Bool → Str → Str
  | _, [] => []
  | odd, c :: t =>
    if c = '\\' then c :: escapeBrackets (!odd) t
    else if (c = '[' ∨ c = ']') ∧ odd = false then '\\' :: c :: escapeBrackets false t
    else c :: escapeBrackets false t

/-- A text that ends with a backslash gets a space. -/
def padded (c : Str) : Str := if c.getLast? = some '\\' then c ++ [' '] else c

/-- The label of a heading text. -/
def label (c : Str) : Str := escapeBrackets false (padded c)

/-- White space of a link label. -/
def isBlankChar (c : Char) : Bool :=
  c == ' ' || c == '\t' || c == '\n' || c == '\x0b' || c == '\x0c' || c == '\r'

/-- `line` is a heading of level `n` for redcarpet and `rest` is what follows the opening sequence. -/
def IsRedcarpetAtx (line : Str) (n : Nat) (rest : Str) : Prop :=
  1 ≤ n ∧ n ≤ 6 ∧ line = List.replicate n '#' ++ rest ∧ ∀ c ∈ rest.head?, c = ' '

/-- `c` is the text of a redcarpet heading: `rest` without the spaces in front, without all the `#` at the end
and then without the spaces at the end. -/
def RedcarpetContent (rest c : Str) : Prop :=
  ∃ l m h, rest = l ++ c ++ m ++ h ∧ (∀ x ∈ l ++ m, x = ' ') ∧ (∀ x ∈ h, x = '#') ∧
    (∀ x ∈ (c ++ m).getLast?, x ≠ '#') ∧ (∀ x ∈ c.getLast?, x ≠ ' ') ∧ (∀ x ∈ (c ++ m ++ h).head?, x ≠ ' ')

/-- `line` is `body` with newlines around it. -/
def Body (line body : Str) : Prop :=
  ∃ a b, line = a ++ body ++ b ∧ (∀ c ∈ a ++ b, c = '\n' ∨ c = '\r') ∧ (∀ c ∈ body, c ≠ '\n' ∧ c ≠ '\r')

end MdToc.Spec
