import Verif.Spec.Inline
import Verif.Spec.Raw

/-!
# Specification of the text of a heading without its emphasis

A text is a sequence of pieces: characters, escaped characters, code spans, inline HTML, autolinks and runs of `*` or `_`.  Whether a run can open or close
emphasis follows the definition of CommonMark (section "Emphasis and strong emphasis", left- and right-flanking delimiter runs).
Nothing here depends on the model.
-/

namespace MdToc.Spec

/-- White space; the start and the end of the text count as white space. -/
def White (o : Option Char) : Prop := ∀ c ∈ o, UniSpace c

/-- Punctuation; `punct` are the characters of the Unicode category P. -/
def Punct (punct : Char → Bool) (o : Option Char) : Prop := ∃ c ∈ o, AsciiPunct c ∨ punct c = true

/-- A left-flanking run, given the characters before and after the run. -/
def LeftFlanking (punct : Char → Bool) (before after : Option Char) : Prop :=
  ¬ White after ∧ (¬ Punct punct after ∨ White before ∨ Punct punct before)

/-- A right-flanking run, given the characters before and after the run. -/
def RightFlanking (punct : Char → Bool) (before after : Option Char) : Prop :=
  ¬ White before ∧ (¬ Punct punct before ∨ White after ∨ Punct punct after)

/-- A run of `c` that can open emphasis. -/
def CanOpen (punct : Char → Bool) (c : Char) (before after : Option Char) : Prop :=
  LeftFlanking punct before after ∧ (c = '_' → ¬ RightFlanking punct before after ∨ Punct punct before)

/-- A run of `c` that can close emphasis. -/
def CanClose (punct : Char → Bool) (c : Char) (before after : Option Char) : Prop :=
  RightFlanking punct before after ∧ (c = '_' → ¬ LeftFlanking punct before after ∨ Punct punct after)

/-- A piece of a text.  The number of a run and of a code span is the number of its characters minus one. -/
inductive Piece
  /-- A character. -/
  | char (c : Char)
  /-- A backslash and a character. -/
  | escape (c : Char)
  /-- A code span. -/
  | code (n : Nat) (body : Str)
  /-- Inline HTML or an autolink, without the angle brackets. -/
  | raw (inside : Str)
  /-- A run which neither opens nor closes emphasis. -/
  | run (c : Char) (n : Nat)
  /-- A run which opens emphasis. -/
  | opens (c : Char) (n : Nat)
  /-- A run which closes emphasis. -/
  | closes (c : Char) (n : Nat)
  /-- A run which could open emphasis that nothing closes. -/
  | strayOpen (c : Char) (n : Nat)
  /-- A run which could close emphasis that nothing opens. -/
  | strayClose (c : Char) (n : Nat)
  /-- A run which could both open and close emphasis. -/
  | both (c : Char) (n : Nat)
  deriving DecidableEq

/-- The text of a piece. -/
def Piece.text : Piece → Str
  | char c => [c]
  | escape c => ['\\', c]
  | code n body => List.replicate (n + 1) '`' ++ body ++ List.replicate (n + 1) '`'
  | raw inside => '<' :: (inside ++ ['>'])
  | run c n | opens c n | closes c n | strayOpen c n | strayClose c n | both c n => List.replicate (n + 1) c

/-- The part of a piece that stays: nothing of the runs which open or close emphasis. -/
def Piece.shown : Piece → Str
  | opens _ _ | closes _ _ => []
  | p => p.text

/-- The text of a sequence of pieces. -/
def text (ps : List Piece) : Str := ps.flatMap Piece.text

/-- The text of a sequence of pieces without the emphasis. -/
def shown (ps : List Piece) : Str := ps.flatMap Piece.shown

/-- The character before a run which the code looks at: it steps back over the characters from 128 to 191, up to the first one of the text. -/
def seenBefore (before : Str) : Option Char :=
  (before.reverse.dropWhile (fun c => decide (128 ≤ c.toNat ∧ c.toNat ≤ 191))).head?.or before.head?

/-- A run of `c` between two texts, where it makes no difference that the code looks at `seenBefore`. -/
def IsRun (punct : Char → Bool) (c : Char) (before after : Str) : Prop :=
  (c = '*' ∨ c = '_') ∧ after.head? ≠ some c ∧ (CanOpen punct c (seenBefore before) after.head? ↔ CanOpen punct c before.getLast? after.head?) ∧
    (CanClose punct c (seenBefore before) after.head? ↔ CanClose punct c before.getLast? after.head?)

/-- What may follow `&`: there is no `;` behind it, or the text up to a blank, a `;` or the end has no special characters
and does not start like a numeric reference. -/
def AfterAmp (after : Str) : Prop :=
  ';' ∉ after ∨ (after.head? ≠ some '#' ∧ ∃ u v, after = u ++ v ∧ (∀ c ∈ u, Plain c) ∧ (v = [] ∨ (2 ≤ u.length ∧ (v.head? = some ';' ∨ v.head? = some ' '))))

/-- The piece, between two texts, is what it says. -/
def Piece.Ok (punct : Char → Bool) (before after : Str) : Piece → Prop
  | char c => Plain c ∨ (c = '&' ∧ AfterAmp after) ∨ (c = '<' ∧ (∀ x y, '<' :: after = x ++ y → ¬ ScanTag x) ∧ after.head? ≠ some '!' ∧ after.head? ≠ some '?') ∨
      c = '[' ∨ (c = ']' ∧ after.head? ≠ some '(' ∧ NoLabel after)
  | escape c => AsciiPunct c
  | code n body => n < 1000 ∧ body ≠ [] ∧ '\x00' ∉ body ∧ body.getLast? ≠ some '\r' ∧ body.head? ≠ some '`' ∧ body.getLast? ≠ some '`' ∧ after.head? ≠ some '`' ∧
      ∀ x y, body = x ++ List.replicate (n + 1) '`' ++ y → x.getLast? = some '`' ∨ y.head? = some '`'
  | raw inside => RawInline ('<' :: (inside ++ ['>']))
  | run c _ => IsRun punct c before after ∧ ¬ CanOpen punct c before.getLast? after.head? ∧ ¬ CanClose punct c before.getLast? after.head?
  | opens c _ | strayOpen c _ => IsRun punct c before after ∧ CanOpen punct c before.getLast? after.head? ∧ ¬ CanClose punct c before.getLast? after.head?
  | closes c _ | strayClose c _ => IsRun punct c before after ∧ ¬ CanOpen punct c before.getLast? after.head? ∧ CanClose punct c before.getLast? after.head?
  | both c _ => IsRun punct c before after ∧ CanOpen punct c before.getLast? after.head? ∧ CanClose punct c before.getLast? after.head?

/-- Every piece is what it says. -/
def Placed (punct : Char → Bool) (ps : List Piece) : Prop :=
  ∀ x p y, ps = x ++ p :: y → p.Ok punct (text x) (text y)

/-- Pieces without a part in emphasis. -/
def Piece.Leaf : Piece → Prop
  | char _ | escape _ | code _ _ | raw _ | run _ _ => True
  | _ => False

/-- The runs which open and close emphasis come in pairs of the same character and length, which may be nested. -/
inductive Paired : List Piece → Prop
  | nil : Paired []
  | leaf {p ps} : p.Leaf → Paired ps → Paired (p :: ps)
  | pair {c n a b} : Paired a → Paired b → Paired (.opens c n :: (a ++ .closes c n :: b))

/-- The same with stray runs outside of the pairs. -/
inductive Balanced : List Piece → Prop
  | nil : Balanced []
  | leaf {p ps} : p.Leaf → Balanced ps → Balanced (p :: ps)
  | pair {c n a b} : Paired a → Balanced b → Balanced (.opens c n :: (a ++ .closes c n :: b))
  | strayOpen {c n ps} : Balanced ps → Balanced (.strayOpen c n :: ps)
  | strayClose {c n ps} : Balanced ps → Balanced (.strayClose c n :: ps)

/-- A stray closing run does not come after a stray opening run of the same character. -/
def Uncrossed (ps : List Piece) : Prop :=
  ∀ c n m x y z, ps ≠ x ++ .strayOpen c n :: (y ++ .strayClose c m :: z)

/-- `t` is `s` without its emphasis. -/
def Unmarked (punct : Char → Bool) (s t : Str) : Prop :=
  ∃ ps, s = text ps ∧ t = shown ps ∧ Placed punct ps ∧ Balanced ps ∧ Uncrossed ps

/-- Neither white space nor punctuation. -/
def InWord (punct : Char → Bool) (c : Char) : Prop := Plain c ∧ ¬ UniSpace c ∧ ¬ AsciiPunct c ∧ punct c = false

/-- Underscores stand inside words only: between two characters which are neither white space nor punctuation, and so is the character before them which the code looks at. -/
def InsideWords (punct : Char → Bool) (s : Str) : Prop :=
  ∀ x n y, s = x ++ List.replicate (n + 1) '_' ++ y → x.getLast? ≠ some '_' → y.head? ≠ some '_' →
    (∃ c ∈ x.getLast?, InWord punct c) ∧ (∃ c ∈ seenBefore x, InWord punct c) ∧ ∃ c ∈ y.head?, InWord punct c

end MdToc.Spec
