import Verif.Spec.Fence
import Verif.Spec.Atx

/-!
# Specification of the table of contents
-/

namespace MdToc.Spec

/-- The line has at most three spaces in front. -/
def SmallIndent (line : Str) : Prop := ∃ k s, line = List.replicate k ' ' ++ s ∧ k ≤ 3 ∧ s.head? ≠ some ' '

/-- The lines of a document which are looked at for headings.  For the standard input (`file = false`) these are the lines
outside of code blocks and the closing fences, as in `Visible`.  For files the last line is looked at even if it is in an unclosed code block, unless it has more than
three spaces in front; this is a defect, see C19. -/
inductive Seen (p : Parser) (file : Bool) : List Str → List Str → Prop
  | nil : Seen p file [] []
  | line {l : Str} {ls vs : List Str} : (¬ ∃ c n, OpensWith l c n) → Seen p file ls vs → Seen p file (l :: ls) (l :: vs)
  | block {l : Str} {c : Char} {n : Nat} {ms : List Str} {e : Str} {ls vs : List Str} : OpensWith l c n →
      (∀ m ∈ ms, ¬ ClosesWith p m c n) → ClosesWith p e c n → Seen p file ls vs →
      Seen p file (l :: ms ++ e :: ls) (e :: vs)
  | unclosed {l : Str} {c : Char} {n : Nat} {ms : List Str} : OpensWith l c n →
      (∀ m ∈ ms, ¬ ClosesWith p m c n) → (file = true → ∀ m ∈ ms.getLast?, ¬ SmallIndent m) → Seen p file (l :: ms) []
  | lastLine {l : Str} {c : Char} {n : Nat} {ms : List Str} {m : Str} : OpensWith l c n →
      (∀ m ∈ ms, ¬ ClosesWith p m c n) → ¬ ClosesWith p m c n → file = true → SmallIndent m → Seen p file (l :: ms ++ [m]) [m]

/-- The lines looked at, for any parser: redcarpet has no code blocks. -/
def SeenLines (p : Parser) (file : Bool) (ls vs : List Str) : Prop :=
  if p = .redcarpet then vs = ls else Seen p file ls vs

/-- `line` is a heading of level `n` with the label `t`.  The case of `TwoRuns` is a defect, see C09. -/
def Heading (p : Parser) (noLinks : Bool) (line : Str) (n : Nat) (t : Str) : Prop :=
  ∃ body rest c, Body line body ∧
    if p = .redcarpet then
      IsRedcarpetAtx body n rest ∧ RedcarpetContent rest c ∧ c ≠ [] ∧
        t = (if noLinks = false ∧ body.getLast? = some '\\' then c ++ [' '] else c)
    else
      IsAtx p body n rest ∧ HeadingText (atxSpace p) rest c ∧
        t = (if noLinks then c else label c)

/-- The levels and labels of the headings among the lines, in order. -/
inductive Headings (p : Parser) (noLinks : Bool) : List Str → List (Nat × Str) → Prop
  | nil : Headings p noLinks [] []
  | other {l : Str} {ls : List Str} {hs : List (Nat × Str)} : (¬ ∃ n t, Heading p noLinks l n t) → Headings p noLinks ls hs →
      Headings p noLinks (l :: ls) hs
  | heading {l : Str} {n : Nat} {t : Str} {ls : List Str} {hs : List (Nat × Str)} : Heading p noLinks l n t → Headings p noLinks ls hs →
      Headings p noLinks (l :: ls) ((n, t) :: hs)

/-- Headings of level `n` are listed.  Redcarpet ignores the limit, see C23. -/
def listed (p : Parser) (keep : Int) (n : Nat) : Bool := decide (p = .redcarpet) || decide ((n : Int) ≤ keep)

/-- An entry of the table of contents. -/
structure Entry where
  level : Nat
  number : Nat
  indent : Nat
  text : Str
  anchor : Str
  deriving DecidableEq, Repr

/-- The bullet, or the number with its delimiter. -/
def markerText (ordered : Bool) (marker : Str) (number : Nat) : Str :=
  if ordered then (toString number).toList ++ marker else marker

/-- The content of an entry. -/
def Entry.content (noLinks : Bool) (e : Entry) : Str :=
  if noLinks then e.text else "[".toList ++ e.text ++ "](#".toList ++ e.anchor ++ ")".toList

/-- The line of an entry. -/
def Entry.line (ordered noLinks : Bool) (marker nl : Str) (e : Entry) : Str :=
  List.replicate e.indent ' ' ++ markerText ordered marker e.number ++ " ".toList ++ e.content noLinks ++ nl

/-- One plus the number of previous siblings of an entry of level `n` after entries of the levels `before`: the earlier entries of the same level with no entry of a smaller level after
them. -/
def siblingNumber (before : List Nat) (n : Nat) : Nat := (before.reverse.takeWhile (fun m => n ≤ m)).count n + 1

/-- The parent of an entry of level `n` after the entries `before`: the last one of a smaller level. -/
def parent (before : List Entry) (n : Nat) : Option Entry := before.reverse.find? (fun e => e.level < n)

/-- An entry after the entries `before` is placed right: at the left if it has no parent, else its marker is right below the content of the parent: after the spaces in front of the parent, the
marker text of the parent and one space. -/
def Nested (ordered : Bool) (marker : Str) (before : List Entry) (e : Entry) : Prop :=
  match parent before e.level with
  | none => e.indent = 0
  | some q => e.indent = q.indent + (markerText ordered marker q.number).length + 1

/-- The levels are those of a proper list: none is smaller than the first one, and each one is at most one more than the one before. -/
def Coherent (levels : List Nat) : Prop :=
  (∀ f ∈ levels.head?, ∀ n ∈ levels, f ≤ n) ∧ ∀ pre a b post, levels = pre ++ a :: b :: post → b ≤ a + 1

/-- A property of each element of a list and the elements before it. -/
def Each {α : Type} (P : List α → α → Prop) (es : List α) : Prop := ∀ pre e post, es = pre ++ e :: post → P pre e

/-- The delimiters of list numbers. -/
def delimiters (p : Parser) : List Str := if p = .redcarpet then [".".toList] else [".".toList, ")".toList]

/-- The bullets. -/
def bullets : List Str := ["-".toList, "+".toList, "*".toList]

/-- The marker in the list when `given` is asked for: ordered lists take a point instead of an unknown delimiter. -/
def usedMarker (p : Parser) (ordered : Bool) (given : Str) : Str :=
  if ordered then (if given ∈ delimiters p then given else ".".toList) else given

/-- A line which is neither a heading nor the start of a code block. -/
def PlainLine (p : Parser) (l : Str) : Prop := (¬ ∃ c n, OpensWith l c n) ∧ ¬ ∃ n t, Heading p true l n t

end MdToc.Spec
