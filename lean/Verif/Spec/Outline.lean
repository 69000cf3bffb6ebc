import Verif.Spec.Toc

/-!
# How CommonMark reads lists

The part of the block structure of CommonMark (section 5.2 "List items" of the specification) needed for lists whose items have one
line each.  Nothing here depends on the model.
-/

namespace MdToc.Spec

/-- Between one and four spaces, then something. -/
def Follows (spaces : Nat) (content : Str) : Prop := 1 ≤ spaces ∧ spaces ≤ 4 ∧ ∃ c t, content = c :: t ∧ c ≠ ' ' ∧ c ≠ '\t'

/-- The line is a list item: `indent` spaces, a bullet or a number of at most nine digits with a delimiter, and a content that starts in column `offset`.  The items of one
list have the same `kind`, that is the bullet or the delimiter; `digits` are the digits of the number. -/
inductive ItemLine : Str → (kind : Char) → (digits : Str) → (indent offset : Nat) → (content : Str) → Prop
  | bullet {indent spaces : Nat} {kind : Char} {content : Str} : kind = '-' ∨ kind = '+' ∨ kind = '*' → Follows spaces content →
      ItemLine (List.replicate indent ' ' ++ [kind] ++ List.replicate spaces ' ' ++ content) kind [] indent (indent + 1 + spaces) content
  | number {indent spaces : Nat} {digits : Str} {kind : Char} {content : Str} : digits ≠ [] → digits.length ≤ 9 → (∀ c ∈ digits, '0' ≤ c ∧ c ≤ '9') →
      kind = '.' ∨ kind = ')' → Follows spaces content →
      ItemLine (List.replicate indent ' ' ++ digits ++ [kind] ++ List.replicate spaces ' ' ++ content) kind digits indent (indent + digits.length + 1 + spaces) content

/-- A list may start right after a line of text: it has bullets, or its first number is one. -/
def Interrupts (digits : Str) : Prop := digits = [] ∨ digits.dropWhile (· == '0') = ['1']

/-- Reading lines of list items with the same kind.  `opened` has the columns of the contents of the items which are open, from the innermost to the outermost one; the result
has for each line its depth in the nested lists and its content.  A line goes into an open item if it has enough spaces for it and for all the items
around it; the other items are closed.  It must have less than four spaces more, otherwise it is a code block.  If nothing is closed then it comes right
after the text of the innermost item, and it starts a list only if it may interrupt that text. -/
inductive Outline (kind : Char) : (opened : List Nat) → List Str → List (Nat × Str) → Prop
  | nil {opened : List Nat} : Outline kind opened [] []
  | item {line digits content : Str} {indent offset : Nat} {closed stay : List Nat} {lines : List Str} {items : List (Nat × Str)} :
      ItemLine line kind digits indent offset content → (∀ o ∈ stay, o ≤ indent) → (∀ o ∈ closed.getLast?, indent < o) → indent < stay.head?.getD 0 + 4 →
      (closed = [] → stay = [] ∨ Interrupts digits) →
      Outline kind (offset :: stay) lines items → Outline kind (closed ++ stay) (line :: lines) ((stay.length + 1, content) :: items)

/-! ### Links (section 6.3 "Links" of the specification) -/

/-- Reading the text of a link: up to the first closing bracket that is not behind a backslash which is not itself behind one.  There must be no opening bracket of this
kind. -/
def readText : (escaped : Bool) → Str → Option (Str × Str)
  | _, [] => none
  | escaped, c :: t =>
    if escaped = false ∧ c = ']' then some ([], t)
    else if escaped = false ∧ c = '[' then none
    else (readText (!escaped && c == '\\') t).map (fun r => (c :: r.1, r.2))

/-- The characters which stand for themselves in the destination of a link: no control characters and spaces, no parentheses, no
pointy brackets, backslashes and ampersands. -/
def destChar (c : Char) : Bool := decide (33 ≤ c.toNat) && decide (c.toNat ≠ 127) && !("()<>\\&".toList.contains c)

/-- Reading the destination of a link, up to the closing parenthesis. -/
def readDest : Str → Option (Str × Str)
  | [] => none
  | c :: t => if c = ')' then some ([], t) else if destChar c then (readDest t).map (fun r => (c :: r.1, r.2)) else none

/-- Reading a link `[text](destination)`: the text, the destination and the rest. -/
def readLink (s : Str) : Option (Str × Str × Str) := do
  guard (s.head? = some '[')
  let (text, r) ← readText false (s.drop 1)
  guard (r.head? = some '(')
  let (dest, rest) ← readDest (r.drop 1)
  pure (text, dest, rest)

end MdToc.Spec
