import Verif.Constants
import Verif.Spec.Atx

/-!
# Specification of fenced code blocks

After section 4.5 of CommonMark.  A line may have its newline.
-/

namespace MdToc.Spec

/-- `c` is one of the two fence characters. -/
def IsFenceChar (c : Char) : Prop := c = '`' ∨ c = '~'

instance (c : Char) : Decidable (IsFenceChar c) := inferInstanceAs (Decidable (c = '`' ∨ c = '~'))

/-- `line` opens a code block with `n` times the character `c`. -/
def OpensWith (line : Str) (c : Char) (n : Nat) : Prop :=
  ∃ k rest, k ≤ 3 ∧ 3 ≤ n ∧ IsFenceChar c ∧ line = List.replicate k ' ' ++ List.replicate n c ++ rest ∧
    (∀ x ∈ rest.head?, x ≠ c) ∧ (c = '`' → '`' ∉ rest)

/-- `line` closes a code block opened with `n` times the character `c`. -/
def ClosesWith (p : Parser) (line : Str) (c : Char) (n : Nat) : Prop :=
  ∃ k m rest, k ≤ 3 ∧ n ≤ m ∧ line = List.replicate k ' ' ++ List.replicate m c ++ rest ∧
    ∀ x ∈ rest, atxSpace p x = true ∨ x = '\n'

/-- The text `fence` stands for a fence of `n` times the character `c`: with spaces before it, spaces and newlines after it, and three characters
without the spaces before it. -/
def FenceText (fence : Str) (c : Char) (n : Nat) : Prop :=
  ∃ a r, IsFenceChar c ∧ 1 ≤ n ∧ (∀ x ∈ r, x = ' ' ∨ x = '\n') ∧ 3 ≤ n + r.length ∧ fence = List.replicate a ' ' ++ (List.replicate n c ++ r)

/-- `ls` are consecutive lines of a document, starting and ending outside of code blocks. -/
inductive Outside (p : Parser) : List Str → Prop
  | nil : Outside p []
  | line {ls : List Str} {l : Str} : Outside p ls → (¬ ∃ c n, OpensWith l c n) → Outside p (ls ++ [l])
  | block {ls : List Str} {l : Str} {c : Char} {n : Nat} {ms : List Str} {e : Str} : Outside p ls → OpensWith l c n →
      (∀ m ∈ ms, ¬ ClosesWith p m c n) → ClosesWith p e c n → Outside p (ls ++ l :: ms ++ [e])

/-- The lines of a document outside of code blocks, the last line of each block included; `Visible p ls vs`: of the lines `ls`
these are `vs`.  A block which is not closed goes to the end. -/
inductive Visible (p : Parser) : List Str → List Str → Prop
  | nil : Visible p [] []
  | line {l : Str} {ls vs : List Str} : (¬ ∃ c n, OpensWith l c n) → Visible p ls vs → Visible p (l :: ls) (l :: vs)
  | block {l : Str} {c : Char} {n : Nat} {ms : List Str} {e : Str} {ls vs : List Str} : OpensWith l c n →
      (∀ m ∈ ms, ¬ ClosesWith p m c n) → ClosesWith p e c n → Visible p ls vs →
      Visible p (l :: ms ++ e :: ls) (e :: vs)
  | unclosed {l : Str} {c : Char} {n : Nat} {ms : List Str} : OpensWith l c n →
      (∀ m ∈ ms, ¬ ClosesWith p m c n) → Visible p (l :: ms) []

end MdToc.Spec
