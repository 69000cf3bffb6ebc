import Verif.Spec.Toc
import Verif.Spec.Inline
import Verif.Spec.Doc

/-!
# Specification of simple documents

A fragment of Markdown with a plain description: ASCII headings, lines of text and code blocks.
-/

namespace MdToc.Spec

/-- The text of a simple heading: printable ASCII characters, none of `#`, `&`, `*`, `<`, `[`, `\`, `]`, `_` and the backtick, no space at the ends. -/
def SimpleText (s : Str) : Prop :=
  s ≠ [] ∧ s.length ≤ 999 ∧ (∀ c ∈ s, 32 ≤ c.toNat ∧ c.toNat < 127 ∧ c ∉ "#&*<[\\]_`".toList) ∧ s.head? ≠ some ' ' ∧ s.getLast? ≠ some ' '

/-- A line of text: it does not start with a space, `#` or a fence character. -/
def SimpleLine (l : Str) : Prop := (∀ c ∈ l, ¬ IsNewline c) ∧ ∀ c ∈ l.head?, c ∉ " #`~".toList

/-- The lines of a simple document with the levels and texts of its headings. -/
inductive Simple : List Str → List (Nat × Str) → Prop
  | nil : Simple [] []
  | text {l : Str} {ls : List Str} {hs : List (Nat × Str)} : SimpleLine l → Simple ls hs → Simple ((l ++ ['\n']) :: ls) hs
  | heading {n : Nat} {s : Str} {ls : List Str} {hs : List (Nat × Str)} : 1 ≤ n → n ≤ 6 → SimpleText s → Simple ls hs →
      Simple ((List.replicate n '#' ++ ' ' :: s ++ ['\n']) :: ls) ((n, s) :: hs)
  | code {info : Str} {ms ls : List Str} {hs : List (Nat × Str)} : (∀ c ∈ info, ¬ IsNewline c ∧ c ≠ '`') →
      (∀ m ∈ ms, ∃ b, m = b ++ ['\n'] ∧ ∀ c ∈ b, ¬ IsNewline c ∧ c ≠ '`') → Simple ls hs →
      Simple (("```".toList ++ info ++ ['\n']) :: ms ++ "```\n".toList :: ls) hs

/-- The slug of a simple text: letters in lower case, digits and hyphens stay, spaces become hyphens, the rest is dropped. -/
def simpleSlug : Str → Str
  | [] => []
  | c :: t =>
    if c = ' ' then '-' :: simpleSlug t
    else if 'A' ≤ c ∧ c ≤ 'Z' then Char.ofNat (c.toNat + 32) :: simpleSlug t
    else if ('a' ≤ c ∧ c ≤ 'z') ∨ ('0' ≤ c ∧ c ≤ '9') ∨ c = '-' then c :: simpleSlug t
    else simpleSlug t

end MdToc.Spec
