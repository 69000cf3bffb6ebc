import Verif.Constants

/-!
# Specification of texts of several lines
-/

namespace MdToc.Spec

/-- `text` is the lines `ls` with a line end (`\n`, `\r\n` or `\r`) between every two. -/
inductive Rows : Str → List Str → Prop
  | one {l : Str} : (∀ c ∈ l, c ≠ '\n' ∧ c ≠ '\r') → Rows l [l]
  | lf {l t : Str} {ls : List Str} : (∀ c ∈ l, c ≠ '\n' ∧ c ≠ '\r') → Rows t ls → Rows (l ++ '\n' :: t) (l :: ls)
  | crlf {l t : Str} {ls : List Str} : (∀ c ∈ l, c ≠ '\n' ∧ c ≠ '\r') → Rows t ls → Rows (l ++ '\r' :: '\n' :: t) (l :: ls)
  | cr {l t : Str} {ls : List Str} : (∀ c ∈ l, c ≠ '\n' ∧ c ≠ '\r') → t.head? ≠ some '\n' → Rows t ls →
      Rows (l ++ '\r' :: t) (l :: ls)

/-- `text` is the lines `ls`, the first and the last of them not empty, with line ends in front and behind. -/
def HasRows (text : Str) (ls : List Str) : Prop :=
  ∃ a t b, text = a ++ t ++ b ∧ (∀ c ∈ a ++ b, c = '\n' ∨ c = '\r') ∧ Rows t ls ∧
    (∀ l ∈ ls.head?, l ≠ []) ∧ (∀ l ∈ ls.getLast?, l ≠ [])

/-- The line makes the headings after it invisible if it is in the same call: for redcarpet a heading without text, for the others a line
that starts with more hashes than headings are kept, be it a heading or not. -/
def Hides (p : Parser) (keep : Int) (l : Str) : Prop :=
  match p with
  | .redcarpet => ∃ n k m : Nat, 1 ≤ n ∧ n ≤ 6 ∧ (k = 0 → m = 0) ∧
      l = List.replicate n '#' ++ List.replicate k ' ' ++ List.replicate m '#'
  | _ => ∃ (k n : Nat) (rest : Str), k ≤ 3 ∧ keep < n ∧ 1 ≤ n ∧ n ≤ 6 ∧ rest.head? ≠ some '#' ∧
      l = List.replicate k ' ' ++ List.replicate n '#' ++ rest

end MdToc.Spec
