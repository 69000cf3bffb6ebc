import Verif.Spec.Atx

/-!
# Specification of the ways to write a heading
-/

namespace MdToc.Spec

/-- What may follow the text of a heading: white space, or a closing sequence of `#` with white space around it. -/
def Ending (sp : Char → Bool) (e : Str) : Prop :=
  (∀ x ∈ e, sp x = true) ∨
    ∃ u h v, e = u ++ h ++ v ∧ u ≠ [] ∧ h ≠ [] ∧ (∀ x ∈ u ++ v, sp x = true) ∧ ∀ x ∈ h, x = '#'

/-- A text that can be read in a heading: it is not empty, has no white space at its ends, and if there are `#` at its end, they belong to a word. -/
def OwnText (sp : Char → Bool) (c : Str) : Prop :=
  c ≠ [] ∧ (∀ x ∈ c.head?, sp x = false) ∧ (∀ x ∈ c.getLast?, sp x = false) ∧ (∀ x ∈ c, x ≠ '\n' ∧ x ≠ '\r') ∧
    ∀ a h, c = a ++ h → h ≠ [] → (∀ x ∈ h, x = '#') → a ≠ [] ∧ ∀ x ∈ a.getLast?, sp x = false

/-- The line `l` is one of the ways to write a heading of level `n` with the text `c`. -/
def Written (sp : Char → Bool) (n : Nat) (c l : Str) : Prop :=
  ∃ k s e f, k ≤ 3 ∧ s ≠ [] ∧ (∀ x ∈ s, sp x = true) ∧ Ending sp e ∧ (f = [] ∨ f = ['\n']) ∧
    l = List.replicate k ' ' ++ List.replicate n '#' ++ (s ++ c ++ e) ++ f

/-- The same for redcarpet: no spaces before the heading, only spaces as white space, none at the end after a closing sequence. -/
def WrittenRedcarpet (n : Nat) (c l : Str) : Prop :=
  ∃ k j i f, (f = [] ∨ f = ['\n']) ∧
    l = List.replicate n '#' ++ (List.replicate (k + 1) ' ' ++ c ++ List.replicate j ' ' ++ List.replicate i '#') ++ f

end MdToc.Spec
