import Verif.Py
import Verif.Spec.Anchor

/-!
# Specification of text files as lists of lines
-/

namespace MdToc.Spec

/-- `eol` ends a line when the text `t` follows. -/
def IsEol (eol t : Str) : Prop := eol = ['\n'] ∨ eol = ['\r', '\n'] ∨ (eol = ['\r'] ∧ t.head? ≠ some '\n')

/-- The lines of a text read with universal newlines: every line end becomes a line feed. -/
inductive Reads : Str → List Str → Prop
  | nil : Reads [] []
  | last {b : Str} : b ≠ [] → (∀ c ∈ b, ¬ IsNewline c) → Reads b [b]
  | line {b eol t : Str} {ls : List Str} : (∀ c ∈ b, ¬ IsNewline c) → IsEol eol t → Reads t ls →
      Reads (b ++ eol ++ t) ((b ++ ['\n']) :: ls)

end MdToc.Spec
