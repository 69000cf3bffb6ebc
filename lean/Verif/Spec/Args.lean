import Verif.Args
import Verif.Spec.Toc

/-!
# Specification of the command line
-/

namespace MdToc.Spec

/-- The names of the markdown parsers. -/
def parserNames : List (Str × Parser) :=
  [("github".toList, .github), ("commonmarker".toList, .commonmarker), ("gitlab".toList, .gitlab), ("cmark".toList, .cmark),
   ("goldmark".toList, .goldmark), ("redcarpet".toList, .redcarpet)]

/-- The valid command lines, as documented. -/
structure ValidCommand (r : RawArgs) : Prop where
  parser : ∃ p, (r.parser, p) ∈ parserNames
  bullet : ∀ v, r.unordered = some (some v) → v ∈ bullets
  delimiter : ∀ p v, (r.parser, p) ∈ parserNames → r.ordered = some (some v) → v ∈ delimiters p
  levels : ∀ l, r.headerLevels = some (some l) → 1 ≤ l ∧ l ≤ 6
  newline : ∀ s, r.newline = some s → s ∈ ["\\n".toList, "\\r".toList, "\\r\\n".toList]
  lists : ∀ v, r.unordered = some (some v) → v ≠ "-".toList → r.ordered = none
  indent : ¬ (r.noListCoherence = true ∧ r.noIndentation = true)

/-- The list is ordered. -/
def commandOrdered (r : RawArgs) : Bool := r.ordered.isSome || r.constantOrdered

/-- The marker of the list. -/
def commandMarker (r : RawArgs) : Str :=
  if commandOrdered r then (match r.ordered with | some (some v) => v | _ => ".".toList)
  else (match r.unordered with | some (some v) => v | _ => "-".toList)

/-- The greatest level in the list. -/
def commandLevels (r : RawArgs) : Int := match r.headerLevels with | some (some l) => l | _ => 6

/-- The newline of the list. -/
def commandNewline (r : RawArgs) : Str :=
  match r.newline with
  | none => "\n".toList
  | some s => if s = "\\n".toList then "\n".toList else if s = "\\r".toList then "\r".toList else "\r\n".toList

end MdToc.Spec
