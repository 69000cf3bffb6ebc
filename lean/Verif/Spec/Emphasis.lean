import Verif.Spec.Markup

/-!
# Specification of emphasis: the procedure of CommonMark

After the appendix "A parsing strategy" of CommonMark (procedure "process emphasis"), without its `openers_bottom`, which only
makes the search shorter.  The result says which runs are matched; nothing here depends on the model.
-/

namespace MdToc.Spec

/-- A run of delimiters: where it starts, its character, its number of characters, how many are not used yet, whether it can open or close emphasis. -/
structure Mark where
  pos : Nat
  ch : Char
  size : Nat
  left : Nat
  opens : Bool
  closes : Bool

/-- The run `o` can be the opening run for the closing run `c` (rules 9 and 10 of the section on emphasis: the "multiple of 3" rule). -/
def Fits (o c : Mark) : Prop :=
  o.opens = true ∧ o.ch = c.ch ∧ (c.opens = true ∨ o.closes = true → (o.size + c.size) % 3 = 0 → o.size % 3 = 0 ∧ c.size % 3 = 0)

/-- Strong emphasis if both runs have two characters left. -/
def strength (o c : Mark) : Nat := if 2 ≤ o.left ∧ 2 ≤ c.left then 2 else 1

/-- The run after `u` of its characters are used. -/
def Mark.less (m : Mark) (u : Nat) : List Mark := if m.left = u then [] else [{ m with left := m.left - u }]

/-- One match: the position of the opening run, the one of the closing run, the number of characters used of each. -/
structure Match where
  opener : Nat
  closer : Nat
  used : Nat

/-- `Matched before after ms`: the runs `before` (nearest first) have been passed, `after` are still to be looked at, the matches to come are `ms`. -/
inductive Matched : List Mark → List Mark → List Match → Prop
  /-- The end. -/
  | done {b} : Matched b [] []
  /-- A run which does not close emphasis. -/
  | skip {b c r ms} : c.closes = false → Matched (c :: b) r ms → Matched b (c :: r) ms
  /-- No opening run for it. -/
  | none {b c r ms} : c.closes = true → (∀ o ∈ b, ¬ Fits o c) → Matched (if c.opens then c :: b else b) r ms → Matched b (c :: r) ms
  /-- The nearest opening run is used; the runs between are not looked at any more. -/
  | some {x o y c r ms} : c.closes = true → (∀ o' ∈ x, ¬ Fits o' c) → Fits o c → Matched (o.less (strength o c) ++ y) (c.less (strength o c) ++ r) ms →
      Matched (x ++ o :: y) (c :: r) (⟨o.pos, c.pos, strength o c⟩ :: ms)

/-- The runs of a piece at a position that take part in emphasis. -/
def pieceMarks (k : Nat) : Piece → List Mark
  | .opens c n | .strayOpen c n => [⟨k, c, n + 1, n + 1, true, false⟩]
  | .closes c n | .strayClose c n => [⟨k, c, n + 1, n + 1, false, true⟩]
  | .both c n => [⟨k, c, n + 1, n + 1, true, true⟩]
  | _ => []

/-- The runs of a sequence of pieces. -/
def marks (k : Nat) : List Piece → List Mark
  | [] => []
  | p :: ps => pieceMarks k p ++ marks (k + p.text.length) ps

/-- The number of characters that the run at a position loses as a closing run. -/
def closedAt (ms : List Match) (k : Nat) : Nat := ((ms.filter (fun m => m.closer == k)).map Match.used).sum

/-- The number of characters that the run at a position loses as an opening run. -/
def openedAt (ms : List Match) (k : Nat) : Nat := ((ms.filter (fun m => m.opener == k)).map Match.used).sum

/-- A piece at a position, where `kept n a b` characters are left of a run of `n` characters which loses `a` as a closing and `b` as an opening run. -/
def Piece.leftBy (kept : Nat → Nat → Nat → Nat) (ms : List Match) (k : Nat) : Piece → Str
  | .opens c n | .closes c n | .strayOpen c n | .strayClose c n | .both c n => List.replicate (kept (n + 1) (closedAt ms k) (openedAt ms k)) c
  | p => p.text

/-- The same for a sequence of pieces. -/
def leftBy (kept : Nat → Nat → Nat → Nat) (ms : List Match) (k : Nat) : List Piece → Str
  | [] => []
  | p :: ps => p.leftBy kept ms k ++ leftBy kept ms (k + p.text.length) ps

/-- What CommonMark keeps: all characters which are not used. -/
def unused (n a b : Nat) : Nat := n - a - b

/-- `t` is the text of the pieces without the delimiters of emphasis. -/
def WithoutEmphasis (ps : List Piece) (t : Str) : Prop := ∃ ms, Matched [] (marks 0 ps) ms ∧ t = leftBy unused ms 0 ps

/-- No run of underscores can both open and close emphasis. -/
def OneWayUnderscores (ps : List Piece) : Prop := ∀ n, .both '_' n ∉ ps

/-- No run is used both as a closing and as an opening run, except for long ones. -/
def Clear (ps : List Piece) : Prop :=
  ∀ ms, Matched [] (marks 0 ps) ms → ∀ m ∈ marks 0 ps, openedAt ms m.pos = 0 ∨ 2 * closedAt ms m.pos + openedAt ms m.pos ≤ m.size

end MdToc.Spec
