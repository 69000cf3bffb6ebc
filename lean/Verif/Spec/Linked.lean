import Verif.Spec.Markup

/-!
# Specification of the text of a heading without its emphasis: links

A text is a sequence of pieces and of links; the text of a link is a sequence of pieces.  Links bind more tightly
than emphasis (CommonMark, section "Links"): the runs in the text of a link are paired among themselves, and for the runs outside
a link is like a code span.  Nothing here depends on the model.
-/

namespace MdToc.Spec

/-- A piece, or a link with its text and what stands between the parentheses. -/
inductive Part
  | piece (p : Piece)
  | link (inner : List Piece) (dest : Str)

/-- The text of a part. -/
def Part.text : Part → Str
  | piece p => p.text
  | link a d => '[' :: (Spec.text a ++ (']' :: '(' :: (d ++ [')'])))

/-- The part of it that stays. -/
def Part.shown : Part → Str
  | piece p => p.shown
  | link a d => '[' :: (Spec.shown a ++ (']' :: '(' :: (d ++ [')'])))

/-- The text of a sequence of parts. -/
def fullText (ps : List Part) : Str := ps.flatMap Part.text

/-- The text of a sequence of parts without the emphasis. -/
def fullShown (ps : List Part) : Str := ps.flatMap Part.shown

/-- A link seen from outside: as a code span. -/
def Part.outer : Part → Piece
  | piece p => p
  | link a d => .code 0 (Spec.text a ++ (']' :: '(' :: d))

/-- The parentheses that are open after a text, if `k` are open before; none if one is closed that is not open, or if there are more than 32. -/
def parens : Nat → Str → Option Nat
  | k, [] => some k
  | k, c :: t =>
    if c = '(' then (if k < 32 then parens (k + 1) t else none)
    else if c = ')' then (if k = 0 then none else parens (k - 1) t)
    else parens k t

/-- A destination of a link without white space, backslashes and references; parentheses are balanced. -/
def Dest (d : Str) : Prop :=
  (∀ c ∈ d, 33 ≤ c.toNat ∧ ¬ UniSpace c ∧ c ≠ '\\') ∧ d.head? ≠ some '<' ∧ ('&' ∈ d → ';' ∉ d) ∧ parens 0 d = some 0

/-- Spaces and tabs. -/
def Blanks (w : Str) : Prop := ∀ c ∈ w, c = ' ' ∨ c = '\t'

/-- A destination in pointy brackets, without backslashes and references. -/
def Pointy (u : Str) : Prop :=
  ∃ b, u = '<' :: (b ++ ['>']) ∧ (∀ c ∈ b, c ≠ '<' ∧ c ≠ '>' ∧ c ≠ '\\' ∧ c ≠ '\n' ∧ c ≠ '\x00') ∧ ('&' ∈ b → ';' ∉ b)

/-- A title in quotes, without backslashes and references.  (Titles in parentheses are left out: the code does not read them.) -/
def Title (t : Str) : Prop :=
  ∃ q b, t = q :: (b ++ [q]) ∧ (q = '"' ∨ q = '\'') ∧ (∀ c ∈ b, c ≠ q ∧ c ≠ '\\' ∧ c ≠ '\x00') ∧ ('&' ∈ b → ';' ∉ b)

/-- What stands between the parentheses of a link: a destination and, after white space, a title if there is one. -/
def Target (d : Str) : Prop :=
  ∃ w u r, d = w ++ (u ++ r) ∧ Blanks w ∧ (Dest u ∨ Pointy u) ∧ (u = [] → r = []) ∧
    (Blanks r ∨ ∃ w2 t w3, r = w2 ++ (t ++ w3) ∧ w2 ≠ [] ∧ Blanks w2 ∧ Title t ∧ Blanks w3)

/-- The square brackets that are open after some pieces, if `k` are open before; none if one is closed that is not open. -/
def brackets : Nat → List Piece → Option Nat
  | k, [] => some k
  | k, p :: ps =>
    if p = .char '[' then brackets (k + 1) ps
    else if p = .char ']' then (if k = 0 then none else brackets (k - 1) ps)
    else brackets k ps

/-- The part, between two texts, is what it says. -/
def Part.Ok (punct : Char → Bool) (before after : Str) : Part → Prop
  | piece p => p.Ok punct before after
  | link a d => Target d ∧ brackets 0 a = some 0 ∧ Balanced a ∧ Uncrossed a ∧
      ∀ x p y, a = x ++ p :: y → p.Ok punct (before ++ '[' :: Spec.text x) (Spec.text y ++ (']' :: '(' :: (d ++ ')' :: after)))

/-- Every part is what it says. -/
def AllPlaced (punct : Char → Bool) (ps : List Part) : Prop :=
  ∀ x p y, ps = x ++ p :: y → p.Ok punct (fullText x) (fullText y)

/-- `t` is `s` without its emphasis. -/
def LinksUnmarked (punct : Char → Bool) (s t : Str) : Prop :=
  ∃ ps, s = fullText ps ∧ t = fullShown ps ∧ AllPlaced punct ps ∧ Balanced (ps.map Part.outer) ∧ Uncrossed (ps.map Part.outer)

/-- A text with a reference link: brackets, and behind them a second pair of brackets which is not empty. -/
def Reference (punct : Char → Bool) (s : Str) : Prop :=
  ∃ a b r, s = text a ++ '[' :: (text b ++ (']' :: '[' :: r)) ∧ brackets 0 b = some 0 ∧ r.head? ≠ some '[' ∧ r.head? ≠ some ']' ∧ '\x00' ∉ r ∧
    (∀ x p y, a = x ++ p :: y → p.Ok punct (text x) (text y ++ ('[' :: (text b ++ (']' :: '[' :: r))))) ∧
    ∀ x p y, b = x ++ p :: y → p.Ok punct (text a ++ '[' :: text x) (text y ++ (']' :: '[' :: r))

/-- The square brackets that are open after some pieces, if `k` are open before; a closing one with none open counts nothing. -/
def openAfter : Nat → List Piece → Nat
  | k, [] => k
  | k, p :: ps => if p = .char '[' then openAfter (k + 1) ps else if p = .char ']' then openAfter (k - 1) ps else openAfter k ps

/-- With `k` brackets open, some bracket of the pieces is closed and has a label behind it which is not empty. -/
def RefersFrom (k : Nat) (ps : List Piece) : Prop :=
  ∃ x y, ps = x ++ .char ']' :: y ∧ 1 ≤ openAfter k x ∧ ¬ NoLabel (text y)

/-- The square brackets that are open after a text, if `k` are open before. -/
def openIn : Nat → Str → Nat
  | k, [] => k
  | k, c :: s => if c = '[' then openIn (k + 1) s else if c = ']' then openIn (k - 1) s else openIn k s

/-- Every piece is what it says, except for the closing brackets: they may have labels behind them, but no parenthesis. -/
def PlacedLoose (punct : Char → Bool) (ps : List Piece) : Prop :=
  ∀ x p y, ps = x ++ p :: y → p.Ok punct (text x) (text y) ∨ (p = .char ']' ∧ (text y).head? ≠ some '(')

/-- What a reader sees of a part: of a link its text only. -/
def Part.read : Part → Str
  | piece p => p.shown
  | link a _ => Spec.shown a

/-- What a reader sees of a sequence of parts. -/
def fullRead (ps : List Part) : Str := ps.flatMap Part.read

/-- What follows `](`: it does not end with white space or a quote, so that the end of the text is not reached while looking for
the end of a link, and no backslash stands before white space, a quote, a closing parenthesis or `>`. -/
def Closed (b : Str) : Prop :=
  (∃ c ∈ b.getLast?, 33 ≤ c.toNat ∧ c ≠ '"' ∧ c ≠ '\'') ∧
  ∀ x y, b = x ++ '\\' :: y → ∃ d z, y = d :: z ∧ ¬ UniSpace d ∧ d ∉ [')', '>', '"', '\'']

/-- Texts for which the removal of emphasis is expected to work: no carriage return, no U+0100, only ASCII digits
in texts with `&`, no label in brackets after `]`, and what follows `](` is a destination, with a title or without, and the closing parenthesis or as in `Closed`. -/
structure Calm (isDigit : Char → Bool) (s : Str) : Prop where
  no_cr : '\r' ∉ s
  no_256 : ∀ c ∈ s, c.toNat ≠ 256
  digits : '&' ∈ s → ∀ c ∈ s, isDigit c = true → '0' ≤ c ∧ c ≤ '9'
  label : ∀ a b, s = a ++ ']' :: b → NoLabel b
  dest : ∀ a b, s = a ++ ']' :: '(' :: b → (∃ d v, b = d ++ ')' :: v ∧ Target d) ∨ Closed b

end MdToc.Spec
