/-!
# Python runtime pieces

Model of the string operations of Python that the code of `/repo` uses.
Strings are lists of Unicode scalar values.  Simplification: lone surrogates
(which Python strings can hold) are not representable.
-/

namespace MdToc

/-- Python `str` as a list of characters. -/
abbrev Str := List Char

/-- Exceptions that can leave the modelled functions.
`/repo/md_toc/exceptions.py` 21-45 and Python built-ins.  `OutOfFuel` is not a
Python exception: it marks an exhausted loop bound of the model and is proved
unreachable. -/
inductive Exn where
  | ValueError
  | IndexError
  | KeyError
  | UnicodeDecodeError
  | FileNotFoundError
  | LineOutOfFileBoundsError
  | NegativeLineRangeError
  | GithubOverflowCharsLinkLabel
  | GithubEmptyLinkLabel
  | GithubOverflowOrderedListMarker
  | StdinIsNotAFileToBeWritten
  | TocDoesNotRenderAsCoherentList
  | StringCannotContainNewlines
  | OutOfFuel
  deriving DecidableEq, Repr

instance [DecidableEq ε] [DecidableEq α] : DecidableEq (Except ε α) := fun a b =>
  match a, b with
  | .ok x, .ok y => if h : x = y then isTrue (by rw [h]) else isFalse (by intro h'; cases h'; exact h rfl)
  | .error x, .error y => if h : x = y then isTrue (by rw [h]) else isFalse (by intro h'; cases h'; exact h rfl)
  | .ok _, .error _ => isFalse (by intro h; cases h)
  | .error _, .ok _ => isFalse (by intro h; cases h)

/-- `str.lstrip(chars)`. -/
def lstrip (p : Char → Bool) (s : Str) : Str := s.dropWhile p

/-- `str.rstrip(chars)`. -/
def rstrip (p : Char → Bool) (s : Str) : Str := (s.reverse.dropWhile p).reverse

/-- `str.strip(chars)`. -/
def strip (p : Char → Bool) (s : Str) : Str := rstrip p (lstrip p s)

/-- The characters removed by `str.strip()` without argument
(`str.isspace` of CPython: bidirectional type WS, B, S or category Zs). -/
def isPySpace (c : Char) : Bool :=
  let n := c.toNat
  (9 ≤ n && n ≤ 13) || (28 ≤ n && n ≤ 32) || n == 0x85 || n == 0xA0 || n == 0x1680 ||
  (0x2000 ≤ n && n ≤ 0x200A) || n == 0x2028 || n == 0x2029 || n == 0x202F || n == 0x205F ||
  n == 0x3000

/-- Unicode general category `Zs`. -/
def isZs (c : Char) : Bool :=
  let n := c.toNat
  n == 0x20 || n == 0xA0 || n == 0x1680 || (0x2000 ≤ n && n ≤ 0x200A) ||
  n == 0x202F || n == 0x205F || n == 0x3000

/-- `str.strip()`. -/
def pyStrip (s : Str) : Str := strip isPySpace s

/-- `str.rstrip()`. -/
def pyRstrip (s : Str) : Str := rstrip isPySpace s

/-- `s.replace('\r\n', '\n')`. -/
def crlfToLf : Str → Str
  | [] => []
  | [c] => [c]
  | a :: b :: t => if a = '\r' ∧ b = '\n' then '\n' :: crlfToLf t else a :: crlfToLf (b :: t)

/-- `s.replace(a, b)` for single characters `a`, `b`. -/
def replaceChar (a b : Char) (s : Str) : Str := s.map (fun c => if c = a then b else c)

/-- `s.split('\n')`. -/
def splitNl : Str → List Str
  | [] => [[]]
  | c :: t =>
    if c = '\n' then [] :: splitNl t
    else match splitNl t with
      | [] => [[c]]
      | h :: r => (c :: h) :: r

/-- One decimal digit. -/
def digitChar (n : Nat) : Char := Char.ofNat (48 + n)

/-- Decimal digits of `n`, most significant first, put in front of `acc`; the
fuel `n + 1` given by `natStr` is always enough. -/
def natStrAux : Nat → Nat → Str → Str
  | 0, _, acc => acc
  | f + 1, n, acc =>
    if n < 10 then digitChar n :: acc else natStrAux f (n / 10) (digitChar (n % 10) :: acc)

/-- `str(n)` for a non-negative integer. -/
def natStr (n : Nat) : Str := natStrAux (n + 1) n []

/-- One hexadecimal digit, lower case. -/
def hexChar (n : Nat) : Char := if n < 10 then Char.ofNat (48 + n) else Char.ofNat (87 + n)

/-- Hexadecimal digits in front of `acc`. -/
def hexStrAux : Nat → Nat → Str → Str
  | 0, _, acc => acc
  | f + 1, n, acc =>
    if n < 16 then hexChar n :: acc else hexStrAux f (n / 16) (hexChar (n % 16) :: acc)

/-- `'{:x}'.format(n)` for a non-negative integer. -/
def hexStr (n : Nat) : Str := hexStrAux (n + 1) n []

/-- `c.lower()` for an ASCII character. -/
def asciiLower (c : Char) : Char :=
  if 65 ≤ c.toNat ∧ c.toNat ≤ 90 then Char.ofNat (c.toNat + 32) else c

/-- `s[a:b]` for non-negative `a`, `b`. -/
def slice (s : Str) (a b : Nat) : Str := (s.take b).drop a

/-- A guarded index loop `while i < len(s) and p(i, s[i]): i += 1`. The recursion
is on the list of the characters from index `i` on. -/
def scanWhile (p : Nat → Char → Bool) : Str → Nat → Nat
  | [], i => i
  | c :: t, i => if p i c then scanWhile p t (i + 1) else i

/-- An unguarded index loop `while p(s[i]): i += 1`, given the characters from
index `i` on: running off the end of the string is an `IndexError`. -/
def scanUnguarded (p : Char → Bool) : Str → Nat → Except Exn Nat
  | [], _ => .error .IndexError
  | c :: t, i => if p c then scanUnguarded p t (i + 1) else .ok i

/-- Universal newlines mode of `open(filename, newline=None)`, `/repo/md_toc/api.py` 256-262. -/
def universalNewlines (s : Str) : Str := replaceChar '\r' '\n' (crlfToLf s)

end MdToc
