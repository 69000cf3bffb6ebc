import Verif.Constants

/-!
# `/repo/md_toc/generic.py`: the functions on strings
-/

namespace MdToc

/-- `_isascii`, `/repo/md_toc/generic.py` 38-50 (with `_ctoi`). -/
def isascii (c : Char) : Bool := c.toNat ≤ 127

/-- Loop of `_replace_substring`, `/repo/md_toc/generic.py` 172-182: `i` is the index
of the head of the list. -/
def replaceSubstringLoop (repl : Str) (start stop : Int) : Str → Nat → Bool → Str
  | [], _, _ => []
  | c :: t, i, done =>
    if (i : Int) < start ∨ (i : Int) > stop then c :: replaceSubstringLoop repl start stop t (i + 1) done
    else if !done then repl ++ replaceSubstringLoop repl start stop t (i + 1) true
    else replaceSubstringLoop repl start stop t (i + 1) done

/-- `_replace_substring`, `/repo/md_toc/generic.py` 158-184.  Simplification: arguments
are strings (the two `TypeError` checks are typing). -/
def replaceSubstring (source repl : Str) (start stop : Int) : Except Exn Str :=
  if start > stop then .error .ValueError
  else .ok (replaceSubstringLoop repl start stop source 0 false)

/-- Comparison loop of `_strncmp`, `/repo/md_toc/generic.py` 206-218, on two strings of
equal length. -/
def strncmpLoop : Str → Str → Int
  | a :: s, b :: t => if a.toNat < b.toNat then -1 else if a.toNat > b.toNat then 1 else strncmpLoop s t
  | _, _ => 0

/-- `_strncmp`, `/repo/md_toc/generic.py` 189-220 (for `length ≥ 0`). -/
def strncmp (s1 s2 : Str) (length : Nat) : Int :=
  let a := s1.take length
  let b := s2.take length
  if a.length < b.length then -1
  else if a.length > b.length then 1
  else strncmpLoop a b

/-- The expression of `_string_empty`, `/repo/md_toc/generic.py` 226-228. -/
def emptyRe : Re :=
  let na : Re := .nla (.seq (Re.chr '\n') (Re.chr '\r'))
  Re.plus (Re.alts [na, Re.seqs [na, Re.chr '\r', Re.chr '\n'], .seq na (Re.chr '\r'),
    .seq na (Re.chr '\n'), .seq na (Re.chr '\x0b'), .seq na (Re.chr ' '), .seq na (Re.chr '\t')])

/-- `_string_empty`, `/repo/md_toc/generic.py` 223-231. -/
def stringEmpty (E : Env) (s : Str) : Bool := emptyRe.fullmatch E.isWord s

/-- The expression of `_detect_toc_list`, `/repo/md_toc/generic.py` 244-246; the dot
does not match a line feed. -/
def tocListRe (E : Env) : Re :=
  Re.seqs [Re.upTo 3 (Re.chr ' '),
    .alt (Re.oneOf "-+*") (.seq (Re.plus (.cls E.isDigit)) (Re.oneOf ".)")),
    Re.chr ' ',
    .nla (Re.plus (.cls (fun c => c == ' ' || c == '\t' || c == '\x0b'))),
    .star (.cls (fun c => c != '\n'))]

/-- `_detect_toc_list`, `/repo/md_toc/generic.py` 234-249. -/
def detectTocList (E : Env) (s : Str) : Bool := (tocListRe E).fullmatch E.isWord s

/-- Skip `\n\r` pairs, `/repo/md_toc/generic.py` 272-275: the rest and whether a pair
was skipped. -/
def skipNR : Str → Bool → Str × Bool
  | '\n' :: '\r' :: t, _ => skipNR t true
  | s, b => (s, b)

/-- Skip `\r\n` pairs counting lines, `/repo/md_toc/generic.py` 278-281. -/
def skipRN : Str → Nat → Str × Nat
  | '\r' :: '\n' :: t, n => skipRN t (n + 1)
  | s, n => (s, n)

/-- Skip `\r` or `\n` counting lines, `/repo/md_toc/generic.py` 284-287. -/
def skipNl : Str → Nat → Str × Nat
  | [], n => ([], n)
  | c :: t, n => if c = '\r' ∨ c = '\n' then skipNl t (n + 1) else (c :: t, n)

/-- Outer loop of `_read_line_interval`, `/repo/md_toc/generic.py` 268-299.  `s` is the
text from index `i` on, the fuel is the length of the text plus one. -/
def readLineIntervalLoop (start stop : Int) : Nat → Str → Nat → Str
  | 0, _, _ => []
  | f + 1, s, lc =>
    let (s1, inv) := skipNR s false
    let (s2, lc2) := skipRN s1 lc
    let (s3, lc3) := skipNl s2 lc2
    match s3 with
    | [] => []
    | c :: t =>
      (if start ≤ (lc3 : Int) ∧ (lc3 : Int) ≤ stop then (if inv then ['\n', '\r', c] else [c]) else [])
        ++ readLineIntervalLoop start stop f t lc3

/-- `_read_line_interval`, `/repo/md_toc/generic.py` 252-301. -/
def readLineInterval (lines : Str) (start stop : Int) : Str :=
  if start > stop ∨ start < 1 then []
  else readLineIntervalLoop start stop (lines.length + 1) lines 1

end MdToc
