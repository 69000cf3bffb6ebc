import Verif.Generic

/-!
# The inline parser: state and small helpers

`/repo/md_toc/cmark/inlines_c.py` 127-208 (state), 391-441 (peek, advance),
`/repo/md_toc/cmark/scanners_c.py`, `/repo/md_toc/cmark/cmark_ctype_c.py`.

Simplification common to the whole directory except `Tree.lean`: the tree of nodes that the parser
builds (`parent`, `_cmark_append_child`, `inl_text.data`) is left out, because the only result
used by the callers is the list `ignore` of index ranges.  `Tree.lean` has the tree too, and
`Verif/Props/Tree.lean` proves that it changes nothing.  Of the nodes of the delimiters the
model keeps the columns and the length.
-/

namespace MdToc.Cmark

/-- `_cmark_cmark_isspace` and `_cmark_cmark_utf8proc_is_space`,
`/repo/md_toc/cmark/cmark_ctype_c.py` 35-40, `/repo/md_toc/cmark/utf8_c.py` 169-172. -/
def isSpace (c : Char) : Bool :=
  isZs c || c == '\t' || c == '\n' || c == '\x0c' || c == '\r'

/-- `_cmark_cmark_ispunct`, `/repo/md_toc/cmark/cmark_ctype_c.py` 45-46. -/
def isPunct (c : Char) : Bool := isAsciiPunct c

/-- `_cmark_cmark_utf8proc_is_punctuation`, `/repo/md_toc/cmark/utf8_c.py` 176-179. -/
def isUPunct (E : Env) (c : Char) : Bool := (c.toNat < 128 && isPunct c) || E.isPCat c

/-- `_cmarkDelimiter`, `/repo/md_toc/cmark/inlines_c.py` 127-151.  `pos` is the index of the
first character of the run: `inl_text.start_column - 1`, and identifies the delimiter; `inl_text.end_column`
is `pos + length`; `inlLen` is `inl_text.length`. -/
structure Delim where
  pos : Nat
  length : Nat
  inlLen : Nat
  ch : Char
  canOpen : Bool
  canClose : Bool
  offset : Nat
  deriving DecidableEq, Repr

/-- `_cmarkBracket`, `/repo/md_toc/cmark/inlines_c.py` 154-172.  `image` is always
`False`: line 2105 compares an integer with a string. -/
structure Bracket where
  position : Nat
  prevDelim : Option Nat
  active : Bool
  bracketAfter : Bool
  deriving DecidableEq, Repr

/-- A Python `range(a, b)`. -/
abbrev Range := Nat × Nat

/-- `_cmarkSubject`, `/repo/md_toc/cmark/inlines_c.py` 175-208, with the list `ignore`.
`len` is `input.length`.  `delims` and `brackets` are the linked lists, last element first. -/
structure Subj where
  data : Str
  len : Nat
  pos : Nat
  delims : List Delim
  brackets : List Bracket
  backticks : Nat → Nat
  scanned : Bool
  skipCdata : Bool
  skipDecl : Bool
  skipPi : Bool
  ignore : List Range

/-- `_cmark_peek_char`, `/repo/md_toc/cmark/inlines_c.py` 391-402; `none` is the
value 0.  Simplification: the `ValueError` for NUL bytes is left out, they are removed at
`/repo/md_toc/api.py` 863. -/
def peek (s : Subj) : Option Char := if s.pos < s.len then s.data[s.pos]? else none

/-- The characters from index `i` up to `input.length`. -/
def restFrom (s : Subj) (i : Nat) : Str := (s.data.take s.len).drop i

/-- `_cmark__scan_at` with `_common_scan`, `/repo/md_toc/cmark/scanners_c.py` 39-91.  The regular
expression runs on the whole data, also past `input.length`. -/
def scanAt (E : Env) (r : Re) (s : Subj) (offset : Nat) : Nat :=
  if offset > s.len then 0
  else match r.matchRest E.isWord (s.data.drop offset) with
    | some rest => (s.data.length - offset) - rest.length
    | none => 0

/-- `_cmark_scan_spacechars`, `/repo/md_toc/cmark/scanners_c.py` 109-111. -/
def scanSpacechars (E : Env) (s : Subj) (offset : Nat) : Nat := scanAt E (Re.plus Rx.spacechar) s offset

/-- `_cmark_cmark_chunk_rtrim`, `/repo/md_toc/cmark/chunk_h.py` 59-64, as the new length. -/
def rtrimLen (data : Str) : Nat := (rstrip isSpace data).length

/-- `_cmark_cmark_chunk_trim`, `/repo/md_toc/cmark/chunk_h.py` 52-70, on the first `length` characters. -/
def chunkTrim (s : Str) : Str := strip isSpace s

/-- `_cmark_subject_from_buf` and the trimming, `/repo/md_toc/cmark/inlines_c.py` 357-378,
2141-2148. The loop at 376 leaves `backticks[1000] = 1000`. -/
def initSubj (line : Str) : Subj where
  data := line
  len := rtrimLen line
  pos := 0
  delims := []
  brackets := []
  backticks := fun n => if n = 1000 then 1000 else 0
  scanned := false
  skipCdata := false
  skipDecl := false
  skipPi := false
  ignore := []

end MdToc.Cmark
