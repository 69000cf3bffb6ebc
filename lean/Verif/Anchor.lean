import Verif.Atx
import Verif.Cmark.Inlines

/-!
# Anchors and headers, `/repo/md_toc/api.py` 806-830, 902-1067, 1359-1414
-/

namespace MdToc

/-- `remove_html_tags`, `/repo/md_toc/api.py` 806-830. -/
def removeHtmlTags (E : Env) (line : Str) (p : Parser) : Str :=
  if p.cmarkLike then
    (Rx.htmlRegexes p).foldl (fun l r => r.sub E.isWord [] l) line
  else line

/-- The characters kept by `[^\w\- ]`, `/repo/md_toc/api.py` 930. -/
def isAnchorChar (E : Env) (c : Char) : Bool := E.isWord c || c == '-' || c == ' '

/-- `anchor_link_punctuation_filter`, `/repo/md_toc/api.py` 902-933.  Simplification: for redcarpet the code
raises `UnboundLocalError`; it is only called for the other parsers. -/
def punctuationFilter (E : Env) (s : Str) (_p : Parser) : Str :=
  (Re.cls (fun c => !isAnchorChar E c)).sub E.isWord [] s

/-- `header_duplicate_counter`: a missing key counts as 0, as at `/repo/md_toc/api.py`
1006-1007. -/
abbrev Dup := Str → Nat

/-- The characters of `STRIPPED`, `/repo/md_toc/api.py` 1018. -/
def redcarpetStripped : Str := " -&+$,/:;=?@\"#{}|^~[]`\\*()%.!'".toList

/-- The loop of the redcarpet anchor, `/repo/md_toc/api.py` 1023-1043: text, `inserted`, `stripped`. The
assignments to the loop variable inside have no effect on a Python `for`. -/
def redcarpetLoop : Str → Str → Nat → Bool → Str × Nat × Bool
  | [], acc, ins, str => (acc, ins, str)
  | c :: t, acc, ins, str =>
    if c = '<' then redcarpetLoop t acc ins str
    else if c = '&' then redcarpetLoop t acc ins str
    else if !isascii c || redcarpetStripped.contains c then
      redcarpetLoop t (if ins > 0 && !str then acc ++ ['-'] else acc) ins true
    else redcarpetLoop t (acc ++ [asciiLower c]) (ins + 1) false

/-- The hash of the redcarpet anchor, `/repo/md_toc/api.py` 1052-1057. -/
def redcarpetHash (s : Str) : Nat := s.foldl (fun h c => (h * 32 + h) + c.toNat) 5381

/-- The redcarpet anchor, `/repo/md_toc/api.py` 1015-1065. -/
def redcarpetAnchor (text : Str) : Str :=
  match redcarpetLoop text [] 0 false with
  | (acc, ins, str) =>
    let mid := if str && ins > 0 then acc.dropLast else acc
    if ins = 0 ∧ text.length > 0 then "part-".toList ++ hexStr (redcarpetHash text) else mid

/-- The anchor without the suffix for duplicates, `/repo/md_toc/api.py` 971-990. -/
def baseAnchor (E : Env) (text : Str) (p : Parser) : Except Exn Str := do
  let t := E.lower text
  let t := removeHtmlTags E t p
  let t ← removeEmphasis E t p
  let t := punctuationFilter E t p
  let t := replaceChar ' ' '-' t
  .ok (if p = .gitlab then (Re.plus (Re.chr '-')).sub E.isWord ['-'] t else t)

/-- `build_anchor_link`, `/repo/md_toc/api.py` 936-1067: the anchor and the updated counter. -/
def buildAnchorLink (E : Env) (text : Str) (dup : Dup) (p : Parser) : Except Exn (Str × Dup) :=
  if (replaceAndSplitNewlines text).length > 1 then .error .StringCannotContainNewlines
  else if p.cmarkLike then do
    let t ← baseAnchor E text p
    let k := E.sha1 t
    let n := dup k
    let a := if n > 0 then t ++ ['-'] ++ natStr n else t
    .ok (a, fun k' => if k' = k then n + 1 else dup k')
  else .ok (redcarpetAnchor text, dup)

/-- `types.Header`, `/repo/md_toc/types.py`. -/
structure Header where
  headerType : Nat
  textOriginal : Str
  anchor : Str
  visible : Bool
  deriving DecidableEq, Repr

/-- The comprehension of `get_md_header`, `/repo/md_toc/api.py` 1393-1408. The type and the text are
either both `None` or both present. -/
def headersOf (E : Env) (p : Parser) : List AtxElem → Dup → Except Exn (List (Option Header) × Dup)
  | [], dup => .ok ([], dup)
  | r :: t, dup =>
    match r.headerType, r.text with
    | some ty, some txt => do
      let (a, dup) ← buildAnchorLink E txt dup p
      let (hs, dup) ← headersOf E p t dup
      .ok (some ⟨ty, txt, a, r.visible⟩ :: hs, dup)
    | _, _ => do
      let (hs, dup) ← headersOf E p t dup
      .ok (none :: hs, dup)

/-- `get_md_header`, `/repo/md_toc/api.py` 1359-1414. -/
def getMdHeader (E : Env) (line : Str) (dup : Dup) (keep : Int) (p : Parser) (noLinks : Bool) :
    Except Exn (List (Option Header) × Dup) := do
  let rs ← getAtxHeading line keep p noLinks
  headersOf E p rs dup

end MdToc
