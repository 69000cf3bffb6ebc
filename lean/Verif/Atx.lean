import Verif.Fence

/-!
# Headings, `/repo/md_toc/api.py` 1070-1356
-/

namespace MdToc

/-- `replace_and_split_newlines`, `/repo/md_toc/api.py` 1070-1088. -/
def replaceAndSplitNewlines (line : Str) : List Str :=
  let line := crlfToLf line
  let line := replaceChar '\r' '\n' line
  let line := lstrip (· == '\n') line
  let line := rstrip (· == '\n') line
  splitNl line

/-- `types.AtxHeadingStructElement`, `/repo/md_toc/types.py`. -/
structure AtxElem where
  headerType : Option Nat
  text : Option Str
  visible : Bool
  deriving DecidableEq, Repr

/-- The element for a line which is not a heading, `/repo/md_toc/api.py` 1129-1133, 1141-1145,
1300-1304. -/
def AtxElem.none : AtxElem := ⟨Option.none, Option.none, false⟩

/-- Position of the last CR or LF found when scanning the first `n` characters of the
reversed line, `/repo/md_toc/api.py` 1217-1232: `i` of line 1229-1232. -/
def crlfScan : Str → Nat → Nat → Nat
  | [], _, m => m
  | c :: t, i, m => if c = '\n' ∨ c = '\r' then crlfScan t (i + 1) (i + 1) else crlfScan t (i + 1) m

/-- The loop that cuts spaces and hashes at the end, `/repo/md_toc/api.py` 1238-1254.
`rev` is the reversed line; the result is `cs_end`.  The fuel is the length of the line
plus one. -/
def closingLoop (isSp : Char → Bool) (rev : Str) (lenSubl csStart : Nat) :
    Nat → Nat → Nat → Nat → Nat → Except Exn Nat
  | 0, _, _, _, _ => .error .OutOfFuel
  | f + 1, i, rounds, hrs, csEnd =>
    if i < lenSubl - csStart then
      match rev.drop i with
      | [] => .error .IndexError
      | c :: _ =>
        if !(isSp c || c == '#') || rounds > 1 then
          if i > hrs && rounds > 0 then .ok (lenSubl - hrs) else .ok (lenSubl - i)
        else do
          let i1 ← scanUnguarded isSp (rev.drop i) i
          let i2 ← scanUnguarded (· == '#') (rev.drop i1) i1
          closingLoop isSp rev lenSubl csStart f i2 (if i2 > i1 then rounds + 1 else rounds) i1 csEnd
    else .ok csEnd

/-- The loop that escapes square brackets, `/repo/md_toc/api.py` 1271-1290.  The index `i`
is represented by the pair of the reversed `final_line[0:i]` and `final_line[i:]`. -/
def escapeLoop : Str → Str → Str
  | doneRev, [] => doneRev.reverse
  | doneRev, c :: t =>
    if c = '[' ∨ c = ']' then
      let n := (doneRev.takeWhile (· == '\\')).length
      if (n > 0 && n % 2 == 0) || n == 0 then escapeLoop (c :: '\\' :: doneRev) t
      else escapeLoop (c :: doneRev) t
    else escapeLoop (c :: doneRev) t

/-- The chain of `strip` calls, `/repo/md_toc/api.py` 1262-1265. -/
def stripChain (s : Str) : Str :=
  strip (· == '\r') (strip (· == '\x0c') (strip (· == '\x0b') (strip (· == '\n')
    (strip (· == '\t') (strip (· == ' ') s)))))

/-- The part for links, `/repo/md_toc/api.py` 1258-1290. -/
def linkText (fl : Str) : Except Exn Str :=
  let fl := if fl.length > 0 ∧ fl.getLast? = some '\\' then fl ++ [' '] else fl
  if (stripChain fl).length = 0 then .error .GithubEmptyLinkLabel
  else if fl.length > maxCharsLabel then .error .GithubOverflowCharsLinkLabel
  else .ok (escapeLoop [] fl)

/-- `final_line` without escaping: the text between the opening and the closing
sequence, `/repo/md_toc/api.py` 1203-1256. -/
def atxContent (p : Parser) (subl : Str) (csStart : Nat) : Except Exn Str := do
  let rev := subl.reverse
  let i := crlfScan (rev.take (subl.length - csStart)) 0 0
  let csEnd ← closingLoop p.isSpaceCh rev subl.length csStart (subl.length + 1) i 0 0 i
  .ok (slice subl csStart csEnd)

/-- The test of the character after the opening sequence, `/repo/md_toc/api.py` 1189-1193. -/
def badAfterHashes (p : Parser) : Str → Bool
  | [] => false
  | c :: _ => !(p.isSpaceCh c || c == '\n' || c == '\r')

/-- The body of the loop for cmark-like parsers, `/repo/md_toc/api.py` 1139-1297: the
element and the new value of `line_visible`. -/
def atxCmark (p : Parser) (keep : Int) (noLinks vis : Bool) (subl : Str) :
    Except Exn (AtxElem × Bool) :=
  if subl.length = 0 ∨ subl.head? = some '\\' then .ok (.none, vis)
  else
    let offset := scanWhile (fun i c => c == ' ' && i ≤ maxSpaceIndentation) subl 0
    if offset > maxSpaceIndentation then .ok (.none, vis)
    else
      let i := scanWhile (fun i c => c == '#' && i ≤ maxLevels + offset) (subl.drop offset) offset
      if i - offset > maxLevels ∨ i - offset = 0 then .ok (.none, vis)
      else
        let vis := if ((i - offset : Nat) : Int) > keep then false else vis
        if badAfterHashes p (subl.drop i) then .ok (.none, vis)
        else do
          let csStart := scanWhile (fun _ c => p.isSpaceCh c) (subl.drop (i + 1)) (i + 1)
          let fl ← atxContent p subl csStart
          let fl ← if noLinks then .ok fl else linkText fl
          .ok (⟨some (i - offset), some fl, vis⟩, vis)

/-- A loop `while end > 0 and p(s[end - 1]): end -= 1`, given the reversed `s[0:end]`. -/
def scanBack (p : Char → Bool) : Str → Nat → Nat
  | [], e => e
  | c :: t, e => if p c then scanBack p t (e - 1) else e

/-- The test `i < len(subl) and subl[i] != ' '`, `/repo/md_toc/api.py` 1316, on `subl[i:]`. -/
def badAfterHashesRedcarpet : Str → Bool
  | [] => false
  | c :: _ => c != ' '

/-- The end of the content for redcarpet, `/repo/md_toc/api.py` 1322-1330. -/
def redcarpetEnd (subl : Str) (i : Nat) : Nat :=
  let e := scanWhile (fun _ c => c != '\n') (subl.drop i) i
  let e := scanBack (· == '#') (subl.take e).reverse e
  scanBack (· == ' ') (subl.take e).reverse e

/-- The text for redcarpet, `/repo/md_toc/api.py` 1333-1338. -/
def redcarpetText (noLinks : Bool) (subl : Str) (i e : Nat) : Str :=
  if !noLinks && subl.length > 0 && subl.getLast? == some '\\' then slice (subl ++ [' ']) i (e + 1)
  else slice subl i e

/-- The body of the loop for redcarpet, `/repo/md_toc/api.py` 1299-1348. -/
def atxRedcarpet (noLinks vis : Bool) (subl : Str) : AtxElem × Bool :=
  if subl.length = 0 ∨ subl.head? ≠ some '#' then (.none, vis)
  else
    let level := scanWhile (fun i c => i < maxLevels && c == '#') subl 0
    if badAfterHashesRedcarpet (subl.drop level) then (.none, vis)
    else
      let i := scanWhile (fun _ c => c == ' ') (subl.drop level) level
      let e := redcarpetEnd subl i
      if e > i then (⟨some level, some (redcarpetText noLinks subl i e), vis⟩, vis)
      else (⟨none, none, false⟩, false)

/-- One round of the loop, `/repo/md_toc/api.py` 1135-1348. -/
def atxSubline (p : Parser) (keep : Int) (noLinks vis : Bool) (subl : Str) :
    Except Exn (AtxElem × Bool) :=
  if p.cmarkLike then atxCmark p keep noLinks vis subl
  else .ok (atxRedcarpet noLinks vis subl)

/-- The loop over the sublines, `/repo/md_toc/api.py` 1135-1354; `line_visible` is not
reset between sublines. -/
def atxSublines (p : Parser) (keep : Int) (noLinks : Bool) : Bool → List Str → Except Exn (List AtxElem)
  | _, [] => .ok []
  | vis, s :: t => do
    let (e, vis) ← atxSubline p keep noLinks vis s
    let r ← atxSublines p keep noLinks vis t
    .ok (e :: r)

/-- `get_atx_heading`, `/repo/md_toc/api.py` 1091-1356. -/
def getAtxHeading (line : Str) (keep : Int) (p : Parser) (noLinks : Bool) : Except Exn (List AtxElem) :=
  if ¬ keep ≥ 1 then .error .ValueError
  else if line.length = 0 then .ok [.none]
  else atxSublines p keep noLinks true (replaceAndSplitNewlines line)

end MdToc
