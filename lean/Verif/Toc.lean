import Verif.Anchor

/-!
# Building the table of contents, `/repo/md_toc/api.py` 172-803
-/

namespace MdToc

/-- The parameters of `build_toc`, `/repo/md_toc/api.py` 172-184. -/
structure Options where
  ordered : Bool := false
  noLinks : Bool := false
  noIndentation : Bool := false
  noListCoherence : Bool := false
  keep : Int := 3
  parser : Parser := .github
  listMarker : Str := ['-']
  skipLines : Int := 0
  constantOrdered : Bool := false
  newline : Str := ['\n']

/-- An element of the indentation log, `/repo/md_toc/types.py`. -/
structure LogEl where
  index : Nat
  marker : Str
  spaces : Nat
  deriving DecidableEq, Repr

/-- `indentation_log`: a dictionary with the keys 1 to 6. -/
abbrev Log := Nat → LogEl

/-- The keys of the log. -/
def inLog (i : Nat) : Bool := 1 ≤ i && i ≤ maxLevels

/-- `init_indentation_log`, `/repo/md_toc/api.py` 555-581. -/
def initLog (marker : Str) : Log := fun _ => ⟨minMarkerNumber, marker, 0⟩

/-- Dictionary update. -/
def Log.set (l : Log) (i : Nat) (e : LogEl) : Log := fun j => if j = i then e else l j

/-- `header_type_counter`: a dictionary from levels to numbers. -/
abbrev Counter := Nat → Option Nat

/-- The parsers with a limit on list numbers, `/repo/md_toc/api.py` 549. -/
def Parser.limited : Parser → Bool
  | .github | .cmark | .gitlab | .commonmarker => true
  | _ => false

/-- `increase_index_ordered_list`, `/repo/md_toc/api.py` 513-552; the previous type is not negative. -/
def increaseIndex (cnt : Counter) (prev curr : Nat) (p : Parser) : Except Exn Counter :=
  if ¬ curr ≥ 1 then .error .ValueError
  else
    let prev := if prev = 0 then curr else prev
    let base := if (cnt curr).isNone ∨ prev < curr then 0 else (cnt curr).getD 0
    let n := base + 1
    if p.limited ∧ n > maxMarkerNumber then .error .GithubOverflowOrderedListMarker
    else .ok (fun i => if i = curr then some n else cnt i)

/-- Check of the list marker, `/repo/md_toc/api.py` 638-649 and 736-747. -/
def markerOk (p : Parser) (ordered : Bool) (marker : Str) : Bool :=
  if ordered then p.closingMarkers.contains marker else bulletMarkers.contains marker

/-- The resets of the sublists, `/repo/md_toc/api.py` 675-682. -/
def resetBelow (l : Log) (curr : Nat) (marker : Str) : Log :=
  fun i => if curr < i ∧ i ≤ maxLevels then ⟨minMarkerNumber, marker, 0⟩ else l i

/-- `compute_toc_line_indentation_spaces`, `/repo/md_toc/api.py` 584-693: the new log.  The log always has
`max_levels` elements. -/
def computeIndent (curr prev : Nat) (p : Parser) (ordered : Bool) (marker : Str) (log : Log) (index : Nat) :
    Except Exn Log :=
  if ¬ curr ≥ 1 then .error .ValueError
  else if ¬ index ≥ 1 then .error .ValueError
  else if !markerOk p ordered marker then .error .ValueError
  else if !inLog curr then .error .KeyError
  else if p.cmarkLike then
    if prev ≠ 0 ∧ !inLog prev then .error .KeyError
    else
      let indexLength := if ordered then (if prev = 0 then 0 else (natStr (log prev).index).length) else 0
      let log1 :=
        if prev = 0 then log.set curr { log curr with spaces := 0 }
        else if curr > prev then
          log.set curr { log curr with
            spaces := (log prev).spaces + (log prev).marker.length + indexLength + 1 }
        else if curr < prev then resetBelow log curr marker
        else log
      let log2 := if ordered then log1.set curr { log1 curr with index := index } else log1
      .ok (log2.set curr { log2 curr with marker := marker })
  else .ok (log.set curr { log curr with spaces := 4 * (curr - 1) })

/-- `build_toc_line_without_indentation`, `/repo/md_toc/api.py` 696-769. -/
def buildTocLineNoIndent (h : Header) (ordered noLinks : Bool) (index : Nat) (p : Parser) (marker : Str) :
    Except Exn Str :=
  if ¬ h.headerType ≥ 1 then .error .ValueError
  else if ¬ index ≥ 1 then .error .ValueError
  else if !markerOk p ordered marker then .error .ValueError
  else
    let m := if ordered then natStr index ++ marker else marker
    let line := if noLinks then h.textOriginal
      else ['['] ++ h.textOriginal ++ [']'] ++ ['(', '#'] ++ h.anchor ++ [')']
    .ok (m ++ [' '] ++ line)

/-- `build_toc_line`, `/repo/md_toc/api.py` 772-803; the number of spaces is not negative. -/
def buildTocLine (line : Str) (spaces : Nat) : Str := List.replicate spaces ' ' ++ line

/-- The variables of the loop of `build_toc`, `/repo/md_toc/api.py` 246-251, 295-299. -/
structure TocState where
  counter : Counter
  prev : Nat
  first : Nat
  dup : Dup
  log : Log
  within : Bool
  fence : Option Str
  toc : List Str

/-- The values before the loop. -/
def TocState.init (marker : Str) : TocState :=
  ⟨fun _ => none, 0, 0, fun _ => 0, initLog marker, false, none, []⟩

/-- `ordered` after the overrides, `/repo/md_toc/api.py` 273-274. -/
def Options.effOrdered (o : Options) : Bool := o.constantOrdered || o.ordered

/-- `list_marker` after the overrides, `/repo/md_toc/api.py` 264-279. -/
def Options.effMarker (o : Options) : Str :=
  let m := if o.ordered && o.listMarker == defaultBullet then defaultClosingMarker else o.listMarker
  if o.effOrdered && !o.parser.closingMarkers.contains m then defaultClosingMarker else m

/-- Code fence detection, `/repo/md_toc/api.py` 323-335: `is_within_code_fence` and `code_fence`. -/
def fenceStep (p : Parser) (within : Bool) (fence : Option Str) (line : Str) (docEnd : Bool) :
    Bool × Option Str :=
  if within then (!isClosingCodeFence line (fence.getD []) docEnd p, fence)
  else
    match isOpeningCodeFence line p with
    | some f => (true, some f)
    | none => (false, none)

/-- `header_type_first` in the coherence check, `/repo/md_toc/api.py` 374-378. -/
def firstFor (o : Options) (st : TocState) (c : Nat) : Nat := if !o.noListCoherence && st.first == 0 then c else st.first

/-- `header_type_prev` in the coherence check, `/repo/md_toc/api.py` 374-378. -/
def prevFor (o : Options) (st : TocState) (c : Nat) : Nat := if !o.noListCoherence && st.prev == 0 then c else st.prev

/-- The coherence check fails, `/repo/md_toc/api.py` 379-384. -/
def incoherent (o : Options) (st : TocState) (c : Nat) : Bool :=
  !o.noListCoherence && (decide (c < firstFor o st c) || decide (c > prevFor o st c + 1))

/-- A visible header, `/repo/md_toc/api.py` 354-420. -/
def addHeader (o : Options) (st : TocState) (h : Header) : Except Exn TocState := do
  let curr := h.headerType
  let ordered := o.effOrdered
  let marker := o.effMarker
  let counter ←
    if ordered && !o.constantOrdered then increaseIndex st.counter st.prev curr o.parser
    else .ok st.counter
  let index := if ordered && !o.constantOrdered then (counter curr).getD 0 else 1
  let (spaces, log, first) ←
    if o.noIndentation then .ok (0, st.log, st.first)
    else do
      if incoherent o st curr then .error .TocDoesNotRenderAsCoherentList
      else do
        let log ← computeIndent curr (prevFor o st curr) o.parser ordered marker st.log index
        .ok ((log curr).spaces, log, firstFor o st curr)
  let line ← buildTocLineNoIndent h ordered o.noLinks index o.parser marker
  .ok { st with
    counter := counter
    prev := curr
    first := first
    log := log
    toc := st.toc ++ [buildTocLine line spaces ++ o.newline] }

/-- The body of the loop for one line, `/repo/md_toc/api.py` 323-424. -/
def tocStep (E : Env) (o : Options) (st : TocState) (line : Str) (docEnd : Bool) : Except Exn TocState :=
  let (within, fence) := fenceStep o.parser st.within st.fence line docEnd
  let st := { st with within := within, fence := fence }
  if !within || fence.isNone then do
    let (hs, dup) ← getMdHeader E line st.dup o.keep o.parser o.noLinks
    let st := { st with dup := dup }
    match hs with
    | some h :: _ => if h.visible then addHeader o st h else .ok st
    | _ => .ok st
  else .ok st

/-- What reading a text stream gives: the lines, then possibly a `UnicodeDecodeError`. Where the
exception comes depends on the buffering of the stream, so the lines delivered before it
are any lines. -/
structure Source where
  text : Str
  bad : Bool := false
  deriving DecidableEq, Repr

/-- The lines `readline` gives, each with its line feed. -/
def linesKeep : Str → List Str
  | [] => []
  | c :: t =>
    if c = '\n' then [c] :: linesKeep t
    else match linesKeep t with
      | [] => [[c]]
      | h :: r => (c :: h) :: r

/-- The lines of a stream. -/
def Source.lines (s : Source) : List Str := linesKeep (universalNewlines s.text)

/-- The comment returned for a binary file, `/repo/md_toc/api.py` 292-293, 317-320, 429-430. -/
def binaryComment (filename : Str) : Str :=
  "<!--stop reading ".toList ++ filename ++ ": probably a binary file-->".toList

/-- `'-'`, the standard input. -/
def stdinName : Str := ['-']

/-- The loop of `build_toc`, `/repo/md_toc/api.py` 300-436, on the lines not yet read. For a file the next line
is read in advance (310-321). -/
def tocLoop (E : Env) (o : Options) (filename : Str) (bad : Bool) :
    List Str → TocState → Except Exn Str
  | [], st => if bad then .ok (binaryComment filename) else .ok st.toc.flatten
  | line :: rest, st =>
    if filename ≠ stdinName ∧ rest = [] ∧ bad = true then .ok (binaryComment filename)
    else do
      let st ← tocStep E o st line (filename ≠ stdinName && rest.isEmpty)
      tocLoop E o filename bad rest st

/-- `build_toc` on the content of the stream, `/repo/md_toc/api.py` 243-436.  `src = none` is a file that cannot be
opened. -/
def buildToc (E : Env) (o : Options) (filename : Str) (src : Option Source) : Except Exn Str :=
  if ¬ o.skipLines ≥ 0 then .error .ValueError
  else match src with
    | none => .error .FileNotFoundError
    | some src =>
      let lines := src.lines
      let skip := o.skipLines.toNat
      if src.bad ∧ lines.length < skip then .error .UnicodeDecodeError
      else tocLoop E o filename src.bad (lines.drop skip) (TocState.init o.effMarker)

/-- The file system: the content of the readable files. -/
abbrev FS := Str → Option Source

/-- The standard input: open with the given content, or closed. -/
abbrev Stdin := Option Source

/-- The list comprehension of `build_multiple_tocs`, `/repo/md_toc/api.py` 496-510.  `build_toc` closes the standard
input at line 434; reading it again is a `ValueError`.  Simplification: after a decoding
error the standard input counts as closed. -/
def buildTocs (E : Env) (o : Options) (fs : FS) : List Str → Stdin → Except Exn (List Str)
  | [], _ => .ok []
  | f :: t, stdin =>
    if f = stdinName then
      if ¬ o.skipLines ≥ 0 then .error .ValueError
      else match stdin with
        | none => .error .ValueError
        | some src => do
          let a ← buildToc E o f (some src)
          let r ← buildTocs E o fs t none
          .ok (a :: r)
    else do
      let a ← buildToc E o f (fs f)
      let r ← buildTocs E o fs t stdin
      .ok (a :: r)

/-- `filenames` after line 495 of `/repo/md_toc/api.py`: the caller's list is changed. -/
def defaultNames (filenames : List Str) : List Str :=
  if filenames.length = 0 then [stdinName] else filenames

/-- `build_multiple_tocs`, `/repo/md_toc/api.py` 439-510. -/
def buildMultipleTocs (E : Env) (o : Options) (fs : FS) (stdin : Stdin) (filenames : List Str) :
    Except Exn (List Str) :=
  buildTocs E o fs (defaultNames filenames) stdin

end MdToc
