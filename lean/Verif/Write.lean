import Verif.Fpyutils

/-!
# Writing the table of contents, `/repo/md_toc/api.py` 48-169 and `/repo/md_toc/generic.py` 53-155
-/

namespace MdToc

/-- The loop of `_extract_lines`, `/repo/md_toc/generic.py` 61-67: the lines collected; `n` is `line_counter`. -/
def extractLoop (a b : Nat) : List Str → Nat → List Str
  | [], _ => []
  | l :: t, n => if n ≥ a ∧ n ≤ b then l :: extractLoop a b t (n + 1) else extractLoop a b t (n + 1)

/-- `_extract_lines`, `/repo/md_toc/generic.py` 53-69, on the lines of the file.  Simplification: the numbers are not
negative; the code treats negative numbers like 0. -/
def extractLines (lines : List Str) (a b : Nat) : Except Exn Str :=
  if a > b ∨ a < 1 ∨ b < 1 then .error .ValueError
  else .ok (extractLoop a b lines 1).flatten

/-- `_remove_line_intervals`, `/repo/md_toc/generic.py` 72-85: the contents of the file after each
interval.  Simplification: the intervals are pairs (`len(interval) != 2` cannot be) of numbers that are not negative. -/
def removeLineIntervals : List Str → List (Nat × Nat) → Except Exn (List (List Str))
  | _, [] => .ok []
  | lines, (a, b) :: t =>
    if a < 1 ∨ b < 1 ∨ a > b then .error .ValueError
    else do
      let l1 ← removeLineInterval lines a b
      -- the file is read again: the lines written are split again, which gives the same list
      let r ← removeLineIntervals l1 t
      .ok (l1 :: r)

/-- The values returned by `_get_existing_toc`, `/repo/md_toc/generic.py` 155. -/
structure Existing where
  oldToc : Str
  toDelete : List (Nat × Nat)
  twoOrMore : Bool
  posLen : Nat
  positions : List Nat
  firstLine : Nat
  deriving DecidableEq, Repr

/-- Is the region between two markers a table of contents, `/repo/md_toc/generic.py` 112-123. -/
def tocRegion (E : Env) (text : Str) (m1 m2 : Nat) : Bool :=
  let interval := readLineInterval text ((m1 : Int) + 1) ((m2 : Int) - 1)
  let inner := readLineInterval text ((m1 : Int) + 2) ((m2 : Int) - 2)
  detectTocList E inner || stringEmpty E interval

/-- The loop over pairs of markers, `/repo/md_toc/generic.py` 110-149: old table, interval,
remaining `marker_line_positions_length`. -/
def existingLoop (E : Env) (text : Str) (lines : List Str) :
    List Nat → Except Exn (Option (Str × Nat × Nat) × Nat)
  | m1 :: m2 :: t =>
    if tocRegion E text m1 m2 then do
      let old ← if m1 + 1 ≤ m2 - 1 then (extractLines lines (m1 + 1) (m2 - 1)).map pyStrip else .ok []
      .ok (some (old, m1, m2), (m2 :: t).length)
    else existingLoop E text lines (m2 :: t)
  | l => .ok (none, l.length)

/-- `_get_existing_toc`, `/repo/md_toc/generic.py` 88-155, on the lines of the file. -/
def getExistingToc (E : Env) (lines : List Str) (marker : Str) : Except Exn Existing := do
  let pos := lineMatches marker lines
  let firstLine := pos.headD 0
  let two := decide (pos.length ≥ 2)
  let (r, n) ← existingLoop E lines.flatten lines pos
  match r with
  | some (old, m1, m2) => .ok ⟨old, [(m1, m2)], two, n, pos, m1⟩
  | none =>
    let old := if !two ∧ n = 1 then marker else []
    .ok ⟨old, [], two, n, pos, firstLine⟩

/-- `tocs_equal`, `/repo/md_toc/api.py` 48-66. -/
def tocsEqual (E : Env) (current : Str) (file : Option Source) (marker : Str) : Except Exn Bool :=
  match file with
  | none => .error .FileNotFoundError
  | some src =>
    if src.bad then .error .UnicodeDecodeError
    else do
      let e ← getExistingToc E src.lines marker
      .ok (pyStrip current == e.oldToc)

/-- `final_toc_string`, `/repo/md_toc/api.py` 96-99. -/
def finalTocString (string marker nl : Str) : Str :=
  marker ++ nl ++ nl ++ pyRstrip string ++ nl ++ nl ++ marker ++ nl

/-- `write_string_on_file_between_markers` on the lines of the file, `/repo/md_toc/api.py` 95-132:
the returned value and the successive contents of the file, each written atomically. -/
def writeLines (E : Env) (lines : List Str) (string marker nl : Str) : Except Exn (Bool × List Str) := do
  let e ← getExistingToc E lines marker
  let equal := pyStrip string == e.oldToc
  let t1 ← removeLineIntervals lines e.toDelete
  let l1 := (t1.getLast?).getD lines
  let t2 ← if !e.twoOrMore ∧ e.posLen = 1 then
      removeLineIntervals l1 [(e.positions.headD 0, e.positions.headD 0)]
    else .ok []
  let l2 := (t2.getLast?).getD l1
  let t3 := if e.posLen ≥ 1 then
      [insertStringAtLine l2 (finalTocString string marker nl) e.firstLine nl]
    else []
  .ok (equal, (t1 ++ t2).map List.flatten ++ t3)

/-- `write_string_on_file_between_markers`, `/repo/md_toc/api.py` 69-132: the returned value and the
successive contents of the file. -/
def writeString (E : Env) (fs : FS) (filename string marker nl : Str) : Except Exn (Bool × List Str) :=
  if filename = stdinName then .error .StdinIsNotAFileToBeWritten
  else match fs filename with
    | none => .error .FileNotFoundError
    | some src =>
      if src.bad then .error .UnicodeDecodeError
      else writeLines E src.lines string marker nl

/-- The file system with a new content for one file. -/
def FS.write (fs : FS) (filename text : Str) : FS :=
  fun f => if f = filename then some { text := text } else fs f

/-- The file systems after each content, oldest first. -/
def traceFS (fs : FS) (filename : Str) (contents : List Str) : List FS := contents.map (fs.write filename)

/-- The loop of `write_strings_on_files_between_markers`, `/repo/md_toc/api.py` 162-169: the outcome and
the successive file systems, also when an exception ends the loop. -/
def writeLoop (E : Env) (marker nl : Str) : FS → List (Str × Str) → Bool → Except Exn Bool × List FS
  | _, [], eq => (.ok eq, [])
  | fs, (f, s) :: t, eq =>
    match writeString E fs f s marker nl with
    | .error e => (.error e, [])
    | .ok (b, contents) =>
      let tr := traceFS fs f contents
      let r := writeLoop E marker nl ((tr.getLast?).getD fs) t (eq && b)
      (r.1, tr ++ r.2)

/-- `write_strings_on_files_between_markers`, `/repo/md_toc/api.py` 135-169. -/
def writeStrings (E : Env) (fs : FS) (filenames strings : List Str) (marker nl : Str) :
    Except Exn Bool × List FS :=
  if filenames.length ≠ strings.length then (.error .ValueError, [])
  else writeLoop E marker nl fs (filenames.zip strings) true

end MdToc
