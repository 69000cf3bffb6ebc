import Verif.Write

/-!
# The steps of writing a table of contents

`Verif/Write.lean` gives the successive contents of a file while `write_string_on_file_between_markers` runs.  Here the same function is a machine whose steps are
the accesses to the file system, so that several processes can be run together in any order.  A file is read, or read and written, at once in a step.
-/

namespace MdToc

/-- The first region between two markers which is a table of contents, and the final `marker_line_positions_length`, `/repo/md_toc/generic.py` 109-149. -/
def findRegion (E : Env) (text : Str) : List Nat → Option (Nat × Nat) × Nat
  | m1 :: m2 :: t => if tocRegion E text m1 m2 then (some (m1, m2), (m2 :: t).length) else findRegion E text (m2 :: t)
  | l => (none, l.length)

/-- The point a call of `write_string_on_file_between_markers` has reached, `/repo/md_toc/api.py` 69-132, with `_get_existing_toc`, `/repo/md_toc/generic.py` 88-155. -/
inductive Pc
  /-- Nothing is done. -/
  | start
  /-- The markers are known, the old table is to be read (`_extract_lines`, `/repo/md_toc/generic.py` 132). -/
  | extract (positions : List Nat) (posLen : Nat) (m1 m2 : Nat)
  /-- The values of `_get_existing_toc` are known, these intervals are to be removed, `/repo/md_toc/api.py` 114-119. -/
  | remove (e : Existing) (intervals : List (Nat × Nat))
  /-- The string is to be written, `/repo/md_toc/api.py` 122-130. -/
  | insert (e : Existing)
  /-- The returned value or the exception. -/
  | done (r : Except Exn Bool)

/-- Reading the lines of a file: what the functions of fpyutils used in `/repo/md_toc/generic.py` 53-105 and `/repo/md_toc/api.py` 114-130 do first. -/
def readLines (fs : FS) (f : Str) : Except Exn (List Str) :=
  match fs f with
  | none => .error .FileNotFoundError
  | some src => if src.bad then .error .UnicodeDecodeError else .ok src.lines

/-- The intervals to be removed, `/repo/md_toc/api.py` 114-119: those of the old table, or the only marker. -/
def Existing.intervals (e : Existing) : List (Nat × Nat) :=
  e.toDelete ++ if !e.twoOrMore ∧ e.posLen = 1 then [(e.positions.headD 0, e.positions.headD 0)] else []

/-- One step of `write_string_on_file_between_markers`, `/repo/md_toc/api.py` 69-132.  Simplification: fpyutils reads and writes a file at once. -/
def stepWrite (E : Env) (f string marker nl : Str) (fs : FS) : Pc → FS × Pc
  | .start =>
    if f = stdinName then (fs, .done (.error .StdinIsNotAFileToBeWritten))
    else match readLines fs f with
      | .error e => (fs, .done (.error e))
      | .ok lines =>
        let pos := lineMatches marker lines
        match findRegion E lines.flatten pos with
        | (some (m1, m2), n) =>
          if m1 + 1 ≤ m2 - 1 then (fs, .extract pos n m1 m2)
          else let e : Existing := ⟨[], [(m1, m2)], decide (pos.length ≥ 2), n, pos, m1⟩
            (fs, .remove e e.intervals)
        | (none, n) =>
          let e : Existing := ⟨if pos.length < 2 ∧ n = 1 then marker else [], [], decide (pos.length ≥ 2), n, pos, pos.headD 0⟩
          (fs, .remove e e.intervals)
  | .extract pos n m1 m2 =>
    match readLines fs f with
    | .error e => (fs, .done (.error e))
    | .ok lines => match extractLines lines (m1 + 1) (m2 - 1) with
      | .error e => (fs, .done (.error e))
      | .ok old => let e : Existing := ⟨pyStrip old, [(m1, m2)], decide (pos.length ≥ 2), n, pos, m1⟩
        (fs, .remove e e.intervals)
  | .remove e [] => (fs, .insert e)
  | .remove e ((a, b) :: t) =>
    if a < 1 ∨ b < 1 ∨ a > b then (fs, .done (.error .ValueError))
    else match readLines fs f with
      | .error e => (fs, .done (.error e))
      | .ok lines => match removeLineInterval lines a b with
        | .error e => (fs, .done (.error e))
        | .ok l => (fs.write f l.flatten, .remove e t)
  | .insert e =>
    if e.posLen ≥ 1 then
      match readLines fs f with
      | .error e => (fs, .done (.error e))
      | .ok lines => (fs.write f (insertStringAtLine lines (finalTocString string marker nl) e.firstLine nl), .done (.ok (pyStrip string == e.oldToc)))
    else (fs, .done (.ok (pyStrip string == e.oldToc)))
  | .done r => (fs, .done r)

/-- A process which runs `write_strings_on_files_between_markers`, `/repo/md_toc/api.py` 135-169: the files and strings left, the first one is being written. -/
structure Proc where
  marker : Str
  newline : Str
  todo : List (Str × Str)
  equal : Bool := true
  pc : Pc := .start
  result : Option (Except Exn Bool) := none

/-- One step of a process, `/repo/md_toc/api.py` 153-169: a step of the call for the first file left, or the end of the loop. -/
def Proc.step (E : Env) (fs : FS) (p : Proc) : FS × Proc :=
  match p.result with
  | some _ => (fs, p)
  | none =>
    match p.todo with
    | [] => (fs, { p with result := some (.ok p.equal) })
    | (f, s) :: t =>
      match stepWrite E f s p.marker p.newline fs p.pc with
      | (fs', .done (.ok b)) => (fs', { p with todo := t, equal := p.equal && b, pc := .start })
      | (fs', .done (.error e)) => (fs', { p with pc := .start, result := some (.error e) })
      | (fs', pc) => (fs', { p with pc := pc })

/-- A process alone for some number of steps: one run of `/repo/md_toc/api.py` 135-169, possibly stopped before its end. -/
def Proc.alone (E : Env) : Nat → FS → Proc → FS × Proc
  | 0, fs, p => (fs, p)
  | n + 1, fs, p => let r := p.step E fs; Proc.alone E n r.1 r.2

/-- Several processes together, each one a run of `/repo/md_toc/api.py` 135-169: the schedule says which one takes the next step. -/
def runAll (E : Env) : List Nat → FS → (Nat → Proc) → FS × (Nat → Proc)
  | [], fs, ps => (fs, ps)
  | i :: sched, fs, ps =>
    let r := (ps i).step E fs
    runAll E sched r.1 (fun j => if j = i then r.2 else ps j)

end MdToc
