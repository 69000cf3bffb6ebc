import Verif.Steps
import Verif.Cli

/-!
# The steps of a whole command

`Verif/Cli.lean` gives the outcome of a command which runs alone.  Here the same program is a machine whose steps are the accesses to the file system, so that several commands can be run
together in any order.
-/

namespace MdToc

/-- The point a command has reached, `/repo/md_toc/cli.py` 54-105. -/
inductive Stage
  /-- The tables of these files are to be built, those of the files before them are known, `/repo/md_toc/api.py` 494-510. -/
  | build (left : List Str) (tocs : List Str)
  /-- These tables are to be printed and compared, `/repo/md_toc/cli.py` 94-97; the text printed so far. -/
  | print (left : List (Str × Str)) (equal : Bool) (out : Str)
  /-- The tables are written, `/repo/md_toc/cli.py` 86-92. -/
  | write (p : Proc)
  /-- The exit code and the printed text, `/repo/md_toc/__main__.py` 29-50. -/
  | done (code : Nat) (out : Str)

/-- A command: its arguments, its standard input and the point it has reached, `/repo/md_toc/__main__.py` 29-50. -/
structure Cmd where
  args : CliArgs
  stdin : Stdin
  stage : Stage

/-- A command which has not started, `/repo/md_toc/api.py` 494-495. -/
def Cmd.start (a : CliArgs) (stdin : Stdin) : Cmd := ⟨a, stdin, .build (defaultNames a.filenames) []⟩

/-- The exit code for the returned value of `write_toc`, `/repo/md_toc/cli.py` 99-105 and `/repo/md_toc/__main__.py` 29-50. -/
def exitCode (a : CliArgs) (equal : Bool) : Nat := if !equal && a.diff then 128 else 0

/-- The table of the next file and the standard input behind it, one turn of the loop `/repo/md_toc/api.py` 496-510 (see `buildTocs`). -/
def buildNext (E : Env) (a : CliArgs) (fs : FS) (stdin : Stdin) (f : Str) : Except Exn Str × Stdin :=
  if f = stdinName then
    if ¬ a.options.skipLines ≥ 0 then (.error .ValueError, stdin)
    else match stdin with
      | none => (.error .ValueError, none)
      | some src => (buildToc E a.options f (some src), none)
  else (buildToc E a.options f (fs f), stdin)

/-- One step of a command, `/repo/md_toc/cli.py` 54-105.  Simplification: a file is read at once, by `build_toc` and by `tocs_equal`; the accesses of writing are those of `Proc.step`. -/
def Cmd.step (E : Env) (fs : FS) (c : Cmd) : FS × Cmd :=
  match c.stage with
  | .build [] tocs =>
    let todo := (defaultNames c.args.filenames).zip tocs
    if c.args.inPlace then (fs, { c with stage := .write { marker := c.args.tocMarker, newline := cliNewline c.args.newline, todo := todo } })
    else (fs, { c with stage := .print todo true [] })
  | .build (f :: t) tocs =>
    match buildNext E c.args fs c.stdin f with
    | (.error _, i) => (fs, { c with stdin := i, stage := .done 1 [] })
    | (.ok toc, i) => (fs, { c with stdin := i, stage := .build t (tocs ++ [toc]) })
  | .print [] eq out => (fs, { c with stage := .done (exitCode c.args eq) out })
  | .print ((f, toc) :: t) eq out =>
    if c.args.diff then
      match tocsEqual E toc (fs f) c.args.tocMarker with
      | .error _ => (fs, { c with stage := .done 1 (out ++ toc) })
      | .ok b => (fs, { c with stage := .print t (eq && b) (out ++ toc) })
    else (fs, { c with stage := .print t eq (out ++ toc) })
  | .write p =>
    match p.result with
    | none => let r := p.step E fs; (r.1, { c with stage := .write r.2 })
    | some (.ok eq) => (fs, { c with stage := .done (exitCode c.args eq) [] })
    | some (.error _) => (fs, { c with stage := .done 1 [] })
  | .done _ _ => (fs, c)

/-- A command alone for some number of steps: one run of `/repo/md_toc/__main__.py` 29-50, possibly stopped before its end. -/
def Cmd.alone (E : Env) : Nat → FS → Cmd → FS × Cmd
  | 0, fs, c => (fs, c)
  | n + 1, fs, c => let r := c.step E fs; Cmd.alone E n r.1 r.2

/-- Several commands together, each one a run of `/repo/md_toc/__main__.py` 29-50: the schedule says which one takes the next step. -/
def runCommands (E : Env) : List Nat → FS → (Nat → Cmd) → FS × (Nat → Cmd)
  | [], fs, cs => (fs, cs)
  | i :: sched, fs, cs =>
    let r := (cs i).step E fs
    runCommands E sched r.1 (fun j => if j = i then r.2 else cs j)

end MdToc
