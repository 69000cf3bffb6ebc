import Verif.Write

/-!
# The command line, `/repo/md_toc/cli.py` 51-105 and `/repo/md_toc/__main__.py`

This part starts from the parsed arguments; the checks of `argparse` (`/repo/md_toc/cli.py` 108-387) are in `Verif/Args.lean`.
-/

namespace MdToc

/-- The parsed arguments, `/repo/md_toc/cli.py` 54-105. -/
structure CliArgs where
  filenames : List Str
  orderedMarker : Option Str := none
  unorderedMarker : Str := ['-']
  newline : Str := ['\n']
  noLinks : Bool := false
  noIndentation : Bool := false
  noListCoherence : Bool := false
  headerLevels : Int := 6
  parser : Parser := .github
  skipLines : Int := 0
  constantOrdered : Bool := false
  inPlace : Bool := false
  diff : Bool := false
  tocMarker : Str := "<!--TOC-->".toList

/-- `newline_string` after the conversion, `/repo/md_toc/cli.py` 62-68. -/
def cliNewline (s : Str) : Str :=
  let s := if s = ['\\', 'n'] then ['\n'] else if s = ['\\', 'r'] then ['\r'] else s
  if s = ['\\', 'r', '\\', 'n'] then ['\r', '\n'] else s

/-- The parameters of `build_multiple_tocs`, `/repo/md_toc/cli.py` 56-82. -/
def CliArgs.options (a : CliArgs) : Options where
  ordered := a.orderedMarker.isSome
  noLinks := a.noLinks
  noIndentation := a.noIndentation
  noListCoherence := a.noListCoherence
  keep := a.headerLevels
  parser := a.parser
  listMarker := a.orderedMarker.getD a.unorderedMarker
  skipLines := a.skipLines
  constantOrdered := a.constantOrdered
  newline := cliNewline a.newline

/-- What a run does: the exit code, the printed text and the successive file systems. -/
structure Outcome where
  code : Nat
  out : Str
  trace : List FS

/-- The loop that prints, `/repo/md_toc/cli.py` 94-97: the outcome and the printed text.  `args.filename[i]` is the name
of the file: `-` is looked up as a file by `tocs_equal`. -/
def printLoop (E : Env) (fs : FS) (diff : Bool) (marker : Str) : List (Str × Str) → Bool → Except Exn Bool × Str
  | [], eq => (.ok eq, [])
  | (f, toc) :: t, eq =>
    if diff then
      match tocsEqual E toc (fs f) marker with
      | .error e => (.error e, toc)
      | .ok b =>
        let r := printLoop E fs diff marker t (eq && b)
        (r.1, toc ++ r.2)
    else
      let r := printLoop E fs diff marker t eq
      (r.1, toc ++ r.2)

/-- `CliToApi.write_toc`, `/repo/md_toc/cli.py` 54-105: the returned value, the printed text and the
successive file systems. -/
def writeToc (E : Env) (a : CliArgs) (fs : FS) (stdin : Stdin) : Except Exn Bool × Str × List FS :=
  let names := defaultNames a.filenames
  match buildMultipleTocs E a.options fs stdin a.filenames with
  | .error e => (.error e, [], [])
  | .ok tocs =>
    if a.inPlace then
      match writeStrings E fs names tocs a.tocMarker (cliNewline a.newline) with
      | (.error e, tr) => (.error e, [], tr)
      | (.ok eq, tr) => (.ok (!eq && a.diff), [], tr)
    else
      match printLoop E fs a.diff a.tocMarker (names.zip tocs) true with
      | (.error e, out) => (.error e, out, [])
      | (.ok eq, out) => (.ok (!eq && a.diff), out, [])

/-- `main`, `/repo/md_toc/__main__.py` 29-50: the exit code. Invalid arguments (code 2, given by
`argparse`) are in `program`, `Verif/Args.lean`. -/
def cliMain (E : Env) (a : CliArgs) (fs : FS) (stdin : Stdin) : Outcome :=
  match writeToc E a fs stdin with
  | (.error _, out, tr) => ⟨1, out, tr⟩
  | (.ok d, out, tr) => ⟨if d then 128 else 0, out, tr⟩

end MdToc
