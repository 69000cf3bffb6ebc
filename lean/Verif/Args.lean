import Verif.Cli

/-!
# The arguments of the command line, `/repo/md_toc/cli.py` 108-387

`argparse` splits the command line; the model starts from the options that were given, with their values as text (numbers
after `int`).  The options of the main parser come before the name of the markdown parser, the others after it.
-/

namespace MdToc

/-- The options on the command line.  For an option with `nargs='?'`: `none` if it is absent, `some none` if it has no value. -/
structure RawArgs where
  parser : Str
  filenames : List Str := []
  /-- `-u` -/
  unordered : Option (Option Str) := none
  /-- `-o` -/
  ordered : Option (Option Str) := none
  /-- `-c` after the parser -/
  constantOrdered : Bool := false
  /-- `-l` after the parser -/
  headerLevels : Option (Option Int) := none
  /-- `-c` before the parser -/
  noListCoherence : Bool := false
  /-- `-i` -/
  noIndentation : Bool := false
  /-- `-d` -/
  diff : Bool := false
  /-- `-l` before the parser -/
  noLinks : Bool := false
  /-- `-m` -/
  tocMarker : Option Str := none
  /-- `-n` -/
  newline : Option Str := none
  /-- `-p` -/
  inPlace : Bool := false
  /-- `-s` -/
  skipLines : Option Int := none

/-- The subparsers and their aliases, `/repo/md_toc/cli.py` 183-256. -/
def parserOf (s : Str) : Option Parser :=
  if s = "github".toList then some .github
  else if s = "commonmarker".toList then some .commonmarker
  else if s = "gitlab".toList then some .gitlab
  else if s = "cmark".toList then some .cmark
  else if s = "goldmark".toList then some .goldmark
  else if s = "redcarpet".toList then some .redcarpet
  else none

/-- `default_keep_levels`, `/repo/md_toc/constants.py` 88, 179. -/
def defaultKeepLevels : Int := 6

/-- The value of an option with `nargs='?'`, `const`, `default` and `choices`: `none` if `argparse` rejects it. -/
def optValue {α β : Type} (const : α) (default : β) (inject : α → β) (ok : α → Bool) : Option (Option α) → Option β
  | none => some default
  | some none => some (inject const)
  | some (some v) => if ok v then some (inject v) else none

/-- `-u`, `/repo/md_toc/cli.py` 126-138, 259-271. -/
def argUnordered (r : RawArgs) : Option Str := optValue defaultBullet defaultBullet id bulletMarkers.contains r.unordered

/-- `-o`, `/repo/md_toc/cli.py` 139-150, 272-283.  The markers of an alias are those of the main name, `/repo/md_toc/constants.py` 281-291. -/
def argOrdered (p : Parser) (r : RawArgs) : Option (Option Str) := optValue defaultClosingMarker none some p.closingMarkers.contains r.ordered

/-- `-l`, `/repo/md_toc/cli.py` 160-171, 206-207, 291-306. -/
def argLevels (r : RawArgs) : Option Int :=
  optValue defaultKeepLevels defaultKeepLevels id (fun l => decide (1 ≤ l) && decide (l < (maxLevels : Int) + 1)) r.headerLevels

/-- `-n`, `/repo/md_toc/cli.py` 350-362.  The default value is not checked against the choices; it is `os.linesep`, a line feed. -/
def argNewline (r : RawArgs) : Option Str :=
  match r.newline with
  | none => some ['\n']
  | some s => if s = ['\\', 'n'] ∨ s = ['\\', 'r'] ∨ s = ['\\', 'r', '\\', 'n'] then some s else none

/-- The mutually exclusive groups, `/repo/md_toc/cli.py` 203, 221, 239, 258, 311-324.  Simplification: `argparse` does not count an option whose value is
its default (`-u`, `-u -`) as given; whether this holds for a value from the command line depends on the version of Python, the
model follows the versions in which it does. -/
def argConflict (r : RawArgs) (u : Str) : Bool :=
  (r.ordered.isSome && r.unordered.isSome && u != defaultBullet) || (r.noListCoherence && r.noIndentation)

/-- `parse_args`, `/repo/md_toc/__main__.py` 34 with the parser of `/repo/md_toc/cli.py` 173-387; `none` if the arguments are invalid. -/
def parseArgs (r : RawArgs) : Option CliArgs := do
  let p ← parserOf r.parser
  let u ← argUnordered r
  let o ← argOrdered p r
  let l ← argLevels r
  let n ← argNewline r
  if argConflict r u then none
  else some {
    filenames := r.filenames
    orderedMarker := o
    unorderedMarker := u
    newline := n
    noLinks := r.noLinks
    noIndentation := r.noIndentation
    noListCoherence := r.noListCoherence
    headerLevels := l
    parser := p
    skipLines := r.skipLines.getD 0
    constantOrdered := r.constantOrdered
    inPlace := r.inPlace
    diff := r.diff
    tocMarker := r.tocMarker.getD "<!--TOC-->".toList }

/-- The program, `/repo/md_toc/__main__.py` 29-50: `argparse` exits with 2 when the arguments are invalid. -/
def program (E : Env) (r : RawArgs) (fs : FS) (stdin : Stdin) : Outcome :=
  match parseArgs r with
  | none => ⟨2, [], []⟩
  | some a => cliMain E a fs stdin

end MdToc
