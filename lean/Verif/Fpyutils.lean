import Verif.Toc

/-!
# The library `fpyutils.filelines`

This is not code of the repository: it is the behaviour of the three functions of fpyutils 4.0.1
that `/repo` calls, part of the trusted base.  Files are read with universal newlines and
written without translation (Linux).  Each function writes the output file in one atomic step.
-/

namespace MdToc

/-- `fpyutils.filelines.get_line_matches(filename, marker, 0, loose_matching=True, keep_all_lines=True)`,
called at `/repo/md_toc/generic.py` 91-97: the numbers of the lines that match; `n` is the number of
the first line of the list. -/
def lineMatchesFrom (marker : Str) : Nat → List Str → List Nat
  | _, [] => []
  | n, l :: t =>
    if pyStrip l = pyStrip marker then n :: lineMatchesFrom marker (n + 1) t
    else lineMatchesFrom marker (n + 1) t

/-- The numbers of the lines that match, counting from one. -/
def lineMatches (marker : Str) (lines : List Str) : List Nat := lineMatchesFrom marker 1 lines

/-- `fpyutils.filelines.remove_line_interval`, called at `/repo/md_toc/generic.py` 80-85. -/
def removeLineInterval (lines : List Str) (a b : Nat) : Except Exn (List Str) :=
  if a < 1 ∨ b < 1 then .error .LineOutOfFileBoundsError
  else if a > b then .error .NegativeLineRangeError
  else if b > lines.length then .error .LineOutOfFileBoundsError
  else .ok (lines.take (a - 1) ++ lines.drop b)

/-- `fpyutils.filelines.insert_string_at_line` with `append=False`, called at
`/repo/md_toc/api.py` 123-130: the new text. -/
def insertStringAtLine (lines : List Str) (string : Str) (n : Nat) (newline : Str) : Str :=
  if n ≤ lines.length then
    (lines.take (n - 1)).flatten ++ string ++ (lines.drop (n - 1)).flatten
  else
    lines.flatten ++ (List.replicate (n - lines.length - 1) newline).flatten ++ string

end MdToc
