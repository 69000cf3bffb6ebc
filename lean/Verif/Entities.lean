import Verif.Generic

/-!
# The search for a named entity, `/repo/md_toc/cmark/houdini_html_u_c.py` 41-71
-/

namespace MdToc

/-- `_cmark_S_lookup`, `/repo/md_toc/cmark/houdini_html_u_c.py` 41-64.  The table has the names and the texts; `fuel` is the
number of nested calls that are allowed.  Simplification: the texts are not encoded as lists of bytes; `int(x / 2)` of a
number that is not negative is the integer division. -/
def entLookup (table : List (Str × Str)) (s : Str) (length : Nat) : Nat → Nat → Nat → Nat → Except Exn (Option Str)
  | 0, _, _, _ => .error .OutOfFuel
  | f + 1, i, low, hi =>
    match table[i]? with
    | none => .error .IndexError
    | some (name, bytes) =>
      let cmp := strncmp s name length
      if cmp = 0 ∧ length = name.length then .ok (some bytes)
      else if cmp = -1 ∧ i > low then
        let j := i - (i - low) / 2
        entLookup table s length f (if j = i then j - 1 else j) low (i - 1)
      else if cmp = 1 ∧ i < hi then
        let j := i + (hi - i) / 2
        entLookup table s length f (if j = i then j + 1 else j) (i + 1) hi
      else .ok none

/-- `_cmark_S_lookup_entity`, `/repo/md_toc/cmark/houdini_html_u_c.py` 68-72, with a limit on the number of nested calls. -/
def lookupEntity (fuel : Nat) (table : List (Str × Str)) (s : Str) (length : Nat) : Except Exn (Option Str) :=
  entLookup table s length fuel (table.length / 2) 0 (table.length - 1)

end MdToc
