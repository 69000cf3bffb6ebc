import Verif.Cmark.Subject

/-!
# The inline parser: delimiter runs
-/

namespace MdToc.Cmark

/-- The walk back of `_cmark_scan_delims`, `/repo/md_toc/cmark/inlines_c.py` 644-653, given
the reversed characters before the position: the character looked at. -/
def beforeChar : Str → Char
  | [] => '\n'
  | [c] => c
  | c :: t => if 128 ≤ c.toNat ∧ c.toNat ≤ 191 then beforeChar t else c

/-- Number of characters of the run, `/repo/md_toc/cmark/inlines_c.py` 658-664. -/
def runLength (c : Char) (rest : Str) : Nat :=
  if c = '\'' ∨ c = '"' then 1 else (rest.takeWhile (· == c)).length

/-- Flanking, `/repo/md_toc/cmark/inlines_c.py` 672-701: `(can_open, can_close)`. The comparisons
of an integer with one-character strings at 695-696 are constant. -/
def flanking (E : Env) (c before after : Char) (numdelims : Nat) : Bool × Bool :=
  let left := numdelims > 0 && !isSpace after &&
    (!isUPunct E after || isSpace before || isUPunct E before)
  let right := numdelims > 0 && !isSpace before &&
    (!isUPunct E before || isSpace after || isUPunct E after)
  if c = '_' then
    (left && (!right || isUPunct E before), right && (!left || isUPunct E after))
  else if c = '\'' ∨ c = '"' then (left && !right, right)
  else (left, right)

/-- `_cmark_scan_delims`, `/repo/md_toc/cmark/inlines_c.py` 630-703:
`(numdelims, can_open, can_close)`; the position moves by `numdelims`. -/
def scanDelims (E : Env) (s : Subj) (c : Char) : Nat × Bool × Bool :=
  let before := if s.pos = 0 then '\n' else beforeChar (s.data.take s.pos).reverse
  let n := runLength c (restFrom s s.pos)
  let after := match restFrom s (s.pos + n) with | [] => '\n' | a :: _ => a
  let (o, cl) := flanking E c before after n
  (n, o, cl)

/-- `_cmark_handle_delim` with `_cmark_push_delimiter`, `/repo/md_toc/cmark/inlines_c.py`
734-800, for `smart = False`. -/
def handleDelim (E : Env) (s : Subj) (c : Char) : Subj :=
  let (n, o, cl) := scanDelims E s c
  if (o || cl) && !(c == '\'' || c == '"') then
    { s with
      pos := s.pos + n
      delims := { pos := s.pos, length := n, inlLen := n, ch := c, canOpen := o, canClose := cl, offset := 0 } :: s.delims }
  else { s with pos := s.pos + n }

/-- `openers_bottom_index`, `/repo/md_toc/cmark/inlines_c.py` 888-902. Simplification: quotes
never reach the delimiter list (line 797 with `smart = False`), so they count as the `ValueError` case. -/
def bottomIndex (c : Delim) : Except Exn Nat :=
  if c.ch = '_' then .ok 2
  else if c.ch = '*' then .ok (3 + (if c.canOpen then 3 else 0) + c.length % 3)
  else .error .ValueError

/-- The condition for a matching opener, `/repo/md_toc/cmark/inlines_c.py` 909-914. -/
def openerMatches (o c : Delim) : Bool :=
  o.canOpen && o.ch == c.ch &&
    (!(c.canOpen || o.canClose) || c.length % 3 == 0 || (o.length + c.length) % 3 != 0)

/-- Search for the opener, `/repo/md_toc/cmark/inlines_c.py` 904-917: the opener and
the delimiters before it. -/
def findOpener (c : Delim) (bottom : Option Nat) : List Delim → Option (Delim × List Delim)
  | [] => none
  | o :: t =>
    if some o.pos = bottom then none
    else if openerMatches o c then some (o, t)
    else findOpener c bottom t

/-- `use_delims`, `/repo/md_toc/cmark/inlines_c.py` 973-977. -/
def useDelims (o c : Delim) : Nat := if c.inlLen ≥ 2 ∧ o.inlLen ≥ 2 then 2 else 1

/-- The two ranges of `_cmark_remove_emph`, `/repo/md_toc/cmark/inlines_c.py` 1020-1027. -/
def emphRanges (o c : Delim) (use : Nat) : List Range :=
  [(o.pos + o.length - use - o.offset, o.pos + o.length - o.offset),
   (c.pos + c.offset, c.pos + use + c.offset)]

/-- A delimiter with `use` characters less, `/repo/md_toc/cmark/inlines_c.py` 980-987, 1029-1030. -/
def Delim.consume (d : Delim) (use : Nat) : Delim :=
  { d with inlLen := d.inlLen - use, offset := d.offset + use }

/-- Keep a delimiter only if characters are left, `/repo/md_toc/cmark/inlines_c.py` 1032-1044. -/
def keepDelim (d : Delim) (t : List Delim) : List Delim := if d.inlLen = 0 then t else d :: t

/-- The main loop of `_cmark_process_emphasis` with `_cmark_remove_emph`,
`/repo/md_toc/cmark/inlines_c.py` 886-950, 958-1046.  `newer` starts with the current closer,
`older` has the delimiters before it, nearest first.  `bots` is `openers_bottom`.
The check of the list pointers at 712-713 cannot fail on a list (`C76_same`); it is modelled in `Pointers.lean` only. -/
def emphLoop : Nat → List Delim → List Delim → (Nat → Option Nat) → List Range →
    Except Exn (List Delim × List Range)
  | 0, _, _, _, _ => .error .OutOfFuel
  | _ + 1, older, [], _, ig => .ok (older, ig)
  | f + 1, older, c :: rest, bots, ig =>
    if c.canClose then do
      let idx ← bottomIndex c
      match findOpener c (bots idx) older with
      | some (o, below) =>
        let use := useDelims o c
        emphLoop f (keepDelim (o.consume use) below) (keepDelim (c.consume use) rest) bots
          (ig ++ emphRanges o c use)
      | none =>
        let bots' := fun i => if i = idx then older.head?.map (·.pos) else bots i
        if c.canOpen then emphLoop f (c :: older) rest bots' ig
        else emphLoop f older rest bots' ig
    else emphLoop f (c :: older) rest bots ig

/-- Number of rounds that is enough for `emphLoop`. -/
def emphFuel : List Delim → Nat
  | [] => 1
  | d :: t => d.inlLen + 1 + emphFuel t

/-- The delimiter list split at the stack bottom, `/repo/md_toc/cmark/inlines_c.py` 881-883: the
older ones and those from the first relevant one on.  If the bottom is not in the list
there is no closer. -/
def splitAtBottom (bottom : Option Nat) (ds : List Delim) : Option (List Delim × List Delim) :=
  match bottom with
  | none => some ([], ds.reverse)
  | some b =>
    if ds.any (fun d => d.pos == b) then
      some (ds.dropWhile (fun d => d.pos != b), (ds.takeWhile (fun d => d.pos != b)).reverse)
    else none

/-- `_cmark_process_emphasis`, `/repo/md_toc/cmark/inlines_c.py` 862-954. -/
def processEmphasis (s : Subj) (bottom : Option Nat) : Except Exn Subj :=
  match splitAtBottom bottom s.delims with
  | none => .ok { s with delims := [] }
  | some (older, newer) => do
    let (ds, ig) ← emphLoop (emphFuel newer) older newer (fun _ => bottom) s.ignore
    .ok { s with
      delims := match bottom with | none => [] | some b => ds.dropWhile (fun d => d.pos != b)
      ignore := ig }

end MdToc.Cmark
