import Verif.Cmark.Tree

/-!
# The inline parser with its linked lists

`Tree.lean` has the tree of nodes, but delimiters and brackets are still lists of values.  Here they
are objects on a heap too, with the pointers of `/repo/md_toc/cmark/inlines_c.py` 127-208, and so is
the text node of a delimiter with its length and columns.  Integers are Python integers: nothing
is cut off at zero.  `removeEmphasisPtr` is `remove_emphasis` at this level; that it always gives the same as
`removeEmphasis` is proved in `Verif.Props.Pointers`.

Simplifications: the characters of a text node (`data`) are left out, they are sliced, which never
fails, and not read.  A loop over pointers that does not end is the value `OutOfFuel`.
An object is a number, new objects get the next number.
-/

namespace MdToc.Cmark

/-- `_cmarkDelimiter`, `/repo/md_toc/cmark/inlines_c.py` 127-151.  `inl` is the node `inl_text`. -/
structure PDelim where
  prev : Option Nat
  next : Option Nat
  inl : Nat
  length : Int
  ch : Char
  canOpen : Bool
  canClose : Bool
  offset : Int

/-- `_cmarkBracket`, `/repo/md_toc/cmark/inlines_c.py` 154-172. -/
structure PBracket where
  prev : Option Nat
  prevDelim : Option Nat
  inl : Nat
  position : Nat
  image : Bool
  active : Bool
  bracketAfter : Bool

/-- The attributes of a text node, `/repo/md_toc/cmark/node_h.py` 72-133, set by `_cmark_make_str`,
`/repo/md_toc/cmark/inlines_c.py` 215-263. -/
structure PText where
  length : Int
  startCol : Int
  endCol : Int

/-- All objects: the delimiters with `last_delim`, the brackets with `last_bracket`, the nodes with their
texts, and the list `ignore`. -/
structure Heap where
  dl : Nat → PDelim
  dfresh : Nat
  last : Option Nat
  br : Nat → PBracket
  bfresh : Nat
  lastBr : Option Nat
  text : Nat → PText
  tree : Tree
  ignore : List (Int × Int)

/-- Assignment to attributes of a delimiter. -/
def Heap.modD (h : Heap) (x : Nat) (f : PDelim → PDelim) : Heap :=
  { h with dl := fun y => if y = x then f (h.dl y) else h.dl y }

/-- Assignment to attributes of a bracket. -/
def Heap.modB (h : Heap) (x : Nat) (f : PBracket → PBracket) : Heap :=
  { h with br := fun y => if y = x then f (h.br y) else h.br y }

/-- Assignment to attributes of a text node. -/
def Heap.modT (h : Heap) (x : Nat) (f : PText → PText) : Heap :=
  { h with text := fun y => if y = x then f (h.text y) else h.text y }

/-- The first half of `_cmark_remove_delimiter`, `/repo/md_toc/cmark/inlines_c.py` 710-716. -/
def cutNext (h : Heap) (d : Nat) : Except Exn Heap :=
  match (h.dl d).next with
  | none => if h.last ≠ some d then .error .ValueError else .ok { h with last := (h.dl d).prev }
  | some y => .ok (h.modD y (fun n => { n with prev := (h.dl d).prev }))

/-- `_cmark_remove_delimiter`, `/repo/md_toc/cmark/inlines_c.py` 707-719. -/
def removeDelimiter (h : Heap) (d : Nat) : Except Exn Heap := do
  let h ← cutNext h d
  match (h.dl d).prev with
  | none => .ok h
  | some p => .ok (h.modD p (fun n => { n with next := (h.dl d).next }))

/-- `_cmark_push_delimiter`, `/repo/md_toc/cmark/inlines_c.py` 734-751. -/
def pushDelimiter (h : Heap) (c : Char) (canOpen canClose : Bool) (inl : Nat) : Heap :=
  let x := h.dfresh
  let new : PDelim := ⟨h.last, none, inl, (h.text inl).length, c, canOpen, canClose, 0⟩
  let h1 := { h with dl := fun y => if y = x then new else h.dl y, dfresh := x + 1 }
  let h2 := match h.last with
    | none => h1
    | some p => h1.modD p (fun n => { n with next := some x })
  { h2 with last := some x }

/-- `_cmark_pop_bracket`, `/repo/md_toc/cmark/inlines_c.py` 723-730. -/
def popBracket (h : Heap) : Heap :=
  match h.lastBr with
  | none => h
  | some b => { h with lastBr := (h.br b).prev }

/-- `_cmark_push_bracket`, `/repo/md_toc/cmark/inlines_c.py` 755-767; `pos` is `subj.pos`. -/
def pushBracketP (h : Heap) (image : Bool) (inl pos : Nat) : Heap :=
  let h1 := match h.lastBr with
    | none => h
    | some b => h.modB b (fun n => { n with bracketAfter := true })
  let x := h1.bfresh
  { h1 with
    br := fun y => if y = x then ⟨h.lastBr, h.last, inl, pos, image, true, false⟩ else h1.br y
    bfresh := x + 1
    lastBr := some x }

/-- The loop back to the first relevant delimiter, `/repo/md_toc/cmark/inlines_c.py` 881-883. -/
def backLoop (h : Heap) (bottom : Option Nat) : Nat → Option Nat → Except Exn (Option Nat)
  | 0, _ => .error .OutOfFuel
  | _ + 1, none => .ok none
  | f + 1, some c => if (h.dl c).prev = bottom then .ok (some c) else backLoop h bottom f (h.dl c).prev

/-- `openers_bottom_index`, `/repo/md_toc/cmark/inlines_c.py` 888-902.  For quotes as in `bottomIndex`. -/
def bottomIndexP (c : PDelim) : Except Exn Nat :=
  if c.ch = '_' then .ok 2
  else if c.ch = '*' then .ok (3 + (if c.canOpen then 3 else 0) + (c.length % 3).toNat)
  else .error .ValueError

/-- The condition for a matching opener, `/repo/md_toc/cmark/inlines_c.py` 909-914. -/
def matchesP (o c : PDelim) : Bool :=
  o.canOpen && o.ch == c.ch &&
    (!(c.canOpen || o.canClose) || c.length % 3 == 0 || (o.length + c.length) % 3 != 0)

/-- The search for the opener, `/repo/md_toc/cmark/inlines_c.py` 904-917. -/
def openerLoop (h : Heap) (c : Nat) (bottom : Option Nat) : Nat → Option Nat → Except Exn (Option Nat)
  | 0, _ => .error .OutOfFuel
  | _ + 1, none => .ok none
  | f + 1, some o =>
    if some o = bottom then .ok none
    else if matchesP (h.dl o) (h.dl c) then .ok (some o)
    else openerLoop h c bottom f (h.dl o).prev

/-- The loop that removes the delimiters between opener and closer, `/repo/md_toc/cmark/inlines_c.py` 990-994. -/
def betweenLoop (o : Nat) : Nat → Heap → Option Nat → Except Exn Heap
  | 0, _, _ => .error .OutOfFuel
  | _ + 1, h, none => .ok h
  | f + 1, h, some d =>
    if d = o then .ok h
    else do
      let h' ← removeDelimiter h d
      betweenLoop o f h' (h.dl d).prev

/-- The nodes between opener and closer are moved into a new one, `/repo/md_toc/cmark/inlines_c.py` 996-1009. -/
def spliceP (t : Tree) (oi ci : Nat) (use : Int) : Except Exn Tree := do
  let emph := t.fresh
  let t := t.new (if use = 1 then .emph else .strong)
  let t ← moveLoop emph (some ci) (t.fresh + 1) t (t.nodes oi).next
  insertAfter t oi emph

/-- `use_delims`, `/repo/md_toc/cmark/inlines_c.py` 973-977. -/
def useP (on cn : Int) : Int := if cn ≥ 2 ∧ on ≥ 2 then 2 else 1

/-- The end of `_cmark_remove_emph` for the opener, `/repo/md_toc/cmark/inlines_c.py` 1032-1035. -/
def dropOpener (h : Heap) (o oi : Nat) (on : Int) : Except Exn Heap :=
  if on = 0 then do
    let t ← nodeFree h.tree oi
    removeDelimiter { h with tree := t } o
  else .ok h

/-- The end of `_cmark_remove_emph` for the closer, `/repo/md_toc/cmark/inlines_c.py` 1037-1046. -/
def dropCloser (h : Heap) (c ci : Nat) (cn : Int) : Except Exn (Heap × Option Nat) :=
  if cn = 0 then do
    let t ← nodeFree h.tree ci
    let h := { h with tree := t }
    let h' ← removeDelimiter h c
    .ok (h', (h.dl c).next)
  else .ok (h, some c)

/-- `_cmark_remove_emph`, `/repo/md_toc/cmark/inlines_c.py` 958-1046. -/
def removeEmphP (h : Heap) (o c : Nat) : Except Exn (Heap × Option Nat) := do
  let oi := (h.dl o).inl
  let ci := (h.dl c).inl
  let on := (h.text oi).length
  let cn := (h.text ci).length
  let use := useP on cn
  let on := on - use
  let cn := cn - use
  let h := h.modT oi (fun n => { n with length := on })
  let h := h.modT ci (fun n => { n with length := cn })
  let h ← betweenLoop o (h.dfresh + 1) h (h.dl c).prev
  let t ← spliceP h.tree oi ci use
  let h := { h with
    tree := t
    ignore := h.ignore ++
      [((h.text oi).endCol - use - (h.dl o).offset, (h.text oi).endCol - (h.dl o).offset),
       ((h.text ci).startCol + (h.dl c).offset - 1, (h.text ci).startCol + use + (h.dl c).offset - 1)] }
  let h := h.modD o (fun n => { n with offset := n.offset + use })
  let h := h.modD c (fun n => { n with offset := n.offset + use })
  let h ← dropOpener h o oi on
  dropCloser h c ci cn

/-- `/repo/md_toc/cmark/inlines_c.py` 941-948: the closer without an opener. -/
def noOpener (h : Heap) (c : Nat) : Except Exn Heap :=
  if !(h.dl c).canOpen then removeDelimiter h c else .ok h

/-- The main loop of `_cmark_process_emphasis`, `/repo/md_toc/cmark/inlines_c.py` 886-950. -/
def emphLoopP : Nat → Heap → Option Nat → (Nat → Option Nat) → Except Exn Heap
  | 0, _, _, _ => .error .OutOfFuel
  | _ + 1, h, none, _ => .ok h
  | f + 1, h, some c, bots =>
    if (h.dl c).canClose then do
      let idx ← bottomIndexP (h.dl c)
      match ← openerLoop h c (bots idx) (h.dfresh + 1) (h.dl c).prev with
      | some o =>
        let (h, c) ← removeEmphP h o c
        emphLoopP f h c bots
      | none =>
        let next := (h.dl c).next
        let bots' := fun i => if i = idx then (h.dl c).prev else bots i
        let h ← noOpener h c
        emphLoopP f h next bots'
    else emphLoopP f h (h.dl c).next bots

/-- The loop at the end of `_cmark_process_emphasis`, `/repo/md_toc/cmark/inlines_c.py` 952-954, and with
`None` the one of `_cmark_cmark_parse_inlines`, 2156-2157. -/
def clearLoop (bottom : Option Nat) : Nat → Heap → Except Exn Heap
  | 0, _ => .error .OutOfFuel
  | f + 1, h =>
    match h.last with
    | none => .ok h
    | some d =>
      if some d = bottom then .ok h
      else do
        let h ← removeDelimiter h d
        clearLoop bottom f h

/-- A number of rounds that is enough for `emphLoopP`. -/
def loopFuel (h : Heap) : Nat :=
  1 + ((List.range h.dfresh).map (fun i => (h.text (h.dl i).inl).length.toNat + 1)).sum

/-- `_cmark_process_emphasis`, `/repo/md_toc/cmark/inlines_c.py` 862-954. -/
def processEmphasisP (h : Heap) (bottom : Option Nat) : Except Exn Heap := do
  let c ← backLoop h bottom (h.dfresh + 1) h.last
  let h ← emphLoopP (loopFuel h) h c (fun _ => bottom)
  clearLoop bottom (h.dfresh + 1) h

/-- The subject: `s` has the text, the position and the flags; its lists are not used. -/
structure PSubj where
  s : Subj
  h : Heap

/-- A new text node appended to the parent, `/repo/md_toc/cmark/inlines_c.py` 215-263, 2126-2127. The
columns are those for `column_offset = block_offset = 0`: `/repo/md_toc/api.py` 868-870, and
`_cmark_adjust_subj_node_newlines` returns at once (511) because `options` is 0. -/
def addText (h : Heap) (sc ec : Int) (length : Int) : Heap :=
  let x := h.tree.fresh
  { h with
    tree := addLeaf h.tree sc.toNat
    text := fun y => if y = x then ⟨length, sc + 1, ec + 1⟩ else h.text y }

/-- `_cmark_handle_delim`, `/repo/md_toc/cmark/inlines_c.py` 772-800, for `smart = False`.  The node is
appended to the parent (2126-2127) before the delimiter is made, which is the same. -/
def handleDelimP (E : Env) (q : PSubj) (c : Char) : PSubj :=
  let (n, o, cl) := scanDelims E q.s c
  let x := q.h.tree.fresh
  let s := { q.s with pos := q.s.pos + n }
  let h := addText q.h ((s.pos : Int) - n) ((s.pos : Int) - 1) n
  if (o || cl) && !(c == '\'' || c == '"') then ⟨s, pushDelimiter h c o cl x⟩ else ⟨s, h⟩

/-- `/repo/md_toc/cmark/inlines_c.py` 2096-2100. -/
def openBracketP (q : PSubj) : PSubj :=
  let s := { q.s with pos := q.s.pos + 1 }
  let x := q.h.tree.fresh
  ⟨s, pushBracketP (addText q.h ((s.pos : Int) - 1) ((s.pos : Int) - 1) 1) false x s.pos⟩

/-- The changes of the tree for a link, `/repo/md_toc/cmark/inlines_c.py` 1452-1469. -/
def linkTreeP (t : Tree) (oi : Nat) : Except Exn Tree := do
  let l := t.fresh
  let t := t.new .link
  let t ← insertBefore t oi l
  let t ← moveLoop l none (t.fresh + 1) t (t.nodes oi).next
  nodeFree t oi

/-- The loop that deactivates the earlier brackets, `/repo/md_toc/cmark/inlines_c.py` 1478-1486. -/
def deactivateLoop : Nat → Heap → Option Nat → Except Exn Heap
  | 0, _, _ => .error .OutOfFuel
  | _ + 1, h, none => .ok h
  | f + 1, h, some b =>
    if !(h.br b).image then
      if !(h.br b).active then .ok h
      else deactivateLoop f (h.modB b (fun n => { n with active := false })) (h.br b).prev
    else deactivateLoop f h (h.br b).prev

/-- The part of `_cmark_handle_close_bracket` after a link is found, `/repo/md_toc/cmark/inlines_c.py`
1444-1488. -/
def closeLinkP (h : Heap) (opener : Nat) : Except Exn Heap := do
  let t ← linkTreeP h.tree (h.br opener).inl
  let h ← processEmphasisP { h with tree := t } (h.br opener).prevDelim
  let isImage := (h.br opener).image
  let h := popBracket h
  if !isImage then deactivateLoop (h.bfresh + 1) h h.lastBr else .ok h

/-- `_cmark_handle_close_bracket`, `/repo/md_toc/cmark/inlines_c.py` 1334-1495; the parts without
pointers as in `handleCloseBracket`. -/
def handleCloseBracketP (E : Env) (q : PSubj) : Except Exn PSubj :=
  let s := { q.s with pos := q.s.pos + 1 }
  match q.h.lastBr with
  | none => .ok ⟨s, q.h⟩
  | some opener =>
    if !(q.h.br opener).active then .ok ⟨s, popBracket q.h⟩
    else do
      match ← inlineLink E s with
      | some p =>
        let h ← closeLinkP q.h opener
        .ok ⟨{ s with pos := p }, h⟩
      | none =>
        linkLabel s
        .ok ⟨s, popBracket q.h⟩

/-- `_cmark_parse_inline`, `/repo/md_toc/cmark/inlines_c.py` 2066-2129, given the current character.  The
handlers not named here do not use the linked lists. -/
def parseInlineP (E : Env) (q : PSubj) (c : Char) : Except Exn PSubj :=
  if c = '*' ∨ c = '_' ∨ c = '\'' ∨ c = '"' then .ok (handleDelimP E q c)
  else if c = '[' then .ok (openBracketP q)
  else if c = ']' then handleCloseBracketP E q
  else do
    let s ← parseInline E q.s c
    let t := if c = '<' ∧ isAutolink E q.s then addAutolink q.h.tree q.s.pos else addLeaf q.h.tree q.s.pos
    .ok ⟨s, { q.h with tree := t }⟩

/-- The main loop, `/repo/md_toc/cmark/inlines_c.py` 2149-2151. -/
def inlinesLoopP (E : Env) : Nat → PSubj → Except Exn PSubj
  | 0, _ => .error .OutOfFuel
  | f + 1, q =>
    match peek q.s with
    | none => .ok q
    | some c => do
      let q ← parseInlineP E q c
      inlinesLoopP E f q

/-- The loop that frees the brackets, `/repo/md_toc/cmark/inlines_c.py` 2158-2159. -/
def freeBrackets : Nat → Heap → Except Exn Heap
  | 0, _ => .error .OutOfFuel
  | f + 1, h => if h.lastBr = none then .ok h else freeBrackets f (popBracket h)

/-- The heap before the first character: `/repo/md_toc/cmark/inlines_c.py` 371-375, with the parent. -/
def Heap.init : Heap where
  dl := fun _ => ⟨none, none, 0, 0, ' ', false, false, 0⟩
  dfresh := 0
  last := none
  br := fun _ => ⟨none, none, 0, 0, false, true, false⟩
  bfresh := 0
  lastBr := none
  text := fun _ => ⟨0, 0, 0⟩
  tree := Tree.init
  ignore := []

/-- `_cmark_cmark_parse_inlines`, `/repo/md_toc/cmark/inlines_c.py` 2135-2161. -/
def parseInlinesP (E : Env) (line : Str) : Except Exn (List (Int × Int) × Heap) := do
  let q ← inlinesLoopP E (line.length + 1) ⟨initSubj line, Heap.init⟩
  let h ← processEmphasisP q.h none
  let h ← clearLoop none (h.dfresh + 1) h
  let h ← freeBrackets (h.bfresh + 1) h
  .ok (h.ignore, h)

end MdToc.Cmark

namespace MdToc

/-- `filter_indices_from_line`, `/repo/md_toc/api.py` 882-899, with the ranges of Python. -/
def filterIndicesP (line : Str) (rs : List (Int × Int)) : Str :=
  (line.zipIdx.filter (fun x => !rs.any (fun r => r.1 ≤ (x.2 : Int) && (x.2 : Int) < r.2))).map Prod.fst

/-- `remove_emphasis`, `/repo/md_toc/api.py` 833-879. -/
def removeEmphasisPtr (E : Env) (line : Str) (_p : Parser) : Except Exn Str := do
  let line := line.filter (· != '\x00')
  let (rs, _) ← Cmark.parseInlinesP E line
  .ok (filterIndicesP line rs)

end MdToc
