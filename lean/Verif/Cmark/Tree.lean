import Verif.Cmark.Inlines

/-!
# The inline parser with its tree of nodes

The other files of this directory leave the tree of nodes out.  Here the nodes are objects on a
heap with the pointers of `/repo/md_toc/cmark/node_h.py` 72-133, and every step of the parser
that changes the tree does so, pointer by pointer.  `removeEmphasisTree` is `remove_emphasis` with
the tree; that it always gives the same as `removeEmphasis` is proved in `Verif.Props.Tree`.

Simplifications: of a node only the pointers and the type are kept (the columns and the length of
the text are in `Delim`; strings are sliced, which never fails).  A loop over pointers that does not
end is the value `OutOfFuel`.  An object is a number, new objects get the next number.
-/

namespace MdToc.Cmark

/-- `_cmarkCmarkNodeType`, `/repo/md_toc/cmark/cmark_h.py` 46-82.  Simplification: the inlines that
never contain others (text, breaks, code, html) are one type.  Blocks do not occur; the
parent made at `/repo/md_toc/api.py` 860 has the type `CMARK_NODE_NONE`. -/
inductive NodeType where
  | none
  | leaf
  | emph
  | strong
  | link
  deriving DecidableEq, Repr

/-- `_cmarkCmarkNode`, `/repo/md_toc/cmark/node_h.py` 72-133: the pointers and the type. -/
@[ext]
structure Node where
  next : Option Nat
  prev : Option Nat
  parent : Option Nat
  first : Option Nat
  last : Option Nat
  ty : NodeType

/-- A new object, `/repo/md_toc/cmark/node_h.py` 99-133. -/
def Node.new (ty : NodeType) : Node := ⟨none, none, none, none, none, ty⟩

/-- The heap.  `fresh` is the next object.  `inl` gives the node made for the text that starts at a position:
it stands for the attribute `inl_text` of the delimiter or bracket with this
position, `/repo/md_toc/cmark/inlines_c.py` 745, 762. -/
structure Tree where
  nodes : Nat → Node
  fresh : Nat
  inl : Nat → Nat

/-- Assignment to attributes of an object. -/
def Tree.mod (t : Tree) (x : Nat) (f : Node → Node) : Tree :=
  { t with nodes := fun y => if y = x then f (t.nodes y) else t.nodes y }

/-- `if x: x.attribute = ...`. -/
def Tree.modIf (t : Tree) (x : Option Nat) (f : Node → Node) : Tree :=
  match x with
  | none => t
  | some x => t.mod x f

/-- `_cmark_make_simple`, `_cmark_make_literal`, `/repo/md_toc/cmark/inlines_c.py` 217-237: the
new object is `t.fresh`. -/
def Tree.new (t : Tree) (ty : NodeType) : Tree :=
  { t with
    nodes := fun y => if y = t.fresh then Node.new ty else t.nodes y
    fresh := t.fresh + 1 }

/-- `_cmark_append_child`, `/repo/md_toc/cmark/inlines_c.py` 293-305. -/
def appendChild (t : Tree) (node child : Nat) : Tree :=
  let old := (t.nodes node).last
  let t := t.mod child (fun n => { n with next := none, prev := old, parent := some node })
  let t := t.mod node (fun n => { n with last := some child })
  match old with
  | some o => t.mod o (fun n => { n with next := some child })
  | none => t.mod node (fun n => { n with first := some child })

/-- `_cmark_S_node_unlink`, `/repo/md_toc/cmark/node_c.py` 200-216. -/
def sUnlink (t : Tree) (x : Nat) : Tree :=
  let t := t.modIf (t.nodes x).prev (fun n => { n with next := (t.nodes x).next })
  let t := t.modIf (t.nodes x).next (fun n => { n with prev := (t.nodes x).prev })
  t.modIf (t.nodes x).parent (fun n =>
    { n with
      first := if n.first = some x then (t.nodes x).next else n.first
      last := if n.last = some x then (t.nodes x).prev else n.last })

/-- `_cmark_cmark_node_unlink`, `/repo/md_toc/cmark/node_c.py` 220-225. -/
def unlink (t : Tree) (x : Nat) : Tree :=
  (sUnlink t x).mod x (fun n => { n with next := none, prev := none, parent := none })

/-- The loop over the ancestors, `/repo/md_toc/cmark/node_c.py` 58-63: whether `child` is one of them. -/
def ancestorLoop (t : Tree) (child : Nat) : Nat → Option Nat → Except Exn Bool
  | 0, _ => .error .OutOfFuel
  | _ + 1, none => .ok false
  | f + 1, some cur => if cur = child then .ok true else ancestorLoop t child f (t.nodes cur).parent

/-- Whether `child` is an ancestor, `/repo/md_toc/cmark/node_c.py` 57-63. -/
def isAncestor (t : Tree) (node child : Nat) : Except Exn Bool :=
  if (t.nodes child).first.isSome then ancestorLoop t child (t.fresh + 1) (t.nodes node).parent else .ok false

/-- `_cmark_S_can_contain`, `/repo/md_toc/cmark/node_c.py` 51-93, for nodes that are not blocks. -/
def canContain (t : Tree) (node child : Nat) : Except Exn Bool :=
  if node = child then .ok false
  else do
    if ← isAncestor t node child then .ok false
    else match (t.nodes node).ty with
      | .emph | .strong | .link => .ok (decide ((t.nodes child).ty ≠ .none))
      | _ => .ok false

/-- `_cmark_S_free_nodes`, `/repo/md_toc/cmark/node_c.py` 98-141: the
pointers.  Simplification: the strings that are deleted are not modelled. -/
def freeNodes : Nat → Tree → Option Nat → Except Exn Tree
  | 0, _, _ => .error .OutOfFuel
  | _ + 1, t, none => .ok t
  | f + 1, t, some e =>
    let t := match (t.nodes e).last with
      | none => t
      | some l =>
        let t := t.mod l (fun n => { n with next := (t.nodes e).next })
        t.mod e (fun n => { n with next := n.first })
    freeNodes f t (t.nodes e).next

/-- `_cmark_cmark_node_free`, `/repo/md_toc/cmark/node_c.py` 145-148. -/
def nodeFree (t : Tree) (x : Nat) : Except Exn Tree :=
  let t := (sUnlink t x).mod x (fun n => { n with next := none })
  freeNodes (t.fresh + 1) t (some x)

/-- The pointers set by `_cmark_cmark_node_insert_before`, `/repo/md_toc/cmark/node_c.py` 238-255. -/
def linkBefore (t : Tree) (node sibling : Nat) : Tree :=
  let t := sUnlink t sibling
  let old := (t.nodes node).prev
  let t := t.modIf old (fun n => { n with next := some sibling })
  let t := t.mod sibling (fun n => { n with prev := old, next := some node })
  let t := t.mod node (fun n => { n with prev := some sibling })
  let parent := (t.nodes node).parent
  let t := t.mod sibling (fun n => { n with parent := parent })
  match old with
  | some _ => t
  | none => t.modIf parent (fun n => { n with first := some sibling })

/-- `_cmark_cmark_node_insert_before`, `/repo/md_toc/cmark/node_c.py` 230-257. -/
def insertBefore (t : Tree) (node sibling : Nat) : Except Exn Tree :=
  match (t.nodes node).parent with
  | none => .ok t
  | some p => do
    if ← canContain t p sibling then .ok (linkBefore t node sibling) else .ok t

/-- The pointers set by `_cmark_cmark_node_insert_after`, `/repo/md_toc/cmark/node_c.py` 268-286. -/
def linkAfter (t : Tree) (node sibling : Nat) : Tree :=
  let t := sUnlink t sibling
  let old := (t.nodes node).next
  let t := t.modIf old (fun n => { n with prev := some sibling })
  let t := t.mod sibling (fun n => { n with next := old, prev := some node })
  let t := t.mod node (fun n => { n with next := some sibling })
  let parent := (t.nodes node).parent
  let t := t.mod sibling (fun n => { n with parent := parent })
  match old with
  | some _ => t
  | none => t.modIf parent (fun n => { n with last := some sibling })

/-- `_cmark_cmark_node_insert_after`, `/repo/md_toc/cmark/node_c.py` 260-288. -/
def insertAfter (t : Tree) (node sibling : Nat) : Except Exn Tree :=
  match (t.nodes node).parent with
  | none => .ok t
  | some p => do
    if ← canContain t p sibling then .ok (linkAfter t node sibling) else .ok t

/-- The loops that move nodes under a new one: `/repo/md_toc/cmark/inlines_c.py` 1003-1008 with the
node of the closer as `stop`, 1461-1466 without. -/
def moveLoop (into : Nat) (stop : Option Nat) : Nat → Tree → Option Nat → Except Exn Tree
  | 0, _, _ => .error .OutOfFuel
  | _ + 1, t, none => .ok t
  | f + 1, t, some tmp =>
    if some tmp = stop then .ok t
    else moveLoop into stop f (appendChild (unlink t tmp) into tmp) (t.nodes tmp).next

/-- `if ..._num_chars == 0`, `/repo/md_toc/cmark/inlines_c.py` 1033, 1038: free the node of a
delimiter that is used up. -/
def freeIf (t : Tree) (b : Bool) (x : Nat) : Except Exn Tree := if b then nodeFree t x else .ok t

/-- The changes of the tree in `_cmark_remove_emph`, `/repo/md_toc/cmark/inlines_c.py` 958-1046. -/
def emphTree (t : Tree) (o c : Delim) (use : Nat) : Except Exn Tree := do
  let emph := t.fresh
  let t := t.new (if use = 1 then .emph else .strong)
  let t ← moveLoop emph (some (t.inl c.pos)) (t.fresh + 1) t (t.nodes (t.inl o.pos)).next
  let t ← insertAfter t (t.inl o.pos) emph
  let t ← freeIf t (o.inlLen - use = 0) (t.inl o.pos)
  freeIf t (c.inlLen - use = 0) (t.inl c.pos)

/-- The main loop of `_cmark_process_emphasis` with `_cmark_remove_emph` and the tree,
`/repo/md_toc/cmark/inlines_c.py` 886-950, 958-1046; as `emphLoop`. -/
def emphLoopTree : Nat → List Delim → List Delim → (Nat → Option Nat) → List Range → Tree →
    Except Exn ((List Delim × List Range) × Tree)
  | 0, _, _, _, _, _ => .error .OutOfFuel
  | _ + 1, older, [], _, ig, t => .ok ((older, ig), t)
  | f + 1, older, c :: rest, bots, ig, t =>
    if c.canClose then do
      let idx ← bottomIndex c
      match findOpener c (bots idx) older with
      | some (o, below) =>
        let use := useDelims o c
        let t ← emphTree t o c use
        emphLoopTree f (keepDelim (o.consume use) below) (keepDelim (c.consume use) rest) bots
          (ig ++ emphRanges o c use) t
      | none =>
        let bots' := fun i => if i = idx then older.head?.map (·.pos) else bots i
        if c.canOpen then emphLoopTree f (c :: older) rest bots' ig t
        else emphLoopTree f older rest bots' ig t
    else emphLoopTree f (c :: older) rest bots ig t

/-- `_cmark_process_emphasis` with the tree, `/repo/md_toc/cmark/inlines_c.py` 862-954; as
`processEmphasis`. -/
def processEmphasisTree (s : Subj) (bottom : Option Nat) (t : Tree) : Except Exn (Subj × Tree) :=
  match splitAtBottom bottom s.delims with
  | none => .ok ({ s with delims := [] }, t)
  | some (older, newer) => do
    let ((ds, ig), t) ← emphLoopTree (emphFuel newer) older newer (fun _ => bottom) s.ignore t
    .ok ({ s with
      delims := match bottom with | none => [] | some b => ds.dropWhile (fun d => d.pos != b)
      ignore := ig }, t)

/-- The changes of the tree for a link, `/repo/md_toc/cmark/inlines_c.py` 1452-1469. -/
def linkTree (t : Tree) (opener : Bracket) : Except Exn Tree := do
  let l := t.fresh
  let t := t.new .link
  let t ← insertBefore t (t.inl (opener.position - 1)) l
  let t ← moveLoop l none (t.fresh + 1) t (t.nodes (t.inl (opener.position - 1))).next
  nodeFree t (t.inl (opener.position - 1))

/-- `_cmark_handle_close_bracket` with the tree, `/repo/md_toc/cmark/inlines_c.py` 1334-1495; as
`handleCloseBracket`.  The node for a literal `]` is returned, but line 2102 drops it. -/
def handleCloseBracketTree (E : Env) (s0 : Subj) (t : Tree) : Except Exn (Subj × Tree) :=
  let s := { s0 with pos := s0.pos + 1 }
  match s.brackets with
  | [] => .ok (s, t)
  | opener :: bs =>
    if !opener.active then .ok ({ s with brackets := bs }, t)
    else do
      match ← inlineLink E s with
      | some p =>
        let t ← linkTree t opener
        let (s1, t) ← processEmphasisTree { s with pos := p } opener.prevDelim t
        .ok ({ s1 with brackets := deactivate bs }, t)
      | none =>
        linkLabel s
        .ok ({ s with brackets := bs }, t)

/-- Whether `<` starts an autolink, `/repo/md_toc/cmark/inlines_c.py` 1060-1078. -/
def isAutolink (E : Env) (s : Subj) : Bool :=
  let s := { s with pos := s.pos + 1 }
  decide (scanAt E Rx.autolinkUri s s.pos > 0) || decide (scanAt E Rx.autolinkEmail s s.pos > 0)

/-- A new node without children, appended to the parent, `/repo/md_toc/cmark/inlines_c.py` 2126-2127. -/
def addLeaf (t : Tree) (pos : Nat) : Tree :=
  let x := t.fresh
  let t := appendChild (t.new .leaf) 0 x
  { t with inl := fun p => if p = pos then x else t.inl p }

/-- `_cmark_make_autolink`, `/repo/md_toc/cmark/inlines_c.py` 335-353, and appending it to the parent,
2126-2127. -/
def addAutolink (t : Tree) (pos : Nat) : Tree :=
  let l := t.fresh
  let t := t.new .link
  let x := t.fresh
  let t := appendChild (t.new .leaf) l x
  let t := appendChild t 0 l
  { t with inl := fun p => if p = pos then l else t.inl p }

/-- `_cmark_parse_inline` with the tree, `/repo/md_toc/cmark/inlines_c.py` 2066-2129, given the current
character.  The handlers other than that of `]` make one node, which is appended to the parent. -/
def parseInlineTree (E : Env) (s : Subj) (t : Tree) (c : Char) : Except Exn (Subj × Tree) :=
  if c = ']' then handleCloseBracketTree E s t
  else do
    let s' ← parseInline E s c
    .ok (s', if c = '<' ∧ isAutolink E s then addAutolink t s.pos else addLeaf t s.pos)

/-- The main loop with the tree, `/repo/md_toc/cmark/inlines_c.py` 2149-2151. -/
def inlinesLoopTree (E : Env) : Nat → Subj → Tree → Except Exn (Subj × Tree)
  | 0, _, _ => .error .OutOfFuel
  | f + 1, s, t =>
    match peek s with
    | none => .ok (s, t)
    | some c => do
      let (s, t) ← parseInlineTree E s t c
      inlinesLoopTree E f s t

/-- The parent made at `/repo/md_toc/api.py` 860, alone on the heap. -/
def Tree.init : Tree := ⟨fun _ => Node.new .none, 1, fun _ => 0⟩

/-- `_cmark_cmark_parse_inlines` with the tree, `/repo/md_toc/cmark/inlines_c.py` 2135-2161. -/
def parseInlinesTree (E : Env) (line : Str) : Except Exn (List Range × Tree) := do
  let (s, t) ← inlinesLoopTree E (line.length + 1) (initSubj line) Tree.init
  let (s, t) ← processEmphasisTree s none t
  .ok (s.ignore, t)

end MdToc.Cmark

namespace MdToc

/-- `remove_emphasis` with the tree of nodes, `/repo/md_toc/api.py` 833-879; as `removeEmphasis`. -/
def removeEmphasisTree (E : Env) (line : Str) (_p : Parser) : Except Exn Str := do
  let line := line.filter (· != '\x00')
  let (rs, _) ← Cmark.parseInlinesTree E line
  .ok (filterIndices line rs)

end MdToc
