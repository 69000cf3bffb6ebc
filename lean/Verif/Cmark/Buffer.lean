import Verif.Cmark.Inlines

/-!
# The string buffers of the inline parser, `/repo/md_toc/cmark/buffer_c.py`

In the other modules of this directory a buffer is a text and a size, growing it cannot fail and what happens to its
content after the last possible exception is left out.  Here the buffers are modelled with their
allocated size and all the operations that the inline parser uses, including the exit of the process for large
buffers; `Verif/Props/Buffers.lean` proves that the results agree.
-/

namespace MdToc.Cmark

/-- How a computation with buffers can end early: an exception or `sys.exit(1)`. -/
inductive Halt where
  | exn (e : Exn)
  | exit
  deriving DecidableEq, Repr

/-- A computation of the other model. -/
def lift (x : Except Exn α) : Except Halt α := x.mapError .exn

/-- `_cmarkCmarkStrbuf`, `/repo/md_toc/cmark/buffer_h.py` 33-37. -/
structure SBuf where
  ptr : Str
  size : Nat
  asize : Nat
  deriving DecidableEq, Repr

/-- `_cmark_CMARK_BUF_INIT`, `/repo/md_toc/cmark/buffer_h.py` 43-47, and `_cmark_cmark_strbuf_init` with size 0,
`/repo/md_toc/cmark/buffer_c.py` 55-63. -/
def SBuf.empty : SBuf := ⟨[], 0, 0⟩

/-- `_cmark_cmark_strbuf_grow`, `/repo/md_toc/cmark/buffer_c.py` 72-106.  `&= INT32_MAX` is the remainder by 2^31, `& ~7`
rounds down to a multiple of 8; the float divisions by 2 are exact below 2^53. -/
def SBuf.grow (b : SBuf) (target : Nat) : Except Halt SBuf :=
  if target = 0 then .error (.exn .ValueError)
  else if target < b.asize then .ok b
  else
    let t := target % 2 ^ 31
    if t > 1073741823 then .error .exit
    else .ok { b with asize := (t + t / 2 + 1 + 7) / 8 * 8 }

/-- `_cmark_S_strbuf_grow_by`, `/repo/md_toc/cmark/buffer_c.py` 67-68. -/
def SBuf.growBy (b : SBuf) (add : Nat) : Except Halt SBuf := b.grow (b.size + add)

/-- `_cmark_cmark_strbuf_clear`, `/repo/md_toc/cmark/buffer_c.py` 110-115. -/
def SBuf.clear (b : SBuf) : SBuf := { b with size := 0, ptr := if b.asize > 0 then [] else b.ptr }

/-- An operation on a buffer under a condition. -/
def SBuf.when (b : SBuf) (cond : Bool) (f : SBuf → Except Halt SBuf) : Except Halt SBuf := if cond then f b else .ok b

/-- `_cmark_cmark_strbuf_set`, `/repo/md_toc/cmark/buffer_c.py` 119-130; the length is not negative. -/
def SBuf.set (b : SBuf) (data : Str) (length : Nat) : Except Halt SBuf :=
  if length = 0 then .ok b.clear
  else if data ≠ b.ptr then do
    let b ← b.when (length ≥ b.asize) (·.grow length)
    .ok { b with ptr := data.take length ++ b.ptr.drop length, size := length }
  else .ok { b with size := length }

/-- `_cmark_cmark_strbuf_putc`, `/repo/md_toc/cmark/buffer_c.py` 138-143. -/
def SBuf.putc (b : SBuf) (c : Char) : Except Halt SBuf := do
  let b ← b.growBy 1
  .ok { b with ptr := b.ptr ++ [Char.ofNat (c.toNat % 256)], size := b.size + 1 }

/-- `_cmark_cmark_strbuf_put`, `/repo/md_toc/cmark/buffer_c.py` 150-178, with the decoded text. -/
def SBuf.put (b : SBuf) (dt : Str) (n : Nat) : Except Halt SBuf :=
  if n = 0 then .ok b
  else do
    let b ← b.growBy n
    .ok { b with ptr := b.ptr.take b.size ++ dt.take n ++ b.ptr.drop (b.size + 1 + n), size := b.size + n }

/-- `_cmark_cmark_strbuf_detach`, `/repo/md_toc/cmark/buffer_c.py` 189-198: the text returned. -/
def SBuf.detach (b : SBuf) : Str := if b.asize = 0 then [] else b.ptr

/-- `_cmark_cmark_strbuf_truncate`, `/repo/md_toc/cmark/buffer_c.py` 227-232.  A negative length counts as 0 in the code and as 0 in
the subtractions of the callers here. -/
def SBuf.truncate (b : SBuf) (length : Nat) : SBuf := if length < b.size then { b with size := length } else b

/-- `_cmark_cmark_strbuf_drop`, `/repo/md_toc/cmark/buffer_c.py` 239-248. -/
def SBuf.drop (b : SBuf) (n : Nat) : SBuf :=
  if n > 0 then
    let n := if n > b.size then b.size else n
    let size := b.size - n
    if size ≠ 0 then
      { b with size := size, ptr := b.ptr.take n ++ slice b.ptr n (size + n) ++ b.ptr.drop (n + size) }
    else { b with size := size }
  else b

/-- The index of the character to copy, `/repo/md_toc/cmark/buffer_c.py` 333-334. -/
def SBuf.unescapeSkip (ptr : Str) (r : Nat) : Except Halt Nat :=
  match ptr[r]? with
  | none => .error (.exn .IndexError)
  | some c =>
    if c = '\\' then
      match ptr[r + 1]? with
      | none => .error (.exn .IndexError)
      | some d => .ok (if isPunct d then r + 1 else r)
    else .ok r

/-- Loop of `_cmark_cmark_strbuf_unescape`, `/repo/md_toc/cmark/buffer_c.py` 332-341: `ptr` and `w` afterwards.  The fuel is the
length of the text. -/
def SBuf.unescapeLoop : Nat → Str → Nat → Nat → Except Halt (Str × Nat)
  | 0, ptr, _, w => .ok (ptr, w)
  | f + 1, ptr, r, w =>
    if r < ptr.length then do
      let r ← SBuf.unescapeSkip ptr r
      match ptr[r]? with
      | none => .error (.exn .IndexError)
      | some c => SBuf.unescapeLoop f (ptr.take w ++ [c] ++ ptr.drop (w + 1)) (r + 1) (w + 1)
    else .ok (ptr, w)

/-- `_cmark_cmark_strbuf_unescape`, `/repo/md_toc/cmark/buffer_c.py` 306-343. -/
def SBuf.unescape (b : SBuf) : Except Halt SBuf := do
  let (ptr, w) ← SBuf.unescapeLoop b.ptr.length b.ptr 0 0
  .ok (SBuf.truncate { b with ptr := ptr } w)

/-- One round of the loop of `_cmark_S_normalize_code`, `/repo/md_toc/cmark/inlines_c.py` 576-588: `ptr` and `w` afterwards. -/
def normalizeStep (ptr : Str) (r w : Nat) : Except Halt (Str × Nat) :=
  match ptr[r]? with
  | none => .error (.exn .IndexError)
  | some c =>
    if c = '\r' then
      match ptr[r + 1]? with
      | none => .error (.exn .IndexError)
      | some d =>
        if d ≠ '\n' then do
          let p ← lift (replaceSubstring ptr [' '] w w)
          .ok (p, w + 1)
        else .ok (ptr, w)
    else if c = '\n' then do
      let p ← lift (replaceSubstring ptr [' '] w w)
      .ok (p, w + 1)
    else do
      let p ← lift (replaceSubstring ptr [c] w w)
      .ok (p, w + 1)

/-- The loop of `_cmark_S_normalize_code`, `/repo/md_toc/cmark/inlines_c.py` 576-593, with `n` rounds to go: `ptr`, `w` and
`contains_nonspace` afterwards. -/
def normalizeLoop : Nat → Str → Nat → Nat → Bool → Except Halt (Str × Nat × Bool)
  | 0, ptr, _, w, ns => .ok (ptr, w, ns)
  | n + 1, ptr, r, w, ns => do
    let (ptr, w) ← normalizeStep ptr r w
    match ptr[r]? with
    | none => .error (.exn .IndexError)
    | some c => normalizeLoop n ptr (r + 1) w (ns || c != ' ')

/-- `_cmark_S_normalize_code`, `/repo/md_toc/cmark/inlines_c.py` 571-600.  At 596 `w` is positive: something has been written. -/
def normalizeCode (b : SBuf) : Except Halt SBuf := do
  let (ptr, w, ns) ← normalizeLoop b.size b.ptr 0 0 false
  let b := { b with ptr := ptr }
  if ns then
    match ptr[0]? with
    | none => .error (.exn .IndexError)
    | some c =>
      if c = ' ' then
        match ptr[w - 1]? with
        | none => .error (.exn .IndexError)
        | some d => if d = ' ' then .ok ((b.drop 1).truncate (w - 2)) else .ok (b.truncate w)
      else .ok (b.truncate w)
  else .ok (b.truncate w)

/-- The content of a code span, `/repo/md_toc/cmark/inlines_c.py` 614-622: `node.data` and `node.length`. -/
def codeText (data : Str) (start length : Nat) : Except Halt (Str × Nat) := do
  let b ← SBuf.empty.set (data.drop start) length
  let b ← normalizeCode b
  .ok (b.detach, b.size)

/-- `_cmark_handle_backticks`, `/repo/md_toc/cmark/inlines_c.py` 604-626, with the buffer. -/
def handleBackticksB (s : Subj) : Except Halt Subj :=
  let n := ((restFrom s s.pos).takeWhile (· == '`')).length
  let start := s.pos + n
  if n > 1000 then .ok { s with pos := start }
  else if s.scanned && s.backticks n ≤ start then .ok { s with pos := start }
  else
    match closingTicksLoop n (s.len + 1) (restFrom s start) start s.backticks with
    | (none, bt) => .ok { s with pos := start, backticks := bt, scanned := true }
    | (some e, bt) => do
      let _ ← codeText s.data start (e - start - n)
      .ok { s with pos := e, backticks := bt }

/-- `_cmark_cmark_utf8proc_encode_char`, `/repo/md_toc/cmark/utf8_c.py` 35-59, 123-139. -/
def encodeCharB (uc : Int) (b : SBuf) : Except Halt SBuf :=
  if uc < 0 then .error (.exn .ValueError)
  else if uc > 1 ∨ uc ≥ 0x110000 then b.put ['\t'] 3
  else b.put (natStr uc.toNat) 1

/-- End of a numeric reference, `/repo/md_toc/cmark/houdini_html_u_c.py` 116-123. -/
def numericEndB (skip maxDigits : Nat) (r : Int × Nat × Str) (b : SBuf) : Except Halt (Nat × SBuf) :=
  match r with
  | (cp, n, ';' :: _) =>
    if n ≥ 1 ∧ n ≤ maxDigits then do
      let cp := if cp = 0 ∨ (cp ≥ 0xD800 ∧ cp < 0xE000) ∨ cp ≥ 0x110000 then 0xFFFD else cp
      let b ← encodeCharB cp b
      .ok (skip + n + 1, b)
    else .ok (0, b)
  | _ => .ok (0, b)

/-- Named reference, `/repo/md_toc/cmark/houdini_html_u_c.py` 131-144, with `_cmark_cmark_strbuf_puts`,
`/repo/md_toc/cmark/buffer_c.py` 184-185. -/
def namedLoopB (E : Env) : Nat → Str → Str → SBuf → Except Halt (Nat × SBuf)
  | 0, _, _, b => .ok (0, b)
  | _ + 1, _, [], b => .ok (0, b)
  | f + 1, name, c :: t, b =>
    if c = ' ' then .ok (0, b)
    else if c = ';' then
      match E.entity name.reverse with
      | some e => do
        let b ← b.put (e ++ ['\x00']) (utf8Size e + 1)
        .ok (name.length + 1, b)
      | none => .ok (0, b)
    else namedLoopB E f (c :: name) t b

/-- `_cmark_houdini_unescape_ent`, `/repo/md_toc/cmark/houdini_html_u_c.py` 76-146. -/
def unescapeEntB (E : Env) (src : Str) (b : SBuf) : Except Halt (Nat × SBuf) :=
  match src with
  | '#' :: d :: e :: t =>
    if E.isDigit d then numericEndB 1 7 (decDigits E (d :: e :: t) 0 0) b
    else if d = 'x' ∨ d = 'X' then numericEndB 2 6 (hexDigits E (e :: t) 0 0) b
    else .ok (0, b)
  | c0 :: c1 :: t => namedLoopB E 30 [c1, c0] t b
  | _ => .ok (0, b)

/-- Loop of `_cmark_houdini_unescape_html`, `/repo/md_toc/cmark/houdini_html_u_c.py` 159-187: the value returned and the buffer; `first` says
that `org` is 0.  The fuel is the number of characters plus one. -/
def unescapeHtmlB (E : Env) (size : Nat) : Nat → Bool → Str → SBuf → Except Halt (Bool × SBuf)
  | 0, _, _, _ => .error (.exn .OutOfFuel)
  | f + 1, first, src, b =>
    if src = [] then .ok (true, b)
    else
      let run := src.takeWhile (· != '&')
      let rest := src.dropWhile (· != '&')
      if run ≠ [] ∧ first ∧ rest = [] then .ok (false, b)
      else do
        let b ← b.when (run ≠ [] ∧ first) (·.grow size)
        let b ← b.when (run ≠ []) (·.put src run.length)
        match rest with
        | [] => .ok (true, b)
        | _ :: t => do
          let (ent, b) ← unescapeEntB E t b
          let b ← b.when (ent = 0) (·.putc '&')
          unescapeHtmlB E size f false (t.drop ent) b

/-- `_cmark_houdini_unescape_html_f`, `/repo/md_toc/cmark/houdini_html_u_c.py` 190-196. -/
def unescapeHtmlFB (E : Env) (src : Str) (b : SBuf) : Except Halt SBuf := do
  let (done, b) ← unescapeHtmlB E src.length (src.length + 1) true src b
  if done then .ok b else b.put src src.length

/-- `_cmark_cmark_clean_url`, `/repo/md_toc/cmark/inlines_c.py` 1181-1189: the url of the node. -/
def cleanUrlB (E : Env) (url : Str) : Except Halt Str := do
  let u := chunkTrim url
  let b ← unescapeHtmlFB E u .empty
  let b ← b.unescape
  .ok b.detach

/-- `_cmark_cmark_clean_title`, `/repo/md_toc/cmark/inlines_c.py` 1192-1212: the title of the node. -/
def cleanTitleB (E : Env) (title : Str) : Except Halt (Option Str) :=
  match title with
  | [] => .ok none
  | first :: t => do
    let last := (first :: t).getLast?
    let src := if (first = '\'' ∧ last = some '\'') ∨ (first = '(' ∧ last = some ')') ∨
        (first = '"' ∧ last = some '"') then t.dropLast else first :: t
    let b ← unescapeHtmlFB E src .empty
    let b ← b.unescape
    .ok (some b.detach)

/-- `_cmark_make_autolink`, `/repo/md_toc/cmark/inlines_c.py` 334-353, with `_cmark_cmark_clean_autolink` 321-331 and
`_cmark_make_str_with_entities` 276-289: the url of the link and the text of its child. -/
def makeAutolinkB (E : Env) (url : Str) (isEmail : Bool) : Except Halt (Str × Str) := do
  let u := chunkTrim url
  let b ← SBuf.empty.when isEmail (·.put "mailto:".toList 7)
  let b ← unescapeHtmlFB E u b
  let (done, c) ← unescapeHtmlB E u.length (u.length + 1) true u .empty
  .ok (b.detach, if done then c.detach else u)

/-- `_cmark_handle_entity`, `/repo/md_toc/cmark/inlines_c.py` 1160-1175. -/
def handleEntityB (E : Env) (s : Subj) : Except Halt Subj := do
  let (n, _) ← unescapeEntB E (restFrom s (s.pos + 1)) .empty
  .ok { s with pos := s.pos + 1 + n }

/-- `_cmark_handle_pointy_brace`, `/repo/md_toc/cmark/inlines_c.py` 1052-1136. -/
def handlePointyBraceB (E : Env) (s0 : Subj) : Except Halt Subj :=
  let s := { s0 with pos := s0.pos + 1 }
  let m := scanAt E Rx.autolinkUri s s.pos
  if m > 0 then do
    let _ ← makeAutolinkB E ((s.data.drop s.pos).take (m - 1)) false
    .ok { s with pos := s.pos + m }
  else
    let m := scanAt E Rx.autolinkEmail s s.pos
    if m > 0 then do
      let _ ← makeAutolinkB E ((s.data.drop s.pos).take (m - 1)) true
      .ok { s with pos := s.pos + m }
    else
      let (m, s1) := pointyHtml E s
      .ok { s1 with pos := s1.pos + m }

/-- The explicit link, `/repo/md_toc/cmark/inlines_c.py` 1381-1419. -/
def inlineLinkB (E : Env) (s : Subj) : Except Halt (Option Nat) :=
  if peek s = some '(' then
    let off := s.pos + 1 + scanSpacechars E s (s.pos + 1)
    match linkUrl s off with
    | none => .ok none
    | some (n, url) =>
      let endurl := off + n
      let starttitle := endurl + scanSpacechars E s endurl
      let endtitle := if starttitle = endurl then starttitle
        else starttitle + scanAt E Rx.linkTitle s starttitle
      let endall := endtitle + scanSpacechars E s endtitle
      match s.data[endall]? with
      | none => .error (.exn .IndexError)
      | some c =>
        if c = ')' then do
          let _ ← cleanUrlB E url
          let _ ← cleanTitleB E ((s.data.drop starttitle).take (endtitle - starttitle))
          .ok (some (endall + 1))
        else .ok none
  else .ok none

/-- `_cmark_handle_close_bracket`, `/repo/md_toc/cmark/inlines_c.py` 1334-1495. -/
def handleCloseBracketB (E : Env) (s0 : Subj) : Except Halt Subj :=
  let s := { s0 with pos := s0.pos + 1 }
  match s.brackets with
  | [] => .ok s
  | opener :: bs =>
    if !opener.active then .ok { s with brackets := bs }
    else do
      match ← inlineLinkB E s with
      | some p =>
        let s1 ← lift (processEmphasis { s with pos := p } opener.prevDelim)
        .ok { s1 with brackets := deactivate bs }
      | none =>
        lift (linkLabel s)
        .ok { s with brackets := bs }

/-- `_cmark_parse_inline`, `/repo/md_toc/cmark/inlines_c.py` 2066-2129, with the buffers.  The handlers without a buffer
are those of `parseInline`. -/
def parseInlineB (E : Env) (s : Subj) (c : Char) : Except Halt Subj :=
  if c = '`' then handleBackticksB s
  else if c = '&' then handleEntityB E s
  else if c = '<' then handlePointyBraceB E s
  else if c = ']' then handleCloseBracketB E s
  else lift (parseInline E s c)

/-- The main loop, `/repo/md_toc/cmark/inlines_c.py` 2149-2151. -/
def inlinesLoopB (E : Env) : Nat → Subj → Except Halt Subj
  | 0, _ => .error (.exn .OutOfFuel)
  | f + 1, s =>
    match peek s with
    | none => .ok s
    | some c => do
      let s ← parseInlineB E s c
      inlinesLoopB E f s

/-- `_cmark_cmark_parse_inlines`, `/repo/md_toc/cmark/inlines_c.py` 2135-2161. -/
def parseInlinesB (E : Env) (line : Str) : Except Halt (List Range) := do
  let s ← inlinesLoopB E (line.length + 1) (initSubj line)
  let s ← lift (processEmphasis s none)
  .ok s.ignore

end MdToc.Cmark

namespace MdToc

/-- `remove_emphasis`, `/repo/md_toc/api.py` 833-879, with the buffers. -/
def removeEmphasisBuf (E : Env) (line : Str) (_p : Parser) : Except Cmark.Halt Str := do
  let line := line.filter (· != '\x00')
  let rs ← Cmark.parseInlinesB E line
  .ok (filterIndices line rs)

end MdToc
