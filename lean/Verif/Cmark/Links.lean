import Verif.Cmark.Emphasis

/-!
# The inline parser: entities and links
-/

namespace MdToc.Cmark

/-- `_cmarkCmarkStrbuf`, `/repo/md_toc/cmark/buffer_h.py`: `ptr` and `size`. -/
structure Buf where
  ptr : Str
  size : Nat
  deriving DecidableEq, Repr

/-- `_cmark_cmark_strbuf_put`, `/repo/md_toc/cmark/buffer_c.py` 150-178. Simplification: the
process exit for buffers above one gigabyte is not modelled. -/
def Buf.put (b : Buf) (dt : Str) (n : Nat) : Buf :=
  if n = 0 then b
  else ⟨b.ptr.take b.size ++ dt.take n ++ b.ptr.drop (b.size + 1 + n), b.size + n⟩

/-- `_cmark_cmark_strbuf_putc`, `/repo/md_toc/cmark/buffer_c.py` 138-143. -/
def Buf.putc (b : Buf) (c : Char) : Buf := ⟨b.ptr ++ [c], b.size + 1⟩

/-- Number of bytes in UTF-8. -/
def utf8Size (s : Str) : Nat := (s.map (fun c => c.utf8Size)).sum

/-- `_cmark_cmark_utf8proc_encode_char`, `/repo/md_toc/cmark/utf8_c.py` 35-59, 123-139. -/
def encodeChar (uc : Int) (b : Buf) : Except Exn Buf :=
  if uc < 0 then .error .ValueError
  else if uc > 1 ∨ uc ≥ 0x110000 then .ok (b.put ['\t'] 3)
  else .ok (b.put (natStr uc.toNat) 1)

/-- Digits of a decimal reference, `/repo/md_toc/cmark/houdini_html_u_c.py` 87-96. -/
def decDigits (E : Env) : Str → Int → Nat → Int × Nat × Str
  | [], cp, n => (cp, n, [])
  | c :: t, cp, n =>
    if E.isDigit c then
      let cp := cp * 10 + ((c.toNat : Int) - 48)
      decDigits E t (if cp ≥ 0x110000 then 0x110000 else cp) (n + 1)
    else (cp, n, c :: t)

/-- The class `[\dA-Fa-f]`, `/repo/md_toc/cmark/houdini_html_u_c.py` 103. -/
def isHex (E : Env) (c : Char) : Bool :=
  E.isDigit c || (65 ≤ c.toNat && c.toNat ≤ 70) || (97 ≤ c.toNat && c.toNat ≤ 102)

/-- Digits of a hexadecimal reference, `/repo/md_toc/cmark/houdini_html_u_c.py` 102-111. -/
def hexDigits (E : Env) : Str → Int → Nat → Int × Nat × Str
  | [], cp, n => (cp, n, [])
  | c :: t, cp, n =>
    if isHex E c then
      let cp := cp * 16 + ((((c.toNat ||| 32) % 39 : Nat) : Int) - 9)
      hexDigits E t (if cp ≥ 0x110000 then 0x110000 else cp) (n + 1)
    else (cp, n, c :: t)

/-- End of a numeric reference, `/repo/md_toc/cmark/houdini_html_u_c.py` 116-123: `skip` is the number of
characters before the digits. -/
def numericEnd (skip maxDigits : Nat) (r : Int × Nat × Str) (b : Buf) : Except Exn (Nat × Buf) :=
  match r with
  | (cp, n, ';' :: _) =>
    if n ≥ 1 ∧ n ≤ maxDigits then do
      let cp := if cp = 0 ∨ (cp ≥ 0xD800 ∧ cp < 0xE000) ∨ cp ≥ 0x110000 then 0xFFFD else cp
      let b ← encodeChar cp b
      .ok (skip + n + 1, b)
    else .ok (0, b)
  | _ => .ok (0, b)

/-- Named reference, `/repo/md_toc/cmark/houdini_html_u_c.py` 131-144. `name` is the reversed
`src[:i]`, `fuel` the number of characters still allowed.  The bytes of the table end with a zero. -/
def namedLoop (E : Env) : Nat → Str → Str → Buf → Nat × Buf
  | 0, _, _, b => (0, b)
  | _ + 1, _, [], b => (0, b)
  | f + 1, name, c :: t, b =>
    if c = ' ' then (0, b)
    else if c = ';' then
      match E.entity name.reverse with
      | some e => (name.length + 1, b.put (e ++ ['\x00']) (utf8Size e + 1))
      | none => (0, b)
    else namedLoop E f (c :: name) t b

/-- `_cmark_houdini_unescape_ent`, `/repo/md_toc/cmark/houdini_html_u_c.py` 76-146, where `src`
has `size` characters: the number of characters used. -/
def unescapeEnt (E : Env) (src : Str) (b : Buf) : Except Exn (Nat × Buf) :=
  match src with
  | '#' :: d :: e :: t =>
    if E.isDigit d then numericEnd 1 7 (decDigits E (d :: e :: t) 0 0) b
    else if d = 'x' ∨ d = 'X' then numericEnd 2 6 (hexDigits E (e :: t) 0 0) b
    else .ok (0, b)
  | c0 :: c1 :: t => .ok (namedLoop E 30 [c1, c0] t b)
  | _ => .ok (0, b)

/-- `_cmark_houdini_unescape_html_f`, `/repo/md_toc/cmark/houdini_html_u_c.py` 150-196, where `src`
has `size` characters.  The case without any `&` (value 0 at 167) puts the whole
text, as the loop here does. The fuel is the length plus one. -/
def unescapeHtml (E : Env) : Nat → Str → Buf → Except Exn Buf
  | 0, _, _ => .error .OutOfFuel
  | f + 1, src, b =>
    let run := src.takeWhile (· != '&')
    let b := b.put run run.length
    match src.dropWhile (· != '&') with
    | [] => .ok b
    | _ :: t => do
      let (ent, b) ← unescapeEnt E t b
      unescapeHtml E f (t.drop ent) (if ent = 0 then b.putc '&' else b)

/-- `_cmark_cmark_strbuf_unescape`, `/repo/md_toc/cmark/buffer_c.py` 306-343. The writes stay behind
the reads; only the exception is observable. -/
def strbufUnescape : Str → Except Exn Unit
  | [] => .ok ()
  | c :: t =>
    if c = '\\' then
      match t with
      | [] => .error .IndexError
      | d :: t' => if isPunct d then strbufUnescape t' else strbufUnescape (d :: t')
    else strbufUnescape t

/-- `_cmark_cmark_clean_url`, `/repo/md_toc/cmark/inlines_c.py` 1181-1189. -/
def cleanUrl (E : Env) (url : Str) : Except Exn Unit := do
  let u := chunkTrim url
  let b ← unescapeHtml E (u.length + 1) u ⟨[], 0⟩
  strbufUnescape b.ptr

/-- `_cmark_cmark_clean_title`, `/repo/md_toc/cmark/inlines_c.py` 1192-1212. -/
def cleanTitle (E : Env) (title : Str) : Except Exn Unit :=
  match title with
  | [] => .ok ()
  | first :: t => do
    let last := (first :: t).getLast?
    let src := if (first = '\'' ∧ last = some '\'') ∨ (first = '(' ∧ last = some ')') ∨
        (first = '"' ∧ last = some '"') then t.dropLast else first :: t
    let b ← unescapeHtml E (src.length + 1) src ⟨[], 0⟩
    strbufUnescape b.ptr

/-- `_cmark_make_autolink` with `_cmark_cmark_clean_autolink`, `/repo/md_toc/cmark/inlines_c.py`
321-353.  Both unescape the same text; only the exception is observable. -/
def makeAutolink (E : Env) (url : Str) : Except Exn Unit := do
  let u := chunkTrim url
  let _ ← unescapeHtml E (u.length + 1) u ⟨[], 0⟩
  .ok ()

/-- Loop of `_cmark_manual_scan_link_url_2`, `/repo/md_toc/cmark/inlines_c.py` 1265-1298, on the
characters from `i` on; `n` is `i - offset`. -/
def linkUrl2 : Str → Nat → Nat → Option Nat
  | [], _, _ => none
  | c :: t, nb, n =>
    match t with
    | [] =>
      if c = '(' then none
      else if c = ')' then (if nb = 0 then some n else none)
      else if isSpace c then (if n = 0 then none else if nb = 0 then some n else none)
      else none
    | d :: t' =>
      if c = '\\' ∧ isPunct d then linkUrl2 t' nb (n + 2)
      else if c = '(' then (if nb + 1 > 32 then none else linkUrl2 (d :: t') (nb + 1) (n + 1))
      else if c = ')' then (if nb = 0 then some n else linkUrl2 (d :: t') (nb - 1) (n + 1))
      else if isSpace c then (if n = 0 then none else if nb = 0 then some n else none)
      else linkUrl2 (d :: t') nb (n + 1)

/-- Loop over a destination in pointy brackets, `/repo/md_toc/cmark/inlines_c.py` 1307-1323, on
the characters after `<`; `n` is `i - offset`. -/
def pointyUrl : Str → Nat → Option Nat
  | [], _ => none
  | c :: t, n =>
    if c = '>' then (if t = [] then none else some (n + 1))
    else if c = '\\' then
      match t with
      | [] => none
      | _ :: t' => pointyUrl t' (n + 2)
    else if c = '\n' ∨ c = '<' then none
    else pointyUrl t (n + 1)

/-- `_cmark_manual_scan_link_url`, `/repo/md_toc/cmark/inlines_c.py` 1302-1329: length and text. -/
def linkUrl (s : Subj) (offset : Nat) : Option (Nat × Str) :=
  match restFrom s offset with
  | '<' :: t => (pointyUrl t 1).map (fun n => (n, t.take (n - 2)))
  | r => (linkUrl2 r 0 0).map (fun n => (n, r.take n))

/-- Deactivation of the earlier brackets, `/repo/md_toc/cmark/inlines_c.py` 1478-1486. -/
def deactivate : List Bracket → List Bracket
  | [] => []
  | b :: t => if !b.active then b :: t else { b with active := false } :: deactivate t

/-- The explicit link, `/repo/md_toc/cmark/inlines_c.py` 1381-1419, with the position after `]`:
the position after the link, if there is one. -/
def inlineLink (E : Env) (s : Subj) : Except Exn (Option Nat) :=
  if peek s = some '(' then
    let off := s.pos + 1 + scanSpacechars E s (s.pos + 1)
    match linkUrl s off with
    | none => .ok none
    | some (n, url) =>
      let endurl := off + n
      let starttitle := endurl + scanSpacechars E s endurl
      let endtitle := if starttitle = endurl then starttitle
        else starttitle + scanAt E Rx.linkTitle s starttitle
      let endall := endtitle + scanSpacechars E s endtitle
      match s.data[endall]? with
      | none => .error .IndexError
      | some c =>
        if c = ')' then do
          cleanUrl E url
          cleanTitle E ((s.data.drop starttitle).take (endtitle - starttitle))
          .ok (some (endall + 1))
        else .ok none
  else .ok none

/-- `_cmark_link_label`, `/repo/md_toc/cmark/inlines_c.py` 1220-1261: any character of
the label leads to the key `'max chars label'` which does not exist. -/
def linkLabel (s : Subj) : Except Exn Unit :=
  if peek s = some '[' then
    match peek { s with pos := s.pos + 1 } with
    | some c => if c = '[' ∨ c = ']' then .ok () else .error .KeyError
    | none => .error .KeyError
  else .ok ()

/-- `_cmark_handle_close_bracket`, `/repo/md_toc/cmark/inlines_c.py` 1334-1495.  The map of the
references is always empty (`/repo/md_toc/api.py` 858), so the lookup gives `None`
(`/repo/md_toc/cmark/references_c.py` 117-153). -/
def handleCloseBracket (E : Env) (s0 : Subj) : Except Exn Subj :=
  let s := { s0 with pos := s0.pos + 1 }
  match s.brackets with
  | [] => .ok s
  | opener :: bs =>
    if !opener.active then .ok { s with brackets := bs }
    else do
      match ← inlineLink E s with
      | some p =>
        let s1 ← processEmphasis { s with pos := p } opener.prevDelim
        .ok { s1 with brackets := deactivate bs }
      | none =>
        linkLabel s
        .ok { s with brackets := bs }

end MdToc.Cmark
