import Verif.Cmark.Links

/-!
# The inline parser: the remaining handlers and the main loop
-/

namespace MdToc.Cmark

/-- Loop of `_cmark_scan_to_closing_backticks`, `/repo/md_toc/cmark/inlines_c.py` 538-560, on the
characters from `pos` on.  The result is the position after the closing run, if any.
The fuel is the number of characters plus one. -/
def closingTicksLoop (openLen : Nat) : Nat → Str → Nat → (Nat → Nat) → Option Nat × (Nat → Nat)
  | 0, _, _, bt => (none, bt)
  | f + 1, rest, pos, bt =>
    let skipped := (rest.takeWhile (· != '`')).length
    match rest.dropWhile (· != '`') with
    | [] => (none, bt)
    | r =>
      let n := (r.takeWhile (· == '`')).length
      let pos' := pos + skipped + n
      let bt := if n ≤ 1000 then (fun i => if i = n then pos' - n else bt i) else bt
      if n = openLen then (some pos', bt)
      else closingTicksLoop openLen f (r.drop n) pos' bt

/-- `_cmark_handle_backticks` with `_cmark_scan_to_closing_backticks` and
`_cmark_S_normalize_code`, `/repo/md_toc/cmark/inlines_c.py` 525-626.  The normalisation reads
one character past a `\r`; nothing else of it is observable. -/
def handleBackticks (s : Subj) : Except Exn Subj :=
  let n := ((restFrom s s.pos).takeWhile (· == '`')).length
  let start := s.pos + n
  if n > 1000 then .ok { s with pos := start }
  else if s.scanned && s.backticks n ≤ start then .ok { s with pos := start }
  else
    match closingTicksLoop n (s.len + 1) (restFrom s start) start s.backticks with
    | (none, bt) => .ok { s with pos := start, backticks := bt, scanned := true }
    | (some e, bt) =>
      let content := (s.data.drop start).take (e - start - n)
      if content.getLast? = some '\r' then .error .IndexError
      else .ok { s with pos := e, backticks := bt }

/-- `_cmark_handle_newline`, `/repo/md_toc/cmark/inlines_c.py` 1501-1517, with `_cmark_skip_spaces`. -/
def handleNewline (s : Subj) : Except Exn Subj :=
  match s.data[s.pos]? with
  | none => .error .IndexError
  | some c =>
    let p1 := if c = '\r' then s.pos + 1 else s.pos
    match s.data[p1]? with
    | none => .error .IndexError
    | some d =>
      let p2 := if d = '\n' then p1 + 1 else p1
      let sp := ((restFrom s p2).takeWhile (fun c => c == ' ' || c == '\t')).length
      .ok { s with pos := p2 + sp }

/-- `_cmark_handle_backslash`, `/repo/md_toc/cmark/inlines_c.py` 1141-1155, with
`_cmark_skip_line_end` 432-441. -/
def handleBackslash (s0 : Subj) : Subj :=
  let s := { s0 with pos := s0.pos + 1 }
  match peek s with
  | none => s
  | some c =>
    if isPunct c then { s with pos := s.pos + 1 }
    else
      let s1 := if c = '\r' then { s with pos := s.pos + 1 } else s
      if peek s1 = some '\n' then { s1 with pos := s1.pos + 1 } else s1

/-- `_cmark_handle_entity`, `/repo/md_toc/cmark/inlines_c.py` 1160-1175. -/
def handleEntity (E : Env) (s : Subj) : Except Exn Subj := do
  let (n, _) ← unescapeEnt E (restFrom s (s.pos + 1)) ⟨[], 0⟩
  .ok { s with pos := s.pos + 1 + n }

/-- The html part of `_cmark_handle_pointy_brace`, `/repo/md_toc/cmark/inlines_c.py` 1077-1114, with
the position after `<`: the match length and the flags. -/
def pointyHtml (E : Env) (s : Subj) : Nat × Subj :=
  match restFrom s s.pos with
  | c :: d :: _ =>
    if c = '!' then
      if d = '-' then
        let m := scanAt E Rx.htmlcomment s (s.pos + 2)
        (if m > 0 then m + 2 else 0, s)
      else if d = '[' then
        if s.skipCdata then (0, s)
        else
          let m := scanAt E Rx.cdata s (s.pos + 2)
          if m > 0 then
            if s.pos + (m + 5) > s.len then (0, { s with skipCdata := true }) else (m + 5, s)
          else (0, s)
      else if s.skipDecl then (0, s)
      else
        let m := scanAt E Rx.declaration s (s.pos + 1)
        if m > 0 then
          if s.pos + (m + 2) > s.len then (0, { s with skipDecl := true }) else (m + 2, s)
        else (0, s)
    else if c = '?' then
      if s.skipPi then (0, s)
      else
        let m := scanAt E Rx.processinginstruction s (s.pos + 1) + 3
        if s.pos + m > s.len then (0, { s with skipPi := true }) else (m, s)
    else (scanAt E Rx.htmltag s s.pos, s)
  | _ => (0, s)

/-- `_cmark_handle_pointy_brace`, `/repo/md_toc/cmark/inlines_c.py` 1052-1136. -/
def handlePointyBrace (E : Env) (s0 : Subj) : Except Exn Subj :=
  let s := { s0 with pos := s0.pos + 1 }
  let m := scanAt E Rx.autolinkUri s s.pos
  if m > 0 then do
    makeAutolink E ((s.data.drop s.pos).take (m - 1))
    .ok { s with pos := s.pos + m }
  else
    let m := scanAt E Rx.autolinkEmail s s.pos
    if m > 0 then do
      makeAutolink E ((s.data.drop s.pos).take (m - 1))
      .ok { s with pos := s.pos + m }
    else
      let (m, s1) := pointyHtml E s
      .ok { s1 with pos := s1.pos + m }

/-- `SPECIAL_CHARS`, `/repo/md_toc/cmark/inlines_c.py` 1522-1780. -/
def isSpecial (c : Char) : Bool :=
  c == '\n' || c == '\r' || c == '!' || c == '&' || c == '*' || c == '<' || c == '[' ||
  c == '\\' || c == ']' || c == '_' || c == '`'

/-- Loop of `_cmark_subject_find_special_char`, `/repo/md_toc/cmark/inlines_c.py` 2042-2059, on the
characters from `n` on.  The tables have 256 entries, the code point 256 is out of range. -/
def findSpecialLoop : Str → Nat → Except Exn Nat
  | [], n => .ok n
  | c :: t, n =>
    if c.toNat > 256 then .ok n
    else if c.toNat = 256 then .error .IndexError
    else if isSpecial c then .ok n
    else findSpecialLoop t (n + 1)

/-- `_cmark_push_bracket`, `/repo/md_toc/cmark/inlines_c.py` 755-767, with the position after `[`. -/
def pushBracket (s : Subj) : Subj :=
  let old := match s.brackets with
    | [] => []
    | b :: t => { b with bracketAfter := true } :: t
  { s with brackets := { position := s.pos, prevDelim := s.delims.head?.map (·.pos), active := true, bracketAfter := false } :: old }

/-- `_cmark_parse_inline`, `/repo/md_toc/cmark/inlines_c.py` 2066-2129, given the current character.
`options` is 0 (`/repo/md_toc/api.py` 872), so that nothing is `smart`; line 2105 compares an integer
with a string and never opens an image. -/
def parseInline (E : Env) (s : Subj) (c : Char) : Except Exn Subj :=
  if c = '\r' ∨ c = '\n' then handleNewline s
  else if c = '`' then handleBackticks s
  else if c = '\\' then .ok (handleBackslash s)
  else if c = '&' then handleEntity E s
  else if c = '<' then handlePointyBrace E s
  else if c = '*' ∨ c = '_' ∨ c = '\'' ∨ c = '"' then .ok (handleDelim E s c)
  else if c = '-' then .ok { s with pos := s.pos + 1 }
  else if c = '.' then .ok { s with pos := s.pos + 1 }
  else if c = '[' then .ok (pushBracket { s with pos := s.pos + 1 })
  else if c = ']' then handleCloseBracket E s
  else if c = '!' then .ok { s with pos := s.pos + 1 }
  else do
    let e ← findSpecialLoop (restFrom s (s.pos + 1)) (s.pos + 1)
    .ok { s with pos := e }

/-- The main loop, `/repo/md_toc/cmark/inlines_c.py` 2149-2151. -/
def inlinesLoop (E : Env) : Nat → Subj → Except Exn Subj
  | 0, _ => .error .OutOfFuel
  | f + 1, s =>
    match peek s with
    | none => .ok s
    | some c => do
      let s ← parseInline E s c
      inlinesLoop E f s

/-- `_cmark_cmark_parse_inlines`, `/repo/md_toc/cmark/inlines_c.py` 2135-2161: the ranges to ignore. -/
def parseInlines (E : Env) (line : Str) : Except Exn (List Range) := do
  let s ← inlinesLoop E (line.length + 1) (initSubj line)
  let s ← processEmphasis s none
  .ok s.ignore

end MdToc.Cmark

namespace MdToc

/-- `filter_indices_from_line`, `/repo/md_toc/api.py` 882-899; `i` is the index of the first
character of the list. -/
def filterIndicesFrom (rs : List Cmark.Range) : Nat → Str → Str
  | _, [] => []
  | i, c :: t =>
    if rs.any (fun r => r.1 ≤ i && i < r.2) then filterIndicesFrom rs (i + 1) t
    else c :: filterIndicesFrom rs (i + 1) t

/-- `filter_indices_from_line`, `/repo/md_toc/api.py` 882-899. Simplification: ranges with step 1 and
non-negative bounds. -/
def filterIndices (line : Str) (rs : List Cmark.Range) : Str := filterIndicesFrom rs 0 line

/-- `remove_emphasis`, `/repo/md_toc/api.py` 833-879.  The branch for redcarpet at 875 is not
reachable: redcarpet is in the first list as well. -/
def removeEmphasis (E : Env) (line : Str) (_p : Parser) : Except Exn Str := do
  let line := line.filter (· != '\x00')
  let rs ← Cmark.parseInlines E line
  .ok (filterIndices line rs)

end MdToc
