import Verif.Constants

/-!
# Code fences, `/repo/md_toc/api.py` 1417-1621
-/

namespace MdToc

/-- The characters trimmed at the ends, `/repo/md_toc/api.py` 1495-1498 and 1600-1603. -/
def Parser.isSpaceCh (p : Parser) (c : Char) : Bool :=
  if p.gfm then c == ' ' else c == ' ' || c == '\t'

/-- `is_valid_code_fence_indent`, `/repo/md_toc/api.py` 1417-1437.  The callers at 1462 and
1558 do not pass the parser: they use the default `github`. -/
def isValidCodeFenceIndent (line : Str) (p : Parser) : Bool :=
  if p.cmarkLike then line.length - (lstrip (· == ' ') line).length ≤ minMarkerCharacters
  else false

/-- `s.startswith(pre)`. -/
def startsWith (pre s : Str) : Bool := pre.isPrefixOf s

/-- Index of the first character that differs from the first one,
`/repo/md_toc/api.py` 1477-1483. -/
def infoStringStart (c0 : Char) (line : Str) : Nat := scanWhile (fun _ c => c == c0) line 0

/-- `is_opening_code_fence`, `/repo/md_toc/api.py` 1440-1513. -/
def isOpeningCodeFence (line : Str) (p : Parser) : Option Str :=
  if p.cmarkLike then
    if !isValidCodeFenceIndent line .github then none
    else
      let line := rstrip (· == '\n') (lstrip (· == ' ') line)
      if !(startsWith ['`', '`', '`'] line || startsWith ['~', '~', '~'] line) then none
      else
        match line with
        | [] => none
        | c0 :: _ =>
          let (info, start) :=
            if line = List.replicate line.length c0 then (([] : Str), line.length)
            else
              let st := infoStringStart c0 line
              (strip p.isSpaceCh (slice line st line.length), st)
          if info.contains '`' && c0 != '~' then none
          else some (slice line 0 start)
  else none

/-- `is_closing_code_fence`, `/repo/md_toc/api.py` 1516-1621.  The indexing `fence[0]` and
`line[0]` of empty strings (an `IndexError`) does not occur: at 1573 the fence
starts with a marker, at 1613 the line is at least as long as it. -/
def isClosingCodeFence (line fence : Str) (isDocumentEnd : Bool) (p : Parser) : Bool :=
  if p.cmarkLike then
    if !isValidCodeFenceIndent line .github then false
    else
      let fence := lstrip (· == ' ') fence
      if !(startsWith ['`'] fence || startsWith ['~'] fence) then false
      else if fence.length < minMarkerCharacters then false
      else
        let fence := rstrip (fun c => c == ' ' || c == '\n') fence
        match fence with
        | [] => false
        | f0 :: _ =>
          if fence ≠ List.replicate fence.length f0 then false
          else if isDocumentEnd then true
          else
            let line := lstrip (· == ' ') line
            if !startsWith fence line then false
            else
              let line := rstrip (fun c => p.isSpaceCh c || c == '\n') line
              if line.length < fence.length then false
              else
                match line with
                | [] => false
                | l0 :: _ => if line ≠ List.replicate line.length l0 then false else true
  else false

end MdToc
