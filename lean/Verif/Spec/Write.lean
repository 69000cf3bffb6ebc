import Verif.Spec.Doc
import Verif.Spec.Atx

/-!
# Specification of the replacement of a table of contents in a file

A file is the list of its lines; lines of files read with universal newlines end with a line feed, except perhaps the last.
-/

namespace MdToc.Spec

/-- The white space of a region: space, tab and vertical tab. -/
def IsBlank (c : Char) : Prop := c = ' ' ∨ c = '\t' ∨ c = '\x0b'

/-- The text of some lines put together, without the newlines. -/
def joined (ls : List Str) : Str := ls.flatten.filter (fun c => c != '\n')

/-- The text looks like a list: at most three spaces, a bullet or a number with its delimiter, one space, and no further white
space. -/
def ListLike (digit : Char → Bool) (s : Str) : Prop :=
  ∃ n m r, n ≤ 3 ∧ s = List.replicate n ' ' ++ m ++ ' ' :: r ∧
    (m = ['-'] ∨ m = ['+'] ∨ m = ['*'] ∨
      ∃ d e, m = d ++ [e] ∧ d ≠ [] ∧ (∀ c ∈ d, digit c = true) ∧ (e = '.' ∨ e = ')')) ∧
    ∀ c ∈ r.head?, ¬ IsBlank c

/-- The lines between two markers are regarded as a table of contents: they are blank, or without the first and the last one
they look like a list. -/
def Recognised (digit : Char → Bool) (mid : List Str) : Prop :=
  (∀ c ∈ joined mid, IsBlank c) ∨ ListLike digit (joined mid.tail.dropLast)

/-- The line is the marker, up to white space around both. -/
def IsMarker (marker l : Str) : Prop := ∃ c, Trimmed isPySpace l c ∧ Trimmed isPySpace marker c

/-- No two consecutive markers among the lines have a table of contents between them. -/
def NoTable (digit : Char → Bool) (marker : Str) (ls : List Str) : Prop :=
  ∀ a m mid m' b, ls = a ++ m :: mid ++ m' :: b → IsMarker marker m → IsMarker marker m' →
    (∀ l ∈ mid, ¬ IsMarker marker l) → ¬ Recognised digit mid

/-- The only marker of the file is `m`. -/
def OneMarker (marker : Str) (ls before : List Str) (m : Str) (after : List Str) : Prop :=
  ls = before ++ m :: after ∧ IsMarker marker m ∧ (∀ l ∈ before, ¬ IsMarker marker l) ∧ ∀ l ∈ after, ¬ IsMarker marker l

/-- The first table of contents of the file is `mid`, between the markers `m` and `m'`. -/
def FirstTable (digit : Char → Bool) (marker : Str) (ls before : List Str) (m : Str) (mid : List Str) (m' : Str) (after : List Str) : Prop :=
  ls = before ++ m :: mid ++ m' :: after ∧ IsMarker marker m ∧ IsMarker marker m' ∧
    (∀ l ∈ mid, ¬ IsMarker marker l) ∧ Recognised digit mid ∧ NoTable digit marker (before ++ [m])

/-- The file has several markers, the first one at the start of `after`, but no table of contents. -/
def ManyMarkers (digit : Char → Bool) (marker : Str) (ls before after : List Str) : Prop :=
  ∃ m mid m' b, ls = before ++ after ∧ after = m :: mid ++ m' :: b ∧ (∀ l ∈ before, ¬ IsMarker marker l) ∧
    IsMarker marker m ∧ IsMarker marker m' ∧ NoTable digit marker ls

/-- A file with a marker is cut in the lines before, the lines to be replaced and the lines after. -/
def Cut (digit : Char → Bool) (marker : Str) (ls before removed after : List Str) : Prop :=
  (∃ m, OneMarker marker ls before m after ∧ removed = [m]) ∨
  (∃ m mid m', FirstTable digit marker ls before m mid m' after ∧ removed = m :: mid ++ [m']) ∨
  (ManyMarkers digit marker ls before after ∧ removed = [])

/-- `core` is `s` without the white space at the end. -/
def TrimmedRight (sp : Char → Bool) (s core : Str) : Prop :=
  ∃ r, s = core ++ r ∧ (∀ x ∈ r, sp x = true) ∧ ∀ x ∈ core.getLast?, sp x = false

/-- The text put in the file: the marker, a blank line, the string without white space at its end, a blank line, the marker. -/
def block (core marker nl : Str) : Str := marker ++ nl ++ nl ++ core ++ nl ++ nl ++ marker ++ nl

/-- The marker is one line with a character that is not white space. -/
def GoodMarker (marker : Str) : Prop := (∀ c ∈ marker, ¬ IsNewline c) ∧ ∃ c ∈ marker, isPySpace c = false

/-- A string that is recognised as a table of contents once it is written: it is blank or looks like a list, and no line of it is the
marker.  `core` is the string without the white space at its end.  A carriage return as newline must not run into a line feed. -/
def Recognisable (digit : Char → Bool) (string core marker nl : Str) : Prop :=
  TrimmedRight isPySpace string core ∧ (core = [] ∨ ListLike digit (core.filter (fun c => c != '\n' && c != '\r'))) ∧
    (∀ ls, Reads core ls → ∀ l ∈ ls, ¬ IsMarker marker l) ∧ IsEol nl core

end MdToc.Spec
