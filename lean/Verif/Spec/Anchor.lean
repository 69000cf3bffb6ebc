import Verif.Py

/-!
# Specification of anchors

Independent of the model: what an anchor should look like.
-/

namespace MdToc.Spec

/-- The anchor of the heading with base slug `b` when `n` earlier headings had the same one. -/
def tagged (b : Str) (n : Nat) : Str :=
  if n = 0 then b else b ++ '-' :: (toString n).toList

/-- The anchors of headings with the base slugs `bs`: each one is numbered by the number of equal slugs
before it. -/
def numbered (bs : List Str) : List Str :=
  bs.mapIdx (fun i b => tagged b ((bs.take i).count b))

/-- `s` with every hyphen that follows a hyphen removed; `prev` tells whether the character
before `s` is a hyphen. -/
def collapse : Bool → Str → Str
  | _, [] => []
  | prev, c :: t =>
    if c = '-' then (if prev then collapse true t else '-' :: collapse true t)
    else c :: collapse false t

/-- No two adjacent hyphens. -/
def NoDoubleHyphen (s : Str) : Prop := ¬ ['-', '-'] <:+: s

/-- CR and LF. -/
def IsNewline (c : Char) : Prop := c = '\n' ∨ c = '\r'

/-- A newline between two other characters. -/
def HasInteriorNewline (s : Str) : Prop :=
  ∃ a x b n c y d, s = a ++ x :: b ++ n :: c ++ y :: d ∧ ¬ IsNewline x ∧ IsNewline n ∧ ¬ IsNewline y

/-- The words of a text: the maximal runs of characters that are not separators. -/
def words (sep : Char → Bool) : Str → List Str
  | [] => []
  | c :: t =>
    if sep c then words sep t
    else match t with
      | [] => [[c]]
      | d :: _ =>
        if sep d then [c] :: words sep t
        else match words sep t with
          | [] => [[c]]
          | w :: r => (c :: w) :: r

/-- `a-b-c` -/
def hyphenate : List Str → Str
  | [] => []
  | [a] => a
  | a :: t => a ++ '-' :: hyphenate t

/-- Lower case hexadecimal digits. -/
def hex (n : Nat) : Str := Nat.toDigits 16 n

/-- The hash of Daniel Bernstein without overflow. -/
def djb2 : Nat → Str → Nat
  | h, [] => h
  | h, c :: t => djb2 (33 * h + c.toNat) t

/-- The separators of redcarpet: everything outside ASCII, and some punctuation. -/
def redcarpetSep (c : Char) : Bool :=
  decide (c.toNat ≥ 128) || " -+$,/:;=?@\"#{}|^~[]`\\*()%.!'".toList.contains c

/-- The words of a heading for redcarpet: `<` and `&` are dropped. -/
def redcarpetWords (s : Str) : List Str :=
  words redcarpetSep (s.filter (fun c => c != '<' && c != '&'))

end MdToc.Spec

namespace MdToc.Spec

/-- The slug of a text: spaces become hyphens; of the other characters only word characters and hyphens stay. -/
def slug (isWord : Char → Bool) : Str → Str
  | [] => []
  | c :: t =>
    if c = ' ' then '-' :: slug isWord t
    else if c = '-' ∨ isWord c = true then c :: slug isWord t
    else slug isWord t

end MdToc.Spec
