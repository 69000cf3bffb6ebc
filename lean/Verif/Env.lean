import Verif.Py

/-!
# The environment: library tables

Everything here is a table of the Python standard library, not code of the
repository: the theorems hold for every value of it.
-/

namespace MdToc

/-- Library functions the code calls. -/
structure Env where
  /-- `str.lower()`. -/
  lower : Str → Str
  /-- `re` class `\w` (used at `/repo/md_toc/api.py` 930 and by `\b` at
  `/repo/md_toc/constants.py` 240). -/
  isWord : Char → Bool
  /-- `re` class `\d`. -/
  isDigit : Char → Bool
  /-- `unicodedata.category(c).startswith('P')`. -/
  isPCat : Char → Bool
  /-- `hashlib.sha1(s.encode('UTF-8')).hexdigest()`. -/
  sha1 : Str → Str
  /-- The text of the HTML5 entity with this name, if
  `/repo/md_toc/cmark/houdini_html_u_c.py` 41-71 finds it. -/
  entity : Str → Option Str

/-- ASCII letters. -/
def isAsciiAlpha (c : Char) : Bool :=
  (65 ≤ c.toNat && c.toNat ≤ 90) || (97 ≤ c.toNat && c.toNat ≤ 122)

/-- ASCII digits. -/
def isAsciiDigit (c : Char) : Bool := 48 ≤ c.toNat && c.toNat ≤ 57

/-- `c in string.punctuation`. -/
def isAsciiPunct (c : Char) : Bool :=
  let n := c.toNat
  (33 ≤ n && n ≤ 47) || (58 ≤ n && n ≤ 64) || (91 ≤ n && n ≤ 96) || (123 ≤ n && n ≤ 126)

/-- Agreement of the tables with ASCII, as in every CPython. -/
structure Env.Lawful (E : Env) : Prop where
  word_ascii : ∀ c : Char, c.toNat < 128 → E.isWord c = (isAsciiAlpha c || isAsciiDigit c || c == '_')
  digit_ascii : ∀ c : Char, c.toNat < 128 → E.isDigit c = isAsciiDigit c
  lower_ascii : ∀ s : Str, (∀ c ∈ s, c.toNat < 128) → E.lower s = s.map asciiLower

/-- A concrete environment that knows ASCII only; used for witnesses. The hash is
the identity (collision free). -/
def asciiEnv : Env where
  lower s := s.map asciiLower
  isWord c := isAsciiAlpha c || isAsciiDigit c || c == '_'
  isDigit := isAsciiDigit
  isPCat c := isAsciiPunct c && !(c == '$' || c == '+' || c == '<' || c == '=' || c == '>' ||
    c == '^' || c == '`' || c == '|' || c == '~')
  sha1 s := s
  entity s := if s = "amp".toList then some ['&'] else if s = "lt".toList then some ['<'] else none

theorem asciiEnv_lawful : asciiEnv.Lawful where
  word_ascii _ _ := rfl
  digit_ascii _ _ := rfl
  lower_ascii _ _ := rfl

end MdToc
