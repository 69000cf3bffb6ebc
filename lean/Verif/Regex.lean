import Verif.Env

/-!
# Regular expressions (`re`)

A backtracking matcher in continuation passing style with the leftmost-first,
greedy semantics of Python's `re`, for the constructs the code uses.
-/

namespace MdToc

/-- Regular expression syntax. -/
inductive Re where
  /-- the empty expression -/
  | eps
  /-- one character of a class -/
  | cls (p : Char → Bool)
  | seq (a b : Re)
  | alt (a b : Re)
  /-- greedy repetition -/
  | star (a : Re)
  /-- negative lookahead `(?!a)` -/
  | nla (a : Re)
  /-- word boundary `\b` -/
  | wb
  /-- start of the string `^` -/
  | bos

/-- What remains to be matched: gets the previous character and the rest of the
subject; the result is the rest of the subject after the whole match. -/
abbrev Re.Cont := Option Char → Str → Option Str

/-- Greedy repetition of `body`: an iteration that consumes nothing ends the loop,
as in CPython's `MAX_UNTIL`.  The fuel is the length of the subject. -/
def Re.starLoop (body : Option Char → Str → Re.Cont → Option Str) :
    Nat → Option Char → Str → Re.Cont → Option Str
  | 0, p, s, k => k p s
  | n + 1, p, s, k =>
    match body p s (fun p' s' =>
        if s'.length < s.length then Re.starLoop body n p' s' k else k p' s') with
    | some r => some r
    | none => k p s

/-- Is the previous character a word character? -/
def Re.wordBefore (w : Char → Bool) : Option Char → Bool
  | some c => w c
  | none => false

/-- Is the next character a word character? -/
def Re.wordAfter (w : Char → Bool) : Str → Bool
  | c :: _ => w c
  | [] => false

/-- The matcher.  `w` is the class `\w`. -/
def Re.m (w : Char → Bool) : Re → Option Char → Str → Re.Cont → Option Str
  | .eps, p, s, k => k p s
  | .cls f, _, s, k =>
    match s with
    | [] => none
    | c :: t => if f c then k (some c) t else none
  | .seq a b, p, s, k => a.m w p s (fun p' s' => b.m w p' s' k)
  | .alt a b, p, s, k =>
    match a.m w p s k with
    | some r => some r
    | none => b.m w p s k
  | .star a, p, s, k => Re.starLoop (a.m w) s.length p s k
  | .nla a, p, s, k =>
    match a.m w p s (fun _ s' => some s') with
    | some _ => none
    | none => k p s
  | .wb, p, s, k =>
    if Re.wordBefore w p != Re.wordAfter w s then k p s else none
  | .bos, p, s, k => match p with | none => k p s | some _ => none

/-- `re.match(r, s)`: the rest of the subject after the match. -/
def Re.matchRest (w : Char → Bool) (r : Re) (s : Str) : Option Str :=
  r.m w none s (fun _ s' => some s')

/-- `re.fullmatch(r, s) is not None`. -/
def Re.fullmatch (w : Char → Bool) (r : Re) (s : Str) : Bool :=
  (r.m w none s (fun _ s' => if s' = [] then some [] else none)).isSome

/-- The loop of `re.sub(r, repl, s)`; `p` is the character before `s` in the
subject.  The fuel is the length of the subject.  Simplification: an expression that
matches the empty string is treated as not matching there; no expression given to `re.sub`
in `/repo` matches the empty string. -/
def Re.subLoop (w : Char → Bool) (r : Re) (repl : Str) : Nat → Option Char → Str → Str
  | 0, _, s => s
  | _ + 1, _, [] => []
  | n + 1, p, c :: t =>
    match r.m w p (c :: t) (fun _ s' => some s') with
    | some rest =>
      if rest.length < t.length + 1 then
        let eaten := (c :: t).take (t.length + 1 - rest.length)
        repl ++ Re.subLoop w r repl n (eaten.getLast?) rest
      else c :: Re.subLoop w r repl n (some c) t
    | none => c :: Re.subLoop w r repl n (some c) t

/-- `re.sub(r, repl, s)`. -/
def Re.sub (w : Char → Bool) (r : Re) (repl : Str) (s : Str) : Str :=
  Re.subLoop w r repl s.length none s

namespace Re
/-- a literal character -/
def chr (c : Char) : Re := .cls (fun d => d == c)
/-- a literal string -/
def lit : Str → Re
  | [] => .eps
  | c :: t => .seq (chr c) (lit t)
/-- `[...]` -/
def oneOf (s : String) : Re := .cls (fun d => s.toList.contains d)
/-- `[^...]` -/
def noneOf (s : String) : Re := .cls (fun d => !s.toList.contains d)
/-- `.` with `re.DOTALL` -/
def dot : Re := .cls (fun _ => true)
/-- `a+` -/
def plus (a : Re) : Re := .seq a (.star a)
/-- `a?` -/
def opt (a : Re) : Re := .alt a .eps
/-- `a{0,n}` -/
def upTo : Nat → Re → Re
  | 0, _ => .eps
  | n + 1, a => opt (.seq a (upTo n a))
/-- a sequence of expressions -/
def seqs : List Re → Re
  | [] => .eps
  | [a] => a
  | a :: t => .seq a (seqs t)
/-- alternatives -/
def alts : List Re → Re
  | [] => .nla .eps
  | [a] => a
  | a :: t => .alt a (alts t)
end Re

end MdToc
