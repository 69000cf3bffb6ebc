import Verif.Spec.Fence
import Verif.Spec.Html

/-!
# Specification of the leaf blocks of CommonMark

How a reader of CommonMark finds the ATX headings in a document without block quotes and lists: line by line, after sections 4 and "Phase 1: block structure" of
CommonMark (0.30) and GFM (0.29).  Extensions (tables, footnotes) are not considered.  Nothing here depends on the model.
-/

namespace MdToc.Spec

/-- The line starts with `s`, after at most three spaces; `r` follows. -/
def Starts (b s r : Str) : Prop := ∃ k, k ≤ 3 ∧ b = List.replicate k ' ' ++ s ++ r

/-- Spaces and tabs. -/
def BlankLine (b : Str) : Prop := ∀ c ∈ b, c = ' ' ∨ c = '\t'

/-- The line is indented by at least four columns. -/
def Indented (b : Str) : Prop := ∃ r, b = List.replicate 4 ' ' ++ r ∨ ∃ k, k ≤ 3 ∧ b = List.replicate k ' ' ++ '\t' :: r

/-- A thematic break. -/
def Thematic (b : Str) : Prop := ∃ c r, Starts b [c] r ∧ c ∈ ['-', '_', '*'] ∧ (∀ x ∈ r, x = c ∨ x = ' ' ∨ x = '\t') ∧ 2 ≤ r.count c

/-- The underline of a setext heading. -/
def Underline (b : Str) : Prop := ∃ c n r, (c = '=' ∨ c = '-') ∧ 1 ≤ n ∧ Starts b (List.replicate n c) r ∧ BlankLine r

/-- The line starts a block quote or a list item. -/
def Container (b : Str) : Prop :=
  (∃ r, Starts b ['>'] r) ∨ ∃ m r, Starts b m r ∧ (∀ c ∈ r.head?, c = ' ' ∨ c = '\t') ∧
    (m ∈ [['-'], ['+'], ['*']] ∨ ∃ ds d, m = ds ++ [d] ∧ 1 ≤ ds.length ∧ ds.length ≤ 9 ∧ (∀ c ∈ ds, Digit c) ∧ (d = '.' ∨ d = ')'))

/-- The seven kinds of HTML blocks. -/
inductive HtmlKind
  | verbatim | comment | instruction | declaration | cdata | block | tag
  deriving DecidableEq

/-- The names of the tags of the first kind; GFM 0.29 has no `textarea`. -/
def verbatimNames (p : Parser) : List Str :=
  match p with
  | .github | .commonmarker => ["script", "pre", "style"].map String.toList
  | _ => ["script", "pre", "style", "textarea"].map String.toList

/-- The names of the tags of the sixth kind. -/
def blockNames : List Str :=
  ["address", "article", "aside", "base", "basefont", "blockquote", "body", "caption", "center", "col", "colgroup", "dd", "details", "dialog", "dir", "div", "dl", "dt",
    "fieldset", "figcaption", "figure", "footer", "form", "frame", "frameset", "h1", "h2", "h3", "h4", "h5", "h6", "head", "header", "hr", "html", "iframe", "legend",
    "li", "link", "main", "menu", "menuitem", "nav", "noframes", "ol", "optgroup", "option", "p", "param", "section", "source", "summary", "table", "tbody", "td",
    "tfoot", "th", "thead", "title", "tr", "track", "ul"].map String.toList

/-- The line starts an HTML block of the kind `k`. -/
def HtmlStart (p : Parser) (b : Str) : HtmlKind → Prop
  | .verbatim => ∃ n r, Starts b ('<' :: n) r ∧ n.map asciiLower ∈ verbatimNames p ∧ ∀ c ∈ r.head?, c = ' ' ∨ c = '\t' ∨ c = '>'
  | .comment => ∃ r, Starts b "<!--".toList r
  | .instruction => ∃ r, Starts b "<?".toList r
  | .declaration => ∃ c r, Starts b ['<', '!', c] r ∧ Letter c
  | .cdata => ∃ r, Starts b "<![CDATA[".toList r
  | .block => ∃ s n r, Starts b ('<' :: s ++ n) r ∧ (s = [] ∨ s = ['/']) ∧ n.map asciiLower ∈ blockNames ∧
      ((∀ c ∈ r.head?, c = ' ' ∨ c = '\t' ∨ c = '>') ∨ "/>".toList <+: r)
  | .tag => (∃ n x r, Starts b x r ∧ BlankLine r ∧ n.map asciiLower ∉ verbatimNames p ∧ (CMOpen n x ∨ CMClose n x)) ∧
      ¬ ∃ s n r, Starts b ('<' :: s ++ n) r ∧ (s = [] ∨ s = ['/']) ∧ n.map asciiLower ∈ blockNames ∧
        ((∀ c ∈ r.head?, c = ' ' ∨ c = '\t' ∨ c = '>') ∨ "/>".toList <+: r)

/-- The line ends an HTML block of the kind `k`. -/
def HtmlEnd (p : Parser) (b : Str) : HtmlKind → Prop
  | .verbatim => ∃ n ∈ verbatimNames p, "</".toList ++ n ++ [('>')] <:+: b.map asciiLower
  | .comment => "-->".toList <:+: b
  | .instruction => "?>".toList <:+: b
  | .declaration => ['>'] <:+: b
  | .cdata => "]]>".toList <:+: b
  | .block | .tag => BlankLine b

/-- Where the reader is: not in a paragraph; in a paragraph; one or the other (after an underline, which is text if it follows reference definitions only); in a fenced code
block opened with `n` times `c`; in an HTML block. -/
inductive Place
  | free | para | unsure
  | fence (c : Char) (n : Nat)
  | html (k : HtmlKind)
  deriving DecidableEq

/-- Not in a block that goes on whatever the line is. -/
def Place.outer : Place → Prop
  | .free | .para | .unsure => True
  | _ => False

/-- What a line is. -/
inductive Role
  | heading | code | html | other
  deriving DecidableEq

/-- The line `l`, read at the place `st`, has the role `ρ` and leaves the reader at the place `st'`.  There is no rule for lines that start block quotes and list items, nor for a tag alone
in its line where it is not certain whether a paragraph goes on. -/
inductive Line (p : Parser) (l : Str) : Place → Role → Place → Prop
  | atx {st : Place} {b r : Str} {n : Nat} : st.outer → Body l b → IsAtx p b n r → Line p l st .heading .free
  | open {st : Place} {c : Char} {n : Nat} : st.outer → OpensWith l c n → Line p l st .code (.fence c n)
  | inside {c : Char} {n : Nat} : ¬ ClosesWith p l c n → Line p l (.fence c n) .code (.fence c n)
  | close {c : Char} {n : Nat} : ClosesWith p l c n → Line p l (.fence c n) .code .free
  | html {st : Place} {b : Str} {k : HtmlKind} : st.outer → Body l b → HtmlStart p b k → (k = .tag → st = .free) → ¬ HtmlEnd p b k → Line p l st .html (.html k)
  | htmlLine {st : Place} {b : Str} {k : HtmlKind} : st.outer → Body l b → HtmlStart p b k → HtmlEnd p b k → Line p l st .html .free
  | htmlInside {b : Str} {k : HtmlKind} : Body l b → ¬ HtmlEnd p b k → Line p l (.html k) .html (.html k)
  | htmlClose {b : Str} {k : HtmlKind} : Body l b → HtmlEnd p b k → Line p l (.html k) .html .free
  | blank {st : Place} {b : Str} : st.outer → Body l b → BlankLine b → Line p l st .other .free
  | rule {st : Place} {b : Str} : st.outer → Body l b → Thematic b → Line p l st .other .free
  | underline {st : Place} {b : Str} : st = .para ∨ (st = .unsure ∧ ¬ Container b) → Body l b → Underline b → ¬ Thematic b → Line p l st .other .unsure
  | indented {st : Place} {b : Str} : st.outer → Body l b → Indented b → ¬ BlankLine b → Line p l st .other st
  | text {st : Place} {b : Str} : st.outer → Body l b → ¬ BlankLine b → ¬ Indented b → ¬ Thematic b → (st = .free ∨ ¬ Underline b) → ¬ Container b →
      (¬ ∃ n r, IsAtx p b n r) → (¬ ∃ c n, OpensWith l c n) → (∀ k, k ≠ .tag ∨ st ≠ .para → ¬ HtmlStart p b k) → Line p l st .other .para

/-- The lines `ls` of a document, read from the place `st` on, have the roles `rs`. -/
inductive Leaf (p : Parser) : Place → List Str → List Role → Prop
  | nil {st : Place} : Leaf p st [] []
  | cons {st st' : Place} {l : Str} {ρ : Role} {ls : List Str} {rs : List Role} : Line p l st ρ st' → Leaf p st' ls rs → Leaf p st (l :: ls) (ρ :: rs)

/-- The lines with a role that `q` accepts. -/
def select (q : Role → Bool) (ls : List Str) (rs : List Role) : List Str := ((ls.zip rs).filter (fun x => q x.2)).map Prod.fst

end MdToc.Spec
