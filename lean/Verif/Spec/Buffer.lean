import Verif.Env

/-!
# Specification of the texts in the nodes of links and code spans

Nothing here depends on the model.
-/

namespace MdToc.Spec

/-- The second text is the first one without the backslashes before ASCII punctuation.  A text that ends with a single backslash has no such text. -/
inductive Unescaped : Str → Str → Prop
  | nil : Unescaped [] []
  | plain {c s t} : c ≠ '\\' → Unescaped s t → Unescaped (c :: s) (c :: t)
  | escape {c s t} : isAsciiPunct c = true → Unescaped s t → Unescaped ('\\' :: c :: s) (c :: t)
  | backslash {c s t} : isAsciiPunct c = false → Unescaped (c :: s) t → Unescaped ('\\' :: c :: s) ('\\' :: t)

/-- The second text is the first one with a space in place of every line end (LF, CR or CR LF).  A text that ends with CR has no such text. -/
inductive Unlined : Str → Str → Prop
  | nil : Unlined [] []
  | plain {c s t} : c ≠ '\r' → c ≠ '\n' → Unlined s t → Unlined (c :: s) (c :: t)
  | lf {s t} : Unlined s t → Unlined ('\n' :: s) (' ' :: t)
  | cr {c s t} : c ≠ '\n' → Unlined (c :: s) t → Unlined ('\r' :: c :: s) (' ' :: t)
  | crlf {s t} : Unlined s t → Unlined ('\r' :: '\n' :: s) (' ' :: t)

end MdToc.Spec
