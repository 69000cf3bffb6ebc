import Verif.Py

/-!
# Specification of the order of strings
-/

namespace MdToc.Spec

/-- The order of strings in Python: the first difference decides, a proper prefix is smaller. -/
def Before : Str → Str → Prop
  | _, [] => False
  | [], _ :: _ => True
  | a :: s, b :: t => a.toNat < b.toNat ∨ (a = b ∧ Before s t)

/-- Strictly ascending. -/
def Ascending (l : List Str) : Prop := l.Pairwise Before

/-- The first difference of two strings: `s` has the smaller character there. -/
def SmallerAt (s t : Str) : Prop := ∃ p a b u v, s = p ++ a :: u ∧ t = p ++ b :: v ∧ a.toNat < b.toNat

end MdToc.Spec
