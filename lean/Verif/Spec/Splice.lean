import Verif.Spec.Laws
import Verif.Model.Print
/-
  What stands in a printed document for one item of a container (C99).
-/
namespace RJ.Spec
open RJ

/-- What is printed before the value of an item: the key of a member, nothing for an element. -/
def label : Finder → Str
  | .key k => escape k ++ [':', ' ']
  | .index _ => []

/-- The commas that come with one more item: none if the brackets in `a`, `b` are those of an empty container, else one, before or after it. -/
def Commas (a l r b : Str) : Prop :=
  (l = [] ∧ r = [] ∧ ∃ p q, (a = p ++ ['['] ∧ b = ']' :: q) ∨ (a = p ++ ['{'] ∧ b = '}' :: q)) ∨ (l = [',', ' '] ∧ r = []) ∨ (l = [] ∧ r = [',', ' '])

end RJ.Spec
