import Verif.Spec.PathText
/-
  Specification for C97.
-/
namespace RJ.Spec
open RJ

/-- The dots of a path text, escaped ones included. -/
def dots : Str → Nat
  | [] => 0
  | c :: s => (if c = '.' then 1 else 0) + dots s

/-- How many elements the indices of a path need. -/
def elementsNeeded : List Finder → Nat
  | [] => 0
  | .index i :: fs => (i + 1) + elementsNeeded fs
  | .key _ :: fs => elementsNeeded fs

end RJ.Spec
