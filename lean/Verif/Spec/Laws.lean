import Verif.Spec.Doc
/-
  Vocabulary of the laws that `get`, `set` and `del` obey together (C71).
-/
namespace RJ.Spec
open RJ
variable {F : Type}

/-- Two documents with the same members and elements; only the order in their hash maps may differ.  They print alike (C04) and give the same answers to all further calls (C70). -/
def SameDoc (j j' : Json F) : Prop := absJ j = absJ j'

/-- If the path ends in a key of an object, the key has at most one value there. -/
def Sole (p : List Finder) (d : Val F) : Prop := ∀ pre k m, p = pre ++ [.key k] → look pre d = some (.obj m) → (m k).length ≤ 1

/-- Nothing is at the path, but its parent is there and has room for it: an object without the key, or an array of which it is the next element. -/
def Fresh (p : List Finder) (d : Val F) : Prop :=
  (∃ pre k m, p = pre ++ [.key k] ∧ look pre d = some (.obj m) ∧ m k = []) ∨ (∃ pre l, p = pre ++ [.index l.length] ∧ look pre d = some (.arr l))

/-- The paths part, and removing what is at `q` does not move what is at `p`: `q` is not itself an element of the array in which they part. -/
def Independent (p q : List Finder) : Prop :=
  ∃ pre a b s t, p = pre ++ a :: s ∧ q = pre ++ b :: t ∧ Apart a b ∧ (t = [] → ∃ k, b = .key k)

end RJ.Spec
