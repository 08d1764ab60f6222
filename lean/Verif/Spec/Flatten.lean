import Verif.Spec.Laws
/-
  The leaves of a document, and the list of them with their paths (C98).
-/
namespace RJ.Spec
open RJ
variable {F : Type}

/-- Nothing is inside the value: a scalar, or an empty array or object. -/
def IsLeaf : Val F → Prop
  | .obj m => ∀ k, m k = []
  | .arr l => l = []
  | _ => True

/-- At the path there is `v`, and nothing is inside `v`. -/
def LeafAt (d : Val F) (p : List Finder) (v : Val F) : Prop := look p d = some v ∧ IsLeaf v

/-- No key of an object has two values. -/
def NoDuplicates (d : Val F) : Prop := ∀ p m, look p d = some (.obj m) → ∀ k, (m k).length ≤ 1

mutual
/-- The leaves of a document with their paths. -/
def leavesOf : Json F → List (List Finder × Json F)
  | .object m => if m.isEmpty then [([], .object m)] else memberLeaves m
  | .array l => if l.isEmpty then [([], .array l)] else elementLeaves 0 l
  | j => [([], j)]
/-- Those of the members of an object (the newest value of each key). -/
def memberLeaves : List (Str × (Json F × List (Json F))) → List (List Finder × Json F)
  | [] => []
  | (k, (v, _)) :: t => (leavesOf v).map (fun c => (.key k :: c.1, c.2)) ++ memberLeaves t
/-- Those of the elements of an array from index `i` on. -/
def elementLeaves : Nat → List (Json F) → List (List Finder × Json F)
  | _, [] => []
  | i, x :: t => (leavesOf x).map (fun c => (.index i :: c.1, c.2)) ++ elementLeaves (i + 1) t
end

end RJ.Spec
