import Verif.Spec.Flatten
/-
  A document laid over another (C100).
-/
namespace RJ.Spec
open RJ
variable {F : Type}

/-- Is nothing inside the document? -/
def isLeaf : Json F → Bool
  | .object m => m.isEmpty
  | .array l => l.isEmpty
  | _ => true

/-- What is at the component, or `null`. -/
def under (f : Finder) (x : Val F) : Val F := (look [f] x).getD .null

/-- The object with `y` as the newest value of the key (in place of the newest one, if there is one); an empty object is taken if `x` is none. -/
def withMember (k : Str) (y x : Val F) : Val F :=
  match x with
  | .obj m => .obj (upd m k ((m k).dropLast ++ [y]))
  | _ => .obj (upd (fun _ => []) k [y])

/-- The array with `y` at the index, filled up with `null`; an empty array is taken if `x` is none. -/
def withElement (i : Nat) (y x : Val F) : Val F :=
  match x with
  | .arr l => .arr (setElem l i y)
  | _ => .arr (setElem [] i y)

mutual
/-- The document `j` laid over `x`: leaves of `j` take the place of what is there; objects and arrays of `j` are laid over it item by item. -/
def overlay : Json F → Val F → Val F
  | .object m, x => if m.isEmpty then .obj (fun _ => []) else overlayMembers m x
  | .array l, x => if l.isEmpty then .arr [] else overlayElements 0 l x
  | j, _ => absJ j
/-- Members laid over `x`.  Where a leaf is put, older values of the key go (as with `set`). -/
def overlayMembers : List (Str × (Json F × List (Json F))) → Val F → Val F
  | [], x => x
  | (k, (v, _)) :: t, x => overlayMembers t (if isLeaf v then setV [.key k] (absJ v) x else withMember k (overlay v (under (.key k) x)) x)
/-- Elements laid over `x` from index `i` on. -/
def overlayElements : Nat → List (Json F) → Val F → Val F
  | _, [], x => x
  | i, v :: t, x => overlayElements (i + 1) t (withElement i (overlay v (under (.index i) x)) x)
end

end RJ.Spec
