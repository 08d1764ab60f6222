import Verif.Spec.Rfc
import Verif.Model.Path
/-
  Specification of the document operations on abstract values: multimap, list, and paths (lists of keys/indices).
  Only the types `Str`, `Finder`, `ErrorKind` of the API are shared with the model.
-/
namespace RJ.Spec
open RJ
variable {F : Type}

/-- Function update. -/
def upd {β : Type} (m : Str → β) (k : Str) (b : β) : Str → β := fun q => if q = k then b else m q

/-! ### Objects as multimaps -/

/-- Operations on an object. -/
inductive ObjOp (F : Type)
  | insert (k : Str) (v : Json F)
  | append (k : Str) (v : Json F)
  | delete (k : Str)

/-- Their effect on the map from keys to histories of values. -/
def ObjOp.spec : ObjOp F → (Str → List (Val F)) → (Str → List (Val F))
  | .insert k v, m => upd m k [absJ v]
  | .append k v, m => upd m k (m k ++ [absJ v])
  | .delete k, m => upd m k []

/-- The value of an operation is well formed. -/
def ObjOp.WF : ObjOp F → Prop
  | .insert _ v => Spec.WF v
  | .append _ v => Spec.WF v
  | .delete _ => True

/-! ### Arrays as lists -/

/-- Operations on an array. -/
inductive ArrOp (F : Type)
  | push (v : Json F)
  | replace (i : Nat) (v : Json F)
  | remove (i : Nat)

/-- What the caller sees. -/
inductive Seen
  | ok
  | error (k : ErrorKind)
  | panic
  deriving DecidableEq, Repr

/-- Their effect on a list, and what the caller sees. -/
def ArrOp.spec : ArrOp F → List (Json F) → List (Json F) × Seen
  | .push v, l => (l ++ [v], .ok)
  | .replace i v, l => if i < l.length then (l.take i ++ [v] ++ l.drop (i + 1), .ok) else (l, .error .IndexOutOfRange)
  | .remove i, l => if i < l.length then (l.take i ++ l.drop (i + 1), .ok) else (l, .panic)

/-! ### Paths -/

/-- The keys and indices of a path, outermost first. -/
def comps : Path → List Finder
  | .last f => [f]
  | .cons f p => f :: comps p

/-- The value at a path; the newest value of a key with several values. -/
def look : List Finder → Val F → Option (Val F)
  | [], v => some v
  | .key k :: r, .obj m =>
    match (m k).getLast? with
    | some x => look r x
    | none => none
  | .index i :: r, .arr l =>
    match l[i]? with
    | some x => look r x
    | none => none
  | _ :: _, _ => none

/-- Why there is no value at a path: the kind of the first component that fails. -/
def firstFail : List Finder → Val F → Option ErrorKind
  | [], _ => none
  | .key k :: r, .obj m =>
    match (m k).getLast? with
    | some x => firstFail r x
    | none => some .MissingKey
  | .index i :: r, .arr l =>
    match l[i]? with
    | some x => firstFail r x
    | none => some .IndexOutOfRange
  | _ :: _, _ => some .InvalidValueKind

/-- The array that results from giving element `i` the value `x`: padded with `null` if too short. -/
def setElem (l : List (Val F)) (i : Nat) (x : Val F) : List (Val F) :=
  l.take i ++ List.replicate (i - l.length) .null ++ [x] ++ l.drop (i + 1)

/-- `set`: give the component at the path the value `v`.  Missing components are created (`null` first), a value of
the wrong kind is replaced by a fresh container; the last component of a key path loses its older values, the others
keep them. -/
def setV : List Finder → Val F → Val F → Val F
  | [], v, _ => v
  | [.key k], v, .obj m => .obj (upd m k [v])
  | .key k :: r, v, .obj m => .obj (upd m k ((m k).dropLast ++ [setV r v ((m k).getLast?.getD .null)]))
  | .key k :: r, v, _ => .obj (upd (fun _ => []) k [setV r v .null])
  | .index i :: r, v, .arr l => .arr (setElem l i (setV r v ((l[i]?).getD .null)))
  | .index i :: r, v, _ => .arr (setElem [] i (setV r v .null))

/-- `del`: remove the component at the path: a key with its whole history, or one element. -/
def delV : List Finder → Val F → Val F
  | [.key k], .obj m => .obj (upd m k [])
  | [.index i], .arr l => .arr (l.take i ++ l.drop (i + 1))
  | .key k :: r, .obj m =>
    match (m k).getLast? with
    | some x => .obj (upd m k ((m k).dropLast ++ [delV r x]))
    | none => .obj m
  | .index i :: r, .arr l =>
    match l[i]? with
    | some x => .arr (l.take i ++ [delV r x] ++ l.drop (i + 1))
    | none => .arr l
  | _, v => v

/-- Give an existing member (the newest value of a key, or an element) another value; nothing else changes. -/
def place : Finder → Val F → Val F → Val F
  | .key k, y, .obj m => .obj (upd m k ((m k).dropLast ++ [y]))
  | .index i, y, .arr l => .arr (l.take i ++ [y] ++ l.drop (i + 1))
  | _, _, v => v

/-- Two components of the same kind that address different members. -/
def Apart : Finder → Finder → Prop
  | .key k, .key k' => k ≠ k'
  | .index i, .index i' => i ≠ i'
  | _, _ => False

/-- Two paths part at some component: different keys of one object, or different indices of one array. -/
def Diverge (p q : List Finder) : Prop :=
  ∃ pre a b s t, p = pre ++ a :: s ∧ q = pre ++ b :: t ∧ Apart a b

end RJ.Spec
