import Verif.Spec.History
import Verif.Spec.Convert
import Verif.Spec.Reread
import Mathlib.Data.List.Forall2
/-
  Calls and observations that differ in the numbers in them only, and only as `R` allows (C101).
-/
namespace RJ.Spec
open RJ
variable {F : Type}

/-- The same method, with alike values as arguments. -/
inductive MethodAlike (R : F → F → Prop) : Method F → Method F → Prop
  | insert (k : Str) {v v' : Json F} : VEq R (absJ v) (absJ v') → MethodAlike R (.insert k v) (.insert k v')
  | append (k : Str) {v v' : Json F} : VEq R (absJ v) (absJ v') → MethodAlike R (.append k v) (.append k v')
  | delete (k : Str) : MethodAlike R (.delete k) (.delete k)
  | merge (k : Str) : MethodAlike R (.merge k) (.merge k)
  | push {v v' : Json F} : VEq R (absJ v) (absJ v') → MethodAlike R (.push v) (.push v')
  | replace (i : Nat) {v v' : Json F} : VEq R (absJ v) (absJ v') → MethodAlike R (.replace i v) (.replace i v')
  | remove (i : Nat) : MethodAlike R (.remove i) (.remove i)
  | read : MethodAlike R .read .read
  | assign {v v' : Json F} : VEq R (absJ v) (absJ v') → MethodAlike R (.assign v) (.assign v')

/-- The same call, with alike values as arguments. -/
inductive CallAlike (R : F → F → Prop) : Call F → Call F → Prop
  | get (l : Loc) : CallAlike R (.get l) (.get l)
  | set (l : Loc) {v v' : Json F} : VEq R (absJ v) (absJ v') → CallAlike R (.set l v) (.set l v')
  | del (l : Loc) : CallAlike R (.del l) (.del l)
  | direct {m m' : Method F} : MethodAlike R m m' → CallAlike R (.direct m) (.direct m')
  | via (f : Finder) (r : List Finder) {m m' : Method F} : MethodAlike R m m' → CallAlike R (.via f r m) (.via f r m')
  | index (f : Finder) (r : List Finder) {m m' : Method F} : MethodAlike R m m' → CallAlike R (.index f r m) (.index f r m')

/-- The caller sees the same: the same error, a panic in both cases, or alike values. -/
inductive SawAlike (R : F → F → Prop) : Saw F → Saw F → Prop
  | ok : SawAlike R .ok .ok
  | value {v v' : Val F} : VEq R v v' → SawAlike R (.value v) (.value v')
  | values {l l' : List (Val F)} : VEqL R l l' → SawAlike R (.values l) (.values l')
  | error (e : Error) : SawAlike R (.error e) (.error e)
  | panic : SawAlike R .panic .panic

/-- Two results: the same error, or alike values. -/
inductive ResAlike {α : Type} (S : α → α → Prop) : Res α → Res α → Prop
  | ok {x y : α} : S x y → ResAlike S (.ok x) (.ok y)
  | error (e : Error) : ResAlike S (.error e) (.error e)

/-- Two values that were read at a type, compared with `R` where the type has floats. -/
def AlikeAt [FloatOps F] (R : F → F → Prop) : (t : Ty) → t.T F → t.T F → Prop
  | .f64 => fun (f g : F) => R f g
  | .vec t => fun (l l' : List (t.T F)) => List.Forall₂ (AlikeAt R t) l l'
  | .option t => fun (o o' : Option (t.T F)) => Option.Rel (AlikeAt R t) o o'
  | _ => fun x y => x = y

end RJ.Spec
