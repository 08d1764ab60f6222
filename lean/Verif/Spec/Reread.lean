import Verif.Spec.Nested
/-
  Specification for C85: the types a Rust program can have.
-/
namespace RJ.Spec
open RJ
variable {F : Type} [FloatOps F]

/-- The integer types inside are Rust's, and the keys inside can be read back from their texts. -/
def Usual : Ty → Prop
  | .int name lo hi => RustInt name lo hi
  | .vec t => Usual t
  | .option t => Usual t
  | .pairs κ t => (∀ k, κ.fromStr (κ.toStr k) = some k) ∧ Usual t
  | .map κ t => (∀ k, κ.fromStr (κ.toStr k) = some k) ∧ Usual t
  | _ => True

/-- The same for the types of a program with derived structs. -/
def UsualN (P : Program F) : P.Ty → Prop
  | .int name lo hi => RustInt name lo hi
  | .vec t => UsualN P t
  | .option t => UsualN P t
  | .pairs i t => (∀ k, (P.key i).fromStr ((P.key i).toStr k) = some k) ∧ UsualN P t
  | .map i t => (∀ k, (P.key i).fromStr ((P.key i).toStr k) = some k) ∧ UsualN P t
  | _ => True

/-- No `f32` inside. -/
def NoF32 : Ty → Prop
  | .f32 => False
  | .vec t => NoF32 t
  | .option t => NoF32 t
  | .pairs _ t => NoF32 t
  | .map _ t => NoF32 t
  | _ => True

end RJ.Spec
