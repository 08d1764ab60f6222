import Verif.Spec.Compat
/-
  Specification for C88: changes of types that may be made one after the other.
-/
namespace RJ.Spec
open RJ
variable {F : Type} [FloatOps F]

/-- `Upgrade t t'`: `t` is a later version of `t'`.  As `Compat`, but a `Json` stays a `Json`, a `HashMap` a `HashMap`, a `Vec` of pairs a `Vec` of pairs and a struct a struct. -/
inductive Upgrade (P : Program F) (decl : P.N → Struct) (R : P.N → P.N → Prop) : P.Ty → P.Ty → Prop
  | json : Upgrade P decl R .json .json
  | string : Upgrade P decl R .string .string
  | bool : Upgrade P decl R .bool .bool
  | f64 : Upgrade P decl R .f64 .f64
  | f32 : Upgrade P decl R .f32 .f32
  | wider : Upgrade P decl R .f64 .f32
  | float (name' : String) (lo' hi' : Int) : Upgrade P decl R .f64 (.int name' lo' hi')
  | int {name name' : String} {lo hi lo' hi' : Int} : lo ≤ lo' → hi' ≤ hi → Upgrade P decl R (.int name lo hi) (.int name' lo' hi')
  | vec {t t' : P.Ty} : Upgrade P decl R t t' → Upgrade P decl R (.vec t) (.vec t')
  | some {t t' : P.Ty} : NeverNullN t' → Upgrade P decl R t t' → Upgrade P decl R (.option t) t'
  | option {t t' : P.Ty} : NeverNullN t' → Upgrade P decl R t t' → Upgrade P decl R (.option t) (.option t')
  | pairs {i : P.ι} {t t' : P.Ty} : KeysBack P i → Upgrade P decl R t t' → Upgrade P decl R (.pairs i t) (.pairs i t')
  | map {i : P.ι} {t t' : P.Ty} : KeysBack P i → Upgrade P decl R t t' → Upgrade P decl R (.map i t) (.map i t')
  | named {n n' : P.N} : R n n' → Upgrade P decl R (.named n) (.named n')

/-- Later versions of structs: each non-ignored field has a counterpart in the earlier version, with the same member name and a type that is an earlier version of its own. -/
def Upgrades (P : Program F) (decl : P.N → Struct) (R : P.N → P.N → Prop) : Prop :=
  ∀ n n', R n n' → ∀ f ∈ (decl n).kept, ∃ f' ∈ (decl n').kept, f'.key = f.key ∧ Upgrade P decl R (P.fieldTy n f.name) (P.fieldTy n' f'.name)

/-- One change after the other. -/
def After {N : Type} (R S : N → N → Prop) : N → N → Prop := fun n n'' => ∃ n', R n n' ∧ S n' n''

/-- `Migrated t0 x0 t y`: the value `x0` of type `t0` was written, read by a later version, written by that, read by a version later than that, and so on (one reading at least); what was read
last is `y`, at type `t`.  Documents in between may be any with the content written. -/
inductive Migrated (P : Program F) (decl : P.N → Struct) (t0 : P.Ty) (x0 : P.Val) : P.Ty → P.Val → Prop
  | first {R : P.N → P.N → Prop} {t : P.Ty} {j : Json F} {y : P.Val} : Upgrades P decl R → Upgrade P decl R t t0 → WF j → absJ j = absJ (P.enc t0 x0) → P.dec t j = .ok y →
      Migrated P decl t0 x0 t y
  | next {R : P.N → P.N → Prop} {t t' : P.Ty} {x y : P.Val} {j : Json F} : Migrated P decl t0 x0 t' x → Upgrades P decl R → Upgrade P decl R t t' → WF j → absJ j = absJ (P.enc t' x) →
      P.dec t j = .ok y → Migrated P decl t0 x0 t y

end RJ.Spec
