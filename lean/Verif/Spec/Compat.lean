import Verif.Spec.Nested
/-
  Specification for C86: changes of types under which a program can still read what it has written before.
-/
namespace RJ.Spec
open RJ
variable {F : Type} [FloatOps F]

/-- Every key of type `i` can be read back from its text. -/
def KeysBack (P : Program F) (i : P.ι) : Prop := ∀ k, (P.key i).fromStr ((P.key i).toStr k) = some k

/-- `Compat t t'`: what was written as a `t'` can be read as a `t`.  `R n n'`: struct `n` is a later version of struct `n'`. -/
inductive Compat (P : Program F) (decl : P.N → Struct) (R : P.N → P.N → Prop) : P.Ty → P.Ty → Prop
  /-- everything is a `Json` -/
  | json (t' : P.Ty) : Compat P decl R .json t'
  | string : Compat P decl R .string .string
  | bool : Compat P decl R .bool .bool
  | f64 : Compat P decl R .f64 .f64
  | f32 : Compat P decl R .f32 .f32
  /-- an `f32` as an `f64` -/
  | wider : Compat P decl R .f64 .f32
  /-- an integer as an `f64` -/
  | float (name' : String) (lo' hi' : Int) : Compat P decl R .f64 (.int name' lo' hi')
  /-- an integer of a larger type -/
  | int {name name' : String} {lo hi lo' hi' : Int} : lo ≤ lo' → hi' ≤ hi → Compat P decl R (.int name lo hi) (.int name' lo' hi')
  | vec {t t' : P.Ty} : Compat P decl R t t' → Compat P decl R (.vec t) (.vec t')
  /-- a required value that has become optional -/
  | some {t t' : P.Ty} : NeverNullN t' → Compat P decl R t t' → Compat P decl R (.option t) t'
  | option {t t' : P.Ty} : NeverNullN t' → Compat P decl R t t' → Compat P decl R (.option t) (.option t')
  | pairs {i : P.ι} {t t' : P.Ty} : KeysBack P i → Compat P decl R t t' → Compat P decl R (.pairs i t) (.pairs i t')
  | map {i : P.ι} {t t' : P.Ty} : KeysBack P i → Compat P decl R t t' → Compat P decl R (.map i t) (.map i t')
  /-- a `HashMap` as a `Vec` of pairs -/
  | listed {i : P.ι} {t t' : P.Ty} : KeysBack P i → Compat P decl R t t' → Compat P decl R (.pairs i t) (.map i t')
  /-- a `Vec` of pairs as a `HashMap` -/
  | mapped {i : P.ι} {t t' : P.Ty} : KeysBack P i → Compat P decl R t t' → Compat P decl R (.map i t) (.pairs i t')
  /-- a struct as a `HashMap`, such as a `HashMap<String, Json>` -/
  | members {i : P.ι} {t : P.Ty} {n' : P.N} : KeysBack P i → (∀ f ∈ (decl n').kept, ∃ k, (P.key i).toStr k = f.key) →
      (∀ f ∈ (decl n').kept, Compat P decl R t (P.fieldTy n' f.name)) → Compat P decl R (.map i t) (.named n')
  /-- a struct as a `Vec` of pairs, such as a `Vec<(String, Json)>` -/
  | fields {i : P.ι} {t : P.Ty} {n' : P.N} : KeysBack P i → (∀ f ∈ (decl n').kept, ∃ k, (P.key i).toStr k = f.key) →
      (∀ f ∈ (decl n').kept, Compat P decl R t (P.fieldTy n' f.name)) → Compat P decl R (.pairs i t) (.named n')
  | named {n n' : P.N} : R n n' → Compat P decl R (.named n) (.named n')

/-- Later versions of structs: each non-ignored field has a counterpart in the earlier version, with the same member name (not necessarily the same field name) and a compatible type.
Fields may be left out and reordered. -/
def Evolves (P : Program F) (decl : P.N → Struct) (R : P.N → P.N → Prop) : Prop :=
  ∀ n n', R n n' → ∀ f ∈ (decl n).kept, ∃ f' ∈ (decl n').kept, f'.key = f.key ∧ Compat P decl R (P.fieldTy n f.name) (P.fieldTy n' f'.name)

/-- `View t y t' x`: `y`, of type `t`, is what one sees of `x`, of type `t'`. -/
inductive View (P : Program F) (decl : P.N → Struct) : P.Ty → P.Val → P.Ty → P.Val → Prop
  /-- the document itself -/
  | json {t' : P.Ty} {x : P.Val} {j : Json F} : WF j → absJ j = absJ (P.enc t' x) → View P decl .json (.json j) t' x
  | string (s : Str) : View P decl .string (.string s) .string (.string s)
  | bool (b : Bool) : View P decl .bool (.bool b) .bool (.bool b)
  | f64 (x : F) : View P decl .f64 (.f64 x) .f64 (.f64 x)
  | f32 (x : FloatOps.F32 F) : View P decl .f32 (.f32 x) .f32 (.f32 x)
  | wider (x : FloatOps.F32 F) : View P decl .f64 (.f64 (FloatOps.widen x)) .f32 (.f32 x)
  | float (name' : String) (lo' hi' n : Int) : View P decl .f64 (.f64 (FloatOps.ofInt n)) (.int name' lo' hi') (.int n)
  | int (name name' : String) (lo hi lo' hi' n : Int) : View P decl (.int name lo hi) (.int n) (.int name' lo' hi') (.int n)
  | vec {t t' : P.Ty} {l l' : List P.Val} : l.length = l'.length → (∀ (a : Nat) y x, l[a]? = some y → l'[a]? = some x → View P decl t y t' x) →
      View P decl (.vec t) (.vec l) (.vec t') (.vec l')
  | some {t t' : P.Ty} {y x : P.Val} : NeverNullN t' → View P decl t y t' x → View P decl (.option t) (.option (some y)) t' x
  | none (t t' : P.Ty) : View P decl (.option t) (.option none) (.option t') (.option none)
  | option {t t' : P.Ty} {y x : P.Val} : View P decl t y t' x → View P decl (.option t) (.option (some y)) (.option t') (.option (some x))
  | pairs {i : P.ι} {t t' : P.Ty} {l l' : List ((P.key i).K × P.Val)} : (∀ k, (valsOf k l).length = (valsOf k l').length) →
      (∀ k (a : Nat) y x, (valsOf k l)[a]? = some y → (valsOf k l')[a]? = some x → View P decl t y t' x) →
      View P decl (.pairs i t) (.entries (P.tag i l)) (.pairs i t') (.entries (P.tag i l'))
  | map {i : P.ι} {t t' : P.Ty} {l l' : List ((P.key i).K × P.Val)} : (l.map (·.1)).Nodup → (∀ k, k ∈ l.map (·.1) ↔ k ∈ l'.map (·.1)) →
      (∀ k y x, (k, y) ∈ l → (k, x) ∈ l' → View P decl t y t' x) → View P decl (.map i t) (.entries (P.tag i l)) (.map i t') (.entries (P.tag i l'))
  /-- each entry once -/
  | listed {i : P.ι} {t t' : P.Ty} {l l' : List ((P.key i).K × P.Val)} : (l.map (·.1)).Nodup → (∀ k, k ∈ l.map (·.1) ↔ k ∈ l'.map (·.1)) →
      (∀ k y x, (k, y) ∈ l → (k, x) ∈ l' → View P decl t y t' x) → View P decl (.pairs i t) (.entries (P.tag i l)) (.map i t') (.entries (P.tag i l'))
  /-- for each key its last pair -/
  | mapped {i : P.ι} {t t' : P.Ty} {l l' : List ((P.key i).K × P.Val)} : (l.map (·.1)).Nodup → (∀ k, k ∈ l.map (·.1) ↔ k ∈ l'.map (·.1)) →
      (∀ k y x, (k, y) ∈ l → (valsOf k l').getLast? = some x → View P decl t y t' x) →
      View P decl (.map i t) (.entries (P.tag i l)) (.pairs i t') (.entries (P.tag i l'))
  /-- each non-ignored field, under its member name -/
  | members {i : P.ι} {t : P.Ty} {n' : P.N} {l : List ((P.key i).K × P.Val)} {l' : List (Str × P.Val)} : (l.map (·.1)).Nodup →
      (∀ k, k ∈ l.map (·.1) ↔ ∃ f ∈ (decl n').kept, f.key = (P.key i).toStr k) →
      (∀ k y, (k, y) ∈ l → ∀ f ∈ (decl n').kept, f.key = (P.key i).toStr k → ∀ x, (f.name, x) ∈ l' → View P decl t y (P.fieldTy n' f.name) x) →
      View P decl (.map i t) (.entries (P.tag i l)) (.named n') (.struct l')
  /-- each non-ignored field once, under its member name -/
  | fields {i : P.ι} {t : P.Ty} {n' : P.N} {l : List ((P.key i).K × P.Val)} {l' : List (Str × P.Val)} : (l.map (·.1)).Nodup →
      (∀ k, k ∈ l.map (·.1) ↔ ∃ f ∈ (decl n').kept, f.key = (P.key i).toStr k) →
      (∀ k y, (k, y) ∈ l → ∀ f ∈ (decl n').kept, f.key = (P.key i).toStr k → ∀ x, (f.name, x) ∈ l' → View P decl t y (P.fieldTy n' f.name) x) →
      View P decl (.pairs i t) (.entries (P.tag i l)) (.named n') (.struct l')
  /-- each non-ignored field that of the same member name; the ignored ones at their defaults -/
  | struct {n n' : P.N} {l l' : List (Str × P.Val)} : l.map (·.1) = fieldNames (decl n) →
      (∀ f ∈ (decl n).kept, ∀ f' ∈ (decl n').kept, f'.key = f.key → ∀ y x, (f.name, y) ∈ l → (f'.name, x) ∈ l' →
        View P decl (P.fieldTy n f.name) y (P.fieldTy n' f'.name) x) →
      (∀ f ∈ (decl n).ignored, (f.name, P.dflt n f.name) ∈ l) → View P decl (.named n) (.struct l) (.named n') (.struct l')

end RJ.Spec
