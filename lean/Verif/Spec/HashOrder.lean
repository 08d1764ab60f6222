import Verif.Spec.Nested
/-
  Specification for C82: documents in which no two member names stand for the same key.
-/
namespace RJ.Spec
open RJ
variable {F : Type} [FloatOps F]

/-- Different member names of the object stand for different keys (`"1"` and `"+1"` are the same `u32`). -/
def DistinctKeys (κ : KeyCodec) (m : Obj F) : Prop :=
  ∀ e ∈ m, ∀ e' ∈ m, ∀ k, κ.fromStr e.1 = some k → κ.fromStr e'.1 = some k → e.1 = e'.1

/-- So it is in every object that is read as a `HashMap<K, V>` or a `Vec<(K, V)>` when the document is decoded at type `t`. -/
def NoClash : Ty → Json F → Prop
  | .vec t, .array l => ∀ x ∈ l, NoClash t x
  | .option t, j => NoClash t j
  | .pairs κ t, .object m => DistinctKeys κ m ∧ ∀ p ∈ membersOf m, NoClash t p.2
  | .map κ t, .object m => DistinctKeys κ m ∧ ∀ p ∈ currentOf m, NoClash t p.2
  | _, _ => True

/-- The same for a program with derived types. -/
inductive NoClashN (P : Program F) (decl : P.N → Struct) : P.Ty → Json F → Prop
  | atom {t : P.Ty} {j : Json F} : (∀ l, j ≠ .array l) → (∀ m, j ≠ .object m) → NoClashN P decl t j
  | json (j : Json F) : NoClashN P decl .json j
  | vec {t : P.Ty} {l : List (Json F)} : (∀ x ∈ l, NoClashN P decl t x) → NoClashN P decl (.vec t) (.array l)
  | option {t : P.Ty} {j : Json F} : NoClashN P decl t j → NoClashN P decl (.option t) j
  | pairs {i : P.ι} {t : P.Ty} {m : Obj F} : DistinctKeys (P.key i) m → (∀ p ∈ membersOf m, NoClashN P decl t p.2) → NoClashN P decl (.pairs i t) (.object m)
  | map {i : P.ι} {t : P.Ty} {m : Obj F} : DistinctKeys (P.key i) m → (∀ p ∈ currentOf m, NoClashN P decl t p.2) → NoClashN P decl (.map i t) (.object m)
  | struct {n : P.N} {m : Obj F} : (∀ f ∈ (decl n).kept, ∀ j dups, mapGet f.key m = some (j, dups) → NoClashN P decl (P.fieldTy n f.name) j) →
      NoClashN P decl (.named n) (.object m)

/-- Every text is at most one key: so it is for `String` keys, and not for integers. -/
def ExactKeys : Ty → Prop
  | .vec t => ExactKeys t
  | .option t => ExactKeys t
  | .pairs κ t => (∀ s s' k, κ.fromStr s = some k → κ.fromStr s' = some k → s = s') ∧ ExactKeys t
  | .map κ t => (∀ s s' k, κ.fromStr s = some k → κ.fromStr s' = some k → s = s') ∧ ExactKeys t
  | _ => True

/-- Two neighbouring members with different names change places. -/
inductive Swapped : Members → Members → Prop
  | last (w1 w2 w3 w4 u1 u2 u3 u4 : Str) {k k' : List StrItem} (x x' : Cst) : strVal k ≠ strVal k' →
      Swapped (.cons w1 k w2 w3 x w4 (.one u1 k' u2 u3 x' u4)) (.cons u1 k' u2 u3 x' u4 (.one w1 k w2 w3 x w4))
  | here (w1 w2 w3 w4 u1 u2 u3 u4 : Str) {k k' : List StrItem} (x x' : Cst) (t : Members) : strVal k ≠ strVal k' →
      Swapped (.cons w1 k w2 w3 x w4 (.cons u1 k' u2 u3 x' u4 t)) (.cons u1 k' u2 u3 x' u4 (.cons w1 k w2 w3 x w4 t))
  | later (w1 w2 w3 w4 : Str) (k : List StrItem) (x : Cst) {t t' : Members} : Swapped t t' → Swapped (.cons w1 k w2 w3 x w4 t) (.cons w1 k w2 w3 x w4 t')

end RJ.Spec
