import Verif.Spec.Rfc
/-
  Specification of the std conversions between `f64` and text.
-/
namespace RJ.Spec
open RJ

/-- ASCII lower case of the letters `A`-`Z`. -/
def asciiLower (c : Char) : Char :=
  if 65 ≤ c.toNat ∧ c.toNat ≤ 90 then Char.ofNat (c.toNat + 32) else c

/-- Optional exponent: nothing, or `e`/`E`, optional sign, at least one digit. -/
def ExpText (s : Str) : Prop :=
  s = [] ∨ ∃ e sg ds, s = e :: (sg ++ ds) ∧ (e = 'e' ∨ e = 'E') ∧ (sg = [] ∨ sg = ['+'] ∨ sg = ['-']) ∧
    ds ≠ [] ∧ Digits ds

/-- The grammar documented for `f64::from_str` (std):
```
Float  ::= Sign? ( 'inf' | 'infinity' | 'nan' | Number )          (words in any case)
Number ::= ( Digit+ | Digit+ '.' Digit* | Digit* '.' Digit+ ) Exp?
Exp    ::= 'e' Sign? Digit+                                       (either case)
``` -/
def RustFloat (s : Str) : Prop :=
  ∃ sg rest, s = sg ++ rest ∧ (sg = [] ∨ sg = ['+'] ∨ sg = ['-']) ∧
    ((rest.map asciiLower = "inf".toList ∨ rest.map asciiLower = "infinity".toList ∨
        rest.map asciiLower = "nan".toList) ∨
     (∃ int ex, rest = int ++ ex ∧ int ≠ [] ∧ Digits int ∧ ExpText ex) ∨
     (∃ int frac ex, rest = int ++ '.' :: frac ++ ex ∧ ¬ (int = [] ∧ frac = []) ∧ Digits int ∧ Digits frac ∧ ExpText ex))

/-- What the proofs use about `f64` conversions (documented behaviour of std; proved for the IEEE-754 model). -/
class LawfulFloat (F : Type) [FloatOps F] : Prop where
  /-- `f64::from_str` accepts exactly the documented grammar. -/
  parse_isSome : ∀ s : Str, (FloatOps.parse s : Option F).isSome = true ↔ RustFloat s
  /-- `f64::to_string` of a finite number is a JSON number literal without exponent. -/
  print_shape : ∀ f : F, FloatOps.isFinite f = true → ∃ n : NumLit, n.Valid ∧ n.exp = none ∧ FloatOps.print f = n.text
  /-- `f64::to_string` is read back to the identical number. -/
  parse_print : ∀ f : F, FloatOps.isFinite f = true → FloatOps.parse (FloatOps.print f) = some f

/-- The texts `parse` accepts as numbers (C12): an optional minus, digits, optional fraction, optional
exponent - RFC 8259 except that superfluous leading zeros are allowed, and after such zeros even an empty fraction. -/
def NumLit.Accepted (n : NumLit) : Prop :=
  (n.int ≠ [] ∧ Digits n.int) ∧
  (∀ f, n.frac = some f → Digits f ∧ (f = [] → n.int.head? = some '0' ∧ n.int ≠ ['0'])) ∧
  (∀ e sg ds, n.exp = some (e, sg, ds) →
    (e = 'e' ∨ e = 'E') ∧ (sg = [] ∨ sg = ['+'] ∨ sg = ['-']) ∧ ds ≠ [] ∧ Digits ds)

end RJ.Spec
