import Verif.Spec.Float
import Verif.Model.Ieee
import Mathlib.Algebra.Order.Round
import Mathlib.Data.Rat.Floor
/-
  Specification of the numbers: the rational value of IEEE-754 bits and of decimal literals.
  Shared with the model: the type `Fl` (sign and magnitude bits).
-/
namespace RJ.Spec
open RJ

/-- The value of exponent and fraction bits `b`, for a format with `p` bits of precision and the given exponent bias
(IEEE-754): subnormal if the exponent field is 0, else with the hidden bit. -/
def ieeeValue (p : Nat) (bias : Int) (b : Nat) : ℚ :=
  if b / 2 ^ (p - 1) = 0 then ((b % 2 ^ (p - 1) : Nat) : ℚ) / 2 ^ (p - 1) * 2 ^ (1 - bias)
  else (1 + ((b % 2 ^ (p - 1) : Nat) : ℚ) / 2 ^ (p - 1)) * 2 ^ (((b / 2 ^ (p - 1) : Nat) : Int) - bias)

/-- The value of a finite `f64`. -/
def value64 : F64 → Option ℚ
  | .fin neg b _ => some (if neg then -ieeeValue 53 1023 b else ieeeValue 53 1023 b)
  | _ => none

/-- The value of a finite `f32`. -/
def value32 : F32 → Option ℚ
  | .fin neg b _ => some (if neg then -ieeeValue 24 127 b else ieeeValue 24 127 b)
  | _ => none

/-- The magnitude bits are even (the last bit of the significand is 0). -/
def Even64 : F64 → Prop
  | .fin _ b _ => b % 2 = 0
  | _ => True

/-- The natural number a digit string denotes. -/
def natOf (s : Str) : Nat := s.foldl (fun n c => 10 * n + (c.toNat - '0'.toNat)) 0

/-- The rational number a number literal denotes. -/
def NumLit.rat (n : NumLit) : ℚ :=
  (if n.neg then -1 else 1) *
  ((natOf n.int : ℚ) + (match n.frac with | some f => (natOf f : ℚ) / 10 ^ f.length | none => 0)) *
  (match n.exp with
    | some (_, sg, ds) => if sg = ['-'] then 1 / 10 ^ natOf ds else 10 ^ natOf ds
    | none => 1)

/-- Truncation toward zero. -/
def truncQ (x : ℚ) : Int := if 0 ≤ x then ⌊x⌋ else ⌈x⌉

/-- The least magnitude that overflows: half way between the largest `f64` and 2^1024. -/
def overflow64 : ℚ := 2 ^ 1024 - 2 ^ 970

/-- `f` is the finite number nearest to `x`; if there are two of them, the one with an even significand. -/
def RoundsTo (x : ℚ) (f : F64) : Prop :=
  ∃ v, value64 f = some v ∧ ∀ g w, value64 g = some w → |v - x| ≤ |w - x| ∧ (|w - x| = |v - x| → w = v ∨ Even64 f)

/-- The sign bit. -/
def signBit : F64 → Bool
  | .fin neg _ _ => neg
  | .inf neg => neg
  | .nan => false

end RJ.Spec
