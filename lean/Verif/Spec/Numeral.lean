import Verif.Spec.Items
/-
  Number literals of Rust as they may stand in an attribute, and what they denote.
-/
namespace RJ.Spec
open RJ

/-- A number literal of Rust: decimal (`1_000`, `7u8`), in another base (`0xff`, `0b1010_u8`), or with a fraction, an exponent or a float type
(`2.5`, `1.`, `6.02e+23`, `1f32`). -/
inductive Numeral
  | dec (digits : Str) (suffix : String)
  | radix (base : Char) (digits : Str) (suffix : String)
  | float (int : Str) (frac : Option Str) (exp : Option (Char × Str × Str)) (suffix : String)

/-- Its text. -/
def Numeral.text : Numeral → Str
  | .dec ds suf => ds ++ suf.toList
  | .radix b ds suf => '0' :: b :: ds ++ suf.toList
  | .float int frac exp suf => NumLit.text ⟨false, int, frac, exp⟩ ++ suf.toList

/-- Digits, with underscores anywhere but at the start. -/
def Grouped (s : Str) : Prop := (∃ c t, s = c :: t ∧ IsDigit c) ∧ ∀ c ∈ s, IsDigit c ∨ c = '_'

/-- The literals of the Rust reference. -/
def Numeral.Rust : Numeral → Prop
  | .dec ds suf => Grouped ds ∧ (suf = "" ∨ suf ∈ intSuffixes)
  | .radix b _ _ => b = 'x' ∨ b = 'o' ∨ b = 'b'
  | .float int frac exp suf =>
    Grouped int ∧ (∀ f, frac = some f → Grouped f ∨ f = [] ∧ exp = none ∧ suf = "") ∧
    (∀ e sg ds, exp = some (e, sg, ds) → (e = 'e' ∨ e = 'E') ∧ (sg = [] ∨ sg = ['+'] ∨ sg = ['-']) ∧ (∀ c ∈ ds, IsDigit c ∨ c = '_') ∧ ∃ c ∈ ds, IsDigit c) ∧
    (suf = "" ∨ suf = "f32" ∨ suf = "f64") ∧ ¬ (frac = none ∧ exp = none ∧ suf = "")

/-- The literals `json_parse` can read: decimal, without underscores, and with an integer type only below 2^31. -/
def Numeral.Readable : Numeral → Prop
  | .dec ds suf => '_' ∉ ds ∧ (suf = "" ∨ natOf ds < 2 ^ 31)
  | .radix _ _ _ => False
  | .float int frac exp _ => '_' ∉ NumLit.text ⟨false, int, frac, exp⟩

/-- The float `f` is the one nearest to what the literal denotes, ties to even, with its sign; beyond the range it is infinite. -/
def Approximates (n : NumLit) (f : F64) : Prop :=
  signBit f = n.neg ∧ (|n.rat| < overflow64 → RoundsTo n.rat f) ∧ (overflow64 ≤ |n.rat| → f = .inf n.neg)

/-- What a literal, behind a minus sign if `neg`, is read as: an `i32` if it has no fraction, exponent or float type and is below 2^31, else an `f64`. -/
def Numeral.Is (neg : Bool) : Numeral → Lit → Prop
  | .dec ds _, l => (natOf ds < 2 ^ 31 → l = .integer (if neg then -(natOf ds : Int) else natOf ds)) ∧
      (2 ^ 31 ≤ natOf ds → ∃ f, l = .float f ∧ Approximates ⟨neg, ds, none, none⟩ f)
  | .radix _ _ _, _ => False
  | .float int frac exp _, l => ∃ f, l = .float f ∧ Approximates ⟨neg, int, frac, exp⟩ f

/-- The tokens of a number: a minus sign is a token of its own. -/
def Numeral.toks (neg : Bool) (x : Numeral) : List Tok := (if neg then [.punct '-'] else []) ++ [.lit x.text]

end RJ.Spec
