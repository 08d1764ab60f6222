import Verif.Spec.Rfc
import Verif.Model.Convert
/-
  Specification for the conversions: which values of a type are equal for an observer, which types can round-trip.
  Shared with the model: the type expressions `Ty`, `KeyCodec` and `hmGet` (lookup).
-/
namespace RJ.Spec
open RJ

/-- The integer types of Rust (64-bit target) with their ranges: name, signed?, width in bits. -/
def rustInts : List (String × Bool × Nat) :=
  [("u8", false, 8), ("u16", false, 16), ("u32", false, 32), ("u64", false, 64), ("u128", false, 128), ("usize", false, 64),
   ("i8", true, 8), ("i16", true, 16), ("i32", true, 32), ("i64", true, 64), ("i128", true, 128), ("isize", true, 64)]

/-- `name` is an integer type of Rust whose smallest and greatest values are `lo` and `hi`. -/
def RustInt (name : String) (lo hi : Int) : Prop :=
  ∃ signed width, (name, signed, width) ∈ rustInts ∧
    lo = (if signed then -(2 : Int) ^ (width - 1) else 0) ∧ hi = (if signed then (2 : Int) ^ (width - 1) - 1 else 2 ^ width - 1)

/-- Two lists of the same length whose elements are related one by one. -/
def AllTwo {α β : Type} (R : α → β → Prop) : List α → List β → Prop
  | [], [] => True
  | x :: t, y :: t' => R x y ∧ AllTwo R t t'
  | _, _ => False

/-- Both `none`, or both `some` and related. -/
def OptTwo {α β : Type} (R : α → β → Prop) : Option α → Option β → Prop
  | none, none => True
  | some x, some y => R x y
  | _, _ => False

/-- The values paired with key `k`, in order. -/
def valsOf {K α : Type} [DecidableEq K] (k : K) (l : List (K × α)) : List α := (l.filter (fun p => p.1 = k)).map (·.2)

/-- What an observer of a Rust value can see.  `Json` and `HashMap`: up to the order of hash maps.  `Vec<(K, V)>`: for each key its
values in order (the pairs of different keys may be interleaved differently, see C32). -/
def Same {F : Type} [FloatOps F] : (t : Ty) → t.T F → t.T F → Prop
  | .json => fun (x y : Json F) => absJ x = absJ y
  | .string => fun (x y : Str) => x = y
  | .bool => fun (x y : Bool) => x = y
  | .f64 => fun (x y : F) => x = y
  | .f32 => fun (x y : FloatOps.F32 F) => x = y
  | .int _ _ _ => fun (x y : Int) => x = y
  | .vec t => fun (x y : List (t.T F)) => AllTwo (Same t) x y
  | .option t => fun (x y : Option (t.T F)) => OptTwo (Same t) x y
  | .pairs κ t => fun (x y : List (κ.K × t.T F)) => ∀ k : κ.K, AllTwo (Same t) (valsOf k x) (valsOf k y)
  | .map κ t => fun (x y : List (κ.K × t.T F)) => ∀ k : κ.K, OptTwo (Same t) (hmGet k x) (hmGet k y)

/-- Types whose values never encode to `null`. -/
def NeverNull : Ty → Prop
  | .json => False
  | .option _ => False
  | _ => True

/-- Types for which decoding can invert encoding: printing a key and reading it back gives the key, and no `Option` of a
type that itself encodes some value to `null`. -/
def Invertible : Ty → Prop
  | .vec t => Invertible t
  | .option t => NeverNull t ∧ Invertible t
  | .pairs κ t => (∀ k, κ.fromStr (κ.toStr k) = some k) ∧ Invertible t
  | .map κ t => (∀ k, κ.fromStr (κ.toStr k) = some k) ∧ Invertible t
  | _ => True

/-- Values in question: integers in the range of their type and of magnitude at most 2^53, hash maps without repeated keys (also
those inside `Json` values). -/
def Good {F : Type} [FloatOps F] : (t : Ty) → t.T F → Prop
  | .json => fun (x : Json F) => WF x
  | .int _ lo hi => fun (n : Int) => lo ≤ n ∧ n ≤ hi ∧ -(2 ^ 53) ≤ n ∧ n ≤ 2 ^ 53
  | .vec t => fun (l : List (t.T F)) => ∀ x ∈ l, Good t x
  | .option t => fun (o : Option (t.T F)) => ∀ x, o = some x → Good t x
  | .pairs κ t => fun (l : List (κ.K × t.T F)) => ∀ p ∈ l, Good t p.2
  | .map κ t => fun (l : List (κ.K × t.T F)) => (l.map (·.1)).Nodup ∧ ∀ p ∈ l, Good t p.2
  | .string => fun _ => True
  | .bool => fun _ => True
  | .f64 => fun _ => True
  | .f32 => fun _ => True

/-- Types without hash maps and `Json` inside: `Same` is equality. -/
def Plain : Ty → Prop
  | .json => False
  | .pairs _ _ => False
  | .map _ _ => False
  | .vec t => Plain t
  | .option t => Plain t
  | _ => True

/-- All floats in the value are finite. -/
def FiniteVals {F : Type} [FloatOps F] : (t : Ty) → t.T F → Prop
  | .json => fun (x : Json F) => AllNum (fun f => FloatOps.isFinite f = true) x
  | .f64 => fun (f : F) => FloatOps.isFinite f = true
  | .f32 => fun (f : FloatOps.F32 F) => FloatOps.isFinite (FloatOps.widen f) = true
  | .vec t => fun (l : List (t.T F)) => ∀ x ∈ l, FiniteVals t x
  | .option t => fun (o : Option (t.T F)) => ∀ x, o = some x → FiniteVals t x
  | .pairs κ t => fun (l : List (κ.K × t.T F)) => ∀ p ∈ l, FiniteVals t p.2
  | .map κ t => fun (l : List (κ.K × t.T F)) => ∀ p ∈ l, FiniteVals t p.2
  | .string => fun _ => True
  | .bool => fun _ => True
  | .int _ _ _ => fun _ => True

/-- All strings and all printed keys in the value satisfy `P`. -/
def Strs {F : Type} [FloatOps F] (P : Str → Prop) : (t : Ty) → t.T F → Prop
  | .json => fun (x : Json F) => AllStr P x
  | .string => fun (s : Str) => P s
  | .vec t => fun (l : List (t.T F)) => ∀ x ∈ l, Strs P t x
  | .option t => fun (o : Option (t.T F)) => ∀ x, o = some x → Strs P t x
  | .pairs κ t => fun (l : List (κ.K × t.T F)) => ∀ p ∈ l, P (κ.toStr p.1) ∧ Strs P t p.2
  | .map κ t => fun (l : List (κ.K × t.T F)) => ∀ p ∈ l, P (κ.toStr p.1) ∧ Strs P t p.2
  | .f64 => fun _ => True
  | .f32 => fun _ => True
  | .bool => fun _ => True
  | .int _ _ _ => fun _ => True

/-- The strings inside containers have balanced brackets; a value which is just a string is unrestricted. -/
def NestedStrs {F : Type} [FloatOps F] : (t : Ty) → t.T F → Prop
  | .json => fun (x : Json F) => NestedBalanced x
  | .string => fun _ => True
  | .option t => fun (o : Option (t.T F)) => ∀ x, o = some x → NestedStrs t x
  | t => Strs Balanced t

/-- The kinds of values a type decodes from. -/
def Accepts {F : Type} : Ty → Json F → Prop
  | .json, _ => True
  | .string, j => ∃ s, j = .string s
  | .bool, j => ∃ b, j = .boolean b
  | .f64, j => ∃ f, j = .number f
  | .f32, j => ∃ f, j = .number f
  | .int _ _ _, j => ∃ f, j = .number f
  | .vec _, j => ∃ l, j = .array l
  | .option t, j => j = .null ∨ Accepts t j
  | .pairs _ _, j => ∃ m, j = .object m
  | .map _ _, j => ∃ m, j = .object m

/-- What the proofs use about integer casts (documented behaviour of `as`; proved for the IEEE-754 model). -/
class LawfulCast (F : Type) [FloatOps F] : Prop where
  /-- Integers of magnitude at most 2^53 are converted exactly, both ways. -/
  toInt_ofInt : ∀ lo hi n : Int, lo ≤ n → n ≤ hi → -(2 ^ 53) ≤ n → n ≤ 2 ^ 53 → (FloatOps.toInt lo hi (FloatOps.ofInt n : F)) = n
  /-- They are finite. -/
  ofInt_finite : ∀ n : Int, -(2 ^ 53) ≤ n → n ≤ 2 ^ 53 → FloatOps.isFinite (FloatOps.ofInt n : F) = true
  /-- `f32` is embedded in `f64`. -/
  narrow_widen : ∀ f : FloatOps.F32 F, (FloatOps.narrow (FloatOps.widen f : F)) = f

/-- What the proofs use about `==` on `f64`: it is symmetric and transitive (NaN is not equal to anything). -/
class LawfulEq (F : Type) [FloatOps F] : Prop where
  symm : ∀ f g : F, FloatOps.beq f g = true → FloatOps.beq g f = true
  trans : ∀ f g h : F, FloatOps.beq f g = true → FloatOps.beq g h = true → FloatOps.beq f h = true

mutual
/-- Equality of abstract values, with `R` on the numbers: same kind, elementwise; objects: for every key the same history, in order. -/
inductive VEq {F : Type} (R : F → F → Prop) : Val F → Val F → Prop
  | obj {m m' : Str → List (Val F)} : (∀ k, VEqL R (m k) (m' k)) → VEq R (.obj m) (.obj m')
  | arr {l l' : List (Val F)} : VEqL R l l' → VEq R (.arr l) (.arr l')
  | str (s : Str) : VEq R (.str s) (.str s)
  | num {f g : F} : R f g → VEq R (.num f) (.num g)
  | bool (b : Bool) : VEq R (.bool b) (.bool b)
  | null : VEq R .null .null
inductive VEqL {F : Type} (R : F → F → Prop) : List (Val F) → List (Val F) → Prop
  | nil : VEqL R [] []
  | cons {x y : Val F} {t t' : List (Val F)} : VEq R x y → VEqL R t t' → VEqL R (x :: t) (y :: t')
end

end RJ.Spec
