import Verif.Model.Parse
/-
  Model of `f64` and `f32` (std): IEEE-754 binary formats, correctly rounded `from_str`, shortest round-trip `to_string`, `as` casts.
  This stands for the behaviour documented for std (Rust reference "numeric cast", `f64::from_str`, `impl Display for f64`); the code
  under study uses it at /repo/src/lib.rs:143, 304-305, 808-845.  `class FloatOps` is instantiated with it, so the classes
  of laws in `Spec` are inhabited.
-/
namespace RJ

/-- A binary interchange format: `p` bits of precision, smallest positive number 2^-`u`, all-ones exponent field `emax`. -/
structure Fmt where
  p : Nat
  u : Nat
  emax : Nat
  deriving DecidableEq

/-- binary64: `f64`. -/
def b64 : Fmt := ⟨53, 1074, 2047⟩
/-- binary32: `f32`. -/
def b32 : Fmt := ⟨24, 149, 255⟩

/-- The magnitude bits (exponent and fraction fields) of infinity. -/
def Fmt.infBits (q : Fmt) : Nat := q.emax * 2 ^ (q.p - 1)

/-- Floating point numbers: sign and magnitude bits; infinities; NaN (its payload is abstracted: nothing in the code can see it). -/
inductive Fl (q : Fmt)
  | fin (neg : Bool) (b : Nat) (h : b < q.infBits)
  | inf (neg : Bool)
  | nan
  deriving DecidableEq

/-- The value of magnitude bits `b` in units of 2^-u: fraction with hidden bit, times a power of two. -/
def magVal (p b : Nat) : Nat := (b - (b / 2 ^ (p - 1) - 1) * 2 ^ (p - 1)) * 2 ^ (b / 2 ^ (p - 1) - 1)

/-- The largest magnitude whose value is at most `k` (units of 2^-u). -/
def floorMag (p k : Nat) : Nat := (k.log2 + 1 - p) * 2 ^ (p - 1) + k / 2 ^ (k.log2 + 1 - p)

/-- Round the non-negative rational `n/d` (units of 2^-u) to the nearest magnitude, ties to even. -/
def nearest (p n d : Nat) : Nat :=
  let b := floorMag p (n / d)
  let mid := (magVal p b + magVal p (b + 1)) * d
  if 2 * n < mid then b
  else if mid < 2 * n then b + 1
  else if b % 2 = 0 then b else b + 1

/-- A rounded magnitude as a number: infinity on overflow. -/
def Fl.mk {q : Fmt} (neg : Bool) (b : Nat) : Fl q := if h : b < q.infBits then .fin neg b h else .inf neg

/-- `d * 10^e` as a fraction, in units of 2^-u. -/
def decNum (q : Fmt) (d : Nat) (e : Int) : Nat × Nat :=
  match e with
  | .ofNat k => (d * 10 ^ k * 2 ^ q.u, 1)
  | .negSucc k => (d * 2 ^ q.u, 10 ^ (k + 1))

/-- The number nearest to `d * 10^e`. -/
def ofDecimal (q : Fmt) (neg : Bool) (d : Nat) (e : Int) : Fl q := Fl.mk neg (nearest q.p (decNum q d e).1 (decNum q d e).2)

/-! ### `from_str` -/

/-- ASCII lower case. -/
def lowerAscii (c : Char) : Char := if 65 ≤ c.toNat ∧ c.toNat ≤ 90 then Char.ofNat (c.toNat + 32) else c

/-- Value of a digit string. -/
def decVal : Str → Nat → Nat
  | [], n => n
  | c :: s, n => decVal s (n * 10 + (c.toNat - 48))

/-- Optional exponent at the end of a number. -/
def parseExp : Str → Option Int
  | [] => some 0
  | c :: r =>
    if c = 'e' ∨ c = 'E' then
      match r with
      | [] => none
      | d :: r' =>
        if d = '-' then (if r' ≠ [] ∧ r'.all isDigit then some (-(decVal r' 0 : Int)) else none)
        else if d = '+' then (if r' ≠ [] ∧ r'.all isDigit then some (decVal r' 0 : Int) else none)
        else if (d :: r').all isDigit then some (decVal (d :: r') 0 : Int) else none
    else none

/-- Digits, optional point and digits, optional exponent: the digits before and after the point, and the exponent. -/
def splitNum (s : Str) : Option (Str × Str × Int) :=
  let int := s.takeWhile isDigit
  let r := s.dropWhile isDigit
  let (frac, r') := match r with
    | c :: t => if c = '.' then (t.takeWhile isDigit, t.dropWhile isDigit) else ([], c :: t)
    | [] => ([], [])
  if int = [] ∧ frac = [] then none
  else match parseExp r' with
    | some e => some (int, frac, e)
    | none => none

/-- `from_str` after the sign. -/
def parseMag (q : Fmt) (neg : Bool) (s : Str) : Option (Fl q) :=
  let w := s.map lowerAscii
  if w = "inf".toList ∨ w = "infinity".toList then some (.inf neg)
  else if w = "nan".toList then some .nan
  else match splitNum s with
    | some (int, frac, e) => some (ofDecimal q neg (decVal (int ++ frac) 0) (e - frac.length))
    | none => none

/-- `f64::from_str`. -/
def parseFl (q : Fmt) (s : Str) : Option (Fl q) :=
  match s with
  | c :: r => if c = '-' then parseMag q true r else if c = '+' then parseMag q false r else parseMag q false (c :: r)
  | [] => none

/-! ### `to_string` -/

/-- Decimal digit. -/
def digitChar (n : Nat) : Char := Char.ofNat (48 + n % 10)

/-- Decimal notation of a natural number. -/
def decDigits (n : Nat) : Str := if n < 10 then [digitChar n] else decDigits (n / 10) ++ [digitChar n]

/-- The last `j` decimal digits of `n`. -/
def fracDigits : Nat → Nat → Str
  | 0, _ => []
  | j + 1, n => fracDigits j (n / 10) ++ [digitChar n]

/-- `d * 10^e` in positional notation. -/
def decText (d : Nat) (e : Int) : Str :=
  match e with
  | .ofNat k => decDigits (d * 10 ^ k)
  | .negSucc k => decDigits (d / 10 ^ (k + 1)) ++ ['.'] ++ fracDigits (k + 1) d

/-- Does `d * 10^e` round to magnitude `b`? -/
def roundsTo (q : Fmt) (b d : Nat) (e : Int) : Bool := nearest q.p (decNum q d e).1 (decNum q d e).2 == b

/-- The value `x` (units of 2^-u) divided by `10^e`, as a fraction. -/
def scaled (q : Fmt) (x : Nat) (e : Int) : Nat × Nat :=
  match e with
  | .ofNat k => (x, 2 ^ q.u * 10 ^ k)
  | .negSucc k => (x * 10 ^ (k + 1), 2 ^ q.u)

/-- The multiple of `10^e` nearest to magnitude `b` among the two neighbours that round to `b` (upwards on a tie). -/
def candidate (q : Fmt) (b : Nat) (e : Int) : Option Nat :=
  let n := (scaled q (magVal q.p b) e).1
  let m := (scaled q (magVal q.p b) e).2
  let d := n / m
  let lo := roundsTo q b d e
  let hi := roundsTo q b (d + 1) e
  if lo && hi then (if (2 * d + 1) * m ≤ 2 * n then some (d + 1) else some d)
  else if lo then some d
  else if hi then some (d + 1)
  else none

/-- Search for the coarsest power of ten, downwards; the exact expansion at the end. -/
def shortest (q : Fmt) (b : Nat) : Nat → Int → Nat × Int
  | 0, _ => (magVal q.p b * 5 ^ q.u, -q.u)
  | n + 1, e =>
    match candidate q b e with
    | some d => (d, e)
    | none => shortest q b n (e - 1)

/-- A power of ten above the number: no coarser one needs to be tried. -/
def startExp (q : Fmt) (b : Nat) : Int :=
  let l : Int := (magVal q.p b).log2 - q.u
  if 0 ≤ l then l / 3 + 2 else 3 * l / 10 + 2

/-- `f64::to_string`: the shortest decimal that reads back, nearest to the number, in positional notation. -/
def printFl (q : Fmt) : Fl q → Str
  | .fin neg b _ =>
    (if neg then ['-'] else []) ++
      (if b = 0 then ['0'] else let (d, e) := shortest q b (2 * q.u) (startExp q b); decText d e)
  | .inf neg => (if neg then ['-'] else []) ++ "inf".toList
  | .nan => "NaN".toList

/-! ### Comparison and casts -/

/-- `is_finite`. -/
def Fl.isFinite {q : Fmt} : Fl q → Bool
  | .fin _ _ _ => true
  | _ => false

/-- IEEE-754 equality: the zeros are equal, NaN is not equal to anything. -/
def Fl.beq {q : Fmt} : Fl q → Fl q → Bool
  | .fin n b _, .fin n' b' _ => (b == b' && n == n') || (b == 0 && b' == 0)
  | .inf n, .inf n' => n == n'
  | _, _ => false

/-- `n as f64` for an integer: round to nearest, ties to even. -/
def ofIntFl (q : Fmt) (n : Int) : Fl q := Fl.mk (n < 0) (nearest q.p (n.natAbs * 2 ^ q.u) 1)

/-- Clamp to the range `[lo, hi]`. -/
def clampI (lo hi n : Int) : Int := if n < lo then lo else if hi < n then hi else n

/-- `f as $ty` for an integer type with range `[lo, hi]`: truncate, saturate, NaN to 0. -/
def toIntFl {q : Fmt} (lo hi : Int) : Fl q → Int
  | .fin neg b _ => let t : Int := magVal q.p b / 2 ^ q.u; clampI lo hi (if neg then -t else t)
  | .inf neg => if neg then lo else hi
  | .nan => 0

/-- `x as f64` / `x as f32` between the formats: round to nearest, ties to even. -/
def convFl (q r : Fmt) : Fl q → Fl r
  | .fin neg b _ => Fl.mk neg (nearest r.p (magVal q.p b * 2 ^ r.u) (2 ^ q.u))
  | .inf neg => .inf neg
  | .nan => .nan

/-- `f64` as the floats of the `Json` model. -/
abbrev F64 := Fl b64
/-- `f32`. -/
abbrev F32 := Fl b32

instance : FloatOps F64 where
  parse := parseFl b64
  isFinite := Fl.isFinite
  print := printFl b64
  beq := Fl.beq
  ofInt := ofIntFl b64
  toInt := toIntFl
  F32 := F32
  widen := convFl b32 b64
  narrow := convFl b64 b32

end RJ
