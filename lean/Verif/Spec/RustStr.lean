import Verif.Model.Basic
/-
  Rust string literals (Rust reference, "Tokens"): what a literal is and which string it denotes.
-/
namespace RJ.Spec
open RJ

/-- The whitespace that a line continuation skips. -/
def ContWs (c : Char) : Prop := c = ' ' ∨ c = '\t' ∨ c = '\n' ∨ c = '\r'

/-- A hexadecimal digit with its value. -/
def HexDigit (c : Char) (v : Nat) : Prop :=
  ('0'.toNat ≤ c.toNat ∧ c.toNat ≤ '9'.toNat ∧ v + 48 = c.toNat) ∨ ('a'.toNat ≤ c.toNat ∧ c.toNat ≤ 'f'.toNat ∧ v + 87 = c.toNat) ∨
  ('A'.toNat ≤ c.toNat ∧ c.toNat ≤ 'F'.toNat ∧ v + 55 = c.toNat)

/-- The simple escapes: the character after the backslash and what it stands for. -/
def SimpleEsc (e x : Char) : Prop :=
  (e = 'n' ∧ x = '\n') ∨ (e = 'r' ∧ x = '\r') ∨ (e = 't' ∧ x = '\t') ∨ (e = '0' ∧ x = Char.ofNat 0) ∨
  (e = '\\' ∧ x = '\\') ∨ (e = '\'' ∧ x = '\'') ∨ (e = '"' ∧ x = '"')

/-- An element of an ordinary string literal. -/
inductive RItem
  /-- a character standing for itself -/
  | plain (c : Char)
  /-- a backslash and `e`, standing for `x` -/
  | simple (e x : Char)
  /-- `\xHL` -/
  | hex (h l : Char) (x : Char)
  /-- `\u{digits}` -/
  | uni (digits : Str) (x : Char)
  /-- a backslash, a newline and further whitespace: nothing -/
  | cont (ws : Str)

/-- The source text of an item. -/
def RItem.text : RItem → Str
  | .plain c => [c]
  | .simple e _ => ['\\', e]
  | .hex h l _ => ['\\', 'x', h, l]
  | .uni ds _ => '\\' :: 'u' :: '{' :: (ds ++ ['}'])
  | .cont ws => '\\' :: '\n' :: ws

/-- The characters an item denotes. -/
def RItem.val : RItem → Str
  | .plain c => [c]
  | .simple _ x => [x]
  | .hex _ _ x => [x]
  | .uni _ x => [x]
  | .cont _ => []

/-- `Hexes ds v n`: `ds` consists of `n` hexadecimal digits with value `v`, with underscores anywhere but in front. -/
inductive Hexes : Str → Nat → Nat → Prop
  | one (c : Char) (d : Nat) : HexDigit c d → Hexes [c] d 1
  | dig (ds : Str) (v n : Nat) (c : Char) (d : Nat) : Hexes ds v n → HexDigit c d → Hexes (ds ++ [c]) (v * 16 + d) (n + 1)
  | under (ds : Str) (v n : Nat) : Hexes ds v n → Hexes (ds ++ ['_']) v n

/-- A well-formed item. -/
def RItem.Valid : RItem → Prop
  | .plain c => c ≠ '"' ∧ c ≠ '\\' ∧ c ≠ '\r'
  | .simple e x => SimpleEsc e x
  | .hex h l x => ∃ a b, HexDigit h a ∧ HexDigit l b ∧ a < 8 ∧ x.toNat = a * 16 + b
  | .uni ds x => ∃ n, Hexes ds x.toNat n ∧ n ≤ 6
  | .cont ws => ∀ c ∈ ws, ContWs c

/-- Well-formed items in sequence: after a line continuation no further whitespace. -/
def RItemsValid : List RItem → Prop
  | [] => True
  | .cont ws :: rest => (RItem.cont ws).Valid ∧ (∀ c, rest.head? = some (.plain c) → ¬ ContWs c) ∧ RItemsValid rest
  | i :: rest => i.Valid ∧ RItemsValid rest

/-- The text of the items. -/
def itemsText (l : List RItem) : Str := l.flatMap RItem.text

/-- The string they denote. -/
def itemsVal (l : List RItem) : Str := l.flatMap RItem.val

/-- An ordinary string literal. -/
def cookedText (l : List RItem) : Str := '"' :: (itemsText l ++ ['"'])

/-- A raw string literal with `n` hashes; it denotes its content as it stands. -/
def rawText (n : Nat) (content : Str) : Str := 'r' :: (List.replicate n '#' ++ '"' :: (content ++ '"' :: List.replicate n '#'))

end RJ.Spec
