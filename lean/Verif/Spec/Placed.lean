import Verif.Spec.Macros
/-
  Where the commands of `#(@scope: ..)` may stand, told by their words alone.
-/
namespace RJ.Spec
open RJ

/-- A piece of a scope: `{..}`, or the word of a `#word` or `#word(..)`. -/
inductive Word
  | text
  | plain (w : Str)
  | called (w : Str)
deriving DecidableEq

/-- The pieces of a scope, if it consists of such pieces. -/
def wordsOf : List MTok → Option (List Word)
  | [] => some []
  | .op ['#'] :: .ident w :: .group .paren _ :: rest => (wordsOf rest).map (.called w :: ·)
  | .op ['#'] :: .ident w :: rest => (wordsOf rest).map (.plain w :: ·)
  | .group .brace _ :: rest => (wordsOf rest).map (.text :: ·)
  | _ => none

/-- The words there are. -/
def Word.Known : Word → Prop
  | .text => True
  | .plain w => w ∈ ["else".toList, "endif".toList, "endfor".toList, "end".toList]
  | .called w => w ∈ ["define".toList, "include".toList, "quote".toList, "execute".toList, "undef".toList, "ifdef".toList, "ifndef".toList, "if".toList, "elif".toList, "foreach".toList]

/-- `#if`, `#ifdef` or `#ifndef`. -/
def Word.Opens : Word → Prop
  | .called w => w ∈ ["if".toList, "ifdef".toList, "ifndef".toList]
  | _ => False

/-- `#elif`, `#else` or `#endif`. -/
def Word.Continues : Word → Prop
  | .called w => w = "elif".toList
  | .plain w => w = "else".toList ∨ w = "endif".toList
  | _ => False

/-- May `w` stand after the pieces `p`? -/
structure MayFollow (p : List Word) (w : Word) : Prop where
  /-- It is a known word. -/
  known : w.Known
  /-- Nothing stands after `#end`. -/
  live : .plain "end".toList ∉ p
  /-- Before `#elif`, `#else`, `#endif` there is an `#if..` with no `#endif` in between. -/
  opened : w.Continues → ∃ a o b, p = a ++ o :: b ∧ o.Opens ∧ .plain "endif".toList ∉ b
  /-- Before `#endfor` there is a `#foreach` with nothing but text in between. -/
  looped : w = .plain "endfor".toList → ∃ a b, p = a ++ .called "foreach".toList :: b ∧ ∀ x ∈ b, x = .text
  /-- After a `#foreach` without its `#endfor` there is only text, `#endfor` or `#end`. -/
  within : ∀ a b, p = a ++ .called "foreach".toList :: b → .plain "endfor".toList ∉ b → w = .text ∨ w = .plain "endfor".toList ∨ w = .plain "end".toList

/-- Every piece of a scope stands where it may. -/
def WellPlaced (ws : List Word) : Prop := ∀ p w q, ws = p ++ w :: q → MayFollow p w

/-! ### Pieces that can fail only by standing where they may not -/

mutual
/-- No `#` in it. -/
def HashFreeIn : QTok → Prop
  | .group _ g => HashFree g
  | .punct c _ => c ≠ '#'
  | _ => True
/-- No `#`, at any depth. -/
def HashFree : List QTok → Prop
  | [] => True
  | t :: r => HashFreeIn t ∧ HashFree r
end

/-- A command whose parameters are what they should be: a name; a condition; a statement that runs; something to iterate over. -/
def GoodCall (ev : Ev) (sc : Scope) (w : Str) (ps : List MTok) : Prop :=
  (w ∈ ["define".toList, "undef".toList, "ifdef".toList, "ifndef".toList] ∧ ∃ x, ps = [.ident x]) ∨
  (w ∈ ["if".toList, "elif".toList] ∧ ∃ b, ev sc ps = some (.bool b)) ∨
  (w = "execute".toList ∧ ∃ v, ev sc ps = some v) ∨
  (w = "foreach".toList ∧ ((∃ e x vs, ps = e ++ [.op [','], .ident x] ∧ elements ev sc e = some vs) ∨
    ((∀ e x, ps ≠ e ++ [.op [','], .ident x]) ∧ ∃ n, rounds ev sc ps = some n)))

/-- Good commands and texts without `#`. -/
def GoodPieces (ev : Ev) (sc : Scope) : List MTok → Prop
  | [] => True
  | .op ['#'] :: .ident w :: .group .paren ps :: rest => GoodCall ev sc w ps ∧ GoodPieces ev sc rest
  | .op ['#'] :: .ident _ :: rest => GoodPieces ev sc rest
  | .group .brace tt :: rest => HashFree (codeAll tt) ∧ GoodPieces ev sc rest
  | _ => False

end RJ.Spec
