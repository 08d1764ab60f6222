import Verif.Model.Run
/-
  Specification for the resources `parse` uses.  Shared with the model: `Arith`, the range of `i32`.
-/
namespace RJ.Spec
open RJ

/-- The arithmetic is exact within the range of `i32`, whatever it does outside. -/
def Exact32 (add : Arith) : Prop := ∀ x, InRange x → add x = some x

/-- How many opening brackets the text contains (in strings as well). -/
def opens (s : Str) : Nat := (s.filter (fun c => c = '[' ∨ c = '{')).length

/-- `null` in `k` arrays. -/
def nest (k : Nat) : Str := List.replicate k '[' ++ "null".toList ++ List.replicate k ']'

/-- Its value. -/
def nestVal {F : Type} : Nat → Json F
  | 0 => .null
  | k + 1 => .array [nestVal k]

end RJ.Spec
