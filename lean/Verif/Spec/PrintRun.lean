import Verif.Model.Basic
/-
  Specification for C84: how deep a value stands inside another one.
-/
namespace RJ.Spec
open RJ
variable {F : Type}

/-- `Inside n v j`: `v` stands in `j`, within `n` arrays and objects (duplicates of members included). -/
inductive Inside : Nat → Json F → Json F → Prop
  | self (j : Json F) : Inside 0 j j
  | element (n : Nat) (v x : Json F) (l : List (Json F)) : x ∈ l → Inside n v x → Inside (n + 1) v (.array l)
  | member (n : Nat) (v x : Json F) (m : Obj F) (k : Str) (l : List (Json F)) : (k, (x, l)) ∈ m → Inside n v x → Inside (n + 1) v (.object m)
  | older (n : Nat) (v x c : Json F) (m : Obj F) (k : Str) (l : List (Json F)) : (k, (c, l)) ∈ m → x ∈ l → Inside n v x → Inside (n + 1) v (.object m)

end RJ.Spec
