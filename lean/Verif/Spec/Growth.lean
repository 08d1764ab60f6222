import Verif.Spec.History
import Verif.Spec.PrintRun
/-
  Specification for C89: how large a document is, and how much a call can add to it.
-/
namespace RJ.Spec
open RJ
variable {F : Type}

mutual
/-- The number of values in a document: itself, its elements and members (older duplicates included), theirs, and so on. -/
def nodes : Json F → Nat
  | .object m => 1 + nodesMap m
  | .array l => 1 + nodesList l
  | _ => 1
/-- The values in the elements of an array. -/
def nodesList : List (Json F) → Nat
  | [] => 0
  | x :: l => nodes x + nodesList l
/-- The values in the members of an object. -/
def nodesMap : Obj F → Nat
  | [] => 0
  | (_, (x, l)) :: m => nodes x + nodesList l + nodesMap m
end

/-- What `set` builds on the way to a place where there is nothing: for a key an object; for an index an array and the `null`s before it. -/
def onTheWay : List Finder → Nat
  | [] => 0
  | .key _ :: r => 1 + onTheWay r
  | .index i :: r => 1 + i + onTheWay r

/-- The value a method puts into the value it is called on, and how many containers deeper it comes to stand. -/
def Method.puts : Method F → Option (Nat × Json F)
  | .insert _ v => some (1, v)
  | .append _ v => some (1, v)
  | .push v => some (1, v)
  | .replace _ v => some (1, v)
  | .assign v => some (0, v)
  | _ => none

/-- The value a call puts into the document, how deep it comes to stand there, and how many values come into being on the way. -/
inductive Puts : Call F → Json F → Nat → Nat → Prop
  | set {l : Loc} {fs : List Finder} {v : Json F} : l.Means fs → Puts (.set l v) v fs.length (onTheWay fs)
  | direct {m : Method F} {v : Json F} {d : Nat} : m.puts = some (d, v) → Puts (.direct m) v d 0
  | via {f : Finder} {r : List Finder} {m : Method F} {v : Json F} {d : Nat} : m.puts = some (d, v) → Puts (.via f r m) v ((f :: r).length + d) 0
  | index {f : Finder} {r : List Finder} {m : Method F} {v : Json F} {d : Nat} : m.puts = some (d, v) → Puts (.index f r m) v ((f :: r).length + d) 0

/-- The call adds at most `n` values. -/
def AddsAtMost (c : Call F) (n : Nat) : Prop := ∀ v d w, Puts c v d w → nodes v + w ≤ n

/-- No value stands within `D` or more arrays and objects. -/
def Levels (D : Nat) (j : Json F) : Prop := ∀ n x, Inside n x j → n < D

/-- The call puts no value within `D` or more arrays and objects. -/
def StaysAbove (D : Nat) (c : Call F) : Prop := ∀ v d w, Puts c v d w → ∀ n x, Inside n x v → d + n < D

end RJ.Spec
