import Verif.Spec.TextHistory
/-
  A JSON text as a store: a plain map from places to values (C93).
-/
namespace RJ.Spec
open RJ
variable {I F : Type}

/-- Places in a document: for each the text of its path and the keys and indices this stands for. -/
structure Slots (I : Type) where
  path : I → Str
  comps : I → List Finder

/-- Each path is written properly, ends in a key, has keys with balanced brackets and indices the memory has room for; and any two paths part, at different keys of one object or at different
indices of one array. -/
def Slots.Ok (lim : Nat) (P : Slots I) : Prop :=
  (∀ i, PathText (P.path i) (P.comps i) ∧ (∃ pre k, P.comps i = pre ++ [.key k]) ∧ (∀ n, Finder.index n ∈ P.comps i → n < lim) ∧ ∀ k, Finder.key k ∈ P.comps i → Balanced k) ∧
  ∀ i j, i ≠ j → Diverge (P.comps i) (P.comps j)

/-- A call of the functions on texts, at one of the places. -/
inductive StoreCall (I F : Type)
  | get (i : I)
  | set (i : I) (v : Json F)
  | del (i : I)

/-- The call that is made. -/
def StoreCall.text (P : Slots I) : StoreCall I F → TextCall F
  | .get i => .get (P.path i)
  | .set i v => .set (P.path i) v
  | .del i => .del (P.path i)

/-- The call changes what is at the place. -/
def StoreCall.Writes (i : I) : StoreCall I F → Prop
  | .get _ => False
  | .set n _ => n = i
  | .del n => n = i

/-- What the call does to a map, and what the caller sees: `set` stores the value, `del` removes it and fails if there is none, `get` shows it and fails if there is none. -/
inductive StoreStep (m : I → Option (Val F)) : StoreCall I F → Saw F → (I → Option (Val F)) → Prop
  | get (i : I) (v : Val F) (h : m i = some v) : StoreStep m (.get i) (.value v) m
  | get_none (i : I) (e : Error) (h : m i = none) : StoreStep m (.get i) (.error e) m
  | set (i : I) (v : Json F) (m' : I → Option (Val F)) (h : m' i = some (absJ v)) (h' : ∀ n, n ≠ i → m' n = m n) : StoreStep m (.set i v) .ok m'
  | del (i : I) (v : Val F) (h : m i = some v) (m' : I → Option (Val F)) (h1 : m' i = none) (h' : ∀ n, n ≠ i → m' n = m n) : StoreStep m (.del i) .ok m'
  | del_none (i : I) (e : Error) (h : m i = none) : StoreStep m (.del i) (.error e) m

/-- One call after the other. -/
inductive StoreRun : List (StoreCall I F) → (I → Option (Val F)) → List (Saw F) → (I → Option (Val F)) → Prop
  | done (m : I → Option (Val F)) : StoreRun [] m [] m
  | call {c : StoreCall I F} {cs : List (StoreCall I F)} {m m1 m' : I → Option (Val F)} {o : Saw F} {os : List (Saw F)}
      (h : StoreStep m c o m1) (hs : StoreRun cs m1 os m') : StoreRun (c :: cs) m (o :: os) m'

end RJ.Spec
