import Verif.Spec.History
/-
  A part of a document, in its place and alone; clients that work at different places (C104).
-/
namespace RJ.Spec
open RJ
variable {F : Type}

/-- `Moved B c c'`: `c` is a call on a document, `c'` the same call on a document that has the first one at the place `B`: the path gets `B` in front; a method of the document itself is reached with `find_mut` or by indexing. -/
inductive Moved (B : List Finder) : Call F → Call F → Prop
  | get {l l' : Loc} {fs : List Finder} : l.Means fs → l'.Means (B ++ fs) → Moved B (.get l) (.get l')
  | set {l l' : Loc} {fs : List Finder} (v : Json F) : l.Means fs → l'.Means (B ++ fs) → Moved B (.set l v) (.set l' v)
  | del {l l' : Loc} {fs : List Finder} : l.Means fs → l'.Means (B ++ fs) → Moved B (.del l) (.del l')
  | via {f f' : Finder} {r r' : List Finder} (m : Method F) : f' :: r' = B ++ f :: r → Moved B (.via f r m) (.via f' r' m)
  | index {f f' : Finder} {r r' : List Finder} (m : Method F) : f' :: r' = B ++ f :: r → Moved B (.index f r m) (.index f' r' m)
  | owner {f : Finder} {r : List Finder} (m : Method F) : f :: r = B → Moved B (.direct m) (.via f r m)
  | ownerIndex {f : Finder} {r : List Finder} (m : Method F) : f :: r = B → Moved B (.direct m) (.index f r m)

/-- A schedule: the calls of all clients in the order in which they are made; a client is known by the place it works at. -/
abbrev Rota (F : Type) := List (List Finder × Call F)

/-- The calls of a schedule. -/
def Rota.calls (s : Rota F) : List (Call F) := s.map Prod.snd

/-- The calls of one client, in its own order. -/
def Rota.callsAt (P : List Finder) (s : Rota F) : List (Call F) := (s.filter (fun p => p.1 = P)).map Prod.snd

/-- What one client sees of what the calls of the schedule return. -/
def Rota.seenAt (P : List Finder) (s : Rota F) (os : List (Saw F)) : List (Saw F) := ((s.zip os).filter (fun p => p.1.1 = P)).map Prod.snd

/-- The places of the clients are there and part from one another (different keys of one object or different indices of one array, somewhere on the way);
every client's calls are calls on the part of the document at its place; the values passed are well formed. -/
structure Rota.Tidy (s : Rota F) (d : Val F) : Prop where
  there : ∀ p ∈ s, ∃ z, look p.1 d = some z
  part : ∀ p ∈ s, ∀ q ∈ s, p.1 ≠ q.1 → Diverge p.1 q.1
  own : ∀ p ∈ s, ∃ c, Moved p.1 c p.2
  wf : ∀ p ∈ s, p.2.WF

/-- Two schedules of the same work. -/
def Rota.SameWork (s s' : Rota F) : Prop := ∀ P, s.callsAt P = s'.callsAt P

end RJ.Spec
