import Verif.Spec.History
/-
  Clients that work below different members of one object (C102).
-/
namespace RJ.Spec
open RJ
variable {F : Type}

/-- The methods of an object that name the key `a`. -/
inductive OfKey (a : Str) : Method F → Prop
  | insert (v : Json F) : OfKey a (.insert a v)
  | append (v : Json F) : OfKey a (.append a v)
  | delete : OfKey a (.delete a)
  | merge : OfKey a (.merge a)

/-- The call concerns the member `a` of the object at the place `B` only: its path is `B`, then the key `a`, then anything; or it is a method that names `a`, called on the object at `B`. -/
inductive Below (B : List Finder) (a : Str) : Call F → Prop
  | get {l : Loc} {fs : List Finder} : l.Means (B ++ .key a :: fs) → Below B a (.get l)
  | set {l : Loc} {fs : List Finder} (v : Json F) : l.Means (B ++ .key a :: fs) → Below B a (.set l v)
  | del {l : Loc} {fs : List Finder} : l.Means (B ++ .key a :: fs) → Below B a (.del l)
  | via {f : Finder} {r fs : List Finder} (m : Method F) : f :: r = B ++ .key a :: fs → Below B a (.via f r m)
  | index {f : Finder} {r fs : List Finder} (m : Method F) : f :: r = B ++ .key a :: fs → Below B a (.index f r m)
  | viaOwner {f : Finder} {r : List Finder} {m : Method F} : f :: r = B → OfKey a m → Below B a (.via f r m)
  | indexOwner {f : Finder} {r : List Finder} {m : Method F} : f :: r = B → OfKey a m → Below B a (.index f r m)
  | direct {m : Method F} : B = [] → OfKey a m → Below B a (.direct m)

/-- A schedule: the calls of all clients in the order in which they are made; a client is known by the member it works below. -/
abbrev Schedule (F : Type) := List (Str × Call F)

/-- The calls of a schedule. -/
def callsOf (s : Schedule F) : List (Call F) := s.map Prod.snd

/-- The calls of one client, in its own order. -/
def callsBy (a : Str) (s : Schedule F) : List (Call F) := (s.filter (fun p => p.1 = a)).map Prod.snd

/-- What one client sees of what the calls of the schedule return. -/
def seenBy (a : Str) (s : Schedule F) (os : List (Saw F)) : List (Saw F) := ((s.zip os).filter (fun p => p.1.1 = a)).map Prod.snd

/-- Each client keeps to its own member of the object at `B`, and the values it passes are well formed. -/
def Orderly (B : List Finder) (s : Schedule F) : Prop := ∀ p ∈ s, Below B p.1 p.2 ∧ p.2.WF

/-- Two schedules of the same work: every client makes the same calls in the same order; the clients take turns differently. -/
def SameWork (s s' : Schedule F) : Prop := ∀ a, callsBy a s = callsBy a s'

end RJ.Spec
