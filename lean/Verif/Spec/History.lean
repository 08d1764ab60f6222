import Verif.Spec.Errors
/-
  Specification of whole histories of API calls on one document, on abstract values (hash order forgotten).
  Shared with the model: the API types `Str`, `Finder`, `ErrorKind`, `Error`, and `Json` for the arguments of calls (only `absJ` of them is used).
-/
namespace RJ.Spec
open RJ
variable {F : Type}

/-- What the caller sees of a call. -/
inductive Saw (F : Type)
  | ok
  | value (v : Val F)
  | values (l : List (Val F))
  | error (e : Error)
  | panic

/-- A method called on a value: `insert`, `append`, `delete`, `index_and_merge`; `push`, `replace`, `remove`; reading it, and assigning to it (`*r = v`). -/
inductive Method (F : Type)
  | insert (k : Str) (v : Json F)
  | append (k : Str) (v : Json F)
  | delete (k : Str)
  | merge (k : Str)
  | push (v : Json F)
  | replace (i : Nat) (v : Json F)
  | remove (i : Nat)
  | read
  | assign (v : Json F)

/-- The complaint about a value of the wrong kind. -/
def wrongKind (want : Str) (v : Val F) : Error :=
  ⟨.InvalidValueKind, say ["invalid value kind, expect ".toList, want, ", got ".toList, (kindWord v).toList, ".".toList]⟩

def noKey (k : Str) : Error := ⟨.MissingKey, say ["missing key \"".toList, k, "\".".toList]⟩
def outOfRange (i : Nat) : Error := ⟨.IndexOutOfRange, say ["index ".toList, (toString i).toList, " out of range.".toList]⟩

/-- What a method does to a value, and what the caller sees. -/
def Method.spec : Method F → Val F → Val F × Saw F
  | .insert k v, .obj m => (.obj (upd m k [absJ v]), .ok)
  | .insert _ _, x => (x, .error (wrongKind "object".toList x))
  | .append k v, .obj m => (.obj (upd m k (m k ++ [absJ v])), .ok)
  | .append _ _, x => (x, .error (wrongKind "object".toList x))
  | .delete k, .obj m => (.obj (upd m k []), .ok)
  | .delete _, x => (x, .error (wrongKind "object".toList x))
  | .merge k, .obj m => (.obj m, if m k = [] then .error (noKey k) else .values (m k))
  | .merge _, x => (x, .error (wrongKind "object".toList x))
  | .push v, .arr l => (.arr (l ++ [absJ v]), .ok)
  | .push _, x => (x, .error (wrongKind "array".toList x))
  | .replace i v, .arr l => if i < l.length then (.arr (l.take i ++ [absJ v] ++ l.drop (i + 1)), .ok) else (.arr l, .error (outOfRange i))
  | .replace _ _, x => (x, .error (wrongKind "array".toList x))
  | .remove i, .arr l => if i < l.length then (.arr (l.take i ++ l.drop (i + 1)), .ok) else (.arr l, .panic)
  | .remove _, x => (x, .error (wrongKind "array".toList x))
  | .read, x => (x, .value x)
  | .assign v, _ => (absJ v, .ok)

/-- The values in a method's arguments are well formed. -/
def Method.WF : Method F → Prop
  | .insert _ v => Spec.WF v
  | .append _ v => Spec.WF v
  | .push v => Spec.WF v
  | .replace _ v => Spec.WF v
  | .assign v => Spec.WF v
  | _ => True

/-- The complaint of a component that cannot be followed. -/
def complaint : Finder → Val F → Error
  | .key k, .obj _ => noKey k
  | .index i, .arr _ => outOfRange i
  | .key k, v => ⟨.InvalidValueKind,
      say ["find value by key \"".toList, k, "\" error: invalid value kind, expect object, got ".toList, (kindWord v).toList, ".".toList]⟩
  | .index i, v => ⟨.InvalidValueKind,
      say ["find value by index ".toList, (toString i).toList, " error: invalid value kind, expect array, got ".toList, (kindWord v).toList, ".".toList]⟩

/-- The complaint about a path: that of its first component that cannot be followed. -/
def fault : List Finder → Val F → Option Error
  | [], _ => none
  | f :: r, v =>
    match look [f] v with
    | some x => fault r x
    | none => some (complaint f v)

/-- The value at a path replaced by `y`. -/
def change : List Finder → Val F → Val F → Val F
  | [], y, _ => y
  | f :: r, y, d =>
    match look [f] d with
    | some x => place f (change r y x) d
    | none => d

/-- Every array that `set` has to extend or create gets at most `lim` elements. -/
def RoomFor (lim : Nat) : List Finder → Val F → Prop
  | [], _ => True
  | f :: r, d =>
    match look [f] d with
    | some x => RoomFor lim r x
    | none => (match f with | .key _ => True | .index i => i < lim) ∧ RoomFor lim r .null

/-- How a place is given: a path text (`get`, `set`, `del`), or a path value, i.e. a non-empty list of keys and indices (`find`, `update`, `discard`, `path!`, ..). -/
inductive Loc
  | text (s : Str)
  | path (f : Finder) (r : List Finder)

/-- The keys and indices a place stands for. -/
def Loc.Means : Loc → List Finder → Prop
  | .text s, fs => PathText s fs
  | .path f r, fs => fs = f :: r

/-- The error for a text that is not a path. -/
def BadPath (s : Str) (e : Error) : Prop :=
  e.kind = .PathSyntaxError ∧
  (s = [] ∧ e.msg = "invalid syntax: empty path.".toList ∨
   s ≠ [] ∧ ∃ pre x post, Pieces s (pre ++ ('#' :: x) :: post) ∧ (∀ t ∈ pre, ¬ BadComp t) ∧ BadComp ('#' :: x) ∧ e.msg = say ["error parsing \"".toList, x, "\" to usize.".toList])

/-- A call. -/
inductive Call (F : Type)
  /-- `js.get(s)`, `js.find(p)` -/
  | get (l : Loc)
  /-- `js.set(s, v)`, `js.update(p, v)`, reading the returned reference -/
  | set (l : Loc) (v : Json F)
  /-- `js.del(s)`, `js.discard(p)` -/
  | del (l : Loc)
  /-- `js.m(..)` -/
  | direct (m : Method F)
  /-- `js.find_mut(p)?.m(..)` -/
  | via (f : Finder) (r : List Finder) (m : Method F)
  /-- `js[f1][f2]...m(..)` -/
  | index (f : Finder) (r : List Finder) (m : Method F)

/-- The values in a call's arguments are well formed. -/
def Call.WF : Call F → Prop
  | .set _ v => Spec.WF v
  | .direct m => m.WF
  | .via _ _ m => m.WF
  | .index _ _ m => m.WF
  | _ => True

/-- What a call does to the document and what the caller sees.  (What a panic leaves behind is not specified: a history ends there.) -/
inductive Step (lim : Nat) : Call F → Val F → Val F → Saw F → Prop
  | get {l : Loc} {fs : List Finder} {d x : Val F} : l.Means fs → look fs d = some x → Step lim (.get l) d d (.value x)
  | getFault {l : Loc} {fs : List Finder} {d : Val F} {e : Error} : l.Means fs → fault fs d = some e → Step lim (.get l) d d (.error e)
  | getBad {s : Str} {d : Val F} {e : Error} : BadPath s e → Step lim (.get (.text s)) d d (.error e)
  | set {l : Loc} {fs : List Finder} {v : Json F} {d : Val F} : l.Means fs → RoomFor lim fs d → Step lim (.set l v) d (setV fs (absJ v) d) (.value (absJ v))
  | setPanic {l : Loc} {fs : List Finder} {v : Json F} {d : Val F} : l.Means fs → ¬ RoomFor lim fs d → Step lim (.set l v) d d .panic
  | setBad {s : Str} {v : Json F} {d : Val F} {e : Error} : BadPath s e → Step lim (.set (.text s) v) d d (.error e)
  | del {l : Loc} {fs : List Finder} {d x : Val F} : l.Means fs → look fs d = some x → Step lim (.del l) d (delV fs d) (.value x)
  | delFault {l : Loc} {fs : List Finder} {d : Val F} {e : Error} : l.Means fs → fault fs d = some e → Step lim (.del l) d d (.error e)
  | delBad {s : Str} {d : Val F} {e : Error} : BadPath s e → Step lim (.del (.text s)) d d (.error e)
  | direct {m : Method F} {d : Val F} : Step lim (.direct m) d (m.spec d).1 (m.spec d).2
  | via {f : Finder} {r : List Finder} {m : Method F} {d x : Val F} : look (f :: r) d = some x →
      Step lim (.via f r m) d (change (f :: r) (m.spec x).1 d) (m.spec x).2
  | viaFault {f : Finder} {r : List Finder} {m : Method F} {d : Val F} {e : Error} : fault (f :: r) d = some e → Step lim (.via f r m) d d (.error e)
  | index {f : Finder} {r : List Finder} {m : Method F} {d x : Val F} : look (f :: r) d = some x →
      Step lim (.index f r m) d (change (f :: r) (m.spec x).1 d) (m.spec x).2
  | indexPanic {f : Finder} {r : List Finder} {m : Method F} {d : Val F} {e : Error} : fault (f :: r) d = some e → Step lim (.index f r m) d d .panic

/-- A history of calls: what the caller sees of each, and the document in the end (`none`: a panic ended it). -/
inductive History (lim : Nat) : List (Call F) → Val F → List (Saw F) → Option (Val F) → Prop
  | nil {d : Val F} : History lim [] d [] (some d)
  | panic {c : Call F} {cs : List (Call F)} {d d' : Val F} : Step lim c d d' .panic → History lim (c :: cs) d [.panic] none
  | step {c : Call F} {cs : List (Call F)} {d d' : Val F} {o : Saw F} {os : List (Saw F)} {r : Option (Val F)} :
      Step lim c d d' o → o ≠ .panic → History lim cs d' os r → History lim (c :: cs) d (o :: os) r

end RJ.Spec
