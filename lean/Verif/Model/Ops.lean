import Verif.Model.Basic
/-
  Model of the operations of `impl Json` (/repo/src/lib.rs:157-262).  A `&mut self` method returns the new value of
  `self` together with its result.
-/
namespace RJ
variable {F : Type}

/-- The error of the operations on a value of the wrong kind, e.g. /repo/src/lib.rs:176-177. -/
def kindErr {α : Type} (expect : String) (other : Json F) : Res α :=
  failS .InvalidValueKind
    ("invalid value kind, expect ".toList ++ expect.toList ++ ", got ".toList ++ other.kindName ++ ['.'])

/-- `Json::add_option`, /repo/src/lib.rs:166-179. -/
def Json.addOption (self : Json F) (k : Str) (v : Json F) (append : Bool) : Json F × Res Unit :=
  match self with
  | .object obj =>
    if append then (.object (objectInsert k v obj), .ok ())
    else (.object (mapInsert k (v, []) obj), .ok ())
  | other => (other, kindErr "object" other)

/-- `Json::insert`, /repo/src/lib.rs:158-160 (key and value already converted). -/
def Json.insert (self : Json F) (k : Str) (v : Json F) : Json F × Res Unit := self.addOption k v false

/-- `Json::append`, /repo/src/lib.rs:162-164. -/
def Json.append (self : Json F) (k : Str) (v : Json F) : Json F × Res Unit := self.addOption k v true

/-- `Json::delete`, /repo/src/lib.rs:181-190. -/
def Json.delete (self : Json F) (k : Str) : Json F × Res Unit :=
  match self with
  | .object obj => (.object (mapRemove k obj), .ok ())
  | other => (other, kindErr "object" other)

/-- `Json::push`, /repo/src/lib.rs:192-201. -/
def Json.push (self : Json F) (e : Json F) : Json F × Res Unit :=
  match self with
  | .array vec => (.array (vec ++ [e]), .ok ())
  | other => (other, kindErr "array" other)

/-- `format!("{}", i)` of a `usize` (std). -/
def natStr (i : Nat) : Str := (Nat.repr i).toList

/-- The error for an index out of range, e.g. /repo/src/lib.rs:208-209. -/
def indexErr {α : Type} (i : Nat) : Res α :=
  failS .IndexOutOfRange ("index ".toList ++ natStr i ++ " out of range.".toList)

/-- `Json::replace`, /repo/src/lib.rs:203-216. -/
def Json.replace (self : Json F) (i : Nat) (v : Json F) : Json F × Res Unit :=
  match self with
  | .array vec =>
    match vec[i]? with
    | some _ => (.array (vec.set i v), .ok ())
    | none => (.array vec, indexErr i)
  | other => (other, kindErr "array" other)

/-- `Json::remove`, /repo/src/lib.rs:218-227; `Vec::remove` panics out of range, before touching the vector. -/
def Json.remove (self : Json F) (i : Nat) : Json F × Out Unit :=
  match self with
  | .array vec => if i < vec.length then (.array (vec.eraseIdx i), .ok ()) else (.array vec, .panic)
  | other => (other, Out.ofRes (kindErr "array" other))

/-- `Error::new(MissingKey, format!("missing key \"{}\".", k))`, /repo/src/lib.rs:239-240, 1190-1191. -/
def missingKey {α : Type} (k : Str) : Res α := failS .MissingKey ("missing key \"".toList ++ k ++ "\".".toList)

/-- `Json::index_and_merge`, /repo/src/lib.rs:229-246. -/
def Json.indexAndMerge (self : Json F) (k : Str) : Res (List (Json F)) :=
  match self with
  | .object obj =>
    match mapGet k obj with
    | some (js, list) => .ok (list.reverse ++ [js])
    | none => missingKey k
  | other => kindErr "object" other

/-- `object!{ k => v, .. }`, /repo/src/lib.rs:992-1000: `append` in order, errors ignored (`let _ =`). -/
def objectMacro (kvs : List (Str × Json F)) : Json F :=
  kvs.foldl (fun j kv => (j.append kv.1 kv.2).1) (.object [])

/-- `array![ e, .. ]`, /repo/src/lib.rs:1002-1009. -/
def arrayMacro (es : List (Json F)) : Json F := .array (es.foldl (fun v e => v ++ [e]) [])

end RJ
