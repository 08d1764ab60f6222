/-
  Basic types of the model of Boyux/rust-json (`/repo/src/lib.rs`).
-/
namespace RJ

/-- `&str` / `String`: the sequence of its `char`s (std). -/
abbrev Str := List Char

/-- `ErrorKind`, /repo/src/lib.rs:58-77. -/
inductive ErrorKind
  | InvalidJson | ParseObjectError | ParseArrayError | ParseStringError | ParseNumberError
  | ParseBooleanError | ParseNullError
  | MissingKey | IndexOutOfRange | InvalidValueKind | PathSyntaxError
  | ConvertError
  deriving DecidableEq, Repr

/-- `Error`, /repo/src/lib.rs:44-48. -/
structure Error where
  kind : ErrorKind
  msg : Str
  deriving DecidableEq, Repr

/-- `Result<T, Error>`. -/
abbrev Res (α : Type) := Except Error α

/-- `Err(Error::new(kind, msg))`, /repo/src/lib.rs:100-104. -/
def fail {α : Type} (k : ErrorKind) (msg : String) : Res α := .error ⟨k, msg.toList⟩

/-- As `fail`, with a message computed by `format!`. -/
def failS {α : Type} (k : ErrorKind) (msg : Str) : Res α := .error ⟨k, msg⟩

/-- Outcome of an operation that may panic (an unwinding Rust panic is an observable outcome). -/
inductive Out (α : Type)
  | ok (a : α)
  | err (e : Error)
  | panic
  deriving DecidableEq

/-- A `Result` seen as an outcome. -/
def Out.ofRes {α : Type} : Res α → Out α
  | .ok a => .ok a
  | .error e => .err e

/-- `enum Json`, /repo/src/lib.rs:106-114.  `HashMap<String, (Json, LinkedList<Json>)>` is an association
list (its order stands for the arbitrary iteration order of the hash map); `Vec` and `LinkedList` are lists;
`f64` is the type parameter `F`. -/
inductive Json (F : Type)
  | object (obj : List (Str × (Json F × List (Json F))))
  | array (vec : List (Json F))
  | string (s : Str)
  | number (f : F)
  | boolean (b : Bool)
  | null

/-- One hash map of a `Json::Object`. -/
abbrev Obj (F : Type) := List (Str × (Json F × List (Json F)))

/-- The operations on `f64` that the code uses (all from std):
`parse` = `str::parse::<f64>` (/repo/src/lib.rs:304), `isFinite` = `f64::is_finite` (:305),
`print` = `f64::to_string` (:143), `beq` = `==` of the derived `PartialEq` (:106),
`ofInt` = `*self as f64` for the integer types (:810), `toInt lo hi` = `*n as $ty` for the integer type whose
range is `[lo, hi]` (:817); `F32` = `f32`, `widen` = `x as f64` and `narrow` = `x as f32` (:810, :817 for `number_imp!(f32)`, :844). -/
class FloatOps (F : Type) where
  parse : Str → Option F
  isFinite : F → Bool
  print : F → Str
  beq : F → F → Bool
  ofInt : Int → F
  toInt : Int → Int → F → Int
  F32 : Type
  widen : F32 → F
  narrow : F → F32

/-- `Json::_kind`, /repo/src/lib.rs:252-262. -/
def Json.kindName {F : Type} : Json F → Str
  | .object _ => "object".toList
  | .array _ => "array".toList
  | .string _ => "string".toList
  | .number _ => "number".toList
  | .boolean _ => "boolean".toList
  | .null => "null".toList

/-- `is_whitespace`, /repo/src/lib.rs:753-756. -/
def isWs (c : Char) : Bool := c = ' ' || c = '\t' || c = '\n' || c = '\r'

/-! ### `HashMap` (std), restricted to what the code calls -/

/-- `HashMap::get` (used at /repo/src/lib.rs:232, 595, 1189, 1224). -/
def mapGet {β : Type} (k : Str) : List (Str × β) → Option β
  | [] => none
  | (k', v) :: t => if k' = k then some v else mapGet k t

/-- `HashMap::insert` (used at /repo/src/lib.rs:172, 600, 946, 1295): replaces the value of an existing key, else adds. -/
def mapInsert {β : Type} (k : Str) (v : β) : List (Str × β) → List (Str × β)
  | [] => [(k, v)]
  | (k', v') :: t => if k' = k then (k', v) :: t else (k', v') :: mapInsert k v t

/-- `HashMap::remove` (used at /repo/src/lib.rs:184, 1259). -/
def mapRemove {β : Type} (k : Str) : List (Str × β) → List (Str × β)
  | [] => []
  | (k', v') :: t => if k' = k then t else (k', v') :: mapRemove k t

/-- `fn object_insert`, /repo/src/lib.rs:594-602: swap the new value in, push the old one to the front of the
duplicate list. -/
def objectInsert {F : Type} (k : Str) (js : Json F) (m : Obj F) : Obj F :=
  match mapGet k m with
  | some (old, list) => mapInsert k (js, old :: list) m
  | none => mapInsert k (js, []) m

end RJ
