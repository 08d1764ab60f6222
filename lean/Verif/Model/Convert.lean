import Verif.Model.Path
/-
  Model of `ToJson`/`FromJson` and their implementations, and of the text-level functions
  (/repo/src/lib.rs:13-40, 758-991).
-/
namespace RJ
variable {F : Type} [FloatOps F]

/-- `Err(Error::new(ConvertError, format!("cannot convert {} to ...", other._kind())))`, e.g. /repo/src/lib.rs:785-786. -/
def convertErr {α : Type} (other : Json F) (target : String) : Res α :=
  failS .ConvertError ("cannot convert ".toList ++ other.kindName ++ " to ".toList ++ target.toList)

/-- `collect::<Result<Vec<T>, Error>>()` (std): all values, or the first error. -/
def collect {α : Type} : List (Res α) → Res (List α)
  | [] => .ok []
  | .error e :: _ => .error e
  | .ok a :: t =>
    match collect t with
    | .ok l => .ok (a :: l)
    | .error e => .error e

/-! ### Json, String, numbers, bool -/

/-- `impl ToJson for Json`, /repo/src/lib.rs:766-770. -/
def encJson (x : Json F) : Json F := x

/-- `impl FromJson for Json`, /repo/src/lib.rs:772-776. -/
def decJson (j : Json F) : Res (Json F) := .ok j

/-- `impl ToJson for String` (also `str`, `&str`), /repo/src/lib.rs:778-782, 794-804. -/
def encString (s : Str) : Json F := .string s

/-- `impl FromJson for String`, /repo/src/lib.rs:784-792. -/
def decString : Json F → Res Str
  | .string s => .ok s
  | other => convertErr other "String."

/-- `number_imp!` for an integer type: `Json::Number(*self as f64)`, /repo/src/lib.rs:808-812. -/
def encInt (n : Int) : Json F := .number (FloatOps.ofInt n)

/-- `number_imp!` for the integer type with name `ty` and range `[lo, hi]`: `*n as $ty`, /repo/src/lib.rs:814-822. -/
def decInt (ty : String) (lo hi : Int) : Json F → Res Int
  | .number f => .ok (FloatOps.toInt lo hi f)
  | other => convertErr other (ty ++ ".")

/-- `number_imp!(f64)`, /repo/src/lib.rs:808-812: `*self as f64` is the identity. -/
def encF64 (f : F) : Json F := .number f

/-- `number_imp!(f64)`, /repo/src/lib.rs:814-822. -/
def decF64 : Json F → Res F
  | .number f => .ok f
  | other => convertErr other "f64."

/-- `number_imp!(f32)`, /repo/src/lib.rs:808-812, 844: `*self as f64`. -/
def encF32 (f : FloatOps.F32 F) : Json F := .number (FloatOps.widen f)

/-- `number_imp!(f32)`, /repo/src/lib.rs:814-822, 844: `*n as f32`. -/
def decF32 : Json F → Res (FloatOps.F32 F)
  | .number f => .ok (FloatOps.narrow f)
  | other => convertErr other "f32."

/-- `impl ToJson for bool`, /repo/src/lib.rs:847-851. -/
def encBool (b : Bool) : Json F := .boolean b

/-- `impl FromJson for bool`, /repo/src/lib.rs:853-860. -/
def decBool : Json F → Res Bool
  | .boolean b => .ok b
  | other => convertErr other "bool."

/-! ### Vec, Option -/

/-- `impl ToJson for Vec<T>` (also `&[T]`), /repo/src/lib.rs:868-872, 885-889. -/
def encVec {α : Type} (enc : α → Json F) (l : List α) : Json F := .array (l.map enc)

/-- `impl FromJson for Vec<T>`, /repo/src/lib.rs:874-883. -/
def decVec {α : Type} (dec : Json F → Res α) : Json F → Res (List α)
  | .array v => collect (v.map dec)
  | other => convertErr other "Vec"

/-- `impl ToJson for Option<T>`, /repo/src/lib.rs:974-981. -/
def encOption {α : Type} (enc : α → Json F) : Option α → Json F
  | some x => enc x
  | none => .null

/-- `impl FromJson for Option<T>`, /repo/src/lib.rs:983-990. -/
def decOption {α : Type} (dec : Json F → Res α) : Json F → Res (Option α)
  | .null => .ok none
  | other =>
    match dec other with
    | .ok x => .ok (some x)
    | .error e => .error e

/-! ### Vec<(K, V)>, HashMap<K, V> -/

/-- A key type: `K: ToString + FromStr (+ Hash + Eq)`. -/
structure KeyCodec where
  K : Type
  eqK : DecidableEq K
  toStr : K → Str
  fromStr : Str → Option K

instance (κ : KeyCodec) : DecidableEq κ.K := κ.eqK

/-- `impl ToJson for Vec<(K, V)>` (also `&[(K, V)]`), /repo/src/lib.rs:891-899, 932-940. -/
def encPairs {α : Type} (κ : KeyCodec) (enc : α → Json F) (l : List (κ.K × α)) : Json F :=
  .object (l.foldl (fun m p => objectInsert (κ.toStr p.1) (enc p.2) m) [])

/-- One `(K, V)` read from a member, /repo/src/lib.rs:908-914 (also :916-922, :958-963). -/
def decMember {α : Type} (κ : KeyCodec) (dec : Json F → Res α) (mk : Str) (mj : Json F) : Res (κ.K × α) :=
  match κ.fromStr mk with
  | none => failS .ConvertError ("error converting ".toList ++ mk ++ " to key.".toList)
  | some k =>
    match dec mj with
    | .ok v => .ok (k, v)
    | .error e => .error e

/-- `impl FromJson for Vec<(K, V)>`, /repo/src/lib.rs:901-930: for each entry the duplicates oldest first, then the current value. -/
def decPairs {α : Type} (κ : KeyCodec) (dec : Json F → Res α) : Json F → Res (List (κ.K × α))
  | .object obj => collect (obj.flatMap (fun e => (e.2.2.reverse ++ [e.2.1]).map (decMember κ dec e.1)))
  | other => convertErr other "Vec<(K, V)>"

/-- `HashMap::insert` for a key type (std). -/
def hmInsert {K α : Type} [DecidableEq K] (k : K) (v : α) : List (K × α) → List (K × α)
  | [] => [(k, v)]
  | (k', v') :: t => if k' = k then (k', v) :: t else (k', v') :: hmInsert k v t

/-- `HashMap::get` for a key type (std). -/
def hmGet {K α : Type} [DecidableEq K] (k : K) : List (K × α) → Option α
  | [] => none
  | (k', v) :: t => if k' = k then some v else hmGet k t

/-- `impl ToJson for HashMap<K, V>`, /repo/src/lib.rs:942-950.  The list is the map in iteration order. -/
def encMap {α : Type} (κ : KeyCodec) (enc : α → Json F) (l : List (κ.K × α)) : Json F :=
  .object (l.foldl (fun m p => mapInsert (κ.toStr p.1) (enc p.2, []) m) [])

/-- `impl FromJson for HashMap<K, V>`, /repo/src/lib.rs:952-972. -/
def decMap {α : Type} (κ : KeyCodec) (dec : Json F → Res α) : Json F → Res (List (κ.K × α))
  | .object obj =>
    match collect (obj.map (fun e => decMember κ dec e.1 e.2.1)) with
    | .ok l => .ok (l.foldl (fun m p => hmInsert p.1 p.2 m) [])
    | .error e => .error e
  | other => convertErr other "HashMap"

/-! ### All nestings -/

/-- Type expressions built from the types the crate implements the traits for. -/
inductive Ty : Type 1
  | json | string | bool | f64 | f32
  /-- an integer type: name and range -/
  | int (name : String) (lo hi : Int)
  | vec (t : Ty)
  | option (t : Ty)
  | pairs (κ : KeyCodec) (t : Ty)
  | map (κ : KeyCodec) (t : Ty)

/-- The values of a type expression (a `HashMap` is the list of its entries in iteration order). -/
def Ty.T (F : Type) [FloatOps F] : Ty → Type
  | .json => Json F
  | .string => Str
  | .bool => Bool
  | .f64 => F
  | .f32 => FloatOps.F32 F
  | .int _ _ _ => Int
  | .vec t => List (t.T F)
  | .option t => Option (t.T F)
  | .pairs κ t => List (κ.K × t.T F)
  | .map κ t => List (κ.K × t.T F)

/-- `ToJson::to_json` as trait resolution selects it, /repo/src/lib.rs:758-991. -/
def Ty.enc : (t : Ty) → t.T F → Json F
  | .json => encJson
  | .string => encString
  | .bool => encBool
  | .f64 => encF64
  | .f32 => encF32
  | .int _ _ _ => encInt
  | .vec t => encVec t.enc
  | .option t => encOption t.enc
  | .pairs κ t => encPairs κ t.enc
  | .map κ t => encMap κ t.enc

/-- `FromJson::from_json` (and `Json::convert`, /repo/src/lib.rs:248-250) as trait resolution selects it, /repo/src/lib.rs:758-991. -/
def Ty.dec : (t : Ty) → Json F → Res (t.T F)
  | .json => decJson
  | .string => decString
  | .bool => decBool
  | .f64 => decF64
  | .f32 => decF32
  | .int name lo hi => decInt name lo hi
  | .vec t => decVec t.dec
  | .option t => decOption t.dec
  | .pairs κ t => decPairs κ t.dec
  | .map κ t => decMap κ t.dec

/-- The integer types of `number_imp!`, /repo/src/lib.rs:832-843 (`usize`/`isize`: 64-bit target). -/
def intTypes : List (String × Int × Int) :=
  [("u8", 0, 2 ^ 8 - 1), ("u16", 0, 2 ^ 16 - 1), ("u32", 0, 2 ^ 32 - 1), ("u64", 0, 2 ^ 64 - 1), ("u128", 0, 2 ^ 128 - 1),
   ("usize", 0, 2 ^ 64 - 1), ("i8", -2 ^ 7, 2 ^ 7 - 1), ("i16", -2 ^ 15, 2 ^ 15 - 1), ("i32", -2 ^ 31, 2 ^ 31 - 1),
   ("i64", -2 ^ 63, 2 ^ 63 - 1), ("i128", -2 ^ 127, 2 ^ 127 - 1), ("isize", -2 ^ 63, 2 ^ 63 - 1)]

/-! ### Text level -/

/-- `encode`, /repo/src/lib.rs:13-16. -/
def encodeText (t : Ty) (x : t.T F) : Str := (t.enc x).toString

/-- `decode`, /repo/src/lib.rs:18-21. -/
def decodeText (t : Ty) (s : Str) : Res (t.T F) :=
  match (Json.parse s : Res (Json F)) with
  | .ok j => t.dec j
  | .error e => .error e

/-- `get`, /repo/src/lib.rs:23-26. -/
def getText (t : Ty) (s path : Str) : Res (t.T F) :=
  match (Json.parse s : Res (Json F)) with
  | .ok j =>
    match j.get path with
    | .ok x => t.dec x
    | .error e => .error e
  | .error e => .error e

/-- `set`, /repo/src/lib.rs:28-33. -/
def setText (lim : Nat) (t : Ty) (s path : Str) (x : t.T F) : Out Str :=
  match (Json.parse s : Res (Json F)) with
  | .ok j =>
    match j.set lim path (t.enc x) with
    | (js, .ok _) => .ok js.toString
    | (_, .err e) => .err e
    | (_, .panic) => .panic
  | .error e => .err e

/-- `del`, /repo/src/lib.rs:35-40. -/
def delText (F : Type) [FloatOps F] (s path : Str) : Res Str :=
  match (Json.parse s : Res (Json F)) with
  | .ok j =>
    match j.del path with
    | (js, .ok _) => .ok js.toString
    | (_, .error e) => .error e
  | .error e => .error e

/-! ### `derive(PartialEq)` -/

mutual
/-- `derive(PartialEq) for Json`, /repo/src/lib.rs:106: variants and contents; `Vec`/`LinkedList` elementwise, `HashMap`
by length and lookups (std), `f64` by `==`. -/
def Json.eq : Json F → Json F → Bool
  | .object m, .object m' => m.length == m'.length && Json.eqMap m m'
  | .array l, .array l' => Json.eqList l l'
  | .string s, .string s' => s == s'
  | .number f, .number f' => FloatOps.beq f f'
  | .boolean b, .boolean b' => b == b'
  | .null, .null => true
  | _, _ => false
/-- `self.iter().all(|(key, value)| other.get(key).map_or(false, |v| *value == *v))` (std, `impl PartialEq for HashMap`). -/
def Json.eqMap : List (Str × (Json F × List (Json F))) → List (Str × (Json F × List (Json F))) → Bool
  | [], _ => true
  | (k, (v, l)) :: t, m' =>
    (match mapGet k m' with
      | some (v', l') => Json.eq v v' && Json.eqList l l'
      | none => false) && Json.eqMap t m'
/-- Elementwise, equal lengths (std, `impl PartialEq for Vec`/`LinkedList`). -/
def Json.eqList : List (Json F) → List (Json F) → Bool
  | [], [] => true
  | x :: t, y :: t' => Json.eq x y && Json.eqList t t'
  | _, _ => false
end

end RJ
