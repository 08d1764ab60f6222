import Verif.Model.Ops
import Verif.Model.Print
import Verif.Model.Parse
/-
  Model of `Path`, `Finder`, `parse_path`, `get`/`set`/`del` and the index operators (/repo/src/lib.rs:1012-1409).
-/
namespace RJ
variable {F : Type}

/-- `enum Finder`, /repo/src/lib.rs:1177-1181. -/
inductive Finder
  | key (k : Str)
  | index (i : Nat)
  deriving DecidableEq, Repr

/-- `struct Path`, /repo/src/lib.rs:1011-1015: a finder and optionally the rest of the path. -/
inductive Path
  | last (finder : Finder)
  | cons (finder : Finder) (next : Path)
  deriving DecidableEq, Repr

/-- `Path::append`, /repo/src/lib.rs:1022-1028. -/
def Path.append : Path → Finder → Path
  | .cons f next, g => .cons f (next.append g)
  | .last f, g => .cons f (.last g)

/-- A `&mut Json` into a document: the value it refers to and the document that results from assigning through
it. -/
structure Ref (F : Type) where
  val : Json F
  put : Json F → Json F

/-- The kind error of the finders for a key, /repo/src/lib.rs:1194-1196. -/
def keyKindErr {α : Type} (k : Str) (other : Json F) : Res α :=
  failS .InvalidValueKind
    ("find value by key \"".toList ++ k ++ "\" error: invalid value kind, expect object, got ".toList ++ other.kindName ++ ['.'])

/-- The kind error of the finders for an index, /repo/src/lib.rs:1209-1211. -/
def indexKindErr {α : Type} (i : Nat) (other : Json F) : Res α :=
  failS .InvalidValueKind
    ("find value by index ".toList ++ natStr i ++ " error: invalid value kind, expect array, got ".toList ++ other.kindName ++ ['.'])

/-- `Finder::find`, /repo/src/lib.rs:1184-1217. -/
def Finder.find : Finder → Json F → Res (Json F)
  | .key k, json =>
    match json with
    | .object obj =>
      match mapGet k obj with
      | some (js, _) => .ok js
      | none => missingKey k
    | other => keyKindErr k other
  | .index i, json =>
    match json with
    | .array vec =>
      match vec[i]? with
      | some js => .ok js
      | none => indexErr i
    | other => indexKindErr i other

/-- `Finder::find_mut`, /repo/src/lib.rs:1219-1252. -/
def Finder.findMut : Finder → Json F → Res (Ref F)
  | .key k, json =>
    match json with
    | .object obj =>
      match mapGet k obj with
      | some (js, list) => .ok ⟨js, fun x => .object (mapInsert k (x, list) obj)⟩
      | none => missingKey k
    | other => keyKindErr k other
  | .index i, json =>
    match json with
    | .array vec =>
      match vec[i]? with
      | some js => .ok ⟨js, fun x => .array (vec.set i x)⟩
      | none => indexErr i
    | other => indexKindErr i other

/-- `Finder::discard`, /repo/src/lib.rs:1254-1288. -/
def Finder.discard : Finder → Json F → Json F × Res (Json F)
  | .key k, json =>
    match json with
    | .object obj =>
      match mapGet k obj with
      | some (js, _) => (.object (mapRemove k obj), .ok js)
      | none => (.object obj, missingKey k)
    | other => (other, keyKindErr k other)
  | .index i, json =>
    match json with
    | .array vec =>
      match vec[i]? with
      | some js => (.array (vec.eraseIdx i), .ok js)
      | none => (.array vec, indexErr i)
    | other => (other, indexKindErr i other)

/-- `Vec::resize(n, Json::Null)` for `n` at least the length (std). -/
def resizeNull (vec : List (Json F)) (n : Nat) : List (Json F) := vec ++ List.replicate (n - vec.length) .null

/-- `json.index_mut(finder)`, /repo/src/lib.rs:1405-1409: `Path::new(index).find_mut(self).expect("IndexMut")`. -/
def Json.indexMut (json : Json F) (f : Finder) : Out (Ref F) :=
  match f.findMut json with
  | .ok r => .ok r
  | .error _ => .panic

/-- `&json[finder]`, /repo/src/lib.rs:1398-1403: `Path::new(index).find(self).expect("Index")`. -/
def Json.index (json : Json F) (f : Finder) : Out (Json F) :=
  match f.find json with
  | .ok r => .ok r
  | .error _ => .panic

/-- `*js = v; Ok(js)`, /repo/src/lib.rs:1318-1320: assign through the reference; the reference now refers to `v`. -/
def Ref.assign (r : Ref F) (v : Json F) : Json F × Ref F := (r.put v, ⟨v, r.put⟩)

/-- `Finder::update`, /repo/src/lib.rs:1290-1324.  `lim`: the largest length a `Vec<Json>` can get (at most
`isize::MAX` bytes); a longer one panics (capacity overflow, arithmetic overflow of `*i + 1`, or out of
memory).  The document after a panic is not specified (the model returns the old one). -/
def Finder.update (lim : Nat) : Finder → Json F → Json F → Json F × Out (Ref F)
  | .key k, json, v =>
    let json' : Json F :=
      match json with
      | .object obj => .object (mapInsert k (v, []) obj)
      | _ => .object (mapInsert k (v, []) [])
    (json', json'.indexMut (.key k))
  | .index i, json, v =>
    let vec' : Option (List (Json F)) :=
      match json with
      | .array vec => if i ≥ vec.length then (if i + 1 ≤ lim then some (resizeNull vec (i + 1)) else none) else some vec
      | _ => if i + 1 ≤ lim then some (resizeNull [] (i + 1)) else none
    match vec' with
    | none => (json, .panic)
    | some vec =>
      match (Json.array vec).indexMut (.index i) with
      | .ok js => let (j, r) := js.assign v; (j, .ok r)
      | _ => (json, .panic)

/-- `Path::find`, /repo/src/lib.rs:1030-1040 (also `Json::find`, :1083-1085, and `find!`). -/
def Path.find : Path → Json F → Res (Json F)
  | .last f, json => f.find json
  | .cons f next, json =>
    match f.find json with
    | .ok inner => next.find inner
    | .error e => .error e

/-- `Path::find_mut`, /repo/src/lib.rs:1042-1052 (also `Json::find_mut`, :1087-1089). -/
def Path.findMut : Path → Json F → Res (Ref F)
  | .last f, json => f.findMut json
  | .cons f next, json =>
    match f.findMut json with
    | .ok inner =>
      match next.findMut inner.val with
      | .ok r => .ok ⟨r.val, fun x => inner.put (r.put x)⟩
      | .error e => .error e
    | .error e => .error e

/-- `Path::discard`, /repo/src/lib.rs:1054-1064 (also `Json::discard`, :1091-1093, and `discard!`). -/
def Path.discard : Path → Json F → Json F × Res (Json F)
  | .last f, json => f.discard json
  | .cons f next, json =>
    match f.findMut json with
    | .ok inner => let (j, r) := next.discard inner.val; (inner.put j, r)
    | .error e => (json, .error e)

/-- `Path::update`, /repo/src/lib.rs:1066-1079 (also `Json::update`, :1095-1097, and `update!`). -/
def Path.update (lim : Nat) : Path → Json F → Json F → Json F × Out (Ref F)
  | .last f, json, v => f.update lim json v
  | .cons f next, json, v =>
    -- descend into the value the reference `inner` refers to, and write the result back
    let descend (json : Json F) (inner : Ref F) : Json F × Out (Ref F) :=
      match next.update lim inner.val v with
      | (j, .ok r) => (inner.put j, .ok ⟨r.val, fun x => inner.put (r.put x)⟩)
      | (j, .err e) => (inner.put j, .err e)
      | (_, .panic) => (json, .panic)
    match f.find json with
    | .ok _ =>
      match f.findMut json with
      | .ok inner => descend json inner
      | .error e => (json, .err e)
    | .error _ =>
      match f.update lim json .null with
      | (json', .ok inner) => descend json' inner
      | (json', .err e) => (json', .err e)
      | (json', .panic) => (json', .panic)

/-- The digits of `usize::from_str` (std): value of a digit string. -/
def digitsVal : Str → Nat → Nat
  | [], n => n
  | c :: s, n => digitsVal s (n * 10 + (c.toNat - '0'.toNat))

/-- `s.parse::<usize>()` (std): optional `+`, at least one decimal digit, value below 2^64. -/
def parseUsize (s : Str) : Option Nat :=
  let ds := match s with
    | c :: t => if c = '+' then t else c :: t
    | [] => []
  if ds ≠ [] ∧ ds.all isDigit then
    let n := digitsVal ds 0
    if n < 2 ^ 64 then some n else none
  else none

/-- The closure `f` of `parse_path`, /repo/src/lib.rs:1126-1146. -/
def finderOf (buf : Str) : Res Finder :=
  match buf with
  | c :: s =>
    if c = '#' then
      match parseUsize s with
      | some i => .ok (.index i)
      | none => failS .PathSyntaxError ("error parsing \"".toList ++ s ++ "\" to usize.".toList)
    else if c = '\\' then .ok (.key s)
    else .ok (.key (c :: s))
  | [] => .ok (.key [])

/-- The loop of `parse_path`, /repo/src/lib.rs:1148-1166: rest of the iterator, `buf`, `vec`. -/
def pathLoop : Str → Str → List Finder → Res (List Finder)
  | [], buf, vec =>
    match finderOf buf with
    | .ok f => .ok (vec ++ [f])
    | .error e => .error e
  | c :: iter, buf, vec =>
    if c = '.' then
      match finderOf buf with
      | .ok f => pathLoop iter [] (vec ++ [f])
      | .error e => .error e
    else if c = '\\' then
      match iter with
      | d :: iter' => if d = '.' then pathLoop iter' (buf ++ ['.']) vec else pathLoop (d :: iter') (buf ++ ['\\']) vec
      | [] => pathLoop [] (buf ++ ['\\']) vec
    else pathLoop iter (buf ++ [c]) vec

/-- `let mut path = Path::new(first); iter.for_each(|f| path.append(f))`, /repo/src/lib.rs:1168-1172, and the
macros `path!`, `find!`, `update!`, `discard!` (:1362-1396). -/
def Path.build (f : Finder) (rest : List Finder) : Path := rest.foldl Path.append (.last f)

/-- `parse_path`, /repo/src/lib.rs:1121-1175. -/
def parsePath (s : Str) : Res Path :=
  match pathLoop s [] [] with
  | .error e => .error e
  | .ok [] => fail .PathSyntaxError "invalid syntax: empty path."
  | .ok (f :: rest) => .ok (Path.build f rest)

/-- `Json::get`, /repo/src/lib.rs:1099-1104. -/
def Json.get (self : Json F) (s : Str) : Res (Json F) :=
  if s = [] then fail .PathSyntaxError "invalid syntax: empty path."
  else match parsePath s with
    | .ok p => p.find self
    | .error e => .error e

/-- `Json::del`, /repo/src/lib.rs:1106-1111. -/
def Json.del (self : Json F) (s : Str) : Json F × Res (Json F) :=
  if s = [] then (self, fail .PathSyntaxError "invalid syntax: empty path.")
  else match parsePath s with
    | .ok p => p.discard self
    | .error e => (self, .error e)

/-- `Json::set`, /repo/src/lib.rs:1113-1118. -/
def Json.set (lim : Nat) (self : Json F) (s : Str) (v : Json F) : Json F × Out (Ref F) :=
  if s = [] then (self, Out.ofRes (fail .PathSyntaxError "invalid syntax: empty path."))
  else match parsePath s with
    | .ok p => p.update lim self v
    | .error e => (self, .err e)

end RJ
