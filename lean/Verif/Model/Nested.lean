import Verif.Model.Generated
/-
  Programs with derived types: structs whose fields have built-in types, containers, and other derived structs, themselves included
  (`struct Tree { kids: Vec<Tree> }`).  Each struct's `to_json`/`from_json` is the code the derive macros generate (`Model/Generated`), whose calls
  to the fields' `to_json`/`from_json` go to the implementation that trait resolution selects, /repo/src/lib.rs:758-991 or again a derived one.
-/
namespace RJ
variable {F : Type} [FloatOps F]

/-- Type expressions over the types of a program: those of `Ty` (/repo/src/lib.rs:758-991), the key type of a map being one of the program's, and the
program's derived structs.  (A generic struct is a family of structs, one for each choice of its arguments.) -/
inductive NTy (ι N : Type)
  | json | string | bool | f64 | f32
  | int (name : String) (lo hi : Int)
  | vec (t : NTy ι N)
  | option (t : NTy ι N)
  | pairs (i : ι) (t : NTy ι N)
  | map (i : ι) (t : NTy ι N)
  | named (n : N)

/-- Values of all these types (`K`: the keys).  A `HashMap` is the list of its entries in iteration order, a struct the list of its fields. -/
inductive NVal (F : Type) [FloatOps F] (K : Type)
  | json (j : Json F)
  | string (s : Str)
  | bool (b : Bool)
  | f64 (x : F)
  | f32 (x : FloatOps.F32 F)
  | int (n : Int)
  | vec (l : List (NVal F K))
  | option (o : Option (NVal F K))
  | entries (l : List (K × NVal F K))
  | struct (l : List (Str × NVal F K))

/-- A program: its key types, its structs (for each the tokens that the derive macros see, the types of the fields and the `Default` values of the ignored
fields). -/
structure Program (F : Type) [FloatOps F] where
  ι : Type
  eqι : DecidableEq ι
  key : ι → KeyCodec
  N : Type
  toks : N → List Tok
  fieldTy : N → Str → NTy ι N
  dflt : N → Str → NVal F ((i : ι) × (key i).K)

instance (P : Program F) : DecidableEq P.ι := P.eqι

/-- A key of one of the key types. -/
abbrev Program.Key (P : Program F) := (i : P.ι) × (P.key i).K

/-- The types of a program. -/
abbrev Program.Ty (P : Program F) := NTy P.ι P.N

/-- The values of a program. -/
abbrev Program.Val (P : Program F) := NVal F P.Key

/-- Entries with keys of type `i`. -/
def Program.tag (P : Program F) {α : Type} (i : P.ι) (l : List ((P.key i).K × α)) : List (P.Key × α) := l.map (fun p => (⟨i, p.1⟩, p.2))

/-- The entries whose key is of type `i` (all, in a map of that type). -/
def Program.untag (P : Program F) {α : Type} (i : P.ι) (l : List (P.Key × α)) : List ((P.key i).K × α) :=
  l.filterMap (fun p => if h : p.1.1 = i then some (h ▸ p.1.2, p.2) else none)

/-- `self.field`. -/
def fieldOf {α : Type} (l : List (Str × α)) (d : α) (i : Str) : α := (mapGet i l).getD d

/-- `ToJson::to_json` as trait resolution selects it, /repo/src/lib.rs:758-991; `encN`: the derived implementations.  `d`: what a value of another type gives
(there is none in Rust). -/
def Program.encTy (P : Program F) (d : Json F) (encN : P.N → P.Val → Json F) : P.Ty → P.Val → Json F
  | .json, .json j => encJson j
  | .string, .string s => encString s
  | .bool, .bool b => encBool b
  | .f64, .f64 x => encF64 x
  | .f32, .f32 x => encF32 x
  | .int _ _ _, .int n => encInt n
  | .vec t, .vec l => encVec (P.encTy d encN t) l
  | .option t, .option o => encOption (P.encTy d encN t) o
  | .pairs i t, .entries l => encPairs (P.key i) (P.encTy d encN t) (P.untag i l)
  | .map i t, .entries l => encMap (P.key i) (P.encTy d encN t) (P.untag i l)
  | .named n, v => encN n v
  | _, _ => d

/-- `FromJson::from_json` as trait resolution selects it, /repo/src/lib.rs:758-991; `decN`: the derived implementations. -/
def Program.decTy (P : Program F) (decN : P.N → Json F → Res P.Val) : P.Ty → Json F → Res P.Val
  | .json, j => (decJson j).map .json
  | .string, j => (decString j).map .string
  | .bool, j => (decBool j).map .bool
  | .f64, j => (decF64 j).map .f64
  | .f32, j => (decF32 j).map .f32
  | .int name lo hi, j => (decInt name lo hi j).map .int
  | .vec t, j => (decVec (P.decTy decN t) j).map .vec
  | .option t, j => (decOption (P.decTy decN t) j).map .option
  | .pairs i t, j => (decPairs (P.key i) (P.decTy decN t) j).map (fun l => .entries (P.tag i l))
  | .map i t, j => (decMap (P.key i) (P.decTy decN t) j).map (fun l => .entries (P.tag i l))
  | .named n, j => decN n j

/-- The struct `n`, seen from the code generated for it, with the conversions of its fields. -/
def Program.structOf (P : Program F) (n : P.N) (enc : P.Ty → P.Val → Json F) (dec : P.Ty → Json F → Res P.Val) : StructTy F where
  V _ := P.Val
  enc i := enc (P.fieldTy n i)
  dec i := dec (P.fieldTy n i)
  dflt := P.dflt n

/-- One derived `to_json`, /repo/json_derive/src/lib.rs:40-51: the code generated for struct `n`, with the conversions of its fields.  `d`: what code that does not
compile gives. -/
def Program.encStruct (P : Program F) (d : Json F) (n : P.N) (enc : P.Ty → P.Val → Json F) : P.Val → Json F
  | .struct l =>
    match encodeDerived (P.toks n) (P.structOf n enc (fun _ _ => fail .ConvertError "")) (fieldOf l (.bool false)) with
    | some (.ok j) => j
    | _ => d
  | _ => d

/-- One derived `from_json`, /repo/json_derive/src/lib.rs:91-117; `d` as in `encStruct`. -/
def Program.decStruct (P : Program F) (d : Res P.Val) (n : P.N) (dec : P.Ty → Json F → Res P.Val) (j : Json F) : Res P.Val :=
  match decodeDerived (P.toks n) (P.structOf n (fun _ _ => .null) dec) j with
  | some (.ok l) => .ok (.struct (l.map (fun p => (p.1, p.2))))
  | some (.error e) => .error e
  | none => d

/-- The derived `to_json`s calling one another at most `k` deep; `d`: what a deeper call gives (`C77_terminates`: there is none). -/
def Program.encNamed (P : Program F) (d : Json F) : Nat → P.N → P.Val → Json F
  | 0, _, _ => d
  | k + 1, n, v => P.encStruct d n (P.encTy d (P.encNamed d k)) v

/-- The derived `from_json`s calling one another at most `k` deep; `d` as in `encNamed`. -/
def Program.decNamed (P : Program F) (d : Res P.Val) : Nat → P.N → Json F → Res P.Val
  | 0, _, _ => d
  | k + 1, n, j => P.decStruct d n (P.decTy (P.decNamed d k)) j

/-- `x.to_json()` for `x` of type `t`. -/
noncomputable def Program.enc (P : Program F) (t : P.Ty) (v : P.Val) : Json F := P.encTy .null (P.encNamed .null (sizeOf v + 1)) t v

/-- `T::from_json(&j)`. -/
noncomputable def Program.dec (P : Program F) (t : P.Ty) (j : Json F) : Res P.Val :=
  P.decTy (P.decNamed (fail .ConvertError "unreachable") (sizeOf j + 1)) t j

end RJ
