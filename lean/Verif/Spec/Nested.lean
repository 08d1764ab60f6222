import Verif.Spec.Convert
import Verif.Spec.Struct
import Verif.Model.Nested
/-
  Specification for programs with derived types that contain one another.  Shared with the model: the type expressions and values of a program
  (`Program.Ty`, `Program.Val`), `Program.tag` (entries with keys of one type).
-/
namespace RJ.Spec
open RJ
variable {F : Type} [FloatOps F]

/-- `decl` are the declarations of the program's structs: of the forms the macros understand, no two fields of a struct with the same name, no two non-ignored
ones with the same key. -/
structure Declared (P : Program F) (decl : P.N → Struct) : Prop where
  toks : ∀ n, P.toks n = (decl n).toks
  ok : ∀ n, (decl n).Ok
  keys : ∀ n, ((decl n).kept.map Field.key).Nodup
  names : ∀ n, (((decl n).kept ++ (decl n).ignored).map Field.name).Nodup

/-- The names of the fields of a struct: first the non-ignored ones, then the ignored ones, each in declaration order.  (The order in which a struct value lists
its fields.) -/
def fieldNames (s : Struct) : List Str := (s.kept ++ s.ignored).map Field.name

/-- `v` is a value of type `t`; integers are in the range of their type and of magnitude at most 2^53, hash maps have no repeated keys.  (Nothing is asked of ignored
fields.) -/
inductive HasTy (P : Program F) (decl : P.N → Struct) : P.Ty → P.Val → Prop
  | json {j : Json F} : WF j → HasTy P decl .json (.json j)
  | string (s : Str) : HasTy P decl .string (.string s)
  | bool (b : Bool) : HasTy P decl .bool (.bool b)
  | f64 (x : F) : HasTy P decl .f64 (.f64 x)
  | f32 (x : FloatOps.F32 F) : HasTy P decl .f32 (.f32 x)
  | int {name : String} {lo hi n : Int} : lo ≤ n → n ≤ hi → -(2 ^ 53) ≤ n → n ≤ 2 ^ 53 → HasTy P decl (.int name lo hi) (.int n)
  | vec {t : P.Ty} {l : List P.Val} : (∀ x ∈ l, HasTy P decl t x) → HasTy P decl (.vec t) (.vec l)
  | none (t : P.Ty) : HasTy P decl (.option t) (.option none)
  | some {t : P.Ty} {x : P.Val} : HasTy P decl t x → HasTy P decl (.option t) (.option (some x))
  | pairs {i : P.ι} {t : P.Ty} {l : List ((P.key i).K × P.Val)} : (∀ p ∈ l, HasTy P decl t p.2) → HasTy P decl (.pairs i t) (.entries (P.tag i l))
  | map {i : P.ι} {t : P.Ty} {l : List ((P.key i).K × P.Val)} : (l.map (·.1)).Nodup → (∀ p ∈ l, HasTy P decl t p.2) → HasTy P decl (.map i t) (.entries (P.tag i l))
  | struct {n : P.N} {l : List (Str × P.Val)} : l.map (·.1) = fieldNames (decl n) →
      (∀ f ∈ (decl n).kept, ∀ x, (f.name, x) ∈ l → HasTy P decl (P.fieldTy n f.name) x) → HasTy P decl (.named n) (.struct l)

/-- All floats in the value satisfy `num`; all strings, printed keys and member names satisfy `str` (ignored fields excepted). -/
inductive Within (P : Program F) (decl : P.N → Struct) (num : F → Prop) (str : Str → Prop) : P.Ty → P.Val → Prop
  | json {j : Json F} : AllNum num j → AllStr str j → Within P decl num str .json (.json j)
  | string {s : Str} : str s → Within P decl num str .string (.string s)
  | bool (b : Bool) : Within P decl num str .bool (.bool b)
  | f64 {x : F} : num x → Within P decl num str .f64 (.f64 x)
  | f32 {x : FloatOps.F32 F} : num (FloatOps.widen x) → Within P decl num str .f32 (.f32 x)
  | int (name : String) (lo hi n : Int) : Within P decl num str (.int name lo hi) (.int n)
  | vec {t : P.Ty} {l : List P.Val} : (∀ x ∈ l, Within P decl num str t x) → Within P decl num str (.vec t) (.vec l)
  | none (t : P.Ty) : Within P decl num str (.option t) (.option none)
  | some {t : P.Ty} {x : P.Val} : Within P decl num str t x → Within P decl num str (.option t) (.option (some x))
  | pairs {i : P.ι} {t : P.Ty} {l : List ((P.key i).K × P.Val)} : (∀ p ∈ l, str ((P.key i).toStr p.1)) → (∀ p ∈ l, Within P decl num str t p.2) →
      Within P decl num str (.pairs i t) (.entries (P.tag i l))
  | map {i : P.ι} {t : P.Ty} {l : List ((P.key i).K × P.Val)} : (∀ p ∈ l, str ((P.key i).toStr p.1)) → (∀ p ∈ l, Within P decl num str t p.2) →
      Within P decl num str (.map i t) (.entries (P.tag i l))
  | struct {n : P.N} {l : List (Str × P.Val)} : (∀ f ∈ (decl n).kept, str f.key) →
      (∀ f ∈ (decl n).kept, ∀ x, (f.name, x) ∈ l → Within P decl num str (P.fieldTy n f.name) x) → Within P decl num str (.named n) (.struct l)

/-- Types whose values never encode to `null`. -/
def NeverNullN {ι N : Type} : NTy ι N → Prop
  | .json => False
  | .option _ => False
  | _ => True

/-- Types for which decoding can invert encoding (as `Invertible`): printing a key and reading it back gives the key, and no `Option` of a type that itself encodes
some value to `null`.  A derived struct is an object: `Option` of it is fine. -/
def InvertibleN (P : Program F) : P.Ty → Prop
  | .vec t => InvertibleN P t
  | .option t => NeverNullN t ∧ InvertibleN P t
  | .pairs i t => (∀ k, (P.key i).fromStr ((P.key i).toStr k) = some k) ∧ InvertibleN P t
  | .map i t => (∀ k, (P.key i).fromStr ((P.key i).toStr k) = some k) ∧ InvertibleN P t
  | _ => True

/-- `y` is `x`, up to what an observer cannot see (the order of hash maps; in `Vec<(K, V)>` how the pairs of different keys are interleaved, see C32), with every
ignored field at its `Default`. -/
inductive Back (P : Program F) (decl : P.N → Struct) : P.Ty → P.Val → P.Val → Prop
  | json {j j' : Json F} : absJ j = absJ j' → Back P decl .json (.json j) (.json j')
  | string (s : Str) : Back P decl .string (.string s) (.string s)
  | bool (b : Bool) : Back P decl .bool (.bool b) (.bool b)
  | f64 (x : F) : Back P decl .f64 (.f64 x) (.f64 x)
  | f32 (x : FloatOps.F32 F) : Back P decl .f32 (.f32 x) (.f32 x)
  | int (name : String) (lo hi n : Int) : Back P decl (.int name lo hi) (.int n) (.int n)
  | vec {t : P.Ty} {l l' : List P.Val} : l.length = l'.length → (∀ (a : Nat) x y, l[a]? = some x → l'[a]? = some y → Back P decl t x y) →
      Back P decl (.vec t) (.vec l) (.vec l')
  | none (t : P.Ty) : Back P decl (.option t) (.option none) (.option none)
  | some {t : P.Ty} {x y : P.Val} : Back P decl t x y → Back P decl (.option t) (.option (some x)) (.option (some y))
  | pairs {i : P.ι} {t : P.Ty} {l l' : List ((P.key i).K × P.Val)} : (∀ k, (valsOf k l).length = (valsOf k l').length) →
      (∀ k (a : Nat) x y, (valsOf k l)[a]? = some x → (valsOf k l')[a]? = some y → Back P decl t x y) →
      Back P decl (.pairs i t) (.entries (P.tag i l)) (.entries (P.tag i l'))
  | map {i : P.ι} {t : P.Ty} {l l' : List ((P.key i).K × P.Val)} : (l'.map (·.1)).Nodup → (∀ k, k ∈ l.map (·.1) ↔ k ∈ l'.map (·.1)) →
      (∀ k x y, (k, x) ∈ l → (k, y) ∈ l' → Back P decl t x y) → Back P decl (.map i t) (.entries (P.tag i l)) (.entries (P.tag i l'))
  | struct {n : P.N} {l l' : List (Str × P.Val)} : l.map (·.1) = fieldNames (decl n) → l'.map (·.1) = fieldNames (decl n) →
      (∀ f ∈ (decl n).kept, ∀ x y, (f.name, x) ∈ l → (f.name, y) ∈ l' → Back P decl (P.fieldTy n f.name) x y) →
      (∀ f ∈ (decl n).ignored, (f.name, P.dflt n f.name) ∈ l') → Back P decl (.named n) (.struct l) (.struct l')

/-- No hash maps, `Vec<(K, V)>` and `Json` inside. -/
def PlainN {ι N : Type} : NTy ι N → Prop
  | .json => False
  | .pairs _ _ => False
  | .map _ _ => False
  | .vec t => PlainN t
  | .option t => PlainN t
  | _ => True

/-! ### Decoding -/

/-- All members of an object in iteration order, duplicates included, the oldest first (the last one is the current one). -/
def membersOf (m : Obj F) : List (Str × Json F) := m.flatMap (fun e => (e.2.2.reverse ++ [e.2.1]).map (fun x => (e.1, x)))

/-- The current members of an object in iteration order. -/
def currentOf (m : Obj F) : List (Str × Json F) := m.map (fun e => (e.1, e.2.1))

mutual
/-- `j` is read as the value `v` of type `t`. -/
inductive ReadsN (P : Program F) (decl : P.N → Struct) : P.Ty → Json F → P.Val → Prop
  | json (j : Json F) : ReadsN P decl .json j (.json j)
  | string (s : Str) : ReadsN P decl .string (.string s) (.string s)
  | bool (b : Bool) : ReadsN P decl .bool (.boolean b) (.bool b)
  | f64 (x : F) : ReadsN P decl .f64 (.number x) (.f64 x)
  /-- `x as f32` -/
  | f32 (x : F) : ReadsN P decl .f32 (.number x) (.f32 (FloatOps.narrow x))
  /-- `x as $ty`: see C35 -/
  | int (name : String) (lo hi : Int) (x : F) : ReadsN P decl (.int name lo hi) (.number x) (.int (FloatOps.toInt lo hi x))
  | vec {t : P.Ty} {l : List (Json F)} {vs : List P.Val} : ReadsAllN P decl t l vs → ReadsN P decl (.vec t) (.array l) (.vec vs)
  | null (t : P.Ty) : ReadsN P decl (.option t) .null (.option none)
  | some {t : P.Ty} {j : Json F} {v : P.Val} : j ≠ .null → ReadsN P decl t j v → ReadsN P decl (.option t) j (.option (some v))
  /-- all members, duplicates included -/
  | pairs {i : P.ι} {t : P.Ty} {m : Obj F} {ks : List (P.key i).K} {vs : List P.Val} :
      (membersOf m).map (fun p => (P.key i).fromStr p.1) = ks.map some → ReadsAllN P decl t ((membersOf m).map (·.2)) vs →
      ReadsN P decl (.pairs i t) (.object m) (.entries (P.tag i (ks.zip vs)))
  /-- the current members, inserted one after the other (two names can be the same key: `"1"` and `"+1"`) -/
  | map {i : P.ι} {t : P.Ty} {m : Obj F} {ks : List (P.key i).K} {vs : List P.Val} :
      (currentOf m).map (fun p => (P.key i).fromStr p.1) = ks.map some → ReadsAllN P decl t ((currentOf m).map (·.2)) vs →
      ReadsN P decl (.map i t) (.object m) (.entries (P.tag i ((ks.zip vs).foldl (fun h p => hmInsert p.1 p.2 h) [])))
  /-- the current member of every non-ignored field; defaults for the others -/
  | struct {n : P.N} {m : Obj F} {l : List (Str × P.Val)} : ReadsFieldsN P decl n m (decl n).kept l →
      ReadsN P decl (.named n) (.object m) (.struct (l ++ (decl n).ignored.map (fun f => (f.name, P.dflt n f.name))))

/-- One by one. -/
inductive ReadsAllN (P : Program F) (decl : P.N → Struct) : P.Ty → List (Json F) → List P.Val → Prop
  | nil (t : P.Ty) : ReadsAllN P decl t [] []
  | cons {t : P.Ty} {j : Json F} {l : List (Json F)} {v : P.Val} {vs : List P.Val} : ReadsN P decl t j v → ReadsAllN P decl t l vs →
      ReadsAllN P decl t (j :: l) (v :: vs)

/-- The members of these fields. -/
inductive ReadsFieldsN (P : Program F) (decl : P.N → Struct) : P.N → Obj F → List Field → List (Str × P.Val) → Prop
  | nil (n : P.N) (m : Obj F) : ReadsFieldsN P decl n m [] []
  | cons {n : P.N} {m : Obj F} {f : Field} {fs : List Field} {j : Json F} {dups : List (Json F)} {v : P.Val} {l : List (Str × P.Val)} :
      mapGet f.key m = some (j, dups) → ReadsN P decl (P.fieldTy n f.name) j v → ReadsFieldsN P decl n m fs l →
      ReadsFieldsN P decl n m (f :: fs) ((f.name, v) :: l)
end

/-- The error "cannot convert .. to ..". -/
def cannot (j : Json F) (target : Str) : Error := ⟨.ConvertError, "cannot convert ".toList ++ j.kindName ++ " to ".toList ++ target⟩

/-- The error for a member name that is not a key. -/
def badKey (k : Str) : Error := ⟨.ConvertError, "error converting ".toList ++ k ++ " to key.".toList⟩

/-- A value of type `t` cannot be read from `j`, and this is the error: that of the first part, in order, that cannot be read. -/
inductive FailsN (P : Program F) (decl : P.N → Struct) : P.Ty → Json F → Error → Prop
  | string {j : Json F} : (∀ s, j ≠ .string s) → FailsN P decl .string j (cannot j "String.".toList)
  | bool {j : Json F} : (∀ b, j ≠ .boolean b) → FailsN P decl .bool j (cannot j "bool.".toList)
  | f64 {j : Json F} : (∀ x, j ≠ .number x) → FailsN P decl .f64 j (cannot j "f64.".toList)
  | f32 {j : Json F} : (∀ x, j ≠ .number x) → FailsN P decl .f32 j (cannot j "f32.".toList)
  | int {j : Json F} (name : String) (lo hi : Int) : (∀ x, j ≠ .number x) → FailsN P decl (.int name lo hi) j (cannot j (name.toList ++ ".".toList))
  | vecKind {t : P.Ty} {j : Json F} : (∀ l, j ≠ .array l) → FailsN P decl (.vec t) j (cannot j "Vec".toList)
  | vec {t : P.Ty} {pre post : List (Json F)} {j : Json F} {e : Error} : (∀ x ∈ pre, ∃ v, ReadsN P decl t x v) → FailsN P decl t j e →
      FailsN P decl (.vec t) (.array (pre ++ j :: post)) e
  | some {t : P.Ty} {j : Json F} {e : Error} : j ≠ .null → FailsN P decl t j e → FailsN P decl (.option t) j e
  | pairsKind {i : P.ι} {t : P.Ty} {j : Json F} : (∀ m, j ≠ .object m) → FailsN P decl (.pairs i t) j (cannot j "Vec<(K, V)>".toList)
  | pairsKey {i : P.ι} {t : P.Ty} {m : Obj F} {pre post : List (Str × Json F)} {k : Str} {j : Json F} : membersOf m = pre ++ (k, j) :: post →
      (∀ p ∈ pre, (∃ k', (P.key i).fromStr p.1 = some k') ∧ ∃ v, ReadsN P decl t p.2 v) → (P.key i).fromStr k = none →
      FailsN P decl (.pairs i t) (.object m) (badKey k)
  | pairs {i : P.ι} {t : P.Ty} {m : Obj F} {pre post : List (Str × Json F)} {k : Str} {k' : (P.key i).K} {j : Json F} {e : Error} :
      membersOf m = pre ++ (k, j) :: post → (∀ p ∈ pre, (∃ k', (P.key i).fromStr p.1 = some k') ∧ ∃ v, ReadsN P decl t p.2 v) →
      (P.key i).fromStr k = some k' → FailsN P decl t j e → FailsN P decl (.pairs i t) (.object m) e
  | mapKind {i : P.ι} {t : P.Ty} {j : Json F} : (∀ m, j ≠ .object m) → FailsN P decl (.map i t) j (cannot j "HashMap".toList)
  | mapKey {i : P.ι} {t : P.Ty} {m : Obj F} {pre post : List (Str × Json F)} {k : Str} {j : Json F} : currentOf m = pre ++ (k, j) :: post →
      (∀ p ∈ pre, (∃ k', (P.key i).fromStr p.1 = some k') ∧ ∃ v, ReadsN P decl t p.2 v) → (P.key i).fromStr k = none →
      FailsN P decl (.map i t) (.object m) (badKey k)
  | map {i : P.ι} {t : P.Ty} {m : Obj F} {pre post : List (Str × Json F)} {k : Str} {k' : (P.key i).K} {j : Json F} {e : Error} :
      currentOf m = pre ++ (k, j) :: post → (∀ p ∈ pre, (∃ k', (P.key i).fromStr p.1 = some k') ∧ ∃ v, ReadsN P decl t p.2 v) →
      (P.key i).fromStr k = some k' → FailsN P decl t j e → FailsN P decl (.map i t) (.object m) e
  | structKind {n : P.N} {j : Json F} : (∀ m, j ≠ .object m) → FailsN P decl (.named n) j (cannot j ((decl n).name ++ ".".toList))
  | missing {n : P.N} {m : Obj F} {pre post : List Field} {f : Field} {l : List (Str × P.Val)} : (decl n).kept = pre ++ f :: post →
      ReadsFieldsN P decl n m pre l → mapGet f.key m = none → FailsN P decl (.named n) (.object m) ⟨.MissingKey, "missing key \"".toList ++ f.key ++ "\".".toList⟩
  | field {n : P.N} {m : Obj F} {pre post : List Field} {f : Field} {l : List (Str × P.Val)} {j : Json F} {dups : List (Json F)} {e : Error} :
      (decl n).kept = pre ++ f :: post → ReadsFieldsN P decl n m pre l → mapGet f.key m = some (j, dups) →
      FailsN P decl (P.fieldTy n f.name) j e → FailsN P decl (.named n) (.object m) e

end RJ.Spec
