import Verif.Model.Derive
import Verif.Model.Convert
/-
  What the code generated by the derive macros does (/repo/json_derive/src/lib.rs:35-53, 86-117), run on the library model.
  Two external facts are modelled here: how rustc reads a string literal, and that a struct literal evaluates its initialisers in order.
-/
namespace RJ
variable {F : Type} [FloatOps F]

/-- Value of a hexadecimal digit (Rust reference, tokens). -/
def hexVal (c : Char) : Option Nat :=
  if '0'.toNat ≤ c.toNat ∧ c.toNat ≤ '9'.toNat then some (c.toNat - 48)
  else if 'a'.toNat ≤ c.toNat ∧ c.toNat ≤ 'f'.toNat then some (c.toNat - 87)
  else if 'A'.toNat ≤ c.toNat ∧ c.toNat ≤ 'F'.toNat then some (c.toNat - 55)
  else none

/-- The hexadecimal digits of `\u{...}` up to `}`: at most six digits, `_` allowed after the first; returns the value, the number of digits and the rest. -/
def uniDigits : Nat → Nat → Str → Option (Nat × Str)
  | v, n, c :: r =>
    if c = '}' then (if n = 0 ∨ n > 6 then none else some (v, r))
    else if c = '_' then (if n = 0 then none else uniDigits v n r)
    else
      match hexVal c with
      | some d => uniDigits (v * 16 + d) (n + 1) r
      | none => none
  | _, _, [] => none

/-- The character of a simple escape (Rust reference, quote and ASCII escapes). -/
def rustSimple (c : Char) : Option Char :=
  if c = 'n' then some '\n' else if c = 'r' then some '\r' else if c = 't' then some '\t' else if c = '0' then some (Char.ofNat 0)
  else if c = '\\' ∨ c = '\'' ∨ c = '"' then some c else none

/-- How rustc reads a string literal from after the opening quote: its value and what follows the closing quote; `none`: not a literal.
(External: the Rust reference, section string literals; newline continuation included, a bare carriage return is an error.) -/
def lexStr : Nat → Str → Option (Str × Str)
  | 0, _ => none
  | _ + 1, [] => none
  | fuel + 1, c :: r =>
    if c = '"' then some ([], r)
    else if c = '\r' then none
    else if c = '\\' then
      match r with
      | [] => none
      | e :: r =>
        match rustSimple e with
        | some x => (lexStr fuel r).map (fun p => (x :: p.1, p.2))
        | none =>
          if e = 'x' then
            match r with
            | a :: b :: r =>
              match hexVal a, hexVal b with
              | some h, some l => if h < 8 then (lexStr fuel r).map (fun p => (Char.ofNat (h * 16 + l) :: p.1, p.2)) else none
              | _, _ => none
            | _ => none
          else if e = 'u' then
            match r with
            | o :: r =>
              if o = '{' then
                match uniDigits 0 0 r with
                | some (v, r) => if v.isValidChar then (lexStr fuel r).map (fun p => (Char.ofNat v :: p.1, p.2)) else none
                | none => none
              else none
            | [] => none
          else if e = '\n' then lexStr fuel (r.dropWhile (fun w => w = ' ' || w = '\t' || w = '\n' || w = '\r'))
          else none
    else (lexStr fuel r).map (fun p => (c :: p.1, p.2))

/-- The name in `"k".to_string()` (the text `format!("\"{}\".to_string()", k)` of /repo/json_derive/src/lib.rs:32, lexed by rustc); `none`: not
a string literal followed by `.to_string()`. -/
def encodeKey (k : Str) : Option Str :=
  let tail := ".to_string()".toList
  match lexStr (k.length + 1 + tail.length + 1) (k ++ ['"'] ++ tail) with
  | some (v, r) => if r = tail then some v else none
  | none => none

/-- The name in `"k"` (`format!("\"{}\"", k)`, /repo/json_derive/src/lib.rs:84, lexed by rustc). -/
def decodeKey (k : Str) : Option Str :=
  match lexStr (k.length + 2) (k ++ ['"']) with
  | some (v, []) => some v
  | _ => none

/-- A struct type, seen from the generated code: for each field (by name) its type `V`, the `to_json`, `from_json` and `Default` of that type. -/
structure StructTy (F : Type) where
  V : Str → Type
  enc : (i : Str) → V i → Json F
  dec : (i : Str) → Json F → Res (V i)
  dflt : (i : Str) → V i

/-- A struct value: the value of each field. -/
abbrev StructTy.Val (S : StructTy F) := (i : Str) → S.V i

/-- Evaluated initialisers `field: value` of a struct literal, in order. -/
abbrev StructTy.Inits (S : StructTy F) := List ((i : Str) × S.V i)

/-- The `add_option` calls of the generated `to_json`, /repo/json_derive/src/lib.rs:43-48: `(member name, field)`. -/
def runAdds (S : StructTy F) (self : S.Val) : Json F → List (Str × Str) → Out (Json F)
  | js, [] => .ok js
  | js, (k, i) :: rest =>
    match js.addOption k (S.enc i (self i)) true with
    | (js', .ok _) => runAdds S self js' rest
    | (_, .error _) => .panic

/-- Resolve the key literals of the generated code; `none`: it does not compile. -/
def resolveKeys (key : Str → Option Str) (l : List (Str × Str)) : Option (List (Str × Str)) :=
  collectO (l.map (fun p => (key p.1).map (fun k => (k, p.2))))

/-- The generated `to_json`, /repo/json_derive/src/lib.rs:40-51; `none`: the generated code does not compile. -/
def EncodeImpl.toJson (e : EncodeImpl) (S : StructTy F) (self : S.Val) : Option (Out (Json F)) :=
  (resolveKeys encodeKey e.adds).map (fun l => runAdds S self (.object []) l)

/-- The member initialisers of the generated `from_json`, /repo/json_derive/src/lib.rs:97-106. -/
def runGets (S : StructTy F) (obj : Obj F) : List (Str × Str) → Res S.Inits
  | [] => .ok []
  | (k, i) :: rest =>
    match mapGet k obj with
    | some (v, _) =>
      match S.dec i v with
      | .ok x =>
        match runGets S obj rest with
        | .ok l => .ok (⟨i, x⟩ :: l)
        | .error e => .error e
      | .error e => .error e
    | none => missingKey k

/-- The generated `from_json` after the keys are resolved, /repo/json_derive/src/lib.rs:91-117. -/
def fromJsonBody (S : StructTy F) (name : Str) (gets : List (Str × Str)) (defaults : List Str) : Json F → Res S.Inits
  | .object obj =>
    match runGets S obj gets with
    | .ok l => .ok (l ++ defaults.map (fun i => ⟨i, S.dflt i⟩))
    | .error e => .error e
  | other => failS .ConvertError ("cannot convert ".toList ++ other.kindName ++ " to ".toList ++ name ++ ".".toList)

/-- The generated `from_json`, /repo/json_derive/src/lib.rs:91-117; `none`: the generated code does not compile. -/
def DecodeImpl.fromJson (d : DecodeImpl) (S : StructTy F) : Option (Json F → Res S.Inits) :=
  (resolveKeys decodeKey (d.gets.map (fun g => (g.1, g.2.1)))).map (fun l => fromJsonBody S d.ident l d.defaults)

/-- A derived `to_json` (`none`: the macro panics or its output does not compile), /repo/json_derive/src/lib.rs:8-58. -/
def encodeDerived (ts : List Tok) (S : StructTy F) (self : S.Val) : Option (Out (Json F)) := (deriveEncode ts).bind (fun e => e.toJson S self)

/-- A derived `from_json` (`none`: the macro panics or its output does not compile), /repo/json_derive/src/lib.rs:60-124. -/
def decodeDerived (ts : List Tok) (S : StructTy F) (j : Json F) : Option (Res S.Inits) :=
  (deriveDecode ts).bind (fun d => (d.fromJson S).map (fun f => f j))

end RJ
