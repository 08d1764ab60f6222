import Verif.Model.Token
import Verif.Model.Ops
/-
  Model of the derive macros (/repo/json_derive/parse/src, /repo/json_derive/src/lib.rs).

  Conventions.  `Err(_)` of `json_parse::Result` is `none`: the macros turn every such error into a compile-time panic
  (`.expect(..)`, /repo/json_derive/src/lib.rs:10, 62), so only success or failure is observable and messages are dropped.
  A `String` that is assembled from tokens and only used by lexing it again (names, types, generics) is represented by the tokens
  it lexes to; where `format!` puts two identifiers side by side without a space they are joined (`glue`).
  `TokenStream::to_string` is assumed to lex back to the same tokens (std).
-/
namespace RJ

/-! ### Literals and attributes: meta.rs -/

/-- `str::trim_start_matches` (std): remove the prefix `p` as often as it matches; at most `s.length` times. -/
def trimStartMatches (p : Str) : Nat → Str → Str
  | 0, s => s
  | n + 1, s => if p.isPrefixOf s then trimStartMatches p n (s.drop p.length) else s

/-- `s.trim_start_matches(p)` (std). -/
def trimStart (p s : Str) : Str := trimStartMatches p s.length s

/-- `s.trim_end_matches(p)` (std). -/
def trimEnd (p s : Str) : Str := (trimStartMatches p.reverse s.length s.reverse).reverse

/-- `enum Lit`, /repo/json_derive/parse/src/meta.rs:176-210, without the `raw` text (only used by `to_string`); bytes are kept as the characters of the
literal's text (`as_bytes` of them, :286). -/
inductive Lit
  | bytes (s : Str)
  | string (s : Str)
  | integer (n : Int)
  | float (f : F64)
  | boolean (b : Bool)

/-- `fix_bytes!`/`fix_string!`, /repo/json_derive/parse/src/meta.rs:278-309: the first matching prefix/suffix pair, with both trimmed. -/
def fixQuoted (raw : Str) : List (String × String) → Option Str
  | [] => none
  | (p, q) :: rest =>
    if p.toList.isPrefixOf raw && q.toList.isSuffixOf raw then some (trimEnd q.toList (trimStart p.toList raw)) else fixQuoted raw rest

/-- `fix_suffix!`, /repo/json_derive/parse/src/meta.rs:266-276: drop the first matching suffix. -/
def fixSuffix (raw : Str) : List String → Str
  | [] => raw
  | q :: rest => if q.toList.isSuffixOf raw then trimEnd q.toList raw else fixSuffix raw rest

/-- `str::parse::<i32>` (std): optional sign, decimal digits, in range. -/
def parseI32 (s : Str) : Option Int :=
  let (neg, d) := match s with
    | '-' :: r => (true, r)
    | '+' :: r => (false, r)
    | r => (false, r)
  if d.isEmpty || !d.all isDigit then none
  else
    let v : Int := if neg then -(decVal d 0 : Int) else decVal d 0
    if -2 ^ 31 ≤ v ∧ v ≤ 2 ^ 31 - 1 then some v else none

/-- The literal case of `Lit::parse`, /repo/json_derive/parse/src/meta.rs:331-361. -/
def litOfText (raw : Str) : Option Lit :=
  match fixQuoted raw [("b'", "'"), ("b\"", "\""), ("br\"", "\""), ("br#\"", "\"#"), ("br##\"", "\"##")] with
  | some s => some (.bytes s)
  | none =>
    match fixQuoted raw [("\"", "\""), ("r\"", "\""), ("r#\"", "\"#"), ("r##\"", "\"##")] with
    | some s => some (.string s)
    | none =>
      match parseI32 (fixSuffix raw ["u8", "u16", "u32", "u64", "u128", "usize", "i8", "i16", "i32", "i64", "i128", "isize"]) with
      | some n => some (.integer n)
      | none => (parseFl b64 (fixSuffix raw ["f32", "f64"])).map .float

/-- `Lit::parse` of one token, /repo/json_derive/parse/src/meta.rs:311-375 (it is only called with a single token, :520, :529, :543, :587, :621). -/
def Lit.parse : Tok → Option Lit
  | .ident s => if s = "true".toList then some (.boolean true) else if s = "false".toList then some (.boolean false) else none
  | .lit raw => litOfText raw
  | _ => none

/-- `Lit::string`, /repo/json_derive/parse/src/meta.rs:234-239. -/
def Lit.string? : Lit → Option Str
  | .string s => some s
  | _ => none

/-- `enum MetaItem`, /repo/json_derive/parse/src/meta.rs:441-456. -/
inductive MetaItem
  | ident (s : Str)
  | literal (l : Lit)
  | pair (key : Str) (lit : Lit) (eq : Char)
  | group (ident : Str) (inner : List MetaItem)

/-- `slice.split(punct_eq(','))`, then `filter(!is_empty)`, /repo/json_derive/parse/src/meta.rs:421-424: unlike `split_tokens_by`, blind to angle brackets. -/
def splitComma : List Tok → List Tok → List (List Tok)
  | inner, [] => [inner.reverse]
  | inner, t :: ts => if t.isPunct ',' then inner.reverse :: splitComma [] ts else splitComma (t :: inner) ts

/-- The arms for negative numbers, /repo/json_derive/parse/src/meta.rs:546-552, 618-623. -/
def negLit : Lit → Option Lit
  | .integer n => some (.integer (-n))
  | .float f => some (.float (match f with | .fin s b h => .fin (!s) b h | .inf s => .inf (!s) | .nan => .nan))
  | _ => none

/-- `mapM` for `Option` (`collect::<Result<Vec<_>>>()`, std): all results, or failure. -/
def collectO {α : Type} : List (Option α) → Option (List α)
  | [] => some []
  | none :: _ => none
  | some a :: t => (collectO t).map (a :: ·)

/-- `MetaItem::parse`, /repo/json_derive/parse/src/meta.rs:503-638, together with `NestedMeta::parse`, :407-435, which it calls on the tokens of a
nested group.  Fuelled (the nested tokens are strictly fewer). -/
def MetaItem.parseF : Nat → List Tok → Option MetaItem
  | 0, _ => none
  | fuel + 1, ts =>
    match ts with
    | [] => none
    | [.ident s] => some (match Lit.parse (.ident s) with | some b => .literal b | none => .ident s)
    | [.lit s] => (Lit.parse (.lit s)).map .literal
    | [_] => none
    | [a, b] =>
      if a.isPunct '-' then ((Lit.parse b).bind negLit).map .literal
      else
        match a, b with
        | .ident name, .group _ inner =>
          if inner.isEmpty then none
          else (collectO (((splitComma [] inner).filter (fun x => !x.isEmpty)).map (MetaItem.parseF fuel))).map (.group name)
        | _, _ => none
    | [k, e, v] =>
      if e.isPunct '=' || e.isPunct ':' then
        match k with
        | .ident key => (Lit.parse v).map (fun l => .pair key l (if e.isPunct '=' then '=' else ':'))
        | _ => none
      else none
    | [k, e, m, v] =>
      if e.isPunct '=' || e.isPunct ':' then
        match k with
        | .ident key =>
          if m.isPunct '-' then ((Lit.parse v).bind negLit).map (fun l => .pair key l (if e.isPunct '=' then '=' else ':')) else none
        | _ => none
      else none
    | _ => none

mutual
/-- Number of tokens, groups included: bounds the nesting depth. -/
def Tok.size : Tok → Nat
  | .group _ ts => toksSize ts + 1
  | _ => 1
/-- As `Tok.size`, for a stream. -/
def toksSize : List Tok → Nat
  | [] => 0
  | t :: ts => t.size + toksSize ts
end

/-- `MetaItem::parse`, /repo/json_derive/parse/src/meta.rs:503-638. -/
def MetaItem.parse (ts : List Tok) : Option MetaItem := MetaItem.parseF (toksSize ts + 1) ts

/-- The loop of `Meta::parse`, /repo/json_derive/parse/src/meta.rs:137-158. -/
def metaLoop : List Tok → Option (List MetaItem)
  | t :: g :: rest =>
    if t.isPunct '#' then
      match g with
      | .group _ inner =>
        match MetaItem.parse inner with
        | some it => (metaLoop rest).map (it :: ·)
        | none => none
      | _ => none
    else some []
  | [t] => if t.isPunct '#' then none else some []
  | [] => some []

/-- A token that `take_while` keeps, /repo/json_derive/parse/src/meta.rs:124-130. -/
def isMetaTok (t : Tok) : Bool := t.isPunct '#' || t.isGroup .bracket

/-- `Meta::parse` (a `Meta` is the list of its items), /repo/json_derive/parse/src/meta.rs:105-164. -/
def Meta.parse (ts : List Tok) : Option (List MetaItem) :=
  if ts.isEmpty then none else metaLoop ((ts.dropWhile (fun t => !isMetaTok t)).takeWhile isMetaTok)

/-- `Meta::idents`, /repo/json_derive/parse/src/meta.rs:53-63. -/
def Meta.idents (m : List MetaItem) : List Str :=
  m.filterMap (fun | .ident s => some s | _ => none)

/-- `meta.get(key)` with a `&str` index, /repo/json_derive/parse/src/meta.rs:48-50, 682-701: the first pair with that key. -/
def Meta.get (key : Str) : List MetaItem → Option Lit
  | [] => none
  | .pair k l _ :: rest => if k = key then some l else Meta.get key rest
  | _ :: rest => Meta.get key rest

/-! ### Names and types: name.rs -/

mutual
/-- `struct Name`, /repo/json_derive/parse/src/name.rs:18-24. -/
inductive RName
  | mk (prefixes : List (List Tok)) (ident : List Tok) (generics : List RType)
/-- `struct Type`, /repo/json_derive/parse/src/name.rs:204-228; `lifetime` is the text after the quote (it is always a plain lifetime `Name`, :367-380). -/
inductive RType
  | mk (ident : Option (List Tok)) (names : List RName) (isRef : Bool) (lifetime : Option Str) (isMut isDyn isImp : Bool)
end

/-- One of `Fn`, `FnMut`, `FnOnce`, `fn`, /repo/json_derive/parse/src/name.rs:130. -/
def isFnIdent (s : Str) : Bool := s = "Fn".toList || s = "FnMut".toList || s = "FnOnce".toList || s = "fn".toList

/-- The last piece of `Name::parse`, /repo/json_derive/parse/src/name.rs:118-199, given `Type::parse` for the generic arguments. -/
def nameOf (parseType : List Tok → Option RType) (prefixes : List (List Tok)) (stream : List Tok) : Option RName :=
  match stream with
  | .ident f :: .group .paren g :: rest =>
    if isFnIdent f then some (.mk prefixes (.ident f :: .group .paren g :: rest) []) else nameGen (.ident f) (.group .paren g :: rest)
  | [.ident s] => some (.mk prefixes [.ident s] [])
  | [.group .paren g] => some (.mk prefixes [.group .paren g] [])
  | [.group .bracket g] => some (.mk prefixes [.group .bracket g] [])
  | [.punct '\'', .ident s] => some (.mk prefixes [.punct '\'', .ident s] [])
  | t :: rest => nameGen t rest
  | [] => none
where
  /-- The case of more than three tokens, /repo/json_derive/parse/src/name.rs:178-197: `ident < ... >`. -/
  nameGen (t : Tok) (rest : List Tok) : Option RName :=
    match t, rest with
    | .ident s, .punct '<' :: a :: more =>
      if (a :: more).length ≥ 2 ∧ ((a :: more).getLast?.any (Tok.isPunct '>')) then
        (collectO ((splitTokensBy (a :: more).dropLast ",").map parseType)).map (.mk prefixes [.ident s])
      else none
    | _, _ => none

/-- `Name::parse`, /repo/json_derive/parse/src/name.rs:100-201, given `Type::parse`. -/
def nameParse (parseType : List Tok → Option RType) (ts : List Tok) : Option RName :=
  if ts.isEmpty then none
  else
    let splits := splitTokensBy ts "::"
    nameOf parseType splits.dropLast (splits.getLast?.getD [])

/-- Take a leading token satisfying `p` (`peek.peek()` then `peek.next()`), e.g. /repo/json_derive/parse/src/name.rs:356-362. -/
def takeTok (p : Tok → Bool) : List Tok → Bool × List Tok
  | t :: ts => if p t then (true, ts) else (false, t :: ts)
  | [] => (false, [])

/-- The lifetime after `&`, /repo/json_derive/parse/src/name.rs:365-384: `none` if a quote is not followed by an identifier. -/
def takeLifetime : List Tok → Option (Option Str × List Tok)
  | t :: ts =>
    if t.isPunct '\'' then
      match ts with
      | .ident s :: ts' => some (some s, ts')
      | _ => none
    else some (none, t :: ts)
  | [] => some (none, [])

/-- `Type::parse` from the tokens after the `=`, /repo/json_derive/parse/src/name.rs:349-430, given `Type::parse` for nested types. -/
def typeOf (parseType : List Tok → Option RType) (ident : Option (List Tok)) (ts : List Tok) : Option RType :=
  let (isRef, ts) := takeTok (Tok.isPunct '&') ts
  match (if isRef then takeLifetime ts else some (none, ts)) with
  | none => none
  | some (lifetime, ts) =>
    let (isMut, ts) := if isRef then takeTok (Tok.isIdent "mut") ts else (false, ts)
    let (isDyn, ts) := takeTok (Tok.isIdent "dyn") ts
    let (isImp, ts) := takeTok (Tok.isIdent "impl") ts
    if ts.isEmpty || (isRef && (isDyn || isImp)) || (isDyn && isImp) then none
    else (collectO ((splitTokensBy ts "+").map (nameParse parseType))).map (fun names => .mk ident names isRef lifetime isMut isDyn isImp)

/-- `Type::parse`, /repo/json_derive/parse/src/name.rs:328-433.  Fuelled (generic arguments are strictly shorter). -/
def RType.parseF : Nat → List Tok → Option RType
  | 0, _ => none
  | fuel + 1, ts =>
    if ts.isEmpty then none
    else
      match splitTokensBy ts "=" with
      | [t] => typeOf (RType.parseF fuel) none t
      | [i, t] => typeOf (RType.parseF fuel) (some i) t
      | _ => none

/-- `Type::parse`, /repo/json_derive/parse/src/name.rs:328-433. -/
def RType.parse (ts : List Tok) : Option RType := RType.parseF (ts.length + 1) ts

/-- `Name::parse`, /repo/json_derive/parse/src/name.rs:100-201. -/
def RName.parse (ts : List Tok) : Option RName := nameParse RType.parse ts

/-- `join(sep)` of token texts. -/
def joinToks (sep : List Tok) : List (List Tok) → List Tok
  | [] => []
  | [x] => x
  | x :: y :: rest => x ++ sep ++ joinToks sep (y :: rest)

/-- The text of an identifier directly followed by the text of `ts`: two identifiers fuse into one. -/
def glue (a : Str) : List Tok → List Tok
  | .ident s :: ts => .ident (a ++ s) :: ts
  | ts => .ident a :: ts

mutual
/-- `Name::to_string`, /repo/json_derive/parse/src/name.rs:76-98, as the tokens it lexes to. -/
def RName.toks : RName → List Tok
  | .mk prefixes ident generics =>
    let base := if generics.isEmpty then ident else ident ++ [.punct '<'] ++ joinToks [.punct ','] (typesToks generics) ++ [.punct '>']
    if prefixes.isEmpty then base else joinToks [.punct ':', .punct ':'] prefixes ++ [.punct ':', .punct ':'] ++ base
/-- `Type::to_string`, /repo/json_derive/parse/src/name.rs:289-326, as the tokens it lexes to. -/
def RType.toks : RType → List Tok
  | .mk ident names isRef lifetime isMut isDyn isImp =>
    let body := (if isDyn then [.ident "dyn".toList] else []) ++ (if isImp then [.ident "impl".toList] else [])
      ++ (match ident with | some i => i ++ [.punct '='] | none => []) ++ joinToks [.punct '+'] (namesToks names)
    let body := if isRef && isMut then .ident "mut".toList :: body else body
    if isRef then
      match lifetime with
      | some a => .punct '&' :: .punct '\'' :: (if isMut then .ident a :: body else glue a body)
      | none => .punct '&' :: body
    else body
/-- Each type of a list. -/
def typesToks : List RType → List (List Tok)
  | [] => []
  | t :: ts => t.toks :: typesToks ts
/-- Each name of a list. -/
def namesToks : List RName → List (List Tok)
  | [] => []
  | n :: ns => n.toks :: namesToks ns
end

/-- `Type::used_ty`, /repo/json_derive/parse/src/name.rs:272-286, as the tokens it lexes to. -/
def RType.usedTy : RType → List Tok
  | .mk _ names isRef _ _ isDyn _ =>
    (if isRef then [.punct '&'] else []) ++ (if isDyn then [.ident "dyn".toList] else []) ++ joinToks [.punct '+'] (namesToks names)

/-! ### Generics and where clauses: generic.rs -/

/-- `struct GenericItem`, /repo/json_derive/parse/src/generic.rs:160-167. -/
structure GenericItem where
  ident : List Tok
  traits : List RName
  lifetimes : List RName
  sized : Bool
  default : Option RType

/-- `struct Generics`, /repo/json_derive/parse/src/generic.rs:14-19. -/
structure Generics where
  items : List GenericItem
  n : Nat

/-- `Name::is_lifetime`, /repo/json_derive/parse/src/name.rs:71-73. -/
def RName.isLifetime : RName → Bool
  | .mk _ (.punct '\'' :: _) _ => true
  | _ => false

/-- The name of a generic parameter, /repo/json_derive/parse/src/generic.rs:283-325 (note :308: a const parameter gets a quote). -/
def genericIdent : List Tok → Option (List Tok)
  | [.ident s] => some [.ident s]
  | [t, .ident s] => if t.isPunct '\'' || t.isIdent "const" then some [.punct '\'', .ident s] else none
  | _ => none

/-- One bound, /repo/json_derive/parse/src/generic.rs:337-357. -/
def addBound (it : GenericItem) (b : List Tok) : Option GenericItem :=
  if b.head?.any (Tok.isPunct '?') && b.getLast?.any (Tok.isIdent "Sized") then some { it with sized := false }
  else if b.head?.any (Tok.isIdent "Sized") && b.getLast?.any (Tok.isIdent "Sized") then some { it with sized := true }
  else
    match RName.parse b with
    | none => none
    | some n => some (if n.isLifetime then { it with lifetimes := it.lifetimes ++ [n] } else { it with traits := it.traits ++ [n] })

/-- The loop over the bounds, /repo/json_derive/parse/src/generic.rs:337-357. -/
def addBounds : GenericItem → List (List Tok) → Option GenericItem
  | it, [] => some it
  | it, b :: bs => (addBound it b).bind (fun it => addBounds it bs)

/-- Split at the first `:`, /repo/json_derive/parse/src/generic.rs:248-268, /repo/json_derive/parse/src/field.rs:289-308. -/
def splitColon : List Tok → List Tok → List Tok × Option (List Tok)
  | acc, [] => (acc.reverse, none)
  | acc, t :: ts => if t.isPunct ':' then (acc.reverse, some ts) else splitColon (t :: acc) ts

/-- `GenericItem::parse` without the default, /repo/json_derive/parse/src/generic.rs:246-361. -/
def genericOf (default : Option RType) (ts : List Tok) : Option GenericItem :=
  let (name, bounds) := splitColon [] ts
  match genericIdent name with
  | none => none
  | some ident =>
    let it : GenericItem := ⟨ident, [], [], true, default⟩
    match bounds with
    | none => some it
    | some b => addBounds it (splitTokensBy b "+")

/-- `GenericItem::parse`, /repo/json_derive/parse/src/generic.rs:211-363. -/
def GenericItem.parse (ts : List Tok) : Option GenericItem :=
  if ts.isEmpty then none
  else
    match splitTokensBy ts "=" with
    | [t] => genericOf none t
    | [t, d] => (RType.parse d).bind (fun d => genericOf (some d) t)
    | _ => none

/-- The loop of `Generics::parse`, /repo/json_derive/parse/src/generic.rs:97-135: the tokens up to the matching `>`; `none` if it is missing. -/
def genericsLoop : Tok → Int → List Tok → List Tok → Option (List Tok)
  | _, i, acc, [] => if i > 0 then none else some acc.reverse
  | prev, i, acc, t :: ts =>
    let i := if prev.isPunct '-' && t.isPunct '>' then i else if t.isPunct '<' then i + 1 else if t.isPunct '>' then i - 1 else i
    if i = 0 then some acc.reverse else genericsLoop t i (t :: acc) ts

/-- The items between commas, /repo/json_derive/parse/src/generic.rs:142-150, 441-449. -/
def genericItems (ts : List Tok) : Option (List GenericItem) :=
  collectO (((splitTokensBy ts ",").filter (fun x => !x.isEmpty)).map GenericItem.parse)

/-- `Generics::parse`, /repo/json_derive/parse/src/generic.rs:58-154, called with a stream whose first token is `<`. -/
def Generics.parse : List Tok → Option Generics
  | t :: ts =>
    match genericsLoop t 1 [] ts with
    | none => none
    | some stream => (genericItems stream).map (fun items => ⟨items, stream.length⟩)
  | [] => none

/-- `GenericItem::to_string`, /repo/json_derive/parse/src/generic.rs:181-209, as the tokens it lexes to. -/
def GenericItem.toks (it : GenericItem) : List Tok :=
  let buf := (it.traits ++ it.lifetimes).map RName.toks ++ (if it.sized then [] else [[.punct '?', .ident "Sized".toList]])
  it.ident ++ (if buf.isEmpty then [] else .punct ':' :: joinToks [.punct '+'] buf)
    ++ (match it.default with | some d => .punct '=' :: d.toks | none => [])

/-- `Generics::to_string`, /repo/json_derive/parse/src/generic.rs:44-56, as the tokens it lexes to. -/
def Generics.toks (g : Generics) : List Tok :=
  if g.items.isEmpty then [] else .punct '<' :: joinToks [.punct ','] (g.items.map GenericItem.toks) ++ [.punct '>']

/-- `Generics::only_idents`, /repo/json_derive/parse/src/generic.rs:31-41, as the tokens it lexes to. -/
def Generics.onlyIdents (g : Generics) : List Tok :=
  if g.items.isEmpty then [] else .punct '<' :: joinToks [.punct ','] (g.items.map GenericItem.ident) ++ [.punct '>']

/-- `WhereClause::parse`, /repo/json_derive/parse/src/generic.rs:403-453, called with a stream whose first token is `where`. -/
def WhereClause.parse : List Tok → Option Generics
  | _ :: ts =>
    let stream := ts.takeWhile (fun t => !(t.isPunct ';' || t.isGroup .brace))
    (genericItems stream).map (fun items => ⟨items, stream.length⟩)
  | [] => none

/-- `WhereClause::to_string`, /repo/json_derive/parse/src/generic.rs:389-401, as the tokens it lexes to. -/
def WhereClause.toks (g : Generics) : List Tok :=
  if g.items.isEmpty then [] else .ident "where".toList :: joinToks [.punct ','] (g.items.map GenericItem.toks)

/-! ### Fields and items: field.rs, lib.rs -/

/-- `struct StructFieldItem`, /repo/json_derive/parse/src/field.rs:223-229 (the path of `pub(..)` as tokens). -/
structure FieldItem where
  attrs : Option (List MetaItem)
  vis : Option (Option (List Tok))
  ident : Str
  ty : RType

/-- Leading attributes: `Meta::parse`, then `peek.nth(meta.__token_num() - 1)`, e.g. /repo/json_derive/parse/src/field.rs:268-276. -/
def takeMeta (ts : List Tok) : Option (Option (List MetaItem) × List Tok) :=
  if ts.head?.any (Tok.isPunct '#') then (Meta.parse ts).map (fun m => (some m, ts.drop (m.length * 2))) else some (none, ts)

/-- Visibility, e.g. /repo/json_derive/parse/src/field.rs:279-293. -/
def takeVis : List Tok → Option (Option (List Tok)) × List Tok
  | t :: ts =>
    if t.isIdent "pub" then
      match ts with
      | .group .paren p :: ts' => (some (some p), ts')
      | _ => (some none, ts)
    else (none, t :: ts)
  | [] => (none, [])

/-- `StructFieldItem::parse`, /repo/json_derive/parse/src/field.rs:254-340. -/
def FieldItem.parse (ts : List Tok) : Option FieldItem :=
  if ts.isEmpty then none
  else
    match takeMeta ts with
    | none => none
    | some (m, ts) =>
      let (vis, ts) := takeVis ts
      match splitColon [] ts with
      | (_, none) => none
      | (name, some ty) =>
        match RType.parse ty with
        | none => none
        | some ty =>
          match name with
          | .ident s :: _ => some ⟨m, vis, s, ty⟩
          | _ => none

/-- `enum Fields`, /repo/json_derive/parse/src/field.rs:10-22.  The contents of tuple fields are not kept: the derive macros refuse them. -/
inductive Fields
  | tuple | struct (l : List FieldItem) | no

/-- `struct StructItem`, /repo/json_derive/parse/src/lib.rs:145-168. -/
structure StructItem where
  attrs : Option (List MetaItem)
  vis : Option (Option (List Tok))
  ident : Str
  generics : Option Generics
  where_ : Option Generics
  fields : Fields

/-- `Fields::parse` of a brace group, /repo/json_derive/parse/src/field.rs:124-129: split at the commas, parse each field. -/
def structFields (body : List Tok) : Option Fields :=
  (collectO ((splitTokensBy body ",").map FieldItem.parse)).map .struct

/-- `Fields::parse`, /repo/json_derive/parse/src/field.rs:73-137 (for a tuple body the fields are not parsed: whatever comes out, the
macros fail). -/
def Fields.parse (ts : List Tok) : Option Fields :=
  match ts.dropWhile (fun t => !(t.isGroup .paren || t.isGroup .brace || t.isPunct ';')) with
  | .punct _ :: _ => some .no
  | .group .paren _ :: _ => some .tuple
  | .group _ body :: _ => structFields body
  | _ => none

/-- Where clause and fields of a struct, /repo/json_derive/parse/src/lib.rs:293-325, after the generics `g`. -/
def structTail (g : Option Generics) (ts : List Tok) : Option (Option Generics × Option Generics × Fields) :=
  if ts.head?.any (Tok.isIdent "where") then
    match WhereClause.parse ts with
    | none => none
    | some w => (Fields.parse (ts.drop (w.n + 1))).map (fun f => (g, some w, f))
  else if ts.head?.any (Tok.isPunct ';') then some (g, none, .no)
  else if ts.head?.any (Tok.isGroup .brace) then (Fields.parse ts).map (fun f => (g, none, f))
  else if ts.head?.any (Tok.isGroup .paren) then some (g, none, .tuple)
  else none

/-- Generics, where clause and fields of a struct, /repo/json_derive/parse/src/lib.rs:281-325. -/
def structBody (ts : List Tok) : Option (Option Generics × Option Generics × Fields) :=
  if ts.head?.any (Tok.isPunct '<') then
    match Generics.parse ts with
    | none => none
    | some g => structTail (some g) (ts.drop (g.n + 2))
  else structTail none ts

/-- `StructItem::parse`, /repo/json_derive/parse/src/lib.rs:219-330. -/
def StructItem.parse (ts : List Tok) : Option StructItem :=
  match takeMeta ts with
  | none => none
  | some (m, ts) =>
    let (vis, ts) := takeVis ts
    match ts with
    | kw :: .ident name :: rest =>
      if kw.isIdent "struct" then (structBody rest).map (fun b => ⟨m, vis, name, b.1, b.2.1, b.2.2⟩) else none
    | _ => none

/-- The tokens `Item::parse` skips to find the keyword, /repo/json_derive/parse/src/lib.rs:110-121. -/
def skipToKeyword (t : Tok) : Bool :=
  match t with
  | .punct c => c = '#'
  | .group d _ => d = .bracket || d = .paren
  | .ident s => s = "async".toList || s = "const".toList || s = "unsafe".toList || s = "extern".toList || s = "pub".toList
  | .lit _ => true

/-- `Item::parse` as the macros use it, /repo/json_derive/parse/src/lib.rs:99-139 with /repo/json_derive/src/lib.rs:10-12, 55-56: `none` also for the
items other than structs (`enum`, `fn`, ...), on which the macros panic. -/
def Item.parse (ts : List Tok) : Option StructItem :=
  if (ts.dropWhile skipToKeyword).head?.any (Tok.isIdent "struct") then StructItem.parse ts else none

/-! ### The derive macros: json_derive/src/lib.rs -/

/-- `!meta.idents().into_iter().any(|x| x == "ignore")`, /repo/json_derive/src/lib.rs:16-21, 67-72. -/
def FieldItem.kept (x : FieldItem) : Bool :=
  match x.attrs with
  | some m => !(Meta.idents m).any (fun s => s = "ignore".toList)
  | none => true

/-- The member name, /repo/json_derive/src/lib.rs:23-31, 75-83: the text put between the quotes of the generated literal; `none`: the
`key` attribute is not a string and the macro panics. -/
def FieldItem.key (x : FieldItem) : Option Str :=
  match x.attrs with
  | some m =>
    match Meta.get "key".toList m with
    | some l => l.string?
    | none => some x.ident
  | none => some x.ident

/-- The code generated by `JsonEncode`, /repo/json_derive/src/lib.rs:35-53: `impl<G> json::ToJson for ident<A> where W`, and one
`js.add_option("key".to_string(), json::ToJson::to_json(&self.field), true)` per entry. -/
structure EncodeImpl where
  generics : List Tok
  ident : Str
  args : List Tok
  where_ : List Tok
  adds : List (Str × Str)

/-- The code generated by `JsonDecode`, /repo/json_derive/src/lib.rs:86-117: per entry of `gets` a member initialiser
`field: if let Some((v, _)) = obj.get("key") { <ty as json::FromJson>::from_json(v)? } else { return Err(MissingKey) }`, and
`field: Default::default()` per entry of `defaults`. -/
structure DecodeImpl where
  generics : List Tok
  ident : Str
  args : List Tok
  where_ : List Tok
  gets : List (Str × Str × List Tok)
  defaults : List Str

/-- `#(#(&s.generics))?` and the like: nothing for `None`. -/
def optToks (f : Generics → List Tok) : Option Generics → List Tok
  | some g => f g
  | none => []

/-- `json_encode`, /repo/json_derive/src/lib.rs:8-58; `none`: the macro panics. -/
def deriveEncode (input : List Tok) : Option EncodeImpl :=
  match Item.parse input with
  | none => none
  | some s =>
    match s.fields with
    | .struct v =>
      (collectO ((v.filter FieldItem.kept).map (fun x => x.key.map (fun k => (k, x.ident))))).map
        (fun adds => ⟨optToks Generics.toks s.generics, s.ident, optToks Generics.onlyIdents s.generics, optToks WhereClause.toks s.where_, adds⟩)
    | _ => none

/-- `json_decode`, /repo/json_derive/src/lib.rs:60-124; `none`: the macro panics. -/
def deriveDecode (input : List Tok) : Option DecodeImpl :=
  match Item.parse input with
  | none => none
  | some s =>
    match s.fields with
    | .struct v =>
      (collectO ((v.filter FieldItem.kept).map (fun x => x.key.map (fun k => (k, x.ident, x.ty.usedTy))))).map
        (fun gets => ⟨optToks Generics.toks s.generics, s.ident, optToks Generics.onlyIdents s.generics, optToks WhereClause.toks s.where_, gets,
          (v.filter (fun x => !x.kept)).map FieldItem.ident⟩)
    | _ => none

end RJ
