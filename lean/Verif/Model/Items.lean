import Verif.Model.Derive
/-
  Model of the rest of the item parser `json_parse` (/repo/json_derive/parse/src): literals with their source text, attributes and their accessors, tuple
  fields, enum values, function parameters, structs, enums and functions, and `to_string` of all of them.

  Conventions as in Model/Derive: `Err(_)` is `none` (messages are dropped), a `String` built from tokens is the tokens it lexes to.  Where the code inspects the
  text of a token stream itself, `TokenStream::to_string` (std) is the parameter `text`.
-/
namespace RJ

/-! ### Attributes: meta.rs -/

/-- `enum Lit`, /repo/json_derive/parse/src/meta.rs:176-210: the value and the field `raw`. -/
structure RLit where
  lit : Lit
  raw : Str

/-- The text of a one-token stream, `ident.to_string()`/`lit.to_string()`, /repo/json_derive/parse/src/meta.rs:325, 334. -/
def Tok.word : Tok → Str
  | .ident s => s
  | .lit s => s
  | _ => []

/-- `Lit::parse` of one token, /repo/json_derive/parse/src/meta.rs:311-375. -/
def RLit.parse (t : Tok) : Option RLit := (Lit.parse t).map (fun l => ⟨l, t.word⟩)

/-- `Lit::to_string`, /repo/json_derive/parse/src/meta.rs:212-222, as the token it lexes to. -/
def RLit.tok (l : RLit) : Tok :=
  match l.lit with
  | .boolean _ => .ident l.raw
  | _ => .lit l.raw

/-- The arms for negative numbers, /repo/json_derive/parse/src/meta.rs:546-552, 618-623: the value changes its sign, `raw` does not. -/
def RLit.neg (l : RLit) : Option RLit := (negLit l.lit).map (fun v => ⟨v, l.raw⟩)

/-- `enum MetaItem`, /repo/json_derive/parse/src/meta.rs:441-456 (a `Meta`, a `NestedMeta` is the list of its items). -/
inductive RMeta
  | ident (s : Str)
  | literal (l : RLit)
  | pair (key : Str) (lit : RLit) (eq : Char)
  | group (ident : Str) (inner : List RMeta)

/-- `MetaItem::parse`, /repo/json_derive/parse/src/meta.rs:503-638, with `NestedMeta::parse`, :407-435.  Fuelled as `MetaItem.parseF`. -/
def RMeta.parseF : Nat → List Tok → Option RMeta
  | 0, _ => none
  | fuel + 1, ts =>
    match ts with
    | [] => none
    | [.ident s] => some (match RLit.parse (.ident s) with | some b => .literal b | none => .ident s)
    | [.lit s] => (RLit.parse (.lit s)).map .literal
    | [_] => none
    | [a, b] =>
      if a.isPunct '-' then ((RLit.parse b).bind RLit.neg).map .literal
      else
        match a, b with
        | .ident name, .group _ inner =>
          if inner.isEmpty then none
          else (collectO (((splitComma [] inner).filter (fun x => !x.isEmpty)).map (RMeta.parseF fuel))).map (.group name)
        | _, _ => none
    | [k, e, v] =>
      if e.isPunct '=' || e.isPunct ':' then
        match k with
        | .ident key => (RLit.parse v).map (fun l => .pair key l (if e.isPunct '=' then '=' else ':'))
        | _ => none
      else none
    | [k, e, m, v] =>
      if e.isPunct '=' || e.isPunct ':' then
        match k with
        | .ident key =>
          if m.isPunct '-' then ((RLit.parse v).bind RLit.neg).map (fun l => .pair key l (if e.isPunct '=' then '=' else ':')) else none
        | _ => none
      else none
    | _ => none

/-- `MetaItem::parse`, /repo/json_derive/parse/src/meta.rs:503-638. -/
def RMeta.parse (ts : List Tok) : Option RMeta := RMeta.parseF (toksSize ts + 1) ts

/-- The loop of `Meta::parse`, /repo/json_derive/parse/src/meta.rs:137-158. -/
def rmetaLoop : List Tok → Option (List RMeta)
  | t :: g :: rest =>
    if t.isPunct '#' then
      match g with
      | .group _ inner =>
        match RMeta.parse inner with
        | some it => (rmetaLoop rest).map (it :: ·)
        | none => none
      | _ => none
    else some []
  | [t] => if t.isPunct '#' then none else some []
  | [] => some []

/-- `Meta::parse`, /repo/json_derive/parse/src/meta.rs:105-164. -/
def parseMetas (ts : List Tok) : Option (List RMeta) :=
  if ts.isEmpty then none else rmetaLoop ((ts.dropWhile (fun t => !isMetaTok t)).takeWhile isMetaTok)

/-- Leading attributes: `Meta::parse`, then `peek.nth(meta.__token_num() - 1)` (two tokens per item), e.g. /repo/json_derive/parse/src/lib.rs:233-241. -/
def takeMetas (ts : List Tok) : Option (Option (List RMeta) × List Tok) :=
  if ts.head?.any (Tok.isPunct '#') then (parseMetas ts).map (fun m => (some m, ts.drop (m.length * 2))) else some (none, ts)

mutual
/-- `MetaItem::to_string`, /repo/json_derive/parse/src/meta.rs:458-467, as the tokens it lexes to: groups are always written with parentheses. -/
def RMeta.toks : RMeta → List Tok
  | .ident s => [.ident s]
  | .literal l => [l.tok]
  | .pair k l eq => [.ident k, .punct eq, l.tok]
  | .group i inner => [.ident i, .group .paren (joinToks [.punct ','] (rmetasToks inner))]
/-- Each item, /repo/json_derive/parse/src/meta.rs:397-405. -/
def rmetasToks : List RMeta → List (List Tok)
  | [] => []
  | m :: ms => m.toks :: rmetasToks ms
end

/-- `Meta::to_string`, /repo/json_derive/parse/src/meta.rs:29-38, as the tokens it lexes to. -/
def metasToks (l : List RMeta) : List Tok := l.flatMap (fun m => [.punct '#', .group .bracket m.toks])

/-- Attributes in front of an item, e.g. /repo/json_derive/parse/src/lib.rs:174-177. -/
def optMetas : Option (List RMeta) → List Tok
  | some l => metasToks l
  | none => []

/-- The items a `usize` counts, /repo/json_derive/parse/src/meta.rs:653-659. -/
def RMeta.isSingle : RMeta → Bool
  | .ident _ => true
  | .literal _ => true
  | _ => false

/-- `Meta::get` with a `usize`, /repo/json_derive/parse/src/meta.rs:648-662: only identifiers and literals count. -/
def metaNth (l : List RMeta) (n : Nat) : Option RMeta := (l.filter RMeta.isSingle)[n]?

/-- `Meta::get` with a `&str`, /repo/json_derive/parse/src/meta.rs:682-701: the first pair with that key. -/
def metaGet (key : Str) : List RMeta → Option RLit
  | [] => none
  | .pair k l _ :: rest => if k = key then some l else metaGet key rest
  | _ :: rest => metaGet key rest

/-- `Meta::get` with a `(&str, ())`, /repo/json_derive/parse/src/meta.rs:734-751: the first group with that name. -/
def metaGroup (name : Str) : List RMeta → Option (List RMeta)
  | [] => none
  | .group i inner :: rest => if i = name then some inner else metaGroup name rest
  | _ :: rest => metaGroup name rest

/-- `Meta::get` with a `(&str, T)`, /repo/json_derive/parse/src/meta.rs:706-729. -/
def metaIn {α : Type} (name : Str) (index : List RMeta → Option α) (l : List RMeta) : Option α := (metaGroup name l).bind index

/-- `Meta::idents`, /repo/json_derive/parse/src/meta.rs:53-63. -/
def metaIdents (l : List RMeta) : List Str := l.filterMap (fun | .ident s => some s | _ => none)

/-- `Meta::literals`, /repo/json_derive/parse/src/meta.rs:66-76. -/
def metaLiterals (l : List RMeta) : List RLit := l.filterMap (fun | .literal x => some x | _ => none)

/-- `collect::<HashMap<_, _>>()` (std): later entries replace earlier ones. -/
def collectMap {α : Type} (l : List (Str × α)) : List (Str × α) := l.foldl (fun m p => mapInsert p.1 p.2 m) []

/-- The closure in `Meta::pairs`, /repo/json_derive/parse/src/meta.rs:82-87. -/
def RMeta.pairOf : RMeta → Option (Str × RLit)
  | .pair k x _ => some (k, x)
  | _ => none

/-- The closure in `Meta::groups`, /repo/json_derive/parse/src/meta.rs:95-100. -/
def RMeta.groupOf : RMeta → Option (Str × List RMeta)
  | .group k x => some (k, x)
  | _ => none

/-- `Meta::pairs`, /repo/json_derive/parse/src/meta.rs:79-89. -/
def metaPairs (l : List RMeta) : List (Str × RLit) := collectMap (l.filterMap RMeta.pairOf)

/-- `Meta::groups`, /repo/json_derive/parse/src/meta.rs:92-102. -/
def metaGroups (l : List RMeta) : List (Str × List RMeta) := collectMap (l.filterMap RMeta.groupOf)

/-! ### Fields: field.rs -/

/-- `struct TupleFieldItem`, /repo/json_derive/parse/src/field.rs:141-147. -/
structure TupleItem where
  attrs : Option (List RMeta)
  vis : Option (Option (List Tok))
  pos : Nat
  ty : RType

/-- `struct StructFieldItem`, /repo/json_derive/parse/src/field.rs:223-229. -/
structure NamedItem where
  attrs : Option (List RMeta)
  vis : Option (Option (List Tok))
  ident : Str
  ty : RType

/-- `enum Fields`, /repo/json_derive/parse/src/field.rs:9-22. -/
inductive RFields
  | tuple (l : List TupleItem)
  | named (l : List NamedItem)
  | no

/-- `TupleFieldItem::parse`, /repo/json_derive/parse/src/field.rs:172-218. -/
def TupleItem.parse (ts : List Tok) : Option TupleItem :=
  if ts.isEmpty then none
  else
    match takeMetas ts with
    | none => none
    | some (m, ts) => (RType.parse (takeVis ts).2).map (fun ty => ⟨m, (takeVis ts).1, 0, ty⟩)

/-- `StructFieldItem::parse`, /repo/json_derive/parse/src/field.rs:254-340. -/
def NamedItem.parse (ts : List Tok) : Option NamedItem :=
  if ts.isEmpty then none
  else
    match takeMetas ts with
    | none => none
    | some (m, ts) =>
      match splitColon [] (takeVis ts).2 with
      | (_, none) => none
      | (name, some ty) =>
        match RType.parse ty with
        | none => none
        | some ty =>
          match name with
          | .ident s :: _ => some ⟨m, (takeVis ts).1, s, ty⟩
          | _ => none

/-- `set pos for each field`, /repo/json_derive/parse/src/field.rs:108-113. -/
def setPos : Nat → List TupleItem → List TupleItem
  | _, [] => []
  | i, x :: xs => { x with pos := i } :: setPos (i + 1) xs

/-- `Fields::parse`, /repo/json_derive/parse/src/field.rs:73-137. -/
def RFields.parse (ts : List Tok) : Option RFields :=
  match ts.dropWhile (fun t => !(t.isGroup .paren || t.isGroup .brace || t.isPunct ';')) with
  | .punct _ :: _ => some .no
  | .group .paren body :: _ => (collectO ((splitTokensBy body ",").map TupleItem.parse)).map (fun l => .tuple (setPos 0 l))
  | .group _ body :: _ => (collectO ((splitTokensBy body ",").map NamedItem.parse)).map .named
  | _ => none

/-- `pub` and `pub(..)` in front, e.g. /repo/json_derive/parse/src/field.rs:158-164, as the tokens it lexes to. -/
def visText : Option (Option (List Tok)) → List Tok
  | none => []
  | some none => [.ident "pub".toList]
  | some (some p) => [.ident "pub".toList, .group .paren p]

/-- `TupleFieldItem::to_string`, /repo/json_derive/parse/src/field.rs:149-170. -/
def TupleItem.toks (x : TupleItem) : List Tok := optMetas x.attrs ++ visText x.vis ++ x.ty.toks

/-- `StructFieldItem::to_string`, /repo/json_derive/parse/src/field.rs:231-252. -/
def NamedItem.toks (x : NamedItem) : List Tok := optMetas x.attrs ++ visText x.vis ++ .ident x.ident :: .punct ':' :: x.ty.toks

/-- Insertion into a list sorted by position (`sort_by_key`, std: stable). -/
def insertPos (x : TupleItem) : List TupleItem → List TupleItem
  | [] => [x]
  | y :: ys => if x.pos < y.pos then x :: y :: ys else y :: insertPos x ys

/-- `fields.sort_by_key(|&x| x.pos)`, /repo/json_derive/parse/src/field.rs:50. -/
def sortPos (l : List TupleItem) : List TupleItem := l.foldl (fun acc x => insertPos x acc) []

/-- Each followed by a comma, /repo/json_derive/parse/src/field.rs:58-64, /repo/json_derive/parse/src/enum_value.rs:15-22. -/
def commaEach (l : List (List Tok)) : List Tok := l.flatMap (fun x => x ++ [.punct ','])

/-- `Fields::to_string`, /repo/json_derive/parse/src/field.rs:41-71. -/
def RFields.toks : RFields → List Tok
  | .tuple l => [.group .paren (joinToks [.punct ','] ((sortPos l).map TupleItem.toks))]
  | .named l => [.group .brace (commaEach (l.map NamedItem.toks))]
  | .no => []

/-! ### Enum values: enum_value.rs -/

/-- `str::parse::<isize>` (std, 64 bit): optional sign, decimal digits, in range. -/
def parseIsize (s : Str) : Option Int :=
  let (neg, d) := match s with
    | '-' :: r => (true, r)
    | '+' :: r => (false, r)
    | r => (false, r)
  if d.isEmpty || !d.all isDigit then none
  else
    let v : Int := if neg then -(decVal d 0 : Int) else decVal d 0
    if -2 ^ 63 ≤ v ∧ v ≤ 2 ^ 63 - 1 then some v else none

/-- `struct EnumValueItem`, /repo/json_derive/parse/src/enum_value.rs:55-70. -/
structure EnumValue where
  attrs : Option (List RMeta)
  ident : Str
  fields : RFields
  disc : Option Int

/-- The discriminant, /repo/json_derive/parse/src/enum_value.rs:101-112; the outer `none` is the error. -/
def enumDisc (text : List Tok → Str) : List (List Tok) → Option (Option Int)
  | _ :: d :: _ => (parseIsize (text d)).map some
  | _ => some none

/-- `EnumValueItem::parse`, /repo/json_derive/parse/src/enum_value.rs:93-160. -/
def EnumValue.parse (text : List Tok → Str) (ts : List Tok) : Option EnumValue :=
  if ts.isEmpty then none
  else
    match enumDisc text (splitTokensBy ts "=") with
    | none => none
    | some disc =>
      match splitTokensBy ts "=" with
      | [] => none
      | head :: _ =>
        match takeMetas head with
        | none => none
        | some (m, .ident name :: rest) =>
          if rest.isEmpty then some ⟨m, name, .no, disc⟩ else (RFields.parse rest).map (fun f => ⟨m, name, f, disc⟩)
        | some _ => none

/-- `EnumValues::parse`, /repo/json_derive/parse/src/enum_value.rs:26-53. -/
def parseEnumValues (text : List Tok → Str) : List Tok → Option (List EnumValue)
  | .group .brace body :: _ => collectO ((splitTokensBy body ",").map (EnumValue.parse text))
  | _ => none

/-- The decimal digits of a number (`to_string`, std). -/
def natDigits (n : Nat) : Str := (Nat.toDigits 10 n)

/-- `isize::to_string` (std), as the tokens it lexes to. -/
def intToks (n : Int) : List Tok := (if n < 0 then [.punct '-'] else []) ++ [.lit (natDigits n.natAbs)]

/-- `EnumValueItem::to_string`, /repo/json_derive/parse/src/enum_value.rs:72-91. -/
def EnumValue.toks (x : EnumValue) : List Tok :=
  optMetas x.attrs ++ (.ident x.ident :: x.fields.toks) ++ (match x.disc with | some n => .punct '=' :: intToks n | none => [])

/-! ### Parameters: param.rs -/

/-- `struct ParamItem`, /repo/json_derive/parse/src/param.rs:54-60. -/
structure ParamItem where
  ident : Option Str
  ty : RType

/-- `ParamItem::parse`, /repo/json_derive/parse/src/param.rs:77-111. -/
def ParamItem.parse (ts : List Tok) : Option ParamItem :=
  if ts.isEmpty then none
  else
    match splitTokensBy ts ":" with
    | [t] => (RType.parse t).map (fun ty => ⟨none, ty⟩)
    | [name, t] =>
      match RType.parse t with
      | none => none
      | some ty =>
        match name with
        | .ident s :: _ => some ⟨some s, ty⟩
        | [] => some ⟨none, ty⟩
        | _ => none
    | _ => none

/-- `Params::parse`, /repo/json_derive/parse/src/param.rs:25-52. -/
def parseParams : List Tok → Option (List ParamItem)
  | .group .paren body :: _ => collectO ((splitTokensBy body ",").map ParamItem.parse)
  | _ => none

/-- `ParamItem::to_string`, /repo/json_derive/parse/src/param.rs:62-75. -/
def ParamItem.toks (x : ParamItem) : List Tok := (match x.ident with | some s => [.ident s, .punct ':'] | none => []) ++ x.ty.toks

/-- `Params::to_string`, /repo/json_derive/parse/src/param.rs:14-23. -/
def paramsToks (l : List ParamItem) : List Tok := [.group .paren (joinToks [.punct ','] (l.map ParamItem.toks))]

/-! ### Token counts: name.rs -/

/-- `self.ident.starts_with("Fn (") || ..`, /repo/json_derive/parse/src/name.rs:38-41. -/
def fnText (s : Str) : Bool := "Fn (".toList.isPrefixOf s || "FnMut (".toList.isPrefixOf s || "FnOnce (".toList.isPrefixOf s || "fn (".toList.isPrefixOf s

mutual
/-- `Name::__token_num`, /repo/json_derive/parse/src/name.rs:30-67. -/
def RName.count (text : List Tok → Str) : RName → Nat
  | .mk prefixes ident generics =>
    if RName.isLifetime (.mk prefixes ident generics) then 2
    else if fnText (text ident) then prefixes.length * 3 + ident.length
    else if generics.isEmpty then prefixes.length * 3 + 1
    else prefixes.length * 3 + (typesCount text generics - 1 + 3)
/-- `Type::__token_num`, /repo/json_derive/parse/src/name.rs:231-264. -/
def RType.count (text : List Tok → Str) : RType → Nat
  | .mk ident names isRef lifetime isMut isDyn isImp =>
    namesCount text names - 1 + (if ident.isSome then 2 else 0) + (if isRef then 1 else 0) + (if lifetime.isSome then 2 else 0) + (if isMut then 1 else 0)
      + (if isDyn then 1 else 0) + (if isImp then 1 else 0)
/-- The sum of the counts and a comma each. -/
def typesCount (text : List Tok → Str) : List RType → Nat
  | [] => 0
  | t :: ts => RType.count text t + 1 + typesCount text ts
/-- The sum of the counts and a plus each. -/
def namesCount (text : List Tok → Str) : List RName → Nat
  | [] => 0
  | t :: ts => RName.count text t + 1 + namesCount text ts
end

/-! ### Items: lib.rs -/

/-- Generics, if there are any, e.g. /repo/json_derive/parse/src/lib.rs:282-290. -/
def takeGenerics (ts : List Tok) : Option (Option Generics × List Tok) :=
  if ts.head?.any (Tok.isPunct '<') then (Generics.parse ts).map (fun g => (some g, ts.drop (g.n + 2))) else some (none, ts)

/-- `struct StructItem`, /repo/json_derive/parse/src/lib.rs:147-168. -/
structure RStruct where
  attrs : Option (List RMeta)
  vis : Option (Option (List Tok))
  ident : Str
  generics : Option Generics
  where_ : Option Generics
  fields : RFields

/-- The where clause after the fields of a tuple struct, /repo/json_derive/parse/src/lib.rs:310-320. -/
def tupleTail : List Tok → Option (Option Generics)
  | t :: ts =>
    if t.isIdent "where" then (WhereClause.parse (t :: ts)).map some
    else if t.isPunct ';' then some none
    else none
  | [] => none

/-- Where clause and fields, /repo/json_derive/parse/src/lib.rs:293-325. -/
def rstructTail : List Tok → Option (Option Generics × RFields)
  | t :: ts =>
    if t.isIdent "where" then
      match WhereClause.parse (t :: ts) with
      | none => none
      | some w => (RFields.parse ((t :: ts).drop (w.n + 1))).map (fun f => (some w, f))
    else if t.isPunct ';' then some (none, .no)
    else if t.isGroup .brace then (RFields.parse (t :: ts)).map (fun f => (none, f))
    else if t.isGroup .paren then
      match RFields.parse [t] with
      | none => none
      | some f => (tupleTail ts).map (fun w => (w, f))
    else none
  | [] => none

/-- `StructItem::parse`, /repo/json_derive/parse/src/lib.rs:219-330. -/
def RStruct.parse (ts : List Tok) : Option RStruct :=
  match takeMetas ts with
  | none => none
  | some (m, ts) =>
    match (takeVis ts).2 with
    | kw :: .ident name :: rest =>
      if kw.isIdent "struct" then
        match takeGenerics rest with
        | none => none
        | some (g, rest) => (rstructTail rest).map (fun b => ⟨m, (takeVis ts).1, name, g, b.1, b.2⟩)
      else none
    | _ => none

/-- `struct EnumItem`, /repo/json_derive/parse/src/lib.rs:333-352. -/
structure REnum where
  attrs : Option (List RMeta)
  vis : Option (Option (List Tok))
  ident : Str
  generics : Option Generics
  where_ : Option Generics
  values : List EnumValue

/-- Where clause and values, /repo/json_derive/parse/src/lib.rs:465-478. -/
def enumTail (text : List Tok → Str) : List Tok → Option (Option Generics × List EnumValue)
  | t :: ts =>
    if t.isIdent "where" then
      match WhereClause.parse (t :: ts) with
      | none => none
      | some w => (parseEnumValues text ((t :: ts).drop (w.n + 1))).map (fun v => (some w, v))
    else if t.isGroup .brace then (parseEnumValues text (t :: ts)).map (fun v => (none, v))
    else none
  | [] => none

/-- `EnumItem::parse`, /repo/json_derive/parse/src/lib.rs:391-483. -/
def REnum.parse (text : List Tok → Str) (ts : List Tok) : Option REnum :=
  match takeMetas ts with
  | none => none
  | some (m, ts) =>
    match (takeVis ts).2 with
    | kw :: .ident name :: rest =>
      if kw.isIdent "enum" then
        match takeGenerics rest with
        | none => none
        | some (g, rest) => (enumTail text rest).map (fun b => ⟨m, (takeVis ts).1, name, g, b.1, b.2⟩)
      else none
    | _ => none

/-- `struct FnItem`, /repo/json_derive/parse/src/lib.rs:489-512 (the body as the tokens between its braces). -/
structure RFn where
  attrs : Option (List RMeta)
  vis : Option (Option (List Tok))
  isAsync : Bool
  isConst : Bool
  isUnsafe : Bool
  abi : Option Str
  ident : Str
  generics : Option Generics
  params : List ParamItem
  ret : Option RType
  where_ : Option Generics
  body : List Tok

/-- `extern` and its ABI, /repo/json_derive/parse/src/lib.rs:642-655: `extern` alone leaves no trace. -/
def takeExtern : List Tok → Option Str × List Tok
  | t :: ts =>
    if t.isIdent "extern" then
      match ts with
      | .lit s :: ts' => (some s, ts')
      | _ => (none, ts)
    else (none, t :: ts)
  | [] => (none, [])

/-- A token of a return type, /repo/json_derive/parse/src/lib.rs:710-716. -/
def isRetTok (t : Tok) : Bool := !(t.isGroup .brace || t.isIdent "where")

/-- The return type, /repo/json_derive/parse/src/lib.rs:703-727: skips as many tokens as `__token_num` says. -/
def takeReturn (text : List Tok → Str) (ts : List Tok) : Option (Option RType × List Tok) :=
  if ts.head?.any (Tok.isPunct '-') then
    match ts.drop 1 with
    | t :: rest =>
      if t.isPunct '>' then (RType.parse (rest.takeWhile isRetTok)).map (fun ty => (some ty, rest.drop (ty.count text)))
      else none
    | [] => none
  else some (none, ts)

/-- The where clause of a function, /repo/json_derive/parse/src/lib.rs:730-738. -/
def takeWhere (ts : List Tok) : Option (Option Generics × List Tok) :=
  if ts.head?.any (Tok.isIdent "where") then (WhereClause.parse ts).map (fun w => (some w, ts.drop (w.n + 1))) else some (none, ts)

/-- The parameters, /repo/json_derive/parse/src/lib.rs:691-700. -/
def takeParams : List Tok → Option (List ParamItem × List Tok)
  | .group .paren body :: rest => (parseParams [.group .paren body]).map (fun p => (p, rest))
  | _ => none

/-- From the generics on, /repo/json_derive/parse/src/lib.rs:680-748. -/
def fnTail (text : List Tok → Str) (ts : List Tok) : Option (Option Generics × List ParamItem × Option RType × Option Generics × List Tok) :=
  match takeGenerics ts with
  | none => none
  | some (g, ts) =>
    match takeParams ts with
    | none => none
    | some (p, ts) =>
      match takeReturn text ts with
      | none => none
      | some (r, ts) =>
        match takeWhere ts with
        | none => none
        | some (w, .group .brace body :: _) => some (g, p, r, w, body)
        | some _ => none

/-- `FnItem::parse`, /repo/json_derive/parse/src/lib.rs:574-766. -/
def RFn.parse (text : List Tok → Str) (ts : List Tok) : Option RFn :=
  match takeMetas ts with
  | none => none
  | some (m, ts) =>
    let v := takeVis ts
    let a := takeTok (Tok.isIdent "async") v.2
    let c := takeTok (Tok.isIdent "const") a.2
    let u := takeTok (Tok.isIdent "unsafe") c.2
    let e := takeExtern u.2
    match e.2 with
    | kw :: .ident name :: rest =>
      if kw.isIdent "fn" then
        (fnTail text rest).map (fun t => ⟨m, v.1, a.1, c.1, u.1, e.1, name, t.1, t.2.1, t.2.2.1, t.2.2.2.1, t.2.2.2.2⟩)
      else none
    | _ => none

/-- `enum Item`, /repo/json_derive/parse/src/lib.rs:52-63. -/
inductive AnyItem
  | struct (s : RStruct)
  | enum (e : REnum)
  | fn (f : RFn)

/-- `Item::parse`, /repo/json_derive/parse/src/lib.rs:99-142. -/
def AnyItem.parse (text : List Tok → Str) (ts : List Tok) : Option AnyItem :=
  match (ts.dropWhile skipToKeyword).head? with
  | none => none
  | some kw =>
    if kw.isIdent "struct" then (RStruct.parse ts).map .struct
    else if kw.isIdent "enum" then (REnum.parse text ts).map .enum
    else if kw.isIdent "fn" then (RFn.parse text ts).map .fn
    else none

/-! ### Items written back: `to_string` -/

/-- `StructItem::to_string`, /repo/json_derive/parse/src/lib.rs:170-217: a unit struct loses its where clause. -/
def RStruct.toks (s : RStruct) : List Tok :=
  optMetas s.attrs ++ visText s.vis ++ [.ident "struct".toList, .ident s.ident] ++ optToks Generics.toks s.generics ++
    match s.fields with
    | .no => [.punct ';']
    | .tuple l => (RFields.tuple l).toks ++ optToks WhereClause.toks s.where_ ++ [.punct ';']
    | .named l => optToks WhereClause.toks s.where_ ++ (RFields.named l).toks

/-- `EnumValues::to_string`, /repo/json_derive/parse/src/enum_value.rs:14-24. -/
def enumValuesToks (l : List EnumValue) : List Tok := [.group .brace (commaEach (l.map EnumValue.toks))]

/-- `EnumItem::to_string`, /repo/json_derive/parse/src/lib.rs:354-389. -/
def REnum.toks (s : REnum) : List Tok :=
  optMetas s.attrs ++ visText s.vis ++ [.ident "enum".toList, .ident s.ident] ++ optToks Generics.toks s.generics ++
    optToks WhereClause.toks s.where_ ++ enumValuesToks s.values

/-- `if self.asyncness { s.push_str("async ") }` and the like, /repo/json_derive/parse/src/lib.rs:531-541. -/
def flagToks (b : Bool) (s : String) : List Tok := if b then [.ident s.toList] else []

/-- `FnItem::to_string`, /repo/json_derive/parse/src/lib.rs:514-572. -/
def RFn.toks (s : RFn) : List Tok :=
  optMetas s.attrs ++ visText s.vis ++ flagToks s.isAsync "async" ++ flagToks s.isConst "const" ++ flagToks s.isUnsafe "unsafe" ++
    (match s.abi with | some a => [.ident "extern".toList, .lit a] | none => []) ++
    [.ident "fn".toList, .ident s.ident] ++ optToks Generics.toks s.generics ++ paramsToks s.params ++
    (match s.ret with | some t => .punct '-' :: .punct '>' :: t.toks | none => []) ++ optToks WhereClause.toks s.where_ ++ [.group .brace s.body]

/-- `Item::to_string`, /repo/json_derive/parse/src/lib.rs:89-97. -/
def AnyItem.toks : AnyItem → List Tok
  | .struct s => s.toks
  | .enum e => e.toks
  | .fn f => f.toks

end RJ
