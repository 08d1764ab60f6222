import Verif.Spec.Tokens
import Verif.Spec.RustStr
/-
  Rust struct declarations as token streams: what the input of the derive macros looks like, and what a reader of the source
  expects of it (which member name a field has, which fields are ignored).  Shared with the model: `Tok`.
-/
namespace RJ.Spec
open RJ

/-! ### String literals -/

/-- A string literal in the source. -/
inductive StrLit
  | cooked (l : List RItem)
  | raw (n : Nat) (content : Str)

/-- Its text. -/
def StrLit.text : StrLit → Str
  | .cooked l => cookedText l
  | .raw n s => rawText n s

/-- The string it denotes. -/
def StrLit.val : StrLit → Str
  | .cooked l => itemsVal l
  | .raw _ s => s

/-- The literals the macros read correctly: an ordinary literal that does not end in an escaped quote; a raw one with at most two hashes,
without backslash and quote, and not `r"r"`, `r#"r#"#`, `r##"r##"##`. -/
def StrLit.Plain : StrLit → Prop
  | .cooked l => RItemsValid l ∧ ∀ x, l.getLast? ≠ some (.simple '"' x)
  | .raw n s => n ≤ 2 ∧ '"' ∉ s ∧ '\\' ∉ s ∧ '\r' ∉ s ∧ s ≠ 'r' :: List.replicate n '#'

/-! ### Attributes -/

/-- The contents of an attribute `#[..]` other than `ignore` and `key`: a word, `name = "literal"`, `name = true` and `name(list)`. -/
inductive Note : List Tok → Prop
  | word (s : Str) : s ≠ "true".toList → s ≠ "false".toList → Note [.ident s]
  | value (k : Str) (eq : Char) (v : StrLit) : eq = '=' ∨ eq = ':' → v.Plain → Note [.ident k, .punct eq, .lit v.text]
  | flag (k : Str) (eq : Char) (v : Str) : eq = '=' ∨ eq = ':' → v = "true".toList ∨ v = "false".toList → Note [.ident k, .punct eq, .ident v]
  | lit (v : StrLit) : v.Plain → Note [.lit v.text]
  | list (k : Str) (d : Delim) (args : List (List Tok)) (trailing : Bool) : args ≠ [] → (∀ a ∈ args, Note a) →
      Note [.ident k, .group d (joinWith [.punct ','] args ++ if trailing then [.punct ','] else [])]

/-- An attribute of a field. -/
inductive Attr
  /-- `#[ignore]` -/
  | ignore
  /-- `#[key = literal]` or `#[key: literal]` -/
  | key (eq : Char) (v : StrLit)
  /-- anything else -/
  | note (ts : List Tok)

/-- Its contents. -/
def Attr.inner : Attr → List Tok
  | .ignore => [.ident "ignore".toList]
  | .key eq v => [.ident "key".toList, .punct eq, .lit v.text]
  | .note ts => ts

/-- A well-formed attribute. -/
def Attr.Ok : Attr → Prop
  | .ignore => True
  | .key eq v => (eq = '=' ∨ eq = ':') ∧ v.Plain
  | .note ts => Note ts ∧ ts ≠ [.ident "ignore".toList] ∧ ∀ e v, ts ≠ [.ident "key".toList, .punct e, v]

/-- `#[..]`, for a list of attributes. -/
def attrToks (l : List Attr) : List Tok := l.flatMap (fun a => [.punct '#', .group .bracket a.inner])

/-! ### Types -/

/-- What a `TyG` describes: a path, a type, or a generic argument (a type or `Name = Type`). -/
inductive Kind
  | path | ty | arg

/-- Not one of `,` `=` `+` `:`. -/
def NoSep (t : Tok) : Prop := t ≠ .punct ',' ∧ t ≠ .punct '=' ∧ t ≠ .punct '+' ∧ t ≠ .punct ':'

/-- The path with the given segments. -/
def pathToks (pre : List (List Tok)) (last : List Tok) : List Tok := joinWith (sepToks "::") (pre ++ [last])

/-- Does not start like `&T`, `dyn T`, `impl T` or `mut T`. -/
def Bare (ts : List Tok) : Prop :=
  ∀ t, ts.head? = some t → t ≠ .punct '&' ∧ t ≠ .ident "dyn".toList ∧ t ≠ .ident "impl".toList ∧ t ≠ .ident "mut".toList

/-- The types the macros understand. -/
inductive TyG : Kind → List Tok → Prop
  /-- `a::b::Name` -/
  | ident (pre : List (List Tok)) (s : Str) : (∀ p ∈ pre, Nest NoSep p) → TyG .path (pathToks pre [.ident s])
  /-- `a::b::Name<A, B>` -/
  | apply (pre : List (List Tok)) (s : Str) (args : List (List Tok)) : (∀ p ∈ pre, Nest NoSep p) → args ≠ [] → (∀ a ∈ args, TyG .arg a) →
      TyG .path (pathToks pre (.ident s :: .punct '<' :: (joinWith [.punct ','] args ++ [.punct '>'])))
  /-- a tuple `(A, B)` -/
  | paren (g : List Tok) : TyG .path [.group .paren g]
  /-- an array or slice `[A; n]` -/
  | bracket (g : List Tok) : TyG .path [.group .bracket g]
  /-- a lifetime `'a` -/
  | life (a : Str) : TyG .path [.punct '\'', .ident a]
  /-- `a::b::Fn(A) -> B` -/
  | func (pre : List (List Tok)) (f : Str) (g rest : List Tok) : (∀ p ∈ pre, Nest NoSep p) →
      (f = "Fn".toList ∨ f = "FnMut".toList ∨ f = "FnOnce".toList ∨ f = "fn".toList) → Nest NoSep rest →
      TyG .path (pathToks pre (.ident f :: .group .paren g :: rest))
  /-- `A + B` -/
  | bare (ps : List (List Tok)) : ps ≠ [] → (∀ p ∈ ps, TyG .path p) → Bare (joinWith [.punct '+'] ps) → TyG .ty (joinWith [.punct '+'] ps)
  /-- `dyn A + B` -/
  | dyn (ps : List (List Tok)) : ps ≠ [] → (∀ p ∈ ps, TyG .path p) → Bare (joinWith [.punct '+'] ps) →
      TyG .ty (.ident "dyn".toList :: joinWith [.punct '+'] ps)
  | ofTy (t : List Tok) : TyG .ty t → TyG .arg t
  /-- `impl A + B` -/
  | imp (ps : List (List Tok)) : ps ≠ [] → (∀ p ∈ ps, TyG .path p) → Bare (joinWith [.punct '+'] ps) →
      TyG .arg (.ident "impl".toList :: joinWith [.punct '+'] ps)
  /-- `&A`, `&mut A` -/
  | ref (p : List Tok) : TyG .path p → Bare p → p.head? ≠ some (.punct '\'') → TyG .arg (.punct '&' :: p)
  | refMut (p : List Tok) : TyG .path p → Bare p → TyG .arg (.punct '&' :: .ident "mut".toList :: p)
  /-- `&'a mut A` -/
  | refLifeMut (a : Str) (p : List Tok) : TyG .path p → Bare p → TyG .arg (.punct '&' :: .punct '\'' :: .ident a :: .ident "mut".toList :: p)
  /-- `&'a A` where `A` does not start with an identifier -/
  | refLife (a : Str) (p : List Tok) : TyG .path p → Bare p → (∀ s, p.head? ≠ some (.ident s)) → TyG .arg (.punct '&' :: .punct '\'' :: .ident a :: p)
  /-- `Name = A` -/
  | assoc (n : Str) (p : List Tok) : TyG .path p → Bare p → TyG .arg (.ident n :: .punct '=' :: p)

/-! ### Generic parameters -/

/-- A generic parameter. -/
inductive Param
  /-- `'a: 'b + 'c` -/
  | life (a : Str) (bounds : List Str)
  /-- `T: A + B + 'a + ?Sized` -/
  | type (name : Str) (traits : List (List Tok)) (lifes : List Str) (relaxed : Bool)

/-- A lifetime. -/
def lifeToks (a : Str) : List Tok := [.punct '\'', .ident a]

/-- The bounds of a parameter. -/
def Param.bounds : Param → List (List Tok)
  | .life _ bs => bs.map lifeToks
  | .type _ ts ls r => ts ++ ls.map lifeToks ++ if r then [[.punct '?', .ident "Sized".toList]] else []

/-- Its name. -/
def Param.name : Param → List Tok
  | .life a _ => lifeToks a
  | .type n _ _ _ => [.ident n]

/-- The parameter as it is declared. -/
def Param.toks (p : Param) : List Tok := p.name ++ if p.bounds.isEmpty then [] else .punct ':' :: joinWith [.punct '+'] p.bounds

/-- Well-formed: the bounds are paths (not `Sized`, which is implied, and not a lifetime). -/
def Param.Ok : Param → Prop
  | .life _ _ => True
  | .type _ ts _ _ => ∀ t ∈ ts, TyG .path t ∧
      ¬ (t.head? = some (.ident "Sized".toList) ∧ t.getLast? = some (.ident "Sized".toList)) ∧ t.head? ≠ some (.punct '?') ∧ t.head? ≠ some (.punct '\'')

/-! ### Structs -/

/-- Visibility: none, `pub`, `pub(..)`. -/
abbrev Vis := Option (Option (List Tok))

/-- Its tokens. -/
def visToks : Vis → List Tok
  | none => []
  | some none => [.ident "pub".toList]
  | some (some p) => [.ident "pub".toList, .group .paren p]

/-- A field of a struct. -/
structure Field where
  attrs : List Attr
  vis : Vis
  name : Str
  ty : List Tok

/-- The field as it is declared. -/
def Field.toks (f : Field) : List Tok := attrToks f.attrs ++ (visToks f.vis ++ (.ident f.name :: .punct ':' :: f.ty))

/-- `#[ignore]`? -/
def Attr.isIgnore : Attr → Bool
  | .ignore => true
  | _ => false

/-- Marked `#[ignore]`? -/
def Field.ignored (f : Field) : Bool := f.attrs.any Attr.isIgnore

/-- The literals given for the key, in order. -/
def Field.keyLits (f : Field) : List StrLit := f.attrs.filterMap (fun | .key _ v => some v | _ => none)

/-- The member name: the first `key`, else the field's name. -/
def Field.key (f : Field) : Str := match f.keyLits with | v :: _ => v.val | [] => f.name

/-- An identifier (other than `pub`). -/
def IdentOk (s : Str) : Prop := (∀ c ∈ s, c ≠ '"' ∧ c ≠ '\\' ∧ c ≠ '\r') ∧ s ≠ "pub".toList

/-- A well-formed field. -/
def Field.Ok (f : Field) : Prop := (∀ a ∈ f.attrs, a.Ok) ∧ IdentOk f.name ∧ TyG .ty f.ty

/-- A struct with named fields. -/
structure Struct where
  attrs : List Attr
  vis : Vis
  name : Str
  params : List Param
  where_ : List Param
  fields : List Field
  /-- a comma after the last field, the last parameter, the last clause? -/
  comma : Bool
  commaP : Bool
  commaW : Bool

/-- A comma, if there is one. -/
def optComma (b : Bool) : List Tok := if b then [.punct ','] else []

/-- The parameter list. -/
def Struct.paramToks (s : Struct) : List Tok := joinWith [.punct ','] (s.params.map Param.toks)

/-- The where clauses. -/
def Struct.whereToks (s : Struct) : List Tok := joinWith [.punct ','] (s.where_.map Param.toks)

/-- `<params>`, if there are any. -/
def Struct.paramPart (s : Struct) : List Tok := if s.params.isEmpty then [] else .punct '<' :: (s.paramToks ++ optComma s.commaP ++ [.punct '>'])

/-- `where clauses`, if there are any. -/
def Struct.wherePart (s : Struct) : List Tok := if s.where_.isEmpty then [] else .ident "where".toList :: (s.whereToks ++ optComma s.commaW)

/-- The fields between the braces. -/
def Struct.body (s : Struct) : List Tok := joinWith [.punct ','] (s.fields.map Field.toks) ++ optComma s.comma

/-- The struct as it is declared. -/
def Struct.toks (s : Struct) : List Tok :=
  attrToks s.attrs ++ (visToks s.vis ++ (.ident "struct".toList :: .ident s.name :: (s.paramPart ++ (s.wherePart ++ [.group .brace s.body]))))

/-- A well-formed struct with at least one field (and no `;` or `{..}` in the where clauses). -/
def Struct.Ok (s : Struct) : Prop :=
  (∀ a ∈ s.attrs, a.Ok) ∧ (∀ p ∈ s.params, p.Ok) ∧ (∀ p ∈ s.where_, p.Ok) ∧
  (∀ t ∈ s.whereToks, t ≠ .punct ';' ∧ ∀ g, t ≠ .group .brace g) ∧ (∀ f ∈ s.fields, f.Ok) ∧ s.fields ≠ []

/-- The fields that take part, in order. -/
def Struct.kept (s : Struct) : List Field := s.fields.filter (fun f => !f.ignored)

/-- The ignored fields, in order. -/
def Struct.ignored (s : Struct) : List Field := s.fields.filter (fun f => f.ignored)

end RJ.Spec
