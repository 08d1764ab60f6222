import Verif.Spec.Struct
import Verif.Spec.Convert
import Verif.Spec.Ieee
import Verif.Model.Items
/-
  Rust declarations as token streams: attributes, structs of every shape, enums and functions, as a programmer writes them (`toks`), and the
  form in which the item parser writes them back (`canon`).  Shared with the model: the token type `Tok` and the types of the public fields of the
  parsed items.
-/
namespace RJ.Spec
open RJ

/-! ### Attributes -/

/-- The value in an attribute: a string literal, `true`/`false`, or a decimal integer with an optional minus sign and an optional type suffix. -/
inductive AVal
  | str (v : StrLit)
  | flag (b : Bool)
  | num (neg : Bool) (digits : Str) (suffix : Str)

/-- The integer type suffixes. -/
def intSuffixes : List String := ["u8", "u16", "u32", "u64", "u128", "usize", "i8", "i16", "i32", "i64", "i128", "isize"]

/-- The last token of a value (the only one, unless there is a minus sign). -/
def AVal.tok : AVal → Tok
  | .str v => .lit v.text
  | .flag b => .ident (if b then "true".toList else "false".toList)
  | .num _ ds suf => .lit (ds ++ suf)

/-- Its tokens. -/
def AVal.toks : AVal → List Tok
  | .num true ds suf => [.punct '-', .lit (ds ++ suf)]
  | v => [v.tok]

/-- Values the parser understands. -/
def AVal.Ok : AVal → Prop
  | .str v => v.Plain
  | .flag _ => True
  | .num _ ds suf => ds ≠ [] ∧ Digits ds ∧ natOf ds < 2 ^ 31 ∧ (suf = [] ∨ ∃ s ∈ intSuffixes, suf = s.toList)

/-- The text between the quotes, as it is in the source. -/
def StrLit.inside : StrLit → Str
  | .cooked l => itemsText l
  | .raw _ s => s

/-- What a value is read as: the source text between the quotes, the truth value, the integer. -/
def AVal.lit : AVal → Lit
  | .str v => .string v.inside
  | .flag b => .boolean b
  | .num neg ds _ => .integer (if neg then -(natOf ds : Int) else natOf ds)

/-- The contents of an attribute `#[..]`: a word, a literal, `name = value` or `name: value`, and `name(list)`. -/
inductive Ann
  | word (s : Str)
  | lit (v : AVal)
  | pair (k : Str) (eq : Char) (v : AVal)
  | list (k : Str) (d : Delim) (args : List Ann) (comma : Bool)

mutual
/-- Its tokens. -/
def Ann.toks : Ann → List Tok
  | .word s => [.ident s]
  | .lit v => v.toks
  | .pair k eq v => .ident k :: .punct eq :: v.toks
  | .list k d args comma => [.ident k, .group d (joinWith [.punct ','] (annsToks args) ++ optComma comma)]
/-- The tokens of each. -/
def annsToks : List Ann → List (List Tok)
  | [] => []
  | a :: l => a.toks :: annsToks l
end

mutual
/-- Well-formed. -/
def Ann.Ok : Ann → Prop
  | .word s => s ≠ "true".toList ∧ s ≠ "false".toList
  | .lit v => v.Ok
  | .pair _ eq v => (eq = '=' ∨ eq = ':') ∧ v.Ok
  | .list _ _ args _ => args ≠ [] ∧ AnnsOk args
/-- All of them. -/
def AnnsOk : List Ann → Prop
  | [] => True
  | a :: l => a.Ok ∧ AnnsOk l
end

/-- A value written back: the minus sign is lost. -/
def AVal.canon : AVal → AVal
  | .num _ ds suf => .num false ds suf
  | v => v

mutual
/-- An attribute written back: lists in parentheses, without trailing comma. -/
def Ann.canon : Ann → Ann
  | .word s => .word s
  | .lit v => .lit v.canon
  | .pair k eq v => .pair k eq v.canon
  | .list k _ args _ => .list k .paren (annsCanon args) false
/-- Each of them. -/
def annsCanon : List Ann → List Ann
  | [] => []
  | a :: l => a.canon :: annsCanon l
end

mutual
/-- The parsed item is this attribute: same kind, same names, same values, the same items in the same order. -/
def AnnIs : Ann → RMeta → Prop
  | .word s, m => m = .ident s
  | .lit v, m => ∃ l, m = .literal l ∧ l.lit = v.lit
  | .pair k eq v, m => ∃ l, m = .pair k l eq ∧ l.lit = v.lit
  | .list k _ args _, m => ∃ l, m = .group k l ∧ AnnsAre args l
/-- For lists. -/
def AnnsAre : List Ann → List RMeta → Prop
  | [], l => l = []
  | a :: as, l => ∃ m ms, l = m :: ms ∧ AnnIs a m ∧ AnnsAre as ms
end

/-- The attributes in front of something. -/
def annPart (l : List Ann) : List Tok := (annsToks l).flatMap (fun a => [.punct '#', .group .bracket a])

/-- The attributes of a parsed item: `None` if there are none. -/
def AttrsAre (l : List Ann) (m : Option (List RMeta)) : Prop := (l = [] ∧ m = none) ∨ (l ≠ [] ∧ ∃ its, m = some its ∧ AnnsAre l its)

/-- The word of a one-word attribute. -/
def Ann.word? : Ann → Option Str
  | .word s => some s
  | _ => none

/-- The value of an attribute that is a literal. -/
def Ann.lit? : Ann → Option Lit
  | .lit v => some v.lit
  | _ => none

/-- Words and literals. -/
def Ann.single : Ann → Bool
  | .word _ => true
  | .lit _ => true
  | _ => false

/-- The value of `key = value`, if that is the key. -/
def Ann.value? (key : Str) : Ann → Option Lit
  | .pair k _ v => if k = key then some v.lit else none
  | _ => none

/-- The items of `name(..)`, if that is the name. -/
def Ann.items? (name : Str) : Ann → Option (List Ann)
  | .list k _ args _ => if k = name then some args else none
  | _ => none

/-! ### Fields -/

/-- The types of fields and parameters: those of `TyG`. -/
abbrev DeclTy (ts : List Tok) : Prop := TyG .arg ts

/-- A field of a tuple struct or a tuple variant. -/
structure TField where
  attrs : List Ann
  vis : Vis
  ty : List Tok

/-- Its tokens. -/
def TField.toks (f : TField) : List Tok := annPart f.attrs ++ (visToks f.vis ++ f.ty)

/-- Well-formed: the type starts neither with `pub` nor with `#` (no type does), and after a plain `pub` it is not a tuple type. -/
def TField.Ok (f : TField) : Prop := AnnsOk f.attrs ∧ DeclTy f.ty ∧ f.ty.head? ≠ some (.ident "pub".toList) ∧ f.ty.head? ≠ some (.punct '#') ∧
  (f.vis = some none → ∀ g, f.ty.head? ≠ some (.group .paren g))

/-- A named field. -/
structure NField where
  attrs : List Ann
  vis : Vis
  name : Str
  ty : List Tok

/-- Its tokens. -/
def NField.toks (f : NField) : List Tok := annPart f.attrs ++ (visToks f.vis ++ (.ident f.name :: .punct ':' :: f.ty))

/-- Well-formed. -/
def NField.Ok (f : NField) : Prop := AnnsOk f.attrs ∧ f.name ≠ "pub".toList ∧ DeclTy f.ty

/-- The body of a struct or of a variant. -/
inductive Shape
  | unit
  | tuple (l : List TField) (comma : Bool)
  | named (l : List NField) (comma : Bool)

/-- Its tokens. -/
def Shape.toks : Shape → List Tok
  | .unit => []
  | .tuple l c => [.group .paren (joinWith [.punct ','] (l.map TField.toks) ++ optComma c)]
  | .named l c => [.group .brace (joinWith [.punct ','] (l.map NField.toks) ++ optComma c)]

/-- Well-formed, with at least one field if there is a body. -/
def Shape.Ok : Shape → Prop
  | .unit => True
  | .tuple l _ => l ≠ [] ∧ ∀ f ∈ l, f.Ok
  | .named l _ => l ≠ [] ∧ ∀ f ∈ l, f.Ok

/-- A field written back. -/
def TField.canon (f : TField) : TField := { f with attrs := annsCanon f.attrs }

/-- A field written back. -/
def NField.canon (f : NField) : NField := { f with attrs := annsCanon f.attrs }

/-- A body written back: a comma after every named field, none after the last field of a tuple. -/
def Shape.canon : Shape → Shape
  | .unit => .unit
  | .tuple l _ => .tuple (l.map TField.canon) false
  | .named l _ => .named (l.map NField.canon) true

/-- The parsed field is this field; `ty` is compared by its tokens. -/
def NFieldIs (f : NField) (x : NamedItem) : Prop := AttrsAre f.attrs x.attrs ∧ x.vis = f.vis ∧ x.ident = f.name ∧ x.ty.toks = f.ty

/-- The parsed fields are these fields, numbered from `n`. -/
def TFieldsAre : Nat → List TField → List TupleItem → Prop
  | _, [], l => l = []
  | n, f :: fs, l => ∃ x xs, l = x :: xs ∧ AttrsAre f.attrs x.attrs ∧ x.vis = f.vis ∧ x.pos = n ∧ x.ty.toks = f.ty ∧ TFieldsAre (n + 1) fs xs

/-- The parsed body is this body. -/
def ShapeIs : Shape → RFields → Prop
  | .unit, x => x = .no
  | .tuple l _, x => ∃ xs, x = .tuple xs ∧ TFieldsAre 0 l xs
  | .named l _, x => ∃ xs, x = .named xs ∧ AllTwo NFieldIs l xs

/-! ### The common part of declarations -/

/-- Attributes, visibility, name, generic parameters and where clauses. -/
structure Head where
  attrs : List Ann
  vis : Vis
  name : Str
  params : List Param
  where_ : List Param
  commaP : Bool
  commaW : Bool

/-- `<params>`, if there are any. -/
def Head.paramPart (h : Head) : List Tok := if h.params.isEmpty then [] else .punct '<' :: (joinWith [.punct ','] (h.params.map Param.toks) ++ optComma h.commaP ++ [.punct '>'])

/-- `where clauses`, if there are any. -/
def Head.wherePart (h : Head) : List Tok := if h.where_.isEmpty then [] else .ident "where".toList :: (joinWith [.punct ','] (h.where_.map Param.toks) ++ optComma h.commaW)

/-- Well-formed (no `;` or `{..}` in the where clauses). -/
def Head.Ok (h : Head) : Prop := AnnsOk h.attrs ∧ (∀ p ∈ h.params, p.Ok) ∧ (∀ p ∈ h.where_, p.Ok) ∧
  (∀ t ∈ joinWith [.punct ','] (h.where_.map Param.toks), t ≠ .punct ';' ∧ ∀ g, t ≠ .group .brace g)

/-- Written back: no trailing commas. -/
def Head.canon (h : Head) : Head := { h with attrs := annsCanon h.attrs, commaP := false, commaW := false }

/-- The parsed parameters (or where clauses): the names and the whole text of each, in order. -/
def ParamsAre (ps : List Param) (g : Option Generics) : Prop :=
  (ps = [] ∧ g = none) ∨ (ps ≠ [] ∧ ∃ x, g = some x ∧ x.items.map GenericItem.ident = ps.map Param.name ∧ x.items.map GenericItem.toks = ps.map Param.toks)

/-! ### Structs -/

/-- A struct of any shape. -/
structure StructDecl extends Head where
  shape : Shape

/-- As it is declared: the where clause of a tuple struct comes after the fields. -/
def StructDecl.toks (d : StructDecl) : List Tok :=
  annPart d.attrs ++ (visToks d.vis ++ (.ident "struct".toList :: .ident d.name :: (d.paramPart ++
    match d.shape with
    | .unit => d.wherePart ++ [.punct ';']
    | .tuple l c => (Shape.tuple l c).toks ++ (d.wherePart ++ [.punct ';'])
    | .named l c => d.wherePart ++ (Shape.named l c).toks)))

/-- Well-formed. -/
def StructDecl.Ok (d : StructDecl) : Prop := d.toHead.Ok ∧ d.shape.Ok

/-- As it is written back: the where clause of a unit struct is lost. -/
def StructDecl.canon (d : StructDecl) : StructDecl :=
  match d.shape with
  | .unit => ⟨{ d.toHead.canon with where_ := [] }, .unit⟩
  | s => ⟨d.toHead.canon, s.canon⟩

/-- The parsed struct is this struct. -/
def StructIs (d : StructDecl) (s : RStruct) : Prop :=
  AttrsAre d.attrs s.attrs ∧ s.vis = d.vis ∧ s.ident = d.name ∧ ParamsAre d.params s.generics ∧ ParamsAre d.where_ s.where_ ∧ ShapeIs d.shape s.fields

/-! ### Enums -/

/-- A variant, with the discriminant as sign and digits. -/
structure Variant where
  attrs : List Ann
  name : Str
  shape : Shape
  disc : Option (Bool × Str)

/-- A discriminant. -/
def discToks : Option (Bool × Str) → List Tok
  | none => []
  | some (false, ds) => [.punct '=', .lit ds]
  | some (true, ds) => [.punct '=', .punct '-', .lit ds]

/-- The number a discriminant denotes. -/
def discVal (p : Bool × Str) : Int := if p.1 then -(natOf p.2 : Int) else natOf p.2

/-- Its tokens. -/
def Variant.toks (v : Variant) : List Tok := annPart v.attrs ++ (.ident v.name :: (v.shape.toks ++ discToks v.disc))

/-- Well-formed: a discriminant fits an `isize` (64 bits). -/
def Variant.Ok (v : Variant) : Prop := AnnsOk v.attrs ∧ v.shape.Ok ∧ ∀ p, v.disc = some p → p.2 ≠ [] ∧ Digits p.2 ∧ -2 ^ 63 ≤ discVal p ∧ discVal p < 2 ^ 63

/-- Written back. -/
def Variant.canon (v : Variant) : Variant :=
  { v with attrs := annsCanon v.attrs, shape := v.shape.canon, disc := v.disc.map (fun p => (decide (discVal p < 0), Nat.toDigits 10 (natOf p.2))) }

/-- The parsed variant is this variant. -/
def VariantIs (v : Variant) (x : EnumValue) : Prop := AttrsAre v.attrs x.attrs ∧ x.ident = v.name ∧ ShapeIs v.shape x.fields ∧ x.disc = v.disc.map discVal

/-- An enum. -/
structure EnumDecl extends Head where
  variants : List Variant
  comma : Bool

/-- As it is declared. -/
def EnumDecl.toks (d : EnumDecl) : List Tok :=
  annPart d.attrs ++ (visToks d.vis ++ (.ident "enum".toList :: .ident d.name :: (d.paramPart ++ (d.wherePart ++
    [.group .brace (joinWith [.punct ','] (d.variants.map Variant.toks) ++ optComma d.comma)]))))

/-- Well-formed, with at least one variant. -/
def EnumDecl.Ok (d : EnumDecl) : Prop := d.toHead.Ok ∧ d.variants ≠ [] ∧ ∀ v ∈ d.variants, v.Ok

/-- As it is written back: a comma after every variant. -/
def EnumDecl.canon (d : EnumDecl) : EnumDecl := ⟨d.toHead.canon, d.variants.map Variant.canon, true⟩

/-- The parsed enum is this enum. -/
def EnumIs (d : EnumDecl) (s : REnum) : Prop :=
  AttrsAre d.attrs s.attrs ∧ s.vis = d.vis ∧ s.ident = d.name ∧ ParamsAre d.params s.generics ∧ ParamsAre d.where_ s.where_ ∧ AllTwo VariantIs d.variants s.values

/-! ### Functions -/

/-- A parameter: `name: type`, or a receiver (`self`, `&self`, `&mut self`), which is a type alone. -/
structure Arg where
  name : Option Str
  ty : List Tok

/-- Its tokens. -/
def Arg.toks (a : Arg) : List Tok := (match a.name with | some s => [.ident s, .punct ':'] | none => []) ++ a.ty

/-- Well-formed: the type has no `:` outside angle brackets (so no path `a::B`). -/
def Arg.Ok (a : Arg) : Prop := DeclTy a.ty ∧ Without ':' a.ty

/-- The identifiers of closure types. -/
def FnName (f : Str) : Prop := f = "Fn".toList ∨ f = "FnMut".toList ∨ f = "FnOnce".toList ∨ f = "fn".toList

/-- The types a function may return: as `DeclTy`, but the segments before the last `::` are plain identifiers, and closure types are only there if
`spaced` holds (the printer of the host separates `Fn` from its parentheses). -/
inductive RetTy (spaced : Prop) : Kind → List Tok → Prop
  | ident (pre : List Str) (s : Str) : ' ' ∉ s → RetTy spaced .path (pathToks (pre.map (fun p => [.ident p])) [.ident s])
  | apply (pre : List Str) (s : Str) (args : List (List Tok)) : ' ' ∉ s → args ≠ [] → (∀ a ∈ args, RetTy spaced .arg a) →
      RetTy spaced .path (pathToks (pre.map (fun p => [.ident p])) (.ident s :: .punct '<' :: (joinWith [.punct ','] args ++ [.punct '>'])))
  | paren (g : List Tok) : RetTy spaced .path [.group .paren g]
  | bracket (g : List Tok) : RetTy spaced .path [.group .bracket g]
  | life (a : Str) : RetTy spaced .path [.punct '\'', .ident a]
  | func (pre : List Str) (f : Str) (g rest : List Tok) : spaced → FnName f → Nest NoSep rest →
      RetTy spaced .path (pathToks (pre.map (fun p => [.ident p])) (.ident f :: .group .paren g :: rest))
  | bare (ps : List (List Tok)) : ps ≠ [] → (∀ p ∈ ps, RetTy spaced .path p) → Bare (joinWith [.punct '+'] ps) → RetTy spaced .ty (joinWith [.punct '+'] ps)
  | dyn (ps : List (List Tok)) : ps ≠ [] → (∀ p ∈ ps, RetTy spaced .path p) → Bare (joinWith [.punct '+'] ps) →
      RetTy spaced .ty (.ident "dyn".toList :: joinWith [.punct '+'] ps)
  | imp (ps : List (List Tok)) : ps ≠ [] → (∀ p ∈ ps, RetTy spaced .path p) → Bare (joinWith [.punct '+'] ps) →
      RetTy spaced .arg (.ident "impl".toList :: joinWith [.punct '+'] ps)
  | ofTy (t : List Tok) : RetTy spaced .ty t → RetTy spaced .arg t
  | ref (p : List Tok) : RetTy spaced .path p → Bare p → p.head? ≠ some (.punct '\'') → RetTy spaced .arg (.punct '&' :: p)
  | refMut (p : List Tok) : RetTy spaced .path p → Bare p → RetTy spaced .arg (.punct '&' :: .ident "mut".toList :: p)
  | refLifeMut (a : Str) (p : List Tok) : RetTy spaced .path p → Bare p → RetTy spaced .arg (.punct '&' :: .punct '\'' :: .ident a :: .ident "mut".toList :: p)
  | refLife (a : Str) (p : List Tok) : RetTy spaced .path p → Bare p → (∀ s, p.head? ≠ some (.ident s)) →
      RetTy spaced .arg (.punct '&' :: .punct '\'' :: .ident a :: p)
  | assoc (n : Str) (p : List Tok) : RetTy spaced .path p → Bare p → RetTy spaced .arg (.ident n :: .punct '=' :: p)

/-- What is assumed of `TokenStream::to_string` on single tokens. -/
structure Prints (text : List Tok → Str) : Prop where
  lit : ∀ s, text [.lit s] = s
  ident : ∀ s, text [.ident s] = s
  paren : ∀ g, ∃ r, text [.group .paren g] = '(' :: r
  bracket : ∀ g, ∃ r, text [.group .bracket g] = '[' :: r

/-- The printer puts a space between `Fn` and its parentheses. -/
def Spaced (text : List Tok → Str) : Prop := ∀ f g rest, FnName f → ∃ r, text (.ident f :: .group .paren g :: rest) = f ++ " (".toList ++ r

/-- The printer puts no space after a minus sign. -/
def Tight (text : List Tok → Str) : Prop := ∀ s, text [.punct '-', .lit s] = '-' :: s

/-- A function. -/
structure FnDecl extends Head where
  isAsync : Bool
  isConst : Bool
  isUnsafe : Bool
  /-- `extern`, and its ABI if there is one -/
  ext : Option (Option Str)
  args : List Arg
  comma : Bool
  ret : Option (List Tok)
  body : List Tok

/-- A keyword, if it is there. -/
def kwToks (b : Bool) (s : String) : List Tok := if b then [.ident s.toList] else []

/-- `extern "C"` -/
def extToks : Option (Option Str) → List Tok
  | none => []
  | some none => [.ident "extern".toList]
  | some (some s) => [.ident "extern".toList, .lit s]

/-- The result type. -/
def retToks : Option (List Tok) → List Tok
  | none => []
  | some ts => .punct '-' :: .punct '>' :: ts

/-- As it is declared. -/
def FnDecl.toks (d : FnDecl) : List Tok :=
  annPart d.attrs ++ (visToks d.vis ++ (kwToks d.isAsync "async" ++ (kwToks d.isConst "const" ++ (kwToks d.isUnsafe "unsafe" ++ (extToks d.ext ++
    (.ident "fn".toList :: .ident d.name :: (d.paramPart ++ (.group .paren (joinWith [.punct ','] (d.args.map Arg.toks) ++ optComma d.comma) ::
      (retToks d.ret ++ (d.wherePart ++ [.group .brace d.body]))))))))))

/-- Well-formed, with at least one parameter; no `where` or `{..}` in the result type. -/
def FnDecl.Ok (spaced : Prop) (d : FnDecl) : Prop := d.toHead.Ok ∧ d.args ≠ [] ∧ (∀ a ∈ d.args, a.Ok) ∧
  ∀ ts, d.ret = some ts → (RetTy spaced .arg ts ∧ ∀ t ∈ ts, t ≠ .ident "where".toList ∧ ∀ g, t ≠ .group .brace g)

/-- As it is written back: `extern` without ABI is lost. -/
def FnDecl.canon (d : FnDecl) : FnDecl := { d with toHead := d.toHead.canon, comma := false, ext := match d.ext with | some (some s) => some (some s) | _ => none }

/-- The parsed parameter is this parameter. -/
def ArgIs (a : Arg) (x : ParamItem) : Prop := x.ident = a.name ∧ x.ty.toks = a.ty

/-- The parsed function is this function. -/
def FnIs (d : FnDecl) (f : RFn) : Prop :=
  AttrsAre d.attrs f.attrs ∧ f.vis = d.vis ∧ f.isAsync = d.isAsync ∧ f.isConst = d.isConst ∧ f.isUnsafe = d.isUnsafe ∧ f.abi = d.ext.join ∧
  f.ident = d.name ∧ ParamsAre d.params f.generics ∧ AllTwo ArgIs d.args f.params ∧ f.ret.map RType.toks = d.ret ∧ ParamsAre d.where_ f.where_ ∧ f.body = d.body

end RJ.Spec
