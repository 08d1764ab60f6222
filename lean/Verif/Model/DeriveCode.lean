import Verif.Model.Quote
/-
  The code the derive macros emit: the `quote!` templates of /repo/json_derive/src/lib.rs:35-53 and 86-117, copied from the source,
  read into tokens (`lexCode`), and expanded by the model of `quote!`.
-/
namespace RJ

/-! ### Reading source text into the token trees a macro sees (rustc) -/

/-- Letters, digits and `_` (the templates are ASCII). -/
def isWordChar (c : Char) : Bool := c = '_' || ('a'.toNat ≤ c.toNat && c.toNat ≤ 'z'.toNat) || ('A'.toNat ≤ c.toNat && c.toNat ≤ 'Z'.toNat) || isDigit c

/-- The operators of more than one character (Rust reference, tokens), longest first. -/
def longOps : List String :=
  ["<<=", ">>=", "...", "..=", "->", "=>", "<=", ">=", "!=", "&&", "||", "==", "+=", "-=", "*=", "/=", "%=", "&=", "^=", "|=", ">>", "<<", "..", "::"]

/-- The operator at the start of a text (longest match). -/
def opAt (s : Str) : List String → Option Str
  | [] => s.head?.map (fun c => [c])
  | o :: os => if o.toList.isPrefixOf s then some o.toList else opAt s os

/-- A string literal from after its opening quote, with the closing one; `esc`: the previous character was a backslash. -/
def takeStr : Bool → Str → Str × Str
  | _, [] => ([], [])
  | esc, c :: s =>
    if esc then let r := takeStr false s; (c :: r.1, r.2)
    else if c = '"' then ([c], s)
    else let r := takeStr (c = '\\') s; (c :: r.1, r.2)

/-- The delimiter that a bracket opens. -/
def openDelim (c : Char) : Option Delim :=
  if c = '(' then some .paren else if c = '{' then some .brace else if c = '[' then some .bracket else none

/-- Rust's lexer on the code of the templates: words, numbers, string literals, operators, brackets.  `stack`: the open groups with what precedes them (reversed). -/
def lexGo : Nat → Str → List (Delim × List MTok) → List MTok → Option (List MTok)
  | 0, _, _, _ => none
  | _ + 1, [], stack, acc => if stack.isEmpty then some acc.reverse else none
  | n + 1, c :: s, stack, acc =>
    if c = ' ' || c = '\n' then lexGo n s stack acc
    else if isDigit c then lexGo n ((c :: s).dropWhile isDigit) stack (.lit ((c :: s).takeWhile isDigit) :: acc)
    else if isWordChar c then
      let w := (c :: s).takeWhile isWordChar
      lexGo n ((c :: s).dropWhile isWordChar) stack ((if w = ['_'] then .under else .ident w) :: acc)
    else if c = '"' then
      let r := takeStr false s
      lexGo n r.2 stack (.lit (c :: r.1) :: acc)
    else
      match openDelim c with
      | some d => lexGo n s ((d, acc) :: stack) []
      | none =>
        if c = ')' || c = '}' || c = ']' then
          match stack with
          | (d, before) :: stack => lexGo n s stack (.group d acc.reverse :: before)
          | [] => none
        else
          match opAt (c :: s) longOps with
          | some o => lexGo n ((c :: s).drop o.length) stack (.op o :: acc)
          | none => none

/-- The token trees of a piece of source text. -/
def lexCode (s : String) : List MTok := (lexGo (s.toList.length + 1) s.toList [] []).getD []

/-! ### Expressions of the templates -/

/-- A member, a tuple component or a method without arguments of a value. -/
def QVal.member (name : Str) : QVal → Option QVal
  | .record _ ms => mapGet name ms
  | .list vs => if name = "len()".toList then some (.text [.lit (toString vs.length).toList]) else none
  | _ => none

/-- `.member`, `.0`, `.method()`, one after the other. -/
def evalPath : QVal → List MTok → Option QVal
  | v, [] => some v
  | v, .op ['.'] :: .ident m :: .group .paren [] :: rest => (v.member (m ++ "()".toList)).bind (fun w => evalPath w rest)
  | v, .op ['.'] :: .ident m :: rest => (v.member m).bind (fun w => evalPath w rest)
  | v, .op ['.'] :: .lit m :: rest => (v.member m).bind (fun w => evalPath w rest)
  | _, _ => none

/-- Rust's evaluation of the expressions in the templates: `x.path`, `&x.path`. -/
def evalExpr : Ev
  | sc, .op ['&'] :: .ident x :: rest => (mapGet x sc).bind (fun v => evalPath v rest)
  | sc, .ident x :: rest => (mapGet x sc).bind (fun v => evalPath v rest)
  | _, _ => none

/-! ### The macros -/

/-- Rust's lexer as the macros use it: `TokenStream::from_str` on a text, and on the text printed from tokens (of a type, of generics; the parser model keeps
these as tokens). -/
structure Lexer where
  text : Str → Option (List QTok)
  printed : List Tok → List QTok

/-- A `String` variable. -/
def Lexer.str (L : Lexer) (s : Str) : QVal := .record (parseText L.text s) []

/-- A value printed from tokens. -/
def Lexer.toks (L : Lexer) (ts : List Tok) : QVal := .text (L.printed ts)

/-- The members of `s: StructItem` the templates use: `ident`, `generics`, `where_clause` (/repo/json_derive/parse/src/lib.rs:145-168), with
`Generics::only_idents`. -/
def structVal (L : Lexer) (s : StructItem) : QVal :=
  .record none
    [("ident".toList, L.str s.ident),
     ("generics".toList, match s.generics with
       | some g => .present (.record (some (L.printed g.toks)) [("only_idents()".toList, L.toks g.onlyIdents)])
       | none => .absent),
     ("where_clause".toList, match s.where_ with
       | some w => .present (L.toks (WhereClause.toks w))
       | none => .absent)]

/-- The text of `format!("\"{}\".to_string()", k)`, /repo/json_derive/src/lib.rs:32. -/
def encodeKeyText (k : Str) : Str := '"' :: (k ++ "\".to_string()".toList)

/-- The text of `format!("\"{}\"", k)`, /repo/json_derive/src/lib.rs:84. -/
def decodeKeyText (k : Str) : Str := '"' :: (k ++ "\"".toList)

/-- The template of `JsonEncode`, /repo/json_derive/src/lib.rs:35-53. -/
def encodeSrc : String := r#"
                        impl#(#(&s.generics))? json::ToJson for #(s.ident)#(#(&s.generics):x #(x.only_idents()))?
                        #(#(&s.where_clause))?
                        {
                            fn to_json(&self) -> json::Json {
                                let map = std::collections::HashMap::with_capacity(#(v.len()));
                                let mut js = json::Json::Object(map);
                                #(#v:x
                                    match js.add_option(#(x.0), json::ToJson::to_json(&self.#(x.1)), true) {
                                        Ok(_) => (),
                                        Err(_) => unreachable!()
                                    };
                                )*
                                js
                            }
                        }
"#

/-- The template of `JsonDecode`, /repo/json_derive/src/lib.rs:86-117. -/
def decodeSrc : String := r#"
                        impl#(#(&s.generics))? json::FromJson for #(s.ident)#(#(&s.generics):x #(x.only_idents()))?
                        #(#(&s.where_clause))?
                        {
                            fn from_json(json: &json::Json) -> Result<Self, json::Error> {
                                match json {
                                    json::Json::Object(obj) => {
                                        Ok(
                                            #(s.ident) {
                                                #(#v:x
                                                    #(x.1): {
                                                        if let Some((v, _)) = obj.get(#(x.0)) {
                                                            <#(x.2) as json::FromJson>::from_json(v)?
                                                        } else {
                                                            return Err(json::Error::new(json::ErrorKind::MissingKey,
                                                                                        format!("missing key \"{}\".", #(x.0))));
                                                        }
                                                    },
                                                )*
                                                #(#ig:x
                                                    #(x.ident): std::default::Default::default(),
                                                )*
                                            }
                                        )
                                    }
                                    other => Err(json::Error::new(json::ErrorKind::ConvertError,
                                                                  format!("cannot convert {} to {}.",
                                                                          other._kind(), stringify!(#(s.ident))))),
                                }
                            }
                        }
"#

/-- The variables of the `JsonEncode` template, /repo/json_derive/src/lib.rs:12-34: `v` holds `(key text, field)`. -/
def encodeScope (L : Lexer) (s : StructItem) (v : List (Str × Str)) : Scope :=
  [("s".toList, structVal L s),
   ("v".toList, .list (v.map (fun p => .record none [("0".toList, L.str (encodeKeyText p.1)), ("1".toList, L.str p.2)])))]

/-- The variables of the `JsonDecode` template, /repo/json_derive/src/lib.rs:64-85: `v` holds `(key text, field, type)`, `ig` the ignored fields. -/
def decodeScope (L : Lexer) (s : StructItem) (v : List (Str × Str × List Tok)) (ig : List Str) : Scope :=
  [("s".toList, structVal L s),
   ("v".toList, .list (v.map (fun p => .record none [("0".toList, L.str (decodeKeyText p.1)), ("1".toList, L.str p.2.1), ("2".toList, L.toks p.2.2)]))),
   ("ig".toList, .list (ig.map (fun i => .record none [("ident".toList, L.str i)])))]

/-- `json_encode`, /repo/json_derive/src/lib.rs:8-58: the emitted tokens; `none`: the macro panics.  (The template uses neither `@params` nor `@scope`, so the bound
on `__translate` is 0.) -/
def encodeTokens (L : Lexer) (input : List Tok) : Option (List QTok) :=
  match Item.parse input with
  | none => none
  | some s =>
    match s.fields with
    | .struct v =>
      (collectO ((v.filter FieldItem.kept).map (fun x => x.key.map (fun k => (k, x.ident))))).bind
        (fun v => quoteMacro 0 evalExpr (encodeScope L s v) (lexCode encodeSrc))
    | _ => none

/-- `json_decode`, /repo/json_derive/src/lib.rs:60-124: the emitted tokens; `none`: the macro panics. -/
def decodeTokens (L : Lexer) (input : List Tok) : Option (List QTok) :=
  match Item.parse input with
  | none => none
  | some s =>
    match s.fields with
    | .struct v =>
      (collectO ((v.filter FieldItem.kept).map (fun x => x.key.map (fun k => (k, x.ident, x.ty.usedTy))))).bind
        (fun gets => quoteMacro 0 evalExpr (decodeScope L s gets ((v.filter (fun x => !x.kept)).map FieldItem.ident)) (lexCode decodeSrc))
    | _ => none

end RJ
