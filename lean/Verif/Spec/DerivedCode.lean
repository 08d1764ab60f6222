import Verif.Spec.Quote
import Verif.Spec.Struct
import Verif.Model.DeriveCode
import Verif.Model.Generated
/-
  The code the derive macros promise: the trait implementations for a struct, written out with the struct's parts in their places.
  Shared with the model: the tokens, the reading of source text (`lexCode`), how a string literal is read (`decodeKey`, see `Spec.RustStr`) and `Lexer`.
-/
namespace RJ.Spec
open RJ

/-- The tokens of a piece of code. -/
def code (s : String) : List QTok := codeAll (lexCode s)

/-- `"text"`. -/
def strLit (t : Str) : QTok := .lit ('"' :: (t ++ ['"']))

/-- A word as a token stream. -/
def word (s : Str) : List QTok := [.ident s]

/-- What the macros rely on in Rust's lexer: an empty text has no tokens, a string literal is read as one token, what follows it separately. -/
structure LexerOk (L : Lexer) : Prop where
  empty : L.printed [] = []
  literal : ∀ t v, decodeKey t = some v → L.text ('"' :: (t ++ ['"'])) = some [strLit t]
  call : ∀ t v, encodeKey t = some v → L.text ('"' :: (t ++ "\".to_string()".toList)) = some (strLit t :: code ".to_string()")

/-- A word the lexer reads as an identifier. -/
def ReadsIdent (L : Lexer) (s : Str) : Prop := AsciiIdent s ∨ L.text s = some [.ident s]

/-- `<..>` around a list, if it is not empty. -/
def angleList (l : List (List Tok)) : List Tok := if l.isEmpty then [] else .punct '<' :: (joinWith [.punct ','] l ++ [.punct '>'])

/-- `where ..`, if there are clauses. -/
def whereList (l : List (List Tok)) : List Tok := if l.isEmpty then [] else .ident "where".toList :: joinWith [.punct ','] l

/-- `impl<T: A> json::Trait for Name<T> where T: B`; `traitFor`: `json::Trait for`. -/
def implHead (L : Lexer) (traitFor : List QTok) (s : Struct) : List QTok :=
  code "impl" ++ L.printed (angleList (s.params.map Param.toks)) ++ traitFor ++ word s.name ++
    L.printed (angleList (s.params.map Param.name)) ++ L.printed (whereList (s.where_.map Param.toks))

/-- `match js.add_option("key".to_string(), json::ToJson::to_json(&self.field), true) { .. };` -/
def addCall (key : Str) (f : Field) : List QTok :=
  code "match js.add_option" ++
    [.group .paren (strLit key :: (code ".to_string()" ++ code ", json::ToJson::to_json" ++ [.group .paren (code "&self." ++ word f.name)] ++ code ", true"))] ++
    code "{ Ok(_) => (), Err(_) => unreachable!() };"

/-- The statements of `to_json`: an empty object with room for all members, a call for every member, the object. -/
def encodeBody (ms : List (Str × Field)) : List QTok :=
  code "let map = std::collections::HashMap::with_capacity" ++ [.group .paren [.lit (toString ms.length).toList]] ++ code "; let mut js = json::Json::Object(map);" ++
    ms.flatMap (fun m => addCall m.1 m.2) ++ code "js"

/-- The implementation of `ToJson`; `ms`: the members, as the text of the key literal and the field. -/
def encodeCode (L : Lexer) (s : Struct) (ms : List (Str × Field)) : List QTok :=
  implHead L (code "json::ToJson for") s ++ [.group .brace (code "fn to_json(&self) -> json::Json" ++ [.group .brace (encodeBody ms)])]

/-- `field: { if let Some((v, _)) = obj.get("key") { <Type as json::FromJson>::from_json(v)? } else { return Err(..) } },` -/
def getInit (L : Lexer) (key : Str) (f : Field) : List QTok :=
  word f.name ++ code ":" ++
    [.group .brace (code "if let Some((v, _)) = obj.get" ++ [.group .paren [strLit key]] ++
      [.group .brace (code "<" ++ L.printed f.ty ++ code "as json::FromJson>::from_json(v)?")] ++ code "else" ++
      [.group .brace (code "return Err" ++
        [.group .paren (code "json::Error::new" ++
          [.group .paren (code "json::ErrorKind::MissingKey, format!" ++ [.group .paren (code "\"missing key \\\"{}\\\".\"," ++ [strLit key])])])] ++ code ";")])] ++
    code ","

/-- `field: std::default::Default::default(),` -/
def defaultInit (f : Field) : List QTok := word f.name ++ code ": std::default::Default::default(),"

/-- The body of `from_json`. -/
def decodeBody (L : Lexer) (s : Struct) (ms : List (Str × Field)) : List QTok :=
  code "match json" ++
    [.group .brace (code "json::Json::Object(obj) =>" ++
      [.group .brace (code "Ok" ++ [.group .paren (word s.name ++
        [.group .brace (ms.flatMap (fun m => getInit L m.1 m.2) ++ s.ignored.flatMap defaultInit)])])] ++
      code "other => Err" ++
      [.group .paren (code "json::Error::new" ++
        [.group .paren (code "json::ErrorKind::ConvertError, format!" ++
          [.group .paren (code "\"cannot convert {} to {}.\", other._kind(), stringify!" ++ [.group .paren (word s.name)])])])] ++
      code ",")]

/-- The implementation of `FromJson`. -/
def decodeCode (L : Lexer) (s : Struct) (ms : List (Str × Field)) : List QTok :=
  implHead L (code "json::FromJson for") s ++
    [.group .brace (code "fn from_json(json: &json::Json) -> Result<Self, json::Error>" ++ [.group .brace (decodeBody L s ms)])]

/-- The members of a struct: its fields that are not ignored, in order, each with the text of a literal that denotes its key. -/
def MembersOf (s : Struct) (ms : List (Str × Field)) : Prop :=
  ms.map (·.2) = s.kept ∧ ∀ m ∈ ms, decodeKey m.1 = some m.2.key

end RJ.Spec
