import Verif.Model.Convert
/-
  Model of the text of errors and of `FromStr` (/repo/src/lib.rs:50-98, 150-155).
-/
namespace RJ

/-- `impl Display for ErrorKind`, /repo/src/lib.rs:79-98. -/
def ErrorKind.display : ErrorKind → Str
  | .InvalidJson => "InvalidJson".toList
  | .ParseObjectError => "ParseObjectError".toList
  | .ParseArrayError => "ParseArrayError".toList
  | .ParseStringError => "ParseStringError".toList
  | .ParseNumberError => "ParseNumberError".toList
  | .ParseBooleanError => "ParseBooleanError".toList
  | .ParseNullError => "ParseNullError".toList
  | .MissingKey => "MissingKey".toList
  | .IndexOutOfRange => "IndexOutOfRange".toList
  | .InvalidValueKind => "InvalidValueKind".toList
  | .PathSyntaxError => "PathSyntaxError".toList
  | .ConvertError => "ConvertError".toList

/-- `impl Display for Error`, /repo/src/lib.rs:52-56: `"{}: {}"`. -/
def Error.display (e : Error) : Str := e.kind.display ++ ": ".toList ++ e.msg

/-- `impl FromStr for Json`, /repo/src/lib.rs:150-155. -/
def Json.fromStr {F : Type} [FloatOps F] (s : Str) : Res (Json F) := Json.parse s

end RJ
