import Verif.Spec.PathText
import Verif.Spec.Convert
/-
  Specification of what error texts say.  Shared with the model: type expressions `Ty`, `KeyCodec`.
-/
namespace RJ.Spec
open RJ
variable {F : Type}

/-- The word for the kind of a value. -/
def kindWord : Val F → String
  | .obj _ => "object"
  | .arr _ => "array"
  | .str _ => "string"
  | .num _ => "number"
  | .bool _ => "boolean"
  | .null => "null"

/-- A text made of pieces. -/
def say : List Str → Str
  | [] => []
  | s :: l => s ++ say l

/-- The names of the error kinds. -/
def errorWord : ErrorKind → String
  | .InvalidJson => "InvalidJson" | .ParseObjectError => "ParseObjectError" | .ParseArrayError => "ParseArrayError"
  | .ParseStringError => "ParseStringError" | .ParseNumberError => "ParseNumberError" | .ParseBooleanError => "ParseBooleanError"
  | .ParseNullError => "ParseNullError" | .MissingKey => "MissingKey" | .IndexOutOfRange => "IndexOutOfRange"
  | .InvalidValueKind => "InvalidValueKind" | .PathSyntaxError => "PathSyntaxError" | .ConvertError => "ConvertError"

/-- What a failing component says about the value it is applied to. -/
inductive Blame : Finder → Val F → ErrorKind → Str → Prop
  | missing {k : Str} {m : Str → List (Val F)} : m k = [] →
      Blame (.key k) (.obj m) .MissingKey (say ["missing key \"".toList, k, "\".".toList])
  | range {i : Nat} {l : List (Val F)} : l.length ≤ i →
      Blame (.index i) (.arr l) .IndexOutOfRange (say ["index ".toList, (toString i).toList, " out of range.".toList])
  | notObject {k : Str} {v : Val F} : (∀ m, v ≠ .obj m) → Blame (.key k) v .InvalidValueKind
      (say ["find value by key \"".toList, k, "\" error: invalid value kind, expect object, got ".toList, (kindWord v).toList, ".".toList])
  | notArray {i : Nat} {v : Val F} : (∀ l, v ≠ .arr l) → Blame (.index i) v .InvalidValueKind
      (say ["find value by index ".toList, (toString i).toList, " error: invalid value kind, expect array, got ".toList, (kindWord v).toList, ".".toList])

/-- How a type is called in error texts. -/
def typeWord : Ty → String
  | .string => "String." | .bool => "bool." | .f64 => "f64." | .f32 => "f32." | .int name _ _ => name ++ "."
  | .vec _ => "Vec" | .pairs _ _ => "Vec<(K, V)>" | .map _ _ => "HashMap"
  | .json => "" | .option _ => ""

/-- `Complains t j msg`: there is something wrong in `j` for type `t`, and `msg` says what: a value of a kind that does not fit (here, or nested in arrays and
objects), or a member name that is no key. -/
inductive Complains : Ty → Json F → Str → Prop
  | kind {t : Ty} {j : Json F} : (∀ t', t ≠ .option t') → ¬ Accepts t j →
      Complains t j (say ["cannot convert ".toList, (kindWord (absJ j)).toList, " to ".toList, (typeWord t).toList])
  | elem {t : Ty} {l : List (Json F)} {x : Json F} {msg : Str} : x ∈ l → Complains t x msg → Complains (.vec t) (.array l) msg
  | opt {t : Ty} {j : Json F} {msg : Str} : j ≠ .null → Complains t j msg → Complains (.option t) j msg
  | key {κ : KeyCodec} {t : Ty} {m : Obj F} {k : Str} {v : Json F} {old : List (Json F)} : (k, v, old) ∈ m → κ.fromStr k = none →
      Complains (.pairs κ t) (.object m) (say ["error converting ".toList, k, " to key.".toList])
  | value {κ : KeyCodec} {t : Ty} {m : Obj F} {k : Str} {v x : Json F} {old : List (Json F)} {msg : Str} : (k, v, old) ∈ m → (x = v ∨ x ∈ old) →
      Complains t x msg → Complains (.pairs κ t) (.object m) msg
  | mapKey {κ : KeyCodec} {t : Ty} {m : Obj F} {k : Str} {v : Json F} {old : List (Json F)} : (k, v, old) ∈ m → κ.fromStr k = none →
      Complains (.map κ t) (.object m) (say ["error converting ".toList, k, " to key.".toList])
  | mapValue {κ : KeyCodec} {t : Ty} {m : Obj F} {k : Str} {v : Json F} {old : List (Json F)} {msg : Str} : (k, v, old) ∈ m →
      Complains t v msg → Complains (.map κ t) (.object m) msg

end RJ.Spec
