import Verif.Spec.Refuse
/-
  Specification for C83: values whose text shows where it ends, and the errors for texts that go on too long or stop too early.
-/
namespace RJ.Spec
open RJ
variable {F : Type}

/-- Values whose text shows where it ends: all but numbers (`1` begins `12`) and the empty containers (nothing is checked after `[]` and `{}`). -/
def SelfDelimiting : Json F → Prop
  | .number _ => False
  | .array [] => False
  | .object [] => False
  | _ => True

/-- The error for the character `c` after a complete text of the value. -/
def TooLong (c : Char) : Json F → Error
  | .null => ⟨.ParseNullError, "error parsing null value.".toList⟩
  | .boolean _ => ⟨.ParseBooleanError, "error parsing boolean value.".toList⟩
  | .string _ => ⟨.ParseStringError, trailing c⟩
  | .array _ => ⟨.ParseArrayError, trailing c⟩
  | .object _ => ⟨.ParseObjectError, trailing c⟩
  | .number _ => ⟨.ParseNumberError, []⟩

/-- The errors for a text of the value that has begun but stops too early. -/
inductive CutShort : Json F → Error → Prop
  | null : CutShort .null ⟨.ParseNullError, "error parsing null value.".toList⟩
  | boolean (b : Bool) : CutShort (.boolean b) ⟨.ParseBooleanError, "error parsing boolean value.".toList⟩
  | string (s : Str) : CutShort (.string s) ⟨.ParseStringError, "missing \".".toList⟩
  /-- after a backslash -/
  | stringEsc (s : Str) : CutShort (.string s) ⟨.ParseStringError, "missing escaped character.".toList⟩
  /-- among the digits of `\uXXXX` -/
  | stringHex (s : Str) : CutShort (.string s) ⟨.ParseStringError, "parse unicode error: missing hex digit.".toList⟩
  /-- between the halves of a surrogate pair -/
  | stringPair (s : Str) : CutShort (.string s) ⟨.ParseStringError, "missing low surrogate.".toList⟩
  | array (l : List (Json F)) : CutShort (.array l) ⟨.ParseArrayError, "missing ].".toList⟩
  | arrayEsc (l : List (Json F)) : CutShort (.array l) ⟨.ParseArrayError, "missing escaped character.".toList⟩
  | object (m : Obj F) : CutShort (.object m) ⟨.ParseObjectError, "missing }.".toList⟩
  | objectEsc (m : Obj F) : CutShort (.object m) ⟨.ParseObjectError, "missing escaped character.".toList⟩

end RJ.Spec
