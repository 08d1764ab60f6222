import Verif.Spec.Accept
import Verif.Spec.Malformed
/-
  Specification: the texts that `parse` refuses, each with the kind and the message of its error.  Pieces of containers are as in Spec/Accept.
-/
namespace RJ.Spec
open RJ

/-- A text cut off at both ends: no whitespace there. -/
def Trimmed (t : Str) : Prop := (∀ c r, t = c :: r → ¬ IsWs c) ∧ ∀ r c, t = r ++ [c] → ¬ IsWs c

/-- The complaint about a character after the end of a string, an array or an object. -/
def trailing (c : Char) : Str := "invalid trailing character: ".toList ++ c :: ".".toList

/-! ### Numbers -/

/-- The text starts like a number: perhaps `-`, then `0` or all the digits of a number, and a `.` only in front of a digit. -/
def NumberStart (t : Str) : Prop := ∃ (neg : Bool) (int rest : Str), t = (if neg then ['-'] else []) ++ int ++ rest ∧
  (int = ['0'] ∨ (int ≠ [] ∧ Digits int ∧ int.head? ≠ some '0' ∧ ∀ c r, rest = c :: r → ¬ IsDigit c)) ∧
  ∀ r, rest = '.' :: r → ∃ d r', r = d :: r' ∧ IsDigit d

/-! ### Strings -/

/-- Fewer than four hexadecimal digits. -/
inductive BadHex : Str → Str → Prop
  | short (hs : Str) (hl : hs.length < 4) (hh : ∀ h ∈ hs, (hexVal h).isSome) : BadHex hs "parse unicode error: missing hex digit.".toList
  | digit (hs : Str) (c : Char) (r : Str) (hl : hs.length < 4) (hh : ∀ h ∈ hs, (hexVal h).isSome) (hc : hexVal c = none) :
      BadHex (hs ++ c :: r) ("parse unicode error: invalid hex digit ".toList ++ c :: ".".toList)

/-- What is wrong where the good part of a string literal (`items`) ends. -/
inductive BadItem : Str → Str → Prop
  | unclosed : BadItem [] "missing \".".toList
  | control (c : Char) (r : Str) (hc : c.toNat < 0x20) : BadItem (c :: r) "invalid character.".toList
  | hanging : BadItem ['\\'] "missing escaped character.".toList
  | escape (e : Char) (r : Str) (he : escVal e = none) (hu : e ≠ 'u') : BadItem ('\\' :: e :: r) "missing escaped character.".toList
  | hex (r m : Str) (hr : BadHex r m) : BadItem ('\\' :: 'u' :: r) m
  | noLow (a b c d : Char) (u : Nat) (r : Str) (hu : unitVal a b c d = some u) (hi : 0xD800 ≤ u ∧ u ≤ 0xDBFF) (hr : ∀ r', r ≠ '\\' :: 'u' :: r') :
      BadItem ('\\' :: 'u' :: a :: b :: c :: d :: r) "missing low surrogate.".toList
  | lowHex (a b c d : Char) (u : Nat) (r m : Str) (hu : unitVal a b c d = some u) (hi : 0xD800 ≤ u ∧ u ≤ 0xDBFF) (hr : BadHex r m) :
      BadItem ('\\' :: 'u' :: a :: b :: c :: d :: '\\' :: 'u' :: r) m
  | badLow (a b c d a' b' c' d' : Char) (u l : Nat) (r : Str) (hu : unitVal a b c d = some u) (hi : 0xD800 ≤ u ∧ u ≤ 0xDBFF)
      (hl : unitVal a' b' c' d' = some l) (hlo : ¬ (0xDC00 ≤ l ∧ l ≤ 0xDFFF)) :
      BadItem ('\\' :: 'u' :: a :: b :: c :: d :: '\\' :: 'u' :: a' :: b' :: c' :: d' :: r) "invalid low surrogate.".toList
  | loneLow (a b c d : Char) (u : Nat) (r : Str) (hu : unitVal a b c d = some u) (hi : 0xDC00 ≤ u ∧ u ≤ 0xDFFF) :
      BadItem ('\\' :: 'u' :: a :: b :: c :: d :: r) "invalid utf-8 encoding.".toList
  | trail (w : Str) (c : Char) (r : Str) (hw : WsStr w) (hc : ¬ IsWs c) : BadItem ('"' :: (w ++ c :: r)) (trailing c)

/-! ### Containers -/

/-- No character `stop` at a place that counts. -/
def Unstopped (stop : Char → Prop) (gs : List Glyph) : Prop := GlyphsOk gs ∧ ∀ a c b, gs = a ++ .ch c :: b → Outside a → ¬ stop c

/-- The end `e` of the element `s` is in order: the closing bracket, or a comma after something and not in front of the closing bracket. -/
inductive ElemEnd (s : Str) : Str → Prop
  | close (r : Str) : ElemEnd s (']' :: r)
  | comma (r : Str) (hs : s ≠ []) (hr : ∀ r', r ≠ ']' :: r') : ElemEnd s (',' :: r)

/-- The same for a member `k : v`. -/
inductive MemberEnd (k v : Str) : Str → Prop
  | close (r : Str) : MemberEnd k v ('}' :: r)
  | comma (r : Str) (hk : k ≠ []) (hv : v ≠ []) (hr : ∀ r', r ≠ '}' :: r') : MemberEnd k v (',' :: r)

section
variable (F : Type) [FloatOps F]

mutual
/-- `Fails F t kind msg`: the text `t` (without whitespace around it) is refused with this error. -/
inductive Fails : Str → ErrorKind → Str → Prop
  | empty : Fails [] .InvalidJson "invalid json.".toList
  | start (c : Char) (r : Str) (hc : ¬ CanStart c) : Fails (c :: r) .InvalidJson "invalid json.".toList
  | null (r : Str) (hr : 'n' :: r ≠ "null".toList) : Fails ('n' :: r) .ParseNullError "error parsing null value.".toList
  | true (r : Str) (hr : 't' :: r ≠ "true".toList) : Fails ('t' :: r) .ParseBooleanError "error parsing boolean value.".toList
  | false (r : Str) (hr : 'f' :: r ≠ "false".toList) : Fails ('f' :: r) .ParseBooleanError "error parsing boolean value.".toList
  | number (c : Char) (r : Str) (hc : c = '-' ∨ IsDigit c) (hn : ¬ NumberStart (c :: r)) : Fails (c :: r) .ParseNumberError "invalid number.".toList
  | notNumber (c : Char) (r : Str) (hc : c = '-' ∨ IsDigit c) (hn : NumberStart (c :: r)) (h : ¬ ∃ n : NumLit, n.Accepted ∧ c :: r = n.text) :
      Fails (c :: r) .ParseNumberError "error parsing number value.".toList
  | large (n : NumLit) (hn : n.Accepted) (hf : (NumLit.value n : Option F) = none) : Fails n.text .ParseNumberError "error number too large.".toList
  | str (items : List StrItem) (s r m : Str) (hs : strVal items = some s) (hr : BadItem r m) : Fails ('"' :: (bodyText items ++ r)) .ParseStringError m
  | arr (r : Str) (k : ErrorKind) (m : Str) (hr : ∀ r', r ≠ ']' :: r') (h : FailsElems r k m) : Fails ('[' :: r) k m
  | obj (r : Str) (k : ErrorKind) (m : Str) (hr : ∀ r', r ≠ '}' :: r') (h : FailsMembers r k m) : Fails ('{' :: r) k m
/-- The same for the elements of an array and what follows. -/
inductive FailsElems : Str → ErrorKind → Str → Prop
  | unclosed (gs : List Glyph) (hs : Unstopped ElemStop gs) : FailsElems (glyphs gs) .ParseArrayError "missing ].".toList
  | hanging (gs : List Glyph) (hs : Unstopped ElemStop gs) : FailsElems (glyphs gs ++ ['\\']) .ParseArrayError "missing escaped character.".toList
  | empty (gs : List Glyph) (r : Str) (hs : Segment ElemStop gs) (he : squeeze IsWs gs = []) :
      FailsElems (glyphs gs ++ ',' :: r) .ParseArrayError "invalid empty element.".toList
  | comma (gs : List Glyph) (r : Str) (hs : Segment ElemStop gs) (he : squeeze IsWs gs ≠ []) :
      FailsElems (glyphs gs ++ ',' :: ']' :: r) .ParseArrayError "invalid trailing comma.".toList
  | elem (gs : List Glyph) (e : Str) (k : ErrorKind) (m : Str) (hs : Segment ElemStop gs) (he : ElemEnd (squeeze IsWs gs) e) (h : Fails (squeeze IsWs gs) k m) :
      FailsElems (glyphs gs ++ e) k m
  | trail (gs : List Glyph) (v : Val F) (w : Str) (c : Char) (r : Str) (hs : Segment ElemStop gs) (hv : Reads (squeeze IsWs gs) v) (hw : WsStr w) (hc : ¬ IsWs c) :
      FailsElems (glyphs gs ++ ']' :: (w ++ c :: r)) .ParseArrayError (trailing c)
  | next (gs : List Glyph) (v : Val F) (r : Str) (k : ErrorKind) (m : Str) (hs : Segment ElemStop gs) (hv : Reads (squeeze IsWs gs) v)
      (he : ElemEnd (squeeze IsWs gs) (',' :: r)) (h : FailsElems r k m) : FailsElems (glyphs gs ++ ',' :: r) k m
/-- The same for the members of an object and what follows. -/
inductive FailsMembers : Str → ErrorKind → Str → Prop
  | noColon (kg : List Glyph) (hk : Unstopped KeyStop kg) : FailsMembers (glyphs kg) .ParseObjectError "missing }.".toList
  | hangingKey (kg : List Glyph) (hk : Unstopped KeyStop kg) : FailsMembers (glyphs kg ++ ['\\']) .ParseObjectError "missing escaped character.".toList
  | unclosed (kg vg : List Glyph) (hk : Segment KeyStop kg) (hs : Unstopped ValueStop vg) :
      FailsMembers (glyphs kg ++ ':' :: glyphs vg) .ParseObjectError "missing }.".toList
  | hanging (kg vg : List Glyph) (hk : Segment KeyStop kg) (hs : Unstopped ValueStop vg) :
      FailsMembers (glyphs kg ++ ':' :: (glyphs vg ++ ['\\'])) .ParseObjectError "missing escaped character.".toList
  | empty (kg vg : List Glyph) (r : Str) (hk : Segment KeyStop kg) (hs : Segment ValueStop vg) (he : squeeze IsWs kg = [] ∨ squeeze ValueDrop vg = []) :
      FailsMembers (glyphs kg ++ ':' :: (glyphs vg ++ ',' :: r)) .ParseObjectError "invalid empty member.".toList
  | comma (kg vg : List Glyph) (r : Str) (hk : Segment KeyStop kg) (hs : Segment ValueStop vg) (hke : squeeze IsWs kg ≠ []) (hve : squeeze ValueDrop vg ≠ []) :
      FailsMembers (glyphs kg ++ ':' :: (glyphs vg ++ ',' :: '}' :: r)) .ParseObjectError "invalid trailing comma.".toList
  /-- A key that is not a string, whatever is wrong with it. -/
  | key (kg vg : List Glyph) (e : Str) (hk : Segment KeyStop kg) (hs : Segment ValueStop vg) (he : MemberEnd (squeeze IsWs kg) (squeeze ValueDrop vg) e)
      (h : ¬ ∃ s, Reads (squeeze IsWs kg) (.str s : Val F)) : FailsMembers (glyphs kg ++ ':' :: (glyphs vg ++ e)) .ParseObjectError "error parsing key string.".toList
  | value (kg vg : List Glyph) (s e : Str) (k : ErrorKind) (m : Str) (hk : Segment KeyStop kg) (hs : Segment ValueStop vg)
      (he : MemberEnd (squeeze IsWs kg) (squeeze ValueDrop vg) e) (hkv : Reads (squeeze IsWs kg) (.str s : Val F)) (h : Fails (squeeze ValueDrop vg) k m) :
      FailsMembers (glyphs kg ++ ':' :: (glyphs vg ++ e)) k m
  | trail (kg vg : List Glyph) (s : Str) (v : Val F) (w : Str) (c : Char) (r : Str) (hk : Segment KeyStop kg) (hs : Segment ValueStop vg)
      (hkv : Reads (squeeze IsWs kg) (.str s : Val F)) (hv : Reads (squeeze ValueDrop vg) v) (hw : WsStr w) (hc : ¬ IsWs c) :
      FailsMembers (glyphs kg ++ ':' :: (glyphs vg ++ '}' :: (w ++ c :: r))) .ParseObjectError (trailing c)
  | next (kg vg : List Glyph) (s : Str) (v : Val F) (r : Str) (k : ErrorKind) (m : Str) (hk : Segment KeyStop kg) (hs : Segment ValueStop vg)
      (hkv : Reads (squeeze IsWs kg) (.str s : Val F)) (hv : Reads (squeeze ValueDrop vg) v) (he : MemberEnd (squeeze IsWs kg) (squeeze ValueDrop vg) (',' :: r))
      (h : FailsMembers r k m) : FailsMembers (glyphs kg ++ ':' :: (glyphs vg ++ ',' :: r)) k m
end

end

end RJ.Spec
