import Verif.Spec.Rfc
/-
  Specification: classes of texts which are not RFC 8259 JSON, by the first defect in the outermost value.
-/
namespace RJ.Spec
open RJ

/-- Characters an RFC 8259 value can start with. -/
def CanStart (c : Char) : Prop :=
  c = 'n' ∨ c = 't' ∨ c = 'f' ∨ c = '-' ∨ IsDigit c ∨ c = '"' ∨ c = '[' ∨ c = '{'

/-- An array up to (and including) the opening bracket or one of its commas. -/
inductive ArrPre : Str → Prop
  | open : ArrPre ['[']
  | comma (es : Elems) (h : es.Valid) : ArrPre ('[' :: es.text ++ [','])

/-- An object up to (and including) the opening brace or one of its commas. -/
inductive ObjPre : Str → Prop
  | open : ObjPre ['{']
  | comma (ms : Members) (h : ms.Valid) : ObjPre ('{' :: ms.text ++ [','])

/-- Values after which a missing comma is noticed: strings and non-empty containers. -/
def Delimited : Cst → Prop
  | .str _ => True
  | .arr _ => True
  | .obj _ => True
  | _ => False

/-- Texts whose outermost value is defective; `g` is arbitrary further text. -/
inductive Malformed : Str → Prop
  /-- nothing that can start a value -/
  | empty : Malformed []
  | start (c : Char) (g : Str) (h : ¬ CanStart c) (hw : ¬ IsWs c) : Malformed (c :: g)
  /-- more text after a complete string or non-empty container -/
  | after (x : Cst) (g : Str) (hx : x.Valid) (hd : Delimited x) (hg : ¬ WsStr g) : Malformed (x.text ++ g)
  /-- the text ends inside an array -/
  | arrOpen (p w : Str) (hp : ArrPre p) (hw : WsStr w) : Malformed (p ++ w)
  | arrUnclosed (es : Elems) (h : es.Valid) : Malformed ('[' :: es.text)
  /-- an element is expected, but something that cannot start one follows: a doubled, leading or trailing comma, ... -/
  | elem (p w : Str) (c : Char) (g : Str) (hp : ArrPre p) (hw : WsStr w) (h : ¬ CanStart c) (hc : ¬ IsWs c)
      (h0 : ¬ (p = ['['] ∧ c = ']')) : Malformed (p ++ w ++ c :: g)
  /-- a comma or `]` is expected after a string or non-empty container, but something else follows -/
  | sep (p w : Str) (x : Cst) (w' : Str) (c : Char) (g : Str) (hp : ArrPre p) (hw : WsStr w) (hx : x.Valid) (hd : Delimited x)
      (hw' : WsStr w') (hc : ¬ IsWs c) (h1 : c ≠ ',') (h2 : c ≠ ']') : Malformed (p ++ w ++ x.text ++ w' ++ c :: g)
  /-- the text ends inside an object -/
  | objOpen (p w : Str) (hp : ObjPre p) (hw : WsStr w) : Malformed (p ++ w)
  | objKeyOnly (p w : Str) (k : List StrItem) (w' : Str) (hp : ObjPre p) (hw : WsStr w) (hk : ∀ i ∈ k, i.Valid) (hw' : WsStr w') :
      Malformed (p ++ w ++ strText k ++ w')
  | objNoValue (p w : Str) (k : List StrItem) (w' w'' : Str) (hp : ObjPre p) (hw : WsStr w) (hk : ∀ i ∈ k, i.Valid) (hw' : WsStr w')
      (hw'' : WsStr w'') : Malformed (p ++ w ++ strText k ++ w' ++ [':'] ++ w'')
  | objUnclosed (ms : Members) (h : ms.Valid) : Malformed ('{' :: ms.text)
  /-- a member is expected, but something other than a quote follows: a key that is not a string, a missing key,
  a doubled, leading or trailing comma, ... -/
  | key (p w : Str) (c : Char) (g : Str) (hp : ObjPre p) (hw : WsStr w) (h : c ≠ '"') (hc : ¬ IsWs c)
      (h0 : ¬ (p = ['{'] ∧ c = '}')) : Malformed (p ++ w ++ c :: g)
  /-- a colon is expected, but something else follows -/
  | colon (p w : Str) (k : List StrItem) (w' : Str) (c : Char) (g : Str) (hp : ObjPre p) (hw : WsStr w) (hk : ∀ i ∈ k, i.Valid)
      (hw' : WsStr w') (hc : ¬ IsWs c) (h : c ≠ ':') : Malformed (p ++ w ++ strText k ++ w' ++ c :: g)
  /-- a member value is expected, but something that cannot start one follows (a second colon is not noticed) -/
  | value (p w : Str) (k : List StrItem) (w' w'' : Str) (c : Char) (g : Str) (hp : ObjPre p) (hw : WsStr w) (hk : ∀ i ∈ k, i.Valid)
      (hw' : WsStr w') (hw'' : WsStr w'') (h : ¬ CanStart c) (hc : ¬ IsWs c) (h0 : c ≠ ':') :
      Malformed (p ++ w ++ strText k ++ w' ++ [':'] ++ w'' ++ c :: g)
  /-- a comma or `}` is expected after a string or non-empty container, but something else follows -/
  | objSep (p w : Str) (k : List StrItem) (w' w'' : Str) (x : Cst) (w3 : Str) (c : Char) (g : Str) (hp : ObjPre p) (hw : WsStr w)
      (hk : ∀ i ∈ k, i.Valid) (hw' : WsStr w') (hw'' : WsStr w'') (hx : x.Valid) (hd : Delimited x) (hw3 : WsStr w3)
      (hc : ¬ IsWs c) (h1 : c ≠ ',') (h2 : c ≠ '}') (h3 : c ≠ ':') :
      Malformed (p ++ w ++ strText k ++ w' ++ [':'] ++ w'' ++ x.text ++ w3 ++ c :: g)

end RJ.Spec
