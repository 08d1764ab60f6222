import Verif.Model.Basic
/-
  Specification: RFC 8259 concrete syntax trees, the texts they stand for and the values they denote.
  Independent of the parser and printer models (only the types `Str`, `Json` and the float interface are shared).
-/
namespace RJ.Spec
open RJ

/-- Abstract JSON values.  An object maps every name to the list of the values of the members with that name, in document
order (the empty list: no such member).  Two values are equal exactly if they cannot be told apart by looking
members up; there is no hash order left. -/
inductive Val (F : Type)
  | obj (members : Str → List (Val F))
  | arr (items : List (Val F))
  | str (s : Str)
  | num (f : F)
  | bool (b : Bool)
  | null

/-- RFC 8259 `ws` characters. -/
def IsWs (c : Char) : Prop := c.toNat = 0x20 ∨ c.toNat = 0x09 ∨ c.toNat = 0x0A ∨ c.toNat = 0x0D

/-- RFC 8259 `ws`. -/
def WsStr (s : Str) : Prop := ∀ c ∈ s, IsWs c

/-! ### Strings -/

/-- Value of an RFC 5234 `HEXDIG` (either case). -/
def hexVal (c : Char) : Option Nat :=
  let u := c.toNat
  if 48 ≤ u ∧ u ≤ 57 then some (u - 48)
  else if 65 ≤ u ∧ u ≤ 70 then some (u - 55)
  else if 97 ≤ u ∧ u ≤ 102 then some (u - 87)
  else none

/-- RFC 8259 `char`: an unescaped character, a two-character escape or `\uXXXX`. -/
inductive StrItem
  | plain (c : Char)
  | esc (c : Char)
  | uni (a b c d : Char)

/-- The characters of one string item. -/
def StrItem.text : StrItem → Str
  | .plain c => [c]
  | .esc c => ['\\', c]
  | .uni a b c d => ['\\', 'u', a, b, c, d]

/-- The character a two-character escape stands for. -/
def escVal (c : Char) : Option Char :=
  if c = '"' then some '"'
  else if c = '\\' then some '\\'
  else if c = '/' then some '/'
  else if c = 'b' then some (Char.ofNat 0x08)
  else if c = 'f' then some (Char.ofNat 0x0C)
  else if c = 'n' then some (Char.ofNat 0x0A)
  else if c = 'r' then some (Char.ofNat 0x0D)
  else if c = 't' then some (Char.ofNat 0x09)
  else none

/-- The 16-bit code unit of `\uXXXX`. -/
def unitVal (a b c d : Char) : Option Nat :=
  match hexVal a, hexVal b, hexVal c, hexVal d with
  | some a, some b, some c, some d => some (((a * 16 + b) * 16 + c) * 16 + d)
  | _, _, _, _ => none

/-- Grammar of one item. -/
def StrItem.Valid : StrItem → Prop
  | .plain c => 0x20 ≤ c.toNat ∧ c ≠ '"' ∧ c ≠ '\\'
  | .esc c => (escVal c).isSome
  | .uni a b c d => (unitVal a b c d).isSome

/-- The string a sequence of items denotes; `none` if an item is not grammatical or a `\u` escape is a surrogate which is
not part of a high/low pair (then the literal denotes no Unicode string). -/
def strVal : List StrItem → Option Str
  | [] => some []
  | .plain c :: t => if 0x20 ≤ c.toNat ∧ c ≠ '"' ∧ c ≠ '\\' then (strVal t).map (c :: ·) else none
  | .esc e :: t =>
    match escVal e with
    | some c => (strVal t).map (c :: ·)
    | none => none
  | .uni a b c d :: t =>
    match unitVal a b c d with
    | none => none
    | some u =>
      if 0xD800 ≤ u ∧ u ≤ 0xDBFF then
        match t with
        | .uni a' b' c' d' :: t' =>
          match unitVal a' b' c' d' with
          | some l =>
            if 0xDC00 ≤ l ∧ l ≤ 0xDFFF then
              (strVal t').map (Char.ofNat (0x10000 + (u - 0xD800) * 0x400 + (l - 0xDC00)) :: ·)
            else none
          | none => none
        | _ => none
      else if 0xDC00 ≤ u ∧ u ≤ 0xDFFF then none
      else (strVal t).map (Char.ofNat u :: ·)

/-- Characters between the quotes. -/
def bodyText : List StrItem → Str
  | [] => []
  | i :: t => i.text ++ bodyText t

/-- RFC 8259 `string`. -/
def strText (s : List StrItem) : Str := ['"'] ++ bodyText s ++ ['"']

/-! ### Numbers -/

/-- Decimal digit. -/
def IsDigit (c : Char) : Prop := 0x30 ≤ c.toNat ∧ c.toNat ≤ 0x39

/-- A run of decimal digits (possibly empty). -/
def Digits (s : Str) : Prop := ∀ c ∈ s, IsDigit c

/-- RFC 8259 `number`: optional minus, integer part, optional fraction digits, optional exponent
(letter, sign characters, digits). -/
structure NumLit where
  neg : Bool
  int : Str
  frac : Option Str
  exp : Option (Char × Str × Str)

/-- Text of a number literal. -/
def NumLit.text (n : NumLit) : Str :=
  (if n.neg then ['-'] else []) ++ n.int ++
  (match n.frac with | some f => '.' :: f | none => []) ++
  (match n.exp with | some (e, sg, ds) => e :: (sg ++ ds) | none => [])

/-- Number literals with superfluous leading zeros allowed. -/
def NumLit.Loose (n : NumLit) : Prop :=
  (n.int ≠ [] ∧ Digits n.int) ∧
  (∀ f, n.frac = some f → f ≠ [] ∧ Digits f) ∧
  (∀ e sg ds, n.exp = some (e, sg, ds) →
    (e = 'e' ∨ e = 'E') ∧ (sg = [] ∨ sg = ['+'] ∨ sg = ['-']) ∧ ds ≠ [] ∧ Digits ds)

/-- RFC 8259 `number` grammar: no superfluous leading zero. -/
def NumLit.Valid (n : NumLit) : Prop :=
  n.Loose ∧ (n.int.head? = some '0' → n.int = ['0'])

/-! ### Documents -/

mutual
/-- Concrete syntax trees of RFC 8259 `value`. -/
inductive Cst
  | null
  | true
  | false
  | num (n : NumLit)
  | str (s : List StrItem)
  /-- `[ ws ]` -/
  | arr0 (ws : Str)
  | arr (es : Elems)
  /-- `{ ws }` -/
  | obj0 (ws : Str)
  | obj (ms : Members)
/-- Non-empty comma separated values, each `ws value ws`. -/
inductive Elems
  | one (w1 : Str) (x : Cst) (w2 : Str)
  | cons (w1 : Str) (x : Cst) (w2 : Str) (t : Elems)
/-- Non-empty comma separated members, each `ws string ws : ws value ws`. -/
inductive Members
  | one (w1 : Str) (k : List StrItem) (w2 w3 : Str) (x : Cst) (w4 : Str)
  | cons (w1 : Str) (k : List StrItem) (w2 w3 : Str) (x : Cst) (w4 : Str) (t : Members)
end

mutual
/-- The text of a syntax tree. -/
def Cst.text : Cst → Str
  | .null => "null".toList
  | .true => "true".toList
  | .false => "false".toList
  | .num n => n.text
  | .str s => strText s
  | .arr0 ws => ['['] ++ ws ++ [']']
  | .arr es => ['['] ++ es.text ++ [']']
  | .obj0 ws => ['{'] ++ ws ++ ['}']
  | .obj ms => ['{'] ++ ms.text ++ ['}']
def Elems.text : Elems → Str
  | .one w1 x w2 => w1 ++ x.text ++ w2
  | .cons w1 x w2 t => w1 ++ x.text ++ w2 ++ [','] ++ t.text
def Members.text : Members → Str
  | .one w1 k w2 w3 x w4 => w1 ++ strText k ++ w2 ++ [':'] ++ w3 ++ x.text ++ w4
  | .cons w1 k w2 w3 x w4 t => w1 ++ strText k ++ w2 ++ [':'] ++ w3 ++ x.text ++ w4 ++ [','] ++ t.text
end

mutual
/-- The RFC 8259 grammar. -/
def Cst.Valid : Cst → Prop
  | .null => True
  | .true => True
  | .false => True
  | .num n => n.Valid
  | .str s => ∀ i ∈ s, i.Valid
  | .arr0 ws => WsStr ws
  | .arr es => es.Valid
  | .obj0 ws => WsStr ws
  | .obj ms => ms.Valid
def Elems.Valid : Elems → Prop
  | .one w1 x w2 => WsStr w1 ∧ x.Valid ∧ WsStr w2
  | .cons w1 x w2 t => WsStr w1 ∧ x.Valid ∧ WsStr w2 ∧ t.Valid
def Members.Valid : Members → Prop
  | .one w1 k w2 w3 x w4 => WsStr w1 ∧ (∀ i ∈ k, i.Valid) ∧ WsStr w2 ∧ WsStr w3 ∧ x.Valid ∧ WsStr w4
  | .cons w1 k w2 w3 x w4 t =>
    (WsStr w1 ∧ (∀ i ∈ k, i.Valid) ∧ WsStr w2 ∧ WsStr w3 ∧ x.Valid ∧ WsStr w4) ∧ t.Valid
end

/-- The values of the members called `k`, in order. -/
def named {F : Type} (ms : List (Str × Val F)) (k : Str) : List (Val F) :=
  (ms.filter (fun m => m.1 = k)).map (·.2)

section
variable {F : Type} [FloatOps F]

/-- The `f64` a number literal denotes (the std conversion); `none` if it is not finite. -/
def NumLit.value (n : NumLit) : Option F :=
  match (FloatOps.parse n.text : Option F) with
  | some f => if FloatOps.isFinite f then some f else none
  | none => none

mutual
/-- The value a syntax tree denotes; `none` if it contains a string with an unpaired surrogate or a number outside the
range of `f64`. -/
def Cst.value : Cst → Option (Val F)
  | .null => some .null
  | .true => some (.bool Bool.true)
  | .false => some (.bool Bool.false)
  | .num n => (NumLit.value n).map .num
  | .str s => (strVal s).map .str
  | .arr0 _ => some (.arr [])
  | .arr es => (Elems.value es).map .arr
  | .obj0 _ => some (.obj (named []))
  | .obj ms => (Members.value ms).map (fun l => .obj (named l))
def Elems.value : Elems → Option (List (Val F))
  | .one _ x _ => (Cst.value x).map ([·])
  | .cons _ x _ t =>
    match Cst.value x, Elems.value t with
    | some v, some l => some (v :: l)
    | _, _ => none
def Members.value : Members → Option (List (Str × Val F))
  | .one _ k _ _ x _ =>
    match strVal k, Cst.value x with
    | some k, some v => some [(k, v)]
    | _, _ => none
  | .cons _ k _ _ x _ t =>
    match strVal k, Cst.value x, Members.value t with
    | some k, some v, some l => some ((k, v) :: l)
    | _, _, _ => none
end

end

/-- An RFC 8259 `JSON-text`: `ws value ws`. -/
structure Doc where
  pre : Str
  body : Cst
  post : Str

def Doc.text (d : Doc) : Str := d.pre ++ d.body.text ++ d.post
def Doc.Valid (d : Doc) : Prop := WsStr d.pre ∧ d.body.Valid ∧ WsStr d.post

/-! ### The abstract value of a `Json` -/

section
variable {F : Type}

mutual
/-- The abstract value of a `Json` (order of the hash maps forgotten; the duplicate list is stored newest first
behind the current value). -/
def absJ : Json F → Val F
  | .object m => .obj (absMap m)
  | .array l => .arr (absList l)
  | .string s => .str s
  | .number f => .num f
  | .boolean b => .bool b
  | .null => .null
def absMap : List (Str × (Json F × List (Json F))) → Str → List (Val F)
  | [], _ => []
  | (k, (v, l)) :: t, q => if k = q then (absList l).reverse ++ [absJ v] else absMap t q
def absList : List (Json F) → List (Val F)
  | [] => []
  | x :: t => absJ x :: absList t
end

mutual
/-- Representation invariant of the hash maps: no key occurs twice, at every depth. -/
def WF : Json F → Prop
  | .object m => (m.map (·.1)).Nodup ∧ WFMap m
  | .array l => WFList l
  | _ => True
def WFMap : List (Str × (Json F × List (Json F))) → Prop
  | [] => True
  | (_, (v, l)) :: t => (WF v ∧ WFList l) ∧ WFMap t
def WFList : List (Json F) → Prop
  | [] => True
  | x :: t => WF x ∧ WFList t
end

mutual
/-- Every number in the value satisfies `P` (e.g. is finite). -/
def AllNum (P : F → Prop) : Json F → Prop
  | .object m => AllNumMap P m
  | .array l => AllNumList P l
  | .number f => P f
  | _ => True
def AllNumMap (P : F → Prop) : List (Str × (Json F × List (Json F))) → Prop
  | [] => True
  | (_, (v, l)) :: t => (AllNum P v ∧ AllNumList P l) ∧ AllNumMap P t
def AllNumList (P : F → Prop) : List (Json F) → Prop
  | [] => True
  | x :: t => AllNum P x ∧ AllNumList P t
end

mutual
/-- Every string (value or key) in the value satisfies `P`. -/
def AllStr (P : Str → Prop) : Json F → Prop
  | .object m => AllStrMap P m
  | .array l => AllStrList P l
  | .string s => P s
  | _ => True
def AllStrMap (P : Str → Prop) : List (Str × (Json F × List (Json F))) → Prop
  | [] => True
  | (k, (v, l)) :: t => (P k ∧ AllStr P v ∧ AllStrList P l) ∧ AllStrMap P t
def AllStrList (P : Str → Prop) : List (Json F) → Prop
  | [] => True
  | x :: t => AllStr P x ∧ AllStrList P t
end
end

/-- Opening minus closing brackets (square and curly together) of a text. -/
def bracketNet : Str → Int
  | [] => 0
  | c :: s =>
    (if c = '[' ∨ c = '{' then 1 else if c = ']' ∨ c = '}' then -1 else 0) + bracketNet s

/-- As many opening as closing brackets. -/
def Balanced (s : Str) : Prop := bracketNet s = 0

/-- Strings *inside* a container have balanced brackets; a top-level string is unrestricted. -/
def NestedBalanced {F : Type} : Json F → Prop
  | .string _ => True
  | j => AllStr Balanced j

/-- The bracket characters that occur literally (unescaped) in a string literal. -/
def rawBrackets : List StrItem → Int
  | [] => 0
  | .plain c :: t =>
    (if c = '[' ∨ c = '{' then 1 else if c = ']' ∨ c = '}' then -1 else 0) + rawBrackets t
  | _ :: t => rawBrackets t

mutual
/-- All string literals of the tree have balanced raw brackets and no empty container contains whitespace. -/
def Cst.Plain : Cst → Prop
  | .str s => rawBrackets s = 0
  | .arr0 ws => ws = []
  | .arr es => es.Plain
  | .obj0 ws => ws = []
  | .obj ms => ms.Plain
  | _ => True
def Elems.Plain : Elems → Prop
  | .one _ x _ => x.Plain
  | .cons _ x _ t => x.Plain ∧ t.Plain
def Members.Plain : Members → Prop
  | .one _ k _ _ x _ => rawBrackets k = 0 ∧ x.Plain
  | .cons _ k _ _ x _ t => (rawBrackets k = 0 ∧ x.Plain) ∧ t.Plain
end

mutual
/-- All string literals of the tree have balanced raw brackets. -/
def Cst.StrBal : Cst → Prop
  | .str s => rawBrackets s = 0
  | .arr es => es.StrBal
  | .obj ms => ms.StrBal
  | _ => True
def Elems.StrBal : Elems → Prop
  | .one _ x _ => x.StrBal
  | .cons _ x _ t => x.StrBal ∧ t.StrBal
def Members.StrBal : Members → Prop
  | .one _ k _ _ x _ => rawBrackets k = 0 ∧ x.StrBal
  | .cons _ k _ _ x _ t => (rawBrackets k = 0 ∧ x.StrBal) ∧ t.StrBal
end

/-- As `Plain`, but a tree which is just a string is unrestricted. -/
def Cst.TopPlain : Cst → Prop
  | .str _ => True
  | x => x.Plain

end RJ.Spec
