import Verif.Spec.Float
/-
  Specification: the language that `parse` accepts, on all texts, and the values of its texts.

  It is RFC 8259 except for how containers are cut into pieces: a comma, colon or closing bracket counts exactly where as many brackets of either kind (in strings
  as well) have been opened as closed and an even number of quotes has been seen since the last cut; whitespace is taken out of a piece at such places.
-/
namespace RJ.Spec
open RJ

/-- A character of a text that is not a backslash, or a backslash with the character after it. -/
inductive Glyph
  | ch (c : Char)
  | esc (c : Char)

/-- Its text. -/
def Glyph.text : Glyph → Str
  | .ch c => [c]
  | .esc c => ['\\', c]

/-- The text of a list of glyphs. -/
def glyphs (gs : List Glyph) : Str := gs.flatMap Glyph.text

/-- A backslash stands only in front of another character. -/
def GlyphsOk (gs : List Glyph) : Prop := Glyph.ch '\\' ∉ gs

/-- How many brackets it opens. -/
def Glyph.opens : Glyph → Int
  | .ch c => if c = '[' ∨ c = '{' then 1 else if c = ']' ∨ c = '}' then -1 else 0
  | .esc _ => 0

/-- Brackets opened and not closed. -/
def openCount (gs : List Glyph) : Int := (gs.map Glyph.opens).sum

/-- Number of quotes. -/
def quoteCount (gs : List Glyph) : Nat := (gs.filter (fun g => match g with | .ch c => c = '"' | .esc _ => false)).length

/-- After these glyphs a separator counts. -/
def Outside (gs : List Glyph) : Prop := openCount gs = 0 ∧ quoteCount gs % 2 = 0

instance (gs : List Glyph) : Decidable (Outside gs) := by unfold Outside; infer_instance
instance : DecidablePred IsWs := fun c => by unfold IsWs; infer_instance

/-- What is left of a piece: at the places that count, the characters `drop` are taken out.  `pre`: what precedes in the piece. -/
def squeezeFrom (drop : Char → Prop) [DecidablePred drop] (pre : List Glyph) : List Glyph → Str
  | [] => []
  | g :: gs => (match g with
      | .ch c => if Outside pre ∧ drop c then [] else [c]
      | .esc c => ['\\', c]) ++ squeezeFrom drop (pre ++ [g]) gs

/-- The same for a whole piece. -/
def squeeze (drop : Char → Prop) [DecidablePred drop] (gs : List Glyph) : Str := squeezeFrom drop [] gs

/-- A piece: none of the characters `stop` stands at a place that counts, and its end is such a place. -/
def Segment (stop : Char → Prop) (gs : List Glyph) : Prop :=
  GlyphsOk gs ∧ Outside gs ∧ ∀ a c b, gs = a ++ .ch c :: b → Outside a → ¬ stop c

/-- What ends an element of an array. -/
def ElemStop (c : Char) : Prop := c = ',' ∨ c = ']'
/-- What ends a key. -/
def KeyStop (c : Char) : Prop := c = ':'
/-- What ends the value of a member. -/
def ValueStop (c : Char) : Prop := c = ',' ∨ c = '}'
/-- What is taken out of the value of a member. -/
def ValueDrop (c : Char) : Prop := IsWs c ∨ c = ':'

instance : DecidablePred ValueDrop := fun c => by unfold ValueDrop; infer_instance

section
variable {F : Type} [FloatOps F]

mutual
/-- `Reads t v`: the text `t` (without whitespace around it) is accepted with the value `v`. -/
inductive Reads : Str → Val F → Prop
  | null : Reads "null".toList .null
  | bool (b : Bool) : Reads (if b then "true".toList else "false".toList) (.bool b)
  | num (n : NumLit) (f : F) (hn : n.Accepted) (hf : NumLit.value n = some f) : Reads n.text (.num f)
  | str (items : List StrItem) (s w : Str) (hs : strVal items = some s) (hw : WsStr w) : Reads (strText items ++ w) (.str s)
  /-- Nothing is checked after `[]`. -/
  | emptyArr (g : Str) : Reads ('[' :: ']' :: g) (.arr [])
  | arr (body : Str) (vs : List (Val F)) (w : Str) (hb : ReadsElems body vs) (hw : WsStr w) : Reads ('[' :: (body ++ ']' :: w)) (.arr vs)
  /-- Nothing is checked after `{}`. -/
  | emptyObj (g : Str) : Reads ('{' :: '}' :: g) (.obj (named []))
  | obj (body : Str) (ms : List (Str × Val F)) (w : Str) (hb : ReadsMembers body ms) (hw : WsStr w) : Reads ('{' :: (body ++ '}' :: w)) (.obj (named ms))
/-- The elements of an array. -/
inductive ReadsElems : Str → List (Val F) → Prop
  | one (gs : List Glyph) (v : Val F) (hs : Segment ElemStop gs) (hv : Reads (squeeze IsWs gs) v) : ReadsElems (glyphs gs) [v]
  | cons (gs : List Glyph) (v : Val F) (t : Str) (vs : List (Val F)) (hs : Segment ElemStop gs) (hv : Reads (squeeze IsWs gs) v) (ht : ReadsElems t vs) :
      ReadsElems (glyphs gs ++ ',' :: t) (v :: vs)
/-- The members of an object. -/
inductive ReadsMembers : Str → List (Str × Val F) → Prop
  | one (kg vg : List Glyph) (k : Str) (v : Val F) (hk : Segment KeyStop kg) (hkv : Reads (squeeze IsWs kg) (.str k))
      (hs : Segment ValueStop vg) (hv : Reads (squeeze ValueDrop vg) v) : ReadsMembers (glyphs kg ++ ':' :: glyphs vg) [(k, v)]
  | cons (kg vg : List Glyph) (k : Str) (v : Val F) (t : Str) (ms : List (Str × Val F)) (hk : Segment KeyStop kg) (hkv : Reads (squeeze IsWs kg) (.str k))
      (hs : Segment ValueStop vg) (hv : Reads (squeeze ValueDrop vg) v) (ht : ReadsMembers t ms) :
      ReadsMembers (glyphs kg ++ ':' :: (glyphs vg ++ ',' :: t)) ((k, v) :: ms)
end

end

end RJ.Spec
