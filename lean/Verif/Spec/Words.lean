import Verif.Spec.Float
/-
  Documents of words: RFC 8259 documents in which, in place of a number, there may be any word (`tru`, `NaN`, `+1`, `undefined`, `'x'`, `1.2.3`).
  The parts of a `NumLit` are arbitrary strings, so `Cst.num` can carry any word.
-/
namespace RJ.Spec
open RJ

/-- Characters of words: all but whitespace, quotes, brackets, commas, colons and backslashes. -/
def WordChar (c : Char) : Prop := c ≠ '"' ∧ c ≠ '[' ∧ c ≠ ']' ∧ c ≠ '{' ∧ c ≠ '}' ∧ c ≠ '\\' ∧ c ≠ ',' ∧ c ≠ ':' ∧ ¬ IsWs c

/-- Words. -/
def AnyWord (w : Str) : Prop := w ≠ [] ∧ ∀ c ∈ w, WordChar c

mutual
/-- As `Cst.Valid`, with any word in place of a number. -/
def Cst.Wordy : Cst → Prop
  | .null => True
  | .true => True
  | .false => True
  | .num n => AnyWord n.text
  | .str s => ∀ i ∈ s, i.Valid
  | .arr0 ws => WsStr ws
  | .arr es => es.Wordy
  | .obj0 ws => WsStr ws
  | .obj ms => ms.Wordy
def Elems.Wordy : Elems → Prop
  | .one w1 x w2 => WsStr w1 ∧ x.Wordy ∧ WsStr w2
  | .cons w1 x w2 t => WsStr w1 ∧ x.Wordy ∧ WsStr w2 ∧ t.Wordy
def Members.Wordy : Members → Prop
  | .one w1 k w2 w3 x w4 => WsStr w1 ∧ (∀ i ∈ k, i.Valid) ∧ WsStr w2 ∧ WsStr w3 ∧ x.Wordy ∧ WsStr w4
  | .cons w1 k w2 w3 x w4 t =>
    (WsStr w1 ∧ (∀ i ∈ k, i.Valid) ∧ WsStr w2 ∧ WsStr w3 ∧ x.Wordy ∧ WsStr w4) ∧ t.Wordy
end

mutual
/-- The words of a document, outside strings, in order (`null`, `true` and `false` aside). -/
def Cst.words : Cst → List Str
  | .num n => [n.text]
  | .arr es => es.words
  | .obj ms => ms.words
  | _ => []
def Elems.words : Elems → List Str
  | .one _ x _ => x.words
  | .cons _ x _ t => x.words ++ t.words
def Members.words : Members → List Str
  | .one _ _ _ _ x _ => x.words
  | .cons _ _ _ _ x _ t => x.words ++ t.words
end

/-- Words that are misspelt: no literal, and no number (not even with superfluous zeros or a bare point). -/
def Misspelt (w : Str) : Prop := w ≠ "null".toList ∧ w ≠ "true".toList ∧ w ≠ "false".toList ∧ ¬ ∃ n : NumLit, n.Accepted ∧ n.text = w

/-- Documents of words. -/
def Doc.Wordy (d : Doc) : Prop := WsStr d.pre ∧ d.body.Wordy ∧ WsStr d.post

section
variable {F : Type} [FloatOps F]

open Classical in
/-- What a word denotes: `null`, `true`, `false`, and the numbers of `NumLit.Accepted` in range; other words denote nothing. -/
noncomputable def wordVal (w : Str) : Option (Val F) :=
  if w = "null".toList then some .null
  else if w = "true".toList then some (.bool true)
  else if w = "false".toList then some (.bool false)
  else if ∃ n : NumLit, n.Accepted ∧ n.text = w then
    match (FloatOps.parse w : Option F) with
    | some f => if FloatOps.isFinite f then some (.num f) else none
    | none => none
  else none

mutual
/-- The value of a document of words; `none` if one of them denotes nothing, or a string has an unpaired surrogate. -/
noncomputable def Cst.read : Cst → Option (Val F)
  | .null => some .null
  | .true => some (.bool Bool.true)
  | .false => some (.bool Bool.false)
  | .num n => wordVal n.text
  | .str s => (strVal s).map .str
  | .arr0 _ => some (.arr [])
  | .arr es => (Elems.read es).map .arr
  | .obj0 _ => some (.obj (named []))
  | .obj ms => (Members.read ms).map (fun l => .obj (named l))
noncomputable def Elems.read : Elems → Option (List (Val F))
  | .one _ x _ => (Cst.read x).map ([·])
  | .cons _ x _ t =>
    match Cst.read x, Elems.read t with
    | some v, some l => some (v :: l)
    | _, _ => none
noncomputable def Members.read : Members → Option (List (Str × Val F))
  | .one _ k _ _ x _ =>
    match strVal k, Cst.read x with
    | some k, some v => some [(k, v)]
    | _, _ => none
  | .cons _ k _ _ x _ t =>
    match strVal k, Cst.read x, Members.read t with
    | some k, some v, some l => some ((k, v) :: l)
    | _, _, _ => none
end

end
end RJ.Spec
