import Verif.Model.Token
/-
  Token streams with properly nested angle brackets; joining pieces with a separator.  Used to state C43.
-/
namespace RJ.Spec
open RJ

/-- Is it a punctuation token that matters for nesting: `<`, `>` or `-`? -/
def Bracketish (t : Tok) : Prop := t = .punct '<' ∨ t = .punct '>' ∨ t = .punct '-'

/-- `Nest ok ts`: the angle brackets of `ts` are properly nested, `->` does not count as a bracket, and every token outside the brackets
(other than those of `->`) satisfies `ok`.  A lone `-` is allowed before a
token that is not punctuation (as in `Foo<-1>`). -/
inductive Nest : (Tok → Prop) → List Tok → Prop
  | nil {ok : Tok → Prop} : Nest ok []
  | tok {ok : Tok → Prop} (t : Tok) (ts : List Tok) : ¬ Bracketish t → ok t → Nest ok ts → Nest ok (t :: ts)
  | arrow {ok : Tok → Prop} (ts : List Tok) : Nest ok ts → Nest ok (.punct '-' :: .punct '>' :: ts)
  | minus {ok : Tok → Prop} (t : Tok) (ts : List Tok) : (∀ d, t ≠ .punct d) → Nest ok (t :: ts) → Nest ok (.punct '-' :: t :: ts)
  | angle {ok : Tok → Prop} (a ts : List Tok) : Nest (fun _ => True) a → Nest ok ts → Nest ok (.punct '<' :: (a ++ .punct '>' :: ts))

/-- Properly nested, anything allowed outside the brackets. -/
def AngleBalanced (ts : List Tok) : Prop := Nest (fun _ => True) ts

/-- Properly nested, with no `c` outside the brackets. -/
def Without (c : Char) (ts : List Tok) : Prop := Nest (fun t => t ≠ .punct c) ts

/-- The pieces with the separator between them. -/
def joinWith (sep : List Tok) : List (List Tok) → List Tok
  | [] => []
  | [x] => x
  | x :: y :: rest => x ++ sep ++ joinWith sep (y :: rest)

/-- The tokens of a separator. -/
def sepToks (sep : String) : List Tok := sep.toList.map .punct

end RJ.Spec
