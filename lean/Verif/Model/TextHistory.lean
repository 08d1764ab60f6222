import Verif.Model.Convert
import Verif.Model.History
import Verif.Spec.TextHistory
/-
  Histories of calls of the text functions.
-/
namespace RJ
open Spec
variable {F : Type} [FloatOps F]

/-- One call of `get::<Json>`, `set`, `del` (/repo/src/lib.rs:21-40) by a caller who keeps the text returned, and keeps the old text when the call fails. -/
def TextCall.run (lim : Nat) (c : TextCall F) (s : Str) : Str × Saw F :=
  match c with
  | .get p => (s, sawValue (getText .json s p))
  | .set p v =>
    match setText lim .json s p v with
    | .ok s' => (s', .ok)
    | .err e => (s, .error e)
    | .panic => (s, .panic)
  | .del p =>
    match delText F s p with
    | .ok s' => (s', .ok)
    | .error e => (s, .error e)

/-- Calls one after the other, up to a panic. -/
def runTexts (lim : Nat) : List (TextCall F) → Str → List (Saw F) × Option Str
  | [], s => ([], some s)
  | c :: cs, s =>
    match TextCall.run lim c s with
    | (_, .panic) => ([.panic], none)
    | (s', o) => let (os, r) := runTexts lim cs s'; (o :: os, r)

end RJ
