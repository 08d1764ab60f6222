import Verif.Spec.History
/-
  Specification of histories of the functions on JSON texts (C72): they do what the same calls do on a document.
-/
namespace RJ.Spec
open RJ
variable {F : Type}

/-- A call of `json::get::<Json>`, `json::set` or `json::del` on a JSON text; `set` and `del` return the new text. -/
inductive TextCall (F : Type)
  | get (path : Str)
  | set (path : Str) (v : Json F)
  | del (path : Str)

/-- The call on a document that does the same. -/
def TextCall.call : TextCall F → Call F
  | .get s => .get (.text s)
  | .set s v => .set (.text s) v
  | .del s => .del (.text s)

/-- `json::set` and `json::del` do not return the value that was set or removed. -/
def TextCall.seen : TextCall F → Saw F → Saw F
  | .get _, o => o
  | _, .value _ => .ok
  | _, o => o

/-- What the caller of each call sees. -/
def seenAll : List (TextCall F) → List (Saw F) → List (Saw F)
  | c :: cs, o :: os => c.seen o :: seenAll cs os
  | _, _ => []

/-- A document that survives printing: finite numbers, and strings with as many opening as closing brackets. -/
def Printable [FloatOps F] (j : Json F) : Prop := WF j ∧ AllNum (fun f => FloatOps.isFinite f = true) j ∧ AllStr Balanced j

/-- The value and the keys that a call brings into the document survive printing. -/
def TextCall.Printable [FloatOps F] : TextCall F → Prop
  | .set s v => Spec.Printable v ∧ ∀ fs k, PathText s fs → Finder.key k ∈ fs → Balanced k
  | _ => True

end RJ.Spec
