import Verif.Spec.Quote
/-
  The options of `quote!(@options(..): ..)`.
-/
namespace RJ.Spec
open RJ

/-- An option. -/
inductive QOpt
  /-- `span(e)` -/
  | span (e : List MTok)
  /-- `literal` -/
  | literal
  /-- `params(..)` -/
  | params (ps : List MTok)
  /-- `scope` -/
  | scope

/-- How it is written. -/
def QOpt.toks : QOpt → List MTok
  | .span e => [.ident "span".toList, .group .paren e]
  | .literal => [.ident "literal".toList]
  | .params ps => [.ident "params".toList, .group .paren ps]
  | .scope => [.ident "scope".toList]

/-- The list of them. -/
def optsToks : List QOpt → List MTok
  | [] => []
  | [o] => o.toks
  | o :: p :: r => o.toks ++ .op [','] :: optsToks (p :: r)

/-- The form of `quote!` that an option selects: its first tokens. -/
def QOpt.form : QOpt → Option (List MTok)
  | .span _ => none
  | .literal => some [.op ['@'], .ident "literal".toList, .op [':']]
  | .params ps => some [.op ['@'], .ident "params".toList, .group .paren ps, .op [':']]
  | .scope => some [.op ['@'], .ident "scope".toList, .op [':']]

/-- The form that a list of options selects: that of the last one that selects any. -/
def lastForm : List QOpt → Option (List MTok)
  | [] => none
  | o :: r => (lastForm r).or o.form

/-- The parentheses of an option are not empty, and the expression of a span is one. -/
def QOpt.Ok (ev : Ev) (sc : Scope) : QOpt → Prop
  | .span e => e ≠ [] ∧ ∃ v, ev sc e = some v
  | .params ps => ps ≠ []
  | _ => True

/-- A word, with or without something in parentheses. -/
def wordToks (w : Str) : Option (List MTok) → List MTok
  | none => [.ident w]
  | some ps => [.ident w, .group .paren ps]

/-- It is written like an option, but there is none like it. -/
def NoOption (w : Str) : Option (List MTok) → Prop
  | none => w ≠ "literal".toList ∧ w ≠ "scope".toList
  | some ps => ps ≠ [] ∧ w ≠ "span".toList ∧ w ≠ "params".toList

end RJ.Spec
