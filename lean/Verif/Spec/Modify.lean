import Verif.Spec.Subst
/-
  Templates of `quote!` in which modifiers `#(@literal: ..)`, `#(@params(..): ..)`, `#(@scope: ..)` stand, at any depth
  (/repo/json_derive/quote/src/lib.rs:28-44).
-/
namespace RJ.Spec
open RJ

/-- A piece of a template with modifiers. -/
inductive MTmpl
  /-- a piece without modifiers -/
  | plain (t : Tmpl)
  /-- `( .. )`, `{ .. }`, `[ .. ]` -/
  | group (d : Delim) (ts : List MTmpl)
  /-- `#[ .. ]`, `#![ .. ]` -/
  | attr (inner : Bool) (ts : List MTmpl)
  /-- `#(#b: ..)+`, `#(#b: ..)-` -/
  | when (pos : Bool) (src : Src) (body : List MTmpl)
  /-- `#(#o:x ..)?`, `#(#o:_ ..)?` -/
  | optMap (src : Src) (x : Option Str) (body : List MTmpl)
  /-- `#(#v:x ..)*`, `#(#v:x ..) sep *`, `#(#v:_ ..)*`, `#(#v:_ ..) sep *` -/
  | iterMap (src : Src) (x : Option Str) (body : List MTmpl) (sep : Option MTok)
  /-- `#(@literal: ..)` -/
  | literal (tt : List MTok)
  /-- `#(@params(..): ..)` -/
  | params (ps : List QParam) (tt : List MTok)
  /-- `#(@scope: ..)` -/
  | scope (tt : List MTok)

/-- `@literal: ..`. -/
def literalToks (tt : List MTok) : List MTok := .op ['@'] :: .ident "literal".toList :: .op [':'] :: tt
/-- `@params(..): ..`. -/
def paramsMod (ps : List QParam) (tt : List MTok) : List MTok := .op ['@'] :: .ident "params".toList :: .group .paren (paramsToks ps) :: .op [':'] :: tt
/-- `@scope: ..`. -/
def scopeToks (tt : List MTok) : List MTok := .op ['@'] :: .ident "scope".toList :: .op [':'] :: tt

mutual
/-- How the piece is written. -/
def MTmpl.render : MTmpl → List MTok
  | .plain t => t.render
  | .group d ts => [.group d (renderMods ts)]
  | .attr false ts => [.op ['#'], .group .bracket (renderMods ts)]
  | .attr true ts => [.op ['#'], .op ['!'], .group .bracket (renderMods ts)]
  | .when pos src body => [.op ['#'], .group .paren (.op ['#'] :: (src.toks ++ (.op [':'] :: renderMods body))), .op [if pos then '+' else '-']]
  | .optMap src x body => [.op ['#'], .group .paren (.op ['#'] :: (src.toks ++ (.op [':'] :: binderTok x :: renderMods body))), .op ['?']]
  | .iterMap src x body sep =>
    .op ['#'] :: .group .paren (.op ['#'] :: (src.toks ++ (.op [':'] :: binderTok x :: renderMods body))) :: (sepTok sep ++ [.op ['*']])
  | .literal tt => [.op ['#'], .group .paren (literalToks tt)]
  | .params ps tt => [.op ['#'], .group .paren (paramsMod ps tt)]
  | .scope tt => [.op ['#'], .group .paren (scopeToks tt)]
/-- How the template is written. -/
def renderMods : List MTmpl → List MTok
  | [] => []
  | t :: ts => t.render ++ renderMods ts
end

/-- The scope the piece leaves to what follows it in the same group: `@params(x = e, ..)` declares its variables there. -/
def MTmpl.leaves (ev : Ev) : MTmpl → Scope → Scope
  | .params ps _, sc => ((paramVals ev ps sc (fun _ => none)).map (·.1)).getD sc
  | _, sc => sc

mutual
/-- What the piece stands for, in the scope `sc`; `whole`: what `quote!(..)` gives for a modifier on its own. -/
def MTmpl.means (whole : Scope → List MTok → Option (List QTok)) (ev : Ev) : MTmpl → Scope → Option (List QTok)
  | .plain t, sc => t.means ev sc
  | .group d ts, sc => (modsMean whole ev ts sc).map (fun g => [.group d g])
  | .attr inner ts, sc => (modsMean whole ev ts sc).map (fun g => .punct '#' false :: ((if inner then [.punct '!' false] else []) ++ [.group .bracket g]))
  | .when pos src body, sc =>
    match ev sc src.code with
    | some (.bool b) => if b = pos then modsMean whole ev body sc else some []
    | _ => none
  | .optMap src x body, sc =>
    match ev sc src.code with
    | some .absent => some []
    | some (.present v) => modsMean whole ev body (bindX x v sc)
    | _ => none
  | .iterMap src x body sep, sc =>
    ((ev sc src.code).bind QVal.items).bind (fun vs => (allSome (fun v => modsMean whole ev body (bindX x v sc)) vs).map (joined sep))
  | .literal tt, sc => whole sc (literalToks tt)
  | .params ps tt, sc => whole sc (paramsMod ps tt)
  | .scope tt, sc => whole sc (scopeToks tt)
/-- What the template stands for: its pieces one after the other. -/
def modsMean (whole : Scope → List MTok → Option (List QTok)) (ev : Ev) : List MTmpl → Scope → Option (List QTok)
  | [], _ => some []
  | t :: ts, sc => (t.means whole ev sc).bind (fun a => (modsMean whole ev ts (t.leaves ev sc)).map (fun b => a ++ b))
end

mutual
/-- Well-formed, as for `Tmpl`; an expression of `@params` has no comma outside brackets. -/
def MTmpl.Ok : MTmpl → Prop
  | .plain t => t.Ok
  | .group _ ts => allModsOk ts
  | .attr _ ts => allModsOk ts
  | .when _ _ body => body ≠ [] ∧ allModsOk body
  | .optMap _ _ body => body ≠ [] ∧ allModsOk body
  | .iterMap _ _ body sep => body ≠ [] ∧ allModsOk body ∧ ∀ t, sep = some t → PlainTok t ∧ t ≠ .op ['*'] ∧ t ≠ .op ['?'] ∧ t ≠ .op ['+'] ∧ t ≠ .op ['-']
  | .literal _ => True
  | .params ps _ => ps ≠ [] ∧ ∀ p ∈ ps, .op [','] ∉ p.toks
  | .scope _ => True
/-- Every piece is well-formed. -/
def allModsOk : List MTmpl → Prop
  | [] => True
  | t :: ts => t.Ok ∧ allModsOk ts
end

end RJ.Spec
