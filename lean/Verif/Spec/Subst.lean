import Verif.Spec.Quote
/-
  What `#(@params(..): ..)` and `#(@scope: ..)` of `quote!` stand for: substitution in a token stream and a small structured language.
  Shared with the model: tokens, values, `Ev`.
-/
namespace RJ.Spec
open RJ

/-- The stream with every `#x`, at every depth, replaced by the value of `x`; by nothing if it has none; `#(..)` by nothing. -/
def subst (value : Str → Option (List QTok)) : List QTok → List QTok
  | [] => []
  | .punct '#' _ :: .ident x :: r => (value x).getD [] ++ subst value r
  | .punct '#' _ :: .group .paren _ :: r => subst value r
  | .punct '#' _ :: r => .punct '#' false :: subst value r
  | .group d g :: r => .group d (subst value g) :: subst value r
  | t :: r => t :: subst value r

/-- Is it `#`? -/
def IsHash : QTok → Prop
  | .punct c _ => c = '#'
  | _ => False

mutual
/-- No `##` in it. -/
def NoDoubleIn : QTok → Prop
  | .group _ g => NoDouble g
  | _ => True
/-- No two `#` next to each other, at any depth. -/
def NoDouble : List QTok → Prop
  | [] => True
  | t :: r => NoDoubleIn t ∧ (IsHash t → ∀ u, r.head? = some u → ¬ IsHash u) ∧ NoDouble r
end

mutual
/-- Nesting depth of groups. -/
def depthIn : QTok → Nat
  | .group _ g => depth g + 1
  | _ => 0
/-- Nesting depth of a stream. -/
def depth : List QTok → Nat
  | [] => 0
  | t :: r => max (depthIn t) (depth r)
end

/-- One parameter of `@params`: `x` or `x = e`. -/
structure QParam where
  name : Str
  value : Option (List MTok)

/-- How it is written. -/
def QParam.toks (p : QParam) : List MTok := .ident p.name :: (match p.value with | some e => .op ['='] :: e | none => [])

/-- `p, q, ..`. -/
def paramsToks : List QParam → List MTok
  | [] => []
  | [p] => p.toks
  | p :: q :: ps => p.toks ++ .op [','] :: paramsToks (q :: ps)

/-- The variables and the texts the parameters set up, one after the other: an expression sees the parameters before it. -/
def paramVals (ev : Ev) : List QParam → Scope → (Str → Option (List QTok)) → Option (Scope × (Str → Option (List QTok)))
  | [], sc, vals => some (sc, vals)
  | p :: ps, sc, vals =>
    (ev sc (p.value.getD [.ident p.name])).bind (fun v => v.shown.bind (fun ts =>
      paramVals ev ps (if p.value.isSome then (p.name, v) :: sc else sc) (fun x => if x = p.name then some ts else vals x)))

/-! ### `@scope` -/

/-- A statement inside a branch. -/
inductive Simple
  /-- `{..}` -/
  | text (tt : List MTok)
  /-- `#define(x, ..)` -/
  | define (x : Str) (body : List Tmpl)
  /-- `#define(x)` -/
  | flag (x : Str)
  /-- `#undef(x)` -/
  | undef (x : Str)

/-- A condition. -/
inductive Cond
  | ifdef (x : Str)
  | ifndef (x : Str)
  | test (e : List MTok)

/-- A statement. -/
inductive Stmt
  | one (s : Simple)
  /-- `#if.. a #endif`, `#if.. a #else b #endif` -/
  | cond (c : Cond) (a : List Simple) (b : Option (List Simple))
  /-- `#foreach(e, x) {..} .. #endfor` -/
  | each (e : List MTok) (x : Str) (texts : List (List MTok))

/-- The definitions in force. -/
abbrev Defs := Str → Option (List QTok)

/-- With `x` defined as `v`. -/
def Defs.set (d : Defs) (x : Str) (v : Option (List QTok)) : Defs := fun y => if y = x then v else d y

/-- The text of a block, with the definitions in force. -/
def blockText (d : Defs) (tt : List MTok) : List QTok := subst d (codeAll tt)

/-- A simple statement: the new definitions and what it emits. -/
def Simple.run (ev : Ev) (sc : Scope) (d : Defs) : Simple → Option (Defs × List QTok)
  | .text tt => some (d, blockText d tt)
  | .define x body => (meansAll ev body sc).map (fun v => (d.set x (some v), []))
  | .flag x => some (d.set x (some []), [])
  | .undef x => some (d.set x none, [])

/-- A list of simple statements. -/
def runSimples (ev : Ev) (sc : Scope) : Defs → List Simple → Option (Defs × List QTok)
  | d, [] => some (d, [])
  | d, s :: ss => (s.run ev sc d).bind (fun r => (runSimples ev sc r.1 ss).map (fun r' => (r'.1, r.2 ++ r'.2)))

/-- Does the condition hold? `none`: not a condition. -/
def Cond.holds (ev : Ev) (sc : Scope) (d : Defs) : Cond → Option Bool
  | .ifdef x => some (d x).isSome
  | .ifndef x => some (d x).isNone
  | .test e => match ev sc e with | some (.bool b) => some b | _ => none

/-- A statement: exactly one branch; the texts once for each element. -/
def Stmt.run (ev : Ev) (sc : Scope) (d : Defs) : Stmt → Option (Defs × List QTok)
  | .one s => s.run ev sc d
  | .cond c a b => (c.holds ev sc d).bind (fun h => runSimples ev sc d (if h then a else b.getD []))
  | .each e x texts =>
    (((ev sc e).bind QVal.items).bind (allSome QVal.shown)).map (fun vs => (d, texts.flatMap (fun tt => vs.flatMap (fun v => blockText (d.set x (some v)) tt))))

/-- A program: what it emits. -/
def runStmts (ev : Ev) (sc : Scope) : Defs → List Stmt → Option (List QTok)
  | _, [] => some []
  | d, s :: ss => (s.run ev sc d).bind (fun r => (runStmts ev sc r.1 ss).map (fun out => r.2 ++ out))

/-- A text block: no `##`, nesting below `n`. -/
def BlockOk (n : Nat) (tt : List MTok) : Prop := NoDouble (codeAll tt) ∧ depth (codeAll tt) < n

/-- A name (not ending in `-`, which no identifier does). -/
def NameOk (x : Str) : Prop := ∀ y, x ≠ y ++ ['-']

/-- No `#` of its own. -/
def NoOwnHash (v : List QTok) : Prop := ∀ t ∈ v, ¬ IsHash t

/-- A statement whose definitions contain no `#` of their own. -/
def Simple.Ok (n : Nat) (ev : Ev) (sc : Scope) : Simple → Prop
  | .text tt => BlockOk n tt
  | .define x body => NameOk x ∧ body ≠ [] ∧ allOk body ∧ ∀ v, meansAll ev body sc = some v → NoOwnHash v
  | .flag x => NameOk x
  | .undef _ => True

/-- The same for statements; the elements of a loop contain no `#` either. -/
def Stmt.Ok (n : Nat) (ev : Ev) (sc : Scope) : Stmt → Prop
  | .one s => s.Ok n ev sc
  | .cond _ a b => (∀ s ∈ a, s.Ok n ev sc) ∧ ∀ s ∈ b.getD [], s.Ok n ev sc
  | .each e x texts => NameOk x ∧ (∀ tt ∈ texts, BlockOk n tt) ∧ ∀ vs, ((ev sc e).bind QVal.items).bind (allSome QVal.shown) = some vs → ∀ v ∈ vs, NoOwnHash v

/-- How a simple statement is written. -/
def Simple.toks : Simple → List MTok
  | .text tt => [.group .brace tt]
  | .define x body => [.op ['#'], .ident "define".toList, .group .paren (.ident x :: .op [','] :: renderAll body)]
  | .flag x => [.op ['#'], .ident "define".toList, .group .paren [.ident x]]
  | .undef x => [.op ['#'], .ident "undef".toList, .group .paren [.ident x]]

/-- How a condition is written. -/
def Cond.toks : Cond → List MTok
  | .ifdef x => [.op ['#'], .ident "ifdef".toList, .group .paren [.ident x]]
  | .ifndef x => [.op ['#'], .ident "ifndef".toList, .group .paren [.ident x]]
  | .test e => [.op ['#'], .ident "if".toList, .group .paren e]

/-- How a statement is written. -/
def Stmt.toks : Stmt → List MTok
  | .one s => s.toks
  | .cond c a b => c.toks ++ a.flatMap Simple.toks ++ (match b with | some b => [.op ['#'], .ident "else".toList] ++ b.flatMap Simple.toks | none => []) ++
      [.op ['#'], .ident "endif".toList]
  | .each e x texts => [.op ['#'], .ident "foreach".toList, .group .paren (e ++ [.op [','], .ident x])] ++ texts.map (fun tt => .group .brace tt) ++
      [.op ['#'], .ident "endfor".toList]

/-- Is there a text block? (The macro asks for one.) -/
def Simple.isText : Simple → Bool
  | .text _ => true
  | _ => false

/-- The same for a statement. -/
def Stmt.hasText : Stmt → Bool
  | .one s => s.isText
  | .cond _ a b => a.any Simple.isText || (b.getD []).any Simple.isText
  | .each _ _ texts => !texts.isEmpty

end RJ.Spec
