import Verif.Model.Quote
/-
  What a `quote!` template means: the syntax listed in the documentation of the macro (/repo/json_derive/quote/src/lib.rs:28-44), as a tree, with its concrete
  syntax (`render`) and its meaning (`means`), compositional over the tree.  Shared with the model: the two token types, values and `Ev` (Rust's evaluation of expressions).
-/
namespace RJ.Spec
open RJ

/-- The variable or parenthesised expression of `#(#x ..)`, `#(#(e) ..)`. -/
inductive Src
  | var (x : Str)
  | expr (e : List MTok)

/-- Concrete syntax. -/
def Src.toks : Src → List MTok
  | .var x => [.ident x]
  | .expr e => [.group .paren e]

/-- The expression it stands for. -/
def Src.code : Src → List MTok
  | .var x => [.ident x]
  | .expr e => e

/-- A piece of a template. -/
inductive Tmpl
  /-- a token of the code -/
  | tok (t : MTok)
  /-- `( .. )`, `{ .. }`, `[ .. ]` -/
  | group (d : Delim) (ts : List Tmpl)
  /-- `##`: a literal `#` -/
  | hash
  /-- `#[ .. ]`, `#![ .. ]` -/
  | attr (inner : Bool) (ts : List Tmpl)
  /-- `#x` -/
  | var (x : Str)
  /-- `#(e)` -/
  | expr (e : List MTok)
  /-- `#(#b: ..)+`, `#(#b: ..)-` -/
  | when (pos : Bool) (src : Src) (body : List Tmpl)
  /-- `#(#o)?` -/
  | opt (src : Src)
  /-- `#(#o:x ..)?`, `#(#o:_ ..)?` -/
  | optMap (src : Src) (x : Option Str) (body : List Tmpl)
  /-- `#(#v)*`, `#(#v) sep *` -/
  | iter (src : Src) (sep : Option MTok)
  /-- `#(#v sep)*` -/
  | iterEach (src : Src) (sep : MTok)
  /-- `#(#v:x ..)*`, `#(#v:x ..) sep *`, `#(#v:_ ..)*`, `#(#v:_ ..) sep *` -/
  | iterMap (src : Src) (x : Option Str) (body : List Tmpl) (sep : Option MTok)

/-- `x` or `_`. -/
def binderTok : Option Str → MTok
  | some x => .ident x
  | none => .under

/-- The separator, if any. -/
def sepTok : Option MTok → List MTok
  | some t => [t]
  | none => []

mutual
/-- How the piece is written. -/
def Tmpl.render : Tmpl → List MTok
  | .tok t => [t]
  | .group d ts => [.group d (renderAll ts)]
  | .hash => [.op ['#'], .op ['#']]
  | .attr false ts => [.op ['#'], .group .bracket (renderAll ts)]
  | .attr true ts => [.op ['#'], .op ['!'], .group .bracket (renderAll ts)]
  | .var x => [.op ['#'], .ident x]
  | .expr e => [.op ['#'], .group .paren e]
  | .when pos src body => [.op ['#'], .group .paren (.op ['#'] :: (src.toks ++ (.op [':'] :: renderAll body))), .op [if pos then '+' else '-']]
  | .opt src => [.op ['#'], .group .paren (.op ['#'] :: src.toks), .op ['?']]
  | .optMap src x body => [.op ['#'], .group .paren (.op ['#'] :: (src.toks ++ (.op [':'] :: binderTok x :: renderAll body))), .op ['?']]
  | .iter src sep => .op ['#'] :: .group .paren (.op ['#'] :: src.toks) :: (sepTok sep ++ [.op ['*']])
  | .iterEach src sep => [.op ['#'], .group .paren (.op ['#'] :: (src.toks ++ [sep])), .op ['*']]
  | .iterMap src x body sep =>
    .op ['#'] :: .group .paren (.op ['#'] :: (src.toks ++ (.op [':'] :: binderTok x :: renderAll body))) :: (sepTok sep ++ [.op ['*']])
/-- How the template is written. -/
def renderAll : List Tmpl → List MTok
  | [] => []
  | t :: ts => t.render ++ renderAll ts
end

mutual
/-- A token of the code, as the compiler gives it to a procedural macro: the characters of an operator one by one, all but the last joint. -/
def codeTok : MTok → List QTok
  | .op s => s.dropLast.map (fun c => .punct c true) ++ (s.getLast?.toList.map (fun c => .punct c false))
  | .ident s => [.ident s]
  | .under => [.ident "_".toList]
  | .lit s => [.lit s]
  | .life s => [.punct '\'' true, .ident s]
  | .group d ts => [.group d (codeAll ts)]
/-- The same for a list of tokens. -/
def codeAll : List MTok → List QTok
  | [] => []
  | t :: ts => codeTok t ++ codeAll ts
end

/-- The elements, with the separator between them. -/
def joined (sep : Option MTok) (xs : List (List QTok)) : List QTok :=
  match sep with
  | none => xs.flatten
  | some t => (xs.intersperse (codeTok t)).flatten

/-- All of them, or nothing. -/
def allSome {α β : Type} (f : α → Option β) : List α → Option (List β)
  | [] => some []
  | a :: l => (f a).bind (fun b => (allSome f l).map (b :: ·))

mutual
/-- What the piece stands for, in the scope `sc`. -/
def Tmpl.means (ev : Ev) : Tmpl → Scope → Option (List QTok)
  | .tok t, _ => some (codeTok t)
  | .group d ts, sc => (meansAll ev ts sc).map (fun g => [.group d g])
  | .hash, _ => some [.punct '#' false]
  | .attr inner ts, sc => (meansAll ev ts sc).map (fun g => .punct '#' false :: ((if inner then [.punct '!' false] else []) ++ [.group .bracket g]))
  | .var x, sc => (ev sc [.ident x]).bind QVal.shown
  | .expr e, sc => (ev sc e).bind QVal.shown
  | .when pos src body, sc =>
    match ev sc src.code with
    | some (.bool b) => if b = pos then meansAll ev body sc else some []
    | _ => none
  | .opt src, sc =>
    match ev sc src.code with
    | some .absent => some []
    | some (.present v) => v.shown
    | _ => none
  | .optMap src x body, sc =>
    match ev sc src.code with
    | some .absent => some []
    | some (.present v) => meansAll ev body (bindX x v sc)
    | _ => none
  | .iter src sep, sc => ((ev sc src.code).bind QVal.items).bind (fun vs => (allSome QVal.shown vs).map (joined sep))
  | .iterEach src sep, sc => ((ev sc src.code).bind QVal.items).bind (fun vs => (allSome QVal.shown vs).map (fun xs => xs.flatMap (fun x => x ++ codeTok sep)))
  | .iterMap src x body sep, sc =>
    ((ev sc src.code).bind QVal.items).bind (fun vs => (allSome (fun v => meansAll ev body (bindX x v sc)) vs).map (joined sep))
/-- What the template stands for: its pieces one after the other. -/
def meansAll (ev : Ev) : List Tmpl → Scope → Option (List QTok)
  | [], _ => some []
  | t :: ts, sc => (t.means ev sc).bind (fun a => (meansAll ev ts sc).map (fun b => a ++ b))
end

mutual
/-- No `#` in it, at any depth (and no empty operator). -/
def NoHash : MTok → Prop
  | .op s => s ≠ ['#'] ∧ s ≠ []
  | .group _ ts => NoHashes ts
  | _ => True
/-- The same for a list. -/
def NoHashes : List MTok → Prop
  | [] => True
  | t :: ts => NoHash t ∧ NoHashes ts
end

/-- The template is not one of the forms `@modifier ..` of the whole macro. -/
def NotAt (ts : List MTok) : Prop := ts.head? ≠ some (.op ['@'])

/-- A single token of code other than `#`. -/
def PlainTok : MTok → Prop
  | .op s => s ≠ ['#'] ∧ s ≠ []
  | .group _ _ => False
  | _ => True

mutual
/-- Well-formed: the expressions do not start with `#` or `@`, bodies are not empty, and the separators can be told from the suffixes `*`, `?`, `+`, `-`. -/
def Tmpl.Ok : Tmpl → Prop
  | .tok t => PlainTok t
  | .group _ ts => allOk ts
  | .hash => True
  | .attr _ ts => allOk ts
  | .var _ => True
  | .expr e => e.head? ≠ some (.op ['#']) ∧ e.head? ≠ some (.op ['@'])
  | .when _ _ body => body ≠ [] ∧ allOk body
  | .opt _ => True
  | .optMap _ _ body => body ≠ [] ∧ allOk body
  | .iter _ sep => ∀ t, sep = some t → PlainTok t ∧ t ≠ .op ['*'] ∧ t ≠ .op ['?']
  | .iterEach _ sep => PlainTok sep
  | .iterMap _ _ body sep => body ≠ [] ∧ allOk body ∧ ∀ t, sep = some t → PlainTok t ∧ t ≠ .op ['*'] ∧ t ≠ .op ['?'] ∧ t ≠ .op ['+'] ∧ t ≠ .op ['-']
/-- Every piece is well-formed. -/
def allOk : List Tmpl → Prop
  | [] => True
  | t :: ts => t.Ok ∧ allOk ts
end

/-! ### Values -/

/-- What a value of the host language looks like in the code: printed values and token streams as their tokens, `true` and `false` by name, records as they print
themselves; options and collections cannot be printed. -/
inductive Displayed : QVal → List QTok → Prop
  | text (ts : List QTok) : Displayed (.text ts) ts
  | stream (ts : List QTok) : Displayed (.stream ts) ts
  | yes : Displayed (.bool true) [.ident ['t', 'r', 'u', 'e']]
  | no : Displayed (.bool false) [.ident ['f', 'a', 'l', 's', 'e']]
  | record (ts : List QTok) (ms : List (Str × QVal)) : Displayed (.record (some ts) ms) ts

/-- What iterating over a value visits: the elements of a collection, the content of an option, the tokens of a token stream. -/
inductive Iterated : QVal → List QVal → Prop
  | list (vs : List QVal) : Iterated (.list vs) vs
  | absent : Iterated .absent []
  | present (v : QVal) : Iterated (.present v) [v]
  | stream (ts : List QTok) : Iterated (.stream ts) (ts.map (fun t => .text [t]))

/-! ### Identifiers -/

/-- `A`..`Z`, `a`..`z`. -/
def Letter (c : Char) : Prop := ('A' ≤ c ∧ c ≤ 'Z') ∨ ('a' ≤ c ∧ c ≤ 'z')

/-- An ASCII identifier: a letter or `_`, then letters, digits and `_`. -/
def AsciiIdent (s : Str) : Prop :=
  ∃ c r, s = c :: r ∧ (Letter c ∨ c = '_') ∧ ∀ x ∈ r, Letter x ∨ ('0' ≤ x ∧ x ≤ '9') ∨ x = '_'

end RJ.Spec
