import Verif.Spec.Subst
/-
  The whole language of `#(@scope: ..)` of `quote!` (`#execute` for statements that assign to no variable of the caller): macros with arguments, `#include`, `#quote`, `#elif` chains, loops with and without a variable,
  loops inside branches, `#end`.  Given as relations: no derivation means that the macro fails (panics, does not compile or does not end).
  Shared with the model: tokens, values, `Ev`; with the smaller language of `Spec.Subst`: `Defs`, `Cond`.
-/
namespace RJ.Spec
open RJ

/-! ### Expansion -/

/-- The definitions in force: values and, apart from them, macros (parameters and body). -/
structure Env where
  value : Defs
  mac : Str → Option (List Str × List QTok)

/-- Nothing defined. -/
def Env.empty : Env := ⟨fun _ => none, fun _ => none⟩

/-- With `x` defined as `v`, or undefined. -/
def Env.set (e : Env) (x : Str) (v : Option (List QTok)) : Env := ⟨e.value.set x v, e.mac⟩

/-- With the macro `f`. -/
def Env.setMac (e : Env) (f : Str) (ps : List Str) (body : List QTok) : Env := ⟨e.value, fun g => if g = f then some (ps, body) else e.mac g⟩

/-- With the parameters defined as the arguments. -/
def Env.bind : Env → List Str → List (List QTok) → Env
  | e, p :: ps, v :: vs => (e.set p (some v)).bind ps vs
  | e, _, _ => e

/-- The parameters that arguments are matched with: a macro without parameters takes one argument, bound to the empty name. -/
def formals (ps : List Str) : List Str := if ps = [] then [[]] else ps

/-- Angle brackets opened and not closed (the `>` of `->` is none). -/
def angle : List QTok → Int
  | .punct '-' _ :: .punct '>' _ :: r => angle r
  | .punct '<' _ :: r => angle r + 1
  | .punct '>' _ :: r => angle r - 1
  | _ :: r => angle r
  | [] => 0

/-- One argument: its commas are inside angle brackets. -/
def OneArg (a : List QTok) : Prop := ∀ p j q, a = p ++ .punct ',' j :: q → angle p ≠ 0

/-- The arguments of a call: separated by the commas outside of angle brackets, the last of which may be a trailing one. -/
inductive ArgList : List QTok → List (List QTok) → Prop
  | one {a} : OneArg a → ArgList a [a]
  | trail {a j} : OneArg a → angle a = 0 → ArgList (a ++ [.punct ',' j]) [a]
  | more {a j r as} : OneArg a → angle a = 0 → r ≠ [] → ArgList r as → ArgList (a ++ .punct ',' j :: r) (a :: as)

/-- An identifier or parentheses: what a `#` applies to. -/
def Applied : QTok → Prop
  | .ident _ => True
  | .group .paren _ => True
  | _ => False

/-- A token that stays as it is. -/
def Kept : QTok → Prop
  | .group _ _ => False
  | t => ¬ IsHash t

mutual
/-- What a stream expands to: `#x` to the value of `x` (or nothing), `#(f(a, ..))` to the body of `f`, expanded with the parameters standing for the expanded arguments, any other
`#(..)` to nothing; everything else stays. -/
inductive Expand : Env → List QTok → List QTok → Prop
  | nil {e} : Expand e [] []
  | keep {e t r v} : Kept t → Expand e r v → Expand e (t :: r) (t :: v)
  | group {e d g w r v} : Expand e g w → Expand e r v → Expand e (.group d g :: r) (.group d w :: v)
  | var {e j x r v} : Expand e r v → Expand e (.punct '#' j :: .ident x :: r) ((e.value x).getD [] ++ v)
  | hash {e j r v} : (∀ u, r.head? = some u → ¬ Applied u) → Expand e r v → Expand e (.punct '#' j :: r) (.punct '#' false :: v)
  | other {e j g r v} : (∀ f as, g = [.ident f, .group .paren as] → e.mac f = none) → Expand e r v → Expand e (.punct '#' j :: .group .paren g :: r) v
  | call {e j f as r ps body acts vals w v} : e.mac f = some (ps, body) → ArgList as acts → acts.length = (formals ps).length → ExpandAll e acts vals →
      Expand (e.bind (formals ps) vals) body w → Expand e r v → Expand e (.punct '#' j :: .group .paren [.ident f, .group .paren as] :: r) (w ++ v)
/-- The same for each of a list of streams. -/
inductive ExpandAll : Env → List (List QTok) → List (List QTok) → Prop
  | nil {e} : ExpandAll e [] []
  | cons {e a v as vs} : Expand e a v → ExpandAll e as vs → ExpandAll e (a :: as) (v :: vs)
end

/-! ### Statements -/

/-- A statement that may stand in a branch. -/
inductive Act
  /-- `{..}` -/
  | text (tt : List MTok)
  /-- `#define(x, ..)` -/
  | define (x : Str) (body : List Tmpl)
  /-- `#define(f(a, ..), ..)` -/
  | macro_ (f : Str) (ps : List Str) (body : List Tmpl)
  /-- `#define(x)` -/
  | flag (x : Str)
  /-- `#undef(x)` -/
  | undef (x : Str)
  /-- `#include(e)` -/
  | include_ (e : List MTok)
  /-- `#quote(..)` -/
  | quote_ (body : List Tmpl)
  /-- `#execute(stmt)` -/
  | execute (stmt : List MTok)
  /-- `#foreach(e, x) {..} .. #endfor` -/
  | each (e : List MTok) (x : Str) (texts : List (List MTok))
  /-- `#foreach(e) {..} .. #endfor` -/
  | times (e : List MTok) (texts : List (List MTok))

/-- A further branch. -/
inductive Branch
  /-- `#elif(e) ..` -/
  | elif (e : List MTok) (acts : List Act)
  /-- `#else ..` -/
  | else_ (acts : List Act)

/-- A statement of a program. -/
inductive Part
  | act (a : Act)
  /-- `#if.. acts branches #endif` -/
  | cond (c : Cond) (acts : List Act) (bs : List Branch)

/-- The outputs of the elements one after the other. -/
def InTurn {α : Type} (P : α → List QTok → Prop) : List α → List QTok → Prop
  | [], out => out = []
  | a :: l, out => ∃ o1 o2, P a o1 ∧ InTurn P l o2 ∧ out = o1 ++ o2

/-- In the body of a macro, a parameter `a` stands for `#a`. -/
def paramScope (ps : List Str) (sc : Scope) : Scope := ps.foldl (fun sc a => (a, QVal.text [.punct '#' false, .ident a]) :: sc) sc

/-- The elements of a loop, as text. -/
def elements (ev : Ev) (sc : Scope) (c : List MTok) : Option (List (List QTok)) := ((ev sc c).bind QVal.items).bind (allSome QVal.shown)

/-- The number of rounds of a loop without a variable. -/
def rounds (ev : Ev) (sc : Scope) (c : List MTok) : Option Nat := ((ev sc c).bind QVal.items).map List.length

/-- The texts of a loop, each once per value of `x`. -/
def LoopText (e : Env) (x : Str) (vs : List (List QTok)) (texts : List (List MTok)) : List QTok → Prop :=
  InTurn (fun tt => InTurn (fun v => Expand (e.set x (some v)) (codeAll tt)) vs) texts

/-- A statement that is run: the definitions before and after, and what it emits. -/
def Act.Does (ev : Ev) (sc : Scope) : Act → Env → Env → List QTok → Prop
  | .text tt, e, e', out => e' = e ∧ Expand e (codeAll tt) out
  | .define x body, e, e', out => ∃ v, meansAll ev body sc = some v ∧ e' = e.set x (some v) ∧ out = []
  | .macro_ f ps body, e, e', out => ∃ v, meansAll ev body (paramScope ps sc) = some v ∧ e' = e.setMac f ps v ∧ out = []
  | .flag x, e, e', out => e' = e.set x (some []) ∧ out = []
  | .undef x, e, e', out => e' = e.set x none ∧ out = []
  | .include_ c, e, e', out => ∃ ts, ev sc c = some (.stream ts) ∧ e' = e ∧ Expand e ts out
  | .quote_ body, e, e', out => ∃ ts, meansAll ev body sc = some ts ∧ e' = e ∧ Expand e ts out
  | .execute stmt, e, e', out => (∃ v, ev sc stmt = some v) ∧ e' = e ∧ out = []
  | .each c x texts, e, e', out => ∃ vs, elements ev sc c = some vs ∧ e' = e ∧ LoopText e x vs texts out
  | .times c texts, e, e', out => ∃ n, rounds ev sc c = some n ∧ e' = e ∧ LoopText e "_".toList (List.replicate n []) texts out

/-- A statement of a branch that is not taken: only the expression of a loop is evaluated. -/
def Act.Skips (ev : Ev) (sc : Scope) : Act → Prop
  | .each c _ _ => ∃ vs, elements ev sc c = some vs
  | .times c _ => ∃ n, rounds ev sc c = some n
  | _ => True

/-- Statements one after the other. -/
def ActsDo (ev : Ev) (sc : Scope) : List Act → Env → Env → List QTok → Prop
  | [], e, e', out => e' = e ∧ out = []
  | a :: l, e, e', out => ∃ e1 o1 o2, a.Does ev sc e e1 o1 ∧ ActsDo ev sc l e1 e' o2 ∧ out = o1 ++ o2

/-- A branch, taken or not. -/
def BranchDo (ev : Ev) (sc : Scope) (taken : Bool) (l : List Act) (e e' : Env) (out : List QTok) : Prop :=
  if taken then ActsDo ev sc l e e' out else (∀ a ∈ l, a.Skips ev sc) ∧ e' = e ∧ out = []

/-- The branches after the first; `was`: was the one before them taken?  An `#elif` is decided by its own condition alone, an `#else` by the branch before it. -/
def BranchesDo (ev : Ev) (sc : Scope) : Bool → List Branch → Env → Env → List QTok → Prop
  | _, [], e, e', out => e' = e ∧ out = []
  | _, .elif c l :: bs, e, e', out =>
    ∃ b e1 o1 o2, ev sc c = some (.bool b) ∧ BranchDo ev sc b l e e1 o1 ∧ BranchesDo ev sc b bs e1 e' o2 ∧ out = o1 ++ o2
  | was, .else_ l :: bs, e, e', out => ∃ e1 o1 o2, BranchDo ev sc (!was) l e e1 o1 ∧ BranchesDo ev sc (!was) bs e1 e' o2 ∧ out = o1 ++ o2

/-- A statement of a program. -/
def Part.Does (ev : Ev) (sc : Scope) : Part → Env → Env → List QTok → Prop
  | .act a, e, e', out => a.Does ev sc e e' out
  | .cond c l bs, e, e', out => ∃ b e1 o1 o2, c.holds ev sc e.value = some b ∧ BranchDo ev sc b l e e1 o1 ∧ BranchesDo ev sc b bs e1 e' o2 ∧ out = o1 ++ o2

/-- A program: what it emits. -/
def PartsDo (ev : Ev) (sc : Scope) : List Part → Env → List QTok → Prop
  | [], _, out => out = []
  | p :: l, e, out => ∃ e1 o1 o2, p.Does ev sc e e1 o1 ∧ PartsDo ev sc l e1 o2 ∧ out = o1 ++ o2

/-! ### How it is written -/

/-- `a, b, ..`. -/
def formalToks (ps : List Str) : List MTok := (ps.map (fun a => MTok.ident a)).intersperse (.op [','])

/-- A statement. -/
def Act.toks : Act → List MTok
  | .text tt => [.group .brace tt]
  | .define x body => [.op ['#'], .ident "define".toList, .group .paren (.ident x :: .op [','] :: renderAll body)]
  | .macro_ f ps body => [.op ['#'], .ident "define".toList, .group .paren (.ident f :: .group .paren (formalToks ps) :: .op [','] :: renderAll body)]
  | .flag x => [.op ['#'], .ident "define".toList, .group .paren [.ident x]]
  | .undef x => [.op ['#'], .ident "undef".toList, .group .paren [.ident x]]
  | .include_ e => [.op ['#'], .ident "include".toList, .group .paren e]
  | .quote_ body => [.op ['#'], .ident "quote".toList, .group .paren (renderAll body)]
  | .execute stmt => [.op ['#'], .ident "execute".toList, .group .paren stmt]
  | .each e x texts => [.op ['#'], .ident "foreach".toList, .group .paren (e ++ [.op [','], .ident x])] ++ texts.map (fun tt => .group .brace tt) ++
      [.op ['#'], .ident "endfor".toList]
  | .times e texts => [.op ['#'], .ident "foreach".toList, .group .paren e] ++ texts.map (fun tt => .group .brace tt) ++ [.op ['#'], .ident "endfor".toList]

/-- A branch. -/
def Branch.toks : Branch → List MTok
  | .elif e l => [.op ['#'], .ident "elif".toList, .group .paren e] ++ l.flatMap Act.toks
  | .else_ l => [.op ['#'], .ident "else".toList] ++ l.flatMap Act.toks

/-- A statement of a program. -/
def Part.toks : Part → List MTok
  | .act a => a.toks
  | .cond c l bs => c.toks ++ (l.flatMap Act.toks ++ (bs.flatMap Branch.toks ++ [.op ['#'], .ident "endif".toList]))

/-- A program, with or without a final `#end`. -/
def progToks (l : List Part) (ended : Bool) : List MTok := l.flatMap Part.toks ++ (if ended then [.op ['#'], .ident "end".toList] else [])

/-- Is there a text block? -/
def Act.hasText : Act → Bool
  | .text _ => true
  | .each _ _ texts => !texts.isEmpty
  | .times _ texts => !texts.isEmpty
  | _ => false

/-- The same for a branch. -/
def Branch.hasText : Branch → Bool
  | .elif _ l => l.any Act.hasText
  | .else_ l => l.any Act.hasText

/-- The same for a statement of a program. -/
def Part.hasText : Part → Bool
  | .act a => a.hasText
  | .cond _ l bs => l.any Act.hasText || bs.any Branch.hasText

/-! ### Conditions -/

/-- A name (no identifier ends in `-` or `+`). -/
def Named (x : Str) : Prop := x.getLast? ≠ some '-' ∧ x.getLast? ≠ some '+'

/-- A value: every `#` of its own is followed by something it does not apply to. -/
def Settled : List QTok → Prop
  | [] => True
  | t :: r => (IsHash t → ∃ u, r.head? = some u ∧ ¬ Applied u) ∧ Settled r

/-- Is it `,`? -/
def IsComma : QTok → Prop
  | .punct c _ => c = ','
  | _ => False

mutual
/-- The same inside a token. -/
def TameIn : QTok → Prop
  | .group _ g => Tame g
  | .ident x => Named x
  | _ => True
/-- A text: every `#`, at any depth, is followed by something, and by neither `#` nor `,`. -/
def Tame : List QTok → Prop
  | [] => True
  | t :: r => TameIn t ∧ (IsHash t → ∃ u, r.head? = some u ∧ ¬ IsHash u ∧ ¬ IsComma u) ∧ Tame r
end

/-- The conditions on a statement. -/
def Act.Ok (ev : Ev) (sc : Scope) : Act → Prop
  | .text tt => Tame (codeAll tt)
  | .define x body => Named x ∧ body ≠ [] ∧ allOk body ∧ ∀ v, meansAll ev body sc = some v → Settled v
  | .macro_ _ ps body => (∀ p ∈ ps, Named p) ∧ body ≠ [] ∧ allOk body ∧ ∀ v, meansAll ev body (paramScope ps sc) = some v → Tame v
  | .flag x => Named x
  | .undef x => Named x
  | .include_ c => ∀ ts, ev sc c = some (.stream ts) → Tame ts
  | .quote_ body => allOk body ∧ NotAt (renderAll body) ∧ ∀ v, meansAll ev body sc = some v → Tame v
  | .execute _ => True
  | .each c x texts => Named x ∧ (∀ tt ∈ texts, Tame (codeAll tt)) ∧ ∀ vs, elements ev sc c = some vs → ∀ v ∈ vs, Settled v
  | .times c texts => (∀ d x, c ≠ d ++ [.op [','], .ident x]) ∧ ∀ tt ∈ texts, Tame (codeAll tt)

/-- The conditions on a condition. -/
def Cond.Ok : Cond → Prop
  | .ifdef x => Named x
  | .ifndef x => Named x
  | .test _ => True

/-- The statements of a branch. -/
def Branch.acts : Branch → List Act
  | .elif _ l => l
  | .else_ l => l

/-- The conditions on a statement of a program. -/
def Part.Ok (ev : Ev) (sc : Scope) : Part → Prop
  | .act a => a.Ok ev sc
  | .cond c l bs => c.Ok ∧ (∀ a ∈ l, a.Ok ev sc) ∧ ∀ b ∈ bs, ∀ a ∈ b.acts, a.Ok ev sc

end RJ.Spec
