import Verif.Model.Derive
/-
  Model of the `quote!` macro (/repo/json_derive/quote/src/lib.rs) that the derive macros build their output with.

  A template is the list of token trees a `macro_rules!` matcher sees (`MTok`: `->`, `::` ... are one token), the result is a `proc_macro`
  stream (`QTok`: one character per punctuation token, with its spacing).  Spans are dropped.  A failure (`none`) is a compile error of the template or a
  panic while it runs.
  A Rust value is seen through what the macro does with it (`QVal`): its text is given by the tokens that the text lexes to, since the only use of
  `x.to_string()` is `__parse`.
-/
namespace RJ

/-- A `proc_macro::TokenTree` with its spacing (`true`: `Spacing::Joint`). -/
inductive QTok
  | punct (c : Char) (joint : Bool)
  | ident (s : Str)
  | lit (s : Str)
  | group (d : Delim) (ts : List QTok)

/-- A token tree as `macro_rules!` sees it: an operator (longest match: `->` is one), an identifier or keyword, `_`, a literal, a lifetime (without the quote), a group. -/
inductive MTok
  | op (s : Str)
  | ident (s : Str)
  | under
  | lit (s : Str)
  | life (s : Str)
  | group (d : Delim) (ts : List MTok)

/-- `__gen_punct`, /repo/json_derive/quote/src/lib.rs:1034-1038. -/
def genPunct (c : Char) : List QTok := [.punct c false]

/-- `__gen_punct2`, /repo/json_derive/quote/src/lib.rs:1040-1049. -/
def genPunct2 (c1 c2 : Char) : List QTok := [.punct c1 true, .punct c2 false]

/-- `__gen_punct3`, /repo/json_derive/quote/src/lib.rs:1051-1063. -/
def genPunct3 (c1 c2 c3 : Char) : List QTok := [.punct c1 true, .punct c2 true, .punct c3 false]

/-- Lexing one operator (std): every character but the last is joint. -/
def lexOp : Str → List QTok
  | [] => []
  | [c] => [.punct c false]
  | c :: d :: s => .punct c true :: lexOp (d :: s)

/-- The rules for operators, /repo/json_derive/quote/src/lib.rs:795-990, by the operator they match. -/
def opRules : List (String × List QTok) :=
  [("->", genPunct2 '-' '>'), ("=>", genPunct2 '=' '>'), ("<=", genPunct2 '<' '='), (">=", genPunct2 '>' '='), ("!=", genPunct2 '!' '='),
   ("&&", genPunct2 '&' '&'), ("||", genPunct2 '|' '|'), ("==", genPunct2 '=' '='), ("+=", genPunct2 '+' '='), ("-=", genPunct2 '-' '='),
   ("*=", genPunct2 '*' '='), ("/=", genPunct2 '/' '='), ("%=", genPunct2 '%' '='), ("&=", genPunct2 '&' '='), ("^=", genPunct2 '^' '='),
   ("|=", genPunct2 '|' '='), (">>", genPunct2 '>' '>'), ("<<", genPunct2 '<' '<'), (">>=", genPunct3 '>' '>' '='), ("<<=", genPunct3 '<' '<' '='),
   ("..", genPunct2 '.' '.'), ("...", genPunct3 '.' '.' '.'), ("..=", genPunct3 '.' '.' '='), ("::", genPunct2 ':' ':'),
   ("&", genPunct '&'), (":", genPunct ':'), ("+", genPunct '+'), ("-", genPunct '-'), ("*", genPunct '*'), ("/", genPunct '/'), ("=", genPunct '='),
   (">", genPunct '>'), ("<", genPunct '<'), (".", genPunct '.'), (",", genPunct ','), ("!", genPunct '!'), ("?", genPunct '?'), ("@", genPunct '@'),
   ("^", genPunct '^'), ("|", genPunct '|'), ("%", genPunct '%'), (";", genPunct ';'), ("#", genPunct '#')]

/-- The first rule that matches the operator `s`. -/
def findOp (s : Str) : List (String × List QTok) → Option (List QTok)
  | [] => none
  | (o, ts) :: rest => if o.toList = s then some ts else findOp s rest

/-- What an operator token of the template becomes: its rule, else the common case `$first:tt`, /repo/json_derive/quote/src/lib.rs:999-1002. -/
def genOp (s : Str) : List QTok := (findOp s opRules).getD (lexOp s)

mutual
/-- `__parse(__stringify!($tt))` (e.g. /repo/json_derive/quote/src/lib.rs:328, 1000): the text of a token tree, lexed again.  (Simplification:
the last character of an operator is not joint, whatever follows.) -/
def lexTT : MTok → List QTok
  | .op s => lexOp s
  | .ident s => [.ident s]
  | .under => [.ident ['_']]
  | .lit s => [.lit s]
  | .life s => [.punct '\'' true, .ident s]
  | .group d ts => [.group d (lexTTs ts)]
/-- The same for `$($tt)*`. -/
def lexTTs : List MTok → List QTok
  | [] => []
  | t :: ts => lexTT t ++ lexTTs ts
end

/-! ### Identifiers -/

/-- `IDENT_TABLE`, /repo/json_derive/quote/src/lib.rs:1065-1075. -/
def identTable : List Nat := ("_abcdefghijklmnopqrstuvwxyzABCDEFGHIJKLMNOPQRSTUVWXYZ0123456789".toList).map Char.toNat

/-- The UTF-8 bytes of a text (`str::bytes`, std). -/
def bytesOf (s : Str) : List Nat := s.flatMap (fun c => (String.utf8EncodeChar c).map UInt8.toNat)

/-- `is_ident`, /repo/json_derive/quote/src/lib.rs:1077-1090. -/
def isIdent (s : Str) : Bool :=
  match bytesOf s with
  | [] => false
  | first :: rest => if !(identTable.take 53).contains first then false else rest.all (fun x => identTable.contains x)

/-- `__parse`, /repo/json_derive/quote/src/lib.rs:1092-1104, given `TokenStream::from_str` (`none`: it panics). -/
def parseText (lex : Str → Option (List QTok)) (s : Str) : Option (List QTok) :=
  if isIdent s then some [.ident s] else lex s

/-! ### Values of the variables and expressions of a template -/

/-- A Rust value as the macro uses it: something printable (by the tokens its text lexes to), a `TokenStream`, a `bool`, an `Option`, something iterable,
a tuple or struct with its members (and results of methods). -/
inductive QVal
  | text (ts : List QTok)
  | stream (ts : List QTok)
  | bool (b : Bool)
  | absent
  | present (v : QVal)
  | list (vs : List QVal)
  | record (text : Option (List QTok)) (members : List (Str × QVal))

/-- `__parse(&x.to_string())`; `none`: no `ToString`. -/
def QVal.shown : QVal → Option (List QTok)
  | .text ts => some ts
  | .stream ts => some ts
  | .bool b => some [.ident (if b then "true".toList else "false".toList)]
  | .record t _ => t
  | _ => none

/-- `x.into_iter()`; `none`: not iterable. -/
def QVal.items : QVal → Option (List QVal)
  | .list vs => some vs
  | .absent => some []
  | .present v => some [v]
  | .stream ts => some (ts.map (fun t => .text [t]))
  | _ => none

/-- The variables in scope, innermost first. -/
abbrev Scope := List (Str × QVal)

/-- Rust's evaluation of an expression (its tokens) in a scope; `none`: not an expression, or ill-typed. -/
abbrev Ev := Scope → List MTok → Option QVal

/-- `|$x|`, `|_|`. -/
def bindX (x : Option Str) (v : QVal) (sc : Scope) : Scope :=
  match x with
  | some x => (x, v) :: sc
  | none => sc

/-! ### `__translate` -/

/-- The outcome of `__translate`: a stream, a panic, or no result within the given number of nested calls. -/
inductive QOut
  | ok (ts : List QTok)
  | panic
  | more

/-- Sequencing. -/
def QOut.bind (o : QOut) (f : List QTok → QOut) : QOut :=
  match o with
  | .ok ts => f ts
  | .panic => .panic
  | .more => .more

/-- `HashMap<String, TokenStream>` of `__translate`. -/
abbrev QMap := List (Str × List QTok)

/-- Is it the punct `c`? -/
def QTok.isPunct (c : Char) : QTok → Bool
  | .punct d _ => d = c
  | _ => false

/-- `chars.zip(iter.clone()).all(..)`, /repo/json_derive/quote/src/lib.rs:1243-1250. -/
def qMatchRest : List Char → List QTok → Bool
  | c :: cs, t :: ts => t.isPunct c && qMatchRest cs ts
  | _, _ => true

/-- The two `sep` arms, /repo/json_derive/quote/src/lib.rs:1234-1256. -/
def qHitSep (sep : List Char) (p : Char) (rest : List QTok) : Bool :=
  match sep with
  | [] => false
  | c :: cs => p = c && qMatchRest cs rest

/-- The loops of the `split_tokens_by` of this crate, /repo/json_derive/quote/src/lib.rs:1202-1271 (see `splitGo`). -/
def qSplitGo (sep : List Char) : Nat → Bool → Int → List QTok → List QTok → List (List QTok)
  | _, _, _, inner, [] => [inner.reverse]
  | skip, arrow, n, inner, t :: ts =>
    if skip > 0 then qSplitGo sep (skip - 1) false n inner ts
    else if arrow then qSplitGo sep 0 false n (t :: inner) ts
    else
      match t with
      | .punct c _ =>
        if c = '-' then qSplitGo sep 0 (ts.head?.any (QTok.isPunct '>')) n (t :: inner) ts
        else if c = '<' then qSplitGo sep 0 false (n + 1) (t :: inner) ts
        else if c = '>' then qSplitGo sep 0 false (n - 1) (t :: inner) ts
        else if n = 0 ∧ qHitSep sep c ts = true then
          if (ts.drop (sep.length - 1)).isEmpty then [inner.reverse]
          else inner.reverse :: qSplitGo sep (sep.length - 1) false n [] ts
        else qSplitGo sep 0 false n (t :: inner) ts
      | _ => qSplitGo sep 0 false n (t :: inner) ts

/-- `split_tokens_by`, /repo/json_derive/quote/src/lib.rs:1202-1271. -/
def qSplit (ts : List QTok) (sep : String) : List (List QTok) := qSplitGo sep.toList 0 false 0 [] ts

mutual
/-- `TokenStream::to_string` of the argument names of a macro (std; only ever applied to a single identifier, whose text it is; for other tokens some text,
here the texts one after the other). -/
def QTok.str : QTok → Str
  | .punct c _ => [c]
  | .ident s => s
  | .lit s => s
  | .group _ ts => qStr ts
/-- The same for a stream. -/
def qStr : List QTok → Str
  | [] => []
  | t :: ts => t.str ++ qStr ts
end

/-- The arguments of a macro call, /repo/json_derive/quote/src/lib.rs:1131-1135: each translated with the outer map, then bound. -/
def bindArgs (tr : QMap → List QTok → QOut) (outer : QMap) : List (List QTok) → List (List QTok) → QMap → QOut ⊕ QMap
  | k :: ks, v :: vs, inner =>
    match tr outer v with
    | .ok ts => bindArgs tr outer ks vs (mapInsert (qStr k) ts inner)
    | o => .inl o
  | _, _, inner => .inr inner

/-- A macro call `#(name(args))`, /repo/json_derive/quote/src/lib.rs:1122-1143: what it expands to. -/
def callMacro (tr : QMap → List QTok → QOut) (m : QMap) (name : Str) (args : List QTok) : QOut :=
  match mapGet (name ++ ['-']) m with
  | none => .ok []
  | some vs =>
    let names := qSplit vs ","
    let acts := qSplit args ","
    if names.length ≠ acts.length then .panic
    else
      match bindArgs tr m names acts m with
      | .inr inner =>
        match mapGet (name ++ ['+']) m with
        | some v => tr inner v
        | none => .ok []
      | .inl o => o

/-- What follows a `#`, /repo/json_derive/quote/src/lib.rs:1112-1152: what it becomes and whether the following token is consumed. -/
def afterPound (tr : QMap → List QTok → QOut) (m : QMap) : Option QTok → QOut × Bool
  | some (.ident s) => (.ok ((mapGet s m).getD []), true)
  | some (.group .paren inner) =>
    match inner with
    | [.ident name, .group .paren args] => (callMacro tr m name args, true)
    | _ => (.ok [], true)
  | _ => (.ok [.punct '#' false], false)

/-- The loop of `__translate`, /repo/json_derive/quote/src/lib.rs:1106-1168, given `__translate` for the nested calls.  `skip`: the next token was consumed
by a `#` (`iter.nth(0)`). -/
def translatePass (tr : QMap → List QTok → QOut) (m : QMap) : Bool → List QTok → QOut
  | _, [] => .ok []
  | true, _ :: ts => translatePass tr m false ts
  | false, t :: ts =>
    match t with
    | .punct '#' _ =>
      let r := afterPound tr m ts.head?
      r.1.bind (fun out => (translatePass tr m r.2 ts).bind (fun rest => .ok (out ++ rest)))
    | .group d inner =>
      (tr m inner).bind (fun inner => (translatePass tr m false ts).bind (fun rest => .ok (.group d inner :: rest)))
    | t => (translatePass tr m false ts).bind (fun rest => .ok (t :: rest))

/-- `remain`, /repo/json_derive/quote/src/lib.rs:1170-1180: a `#` directly followed by an identifier or parentheses. -/
def remain : List QTok → Bool
  | t :: u :: ts =>
    (t.isPunct '#' && (match u with | .ident _ => true | .group .paren _ => true | _ => false)) || remain (u :: ts)
  | _ => false

/-- `__translate`, /repo/json_derive/quote/src/lib.rs:1106-1192; the first argument bounds the nesting of calls. -/
def translate : Nat → QMap → List QTok → QOut
  | 0, _, _ => .more
  | n + 1, m, ts => (translatePass (translate n) m false ts).bind (fun out => if remain out then translate n m out else .ok out)

/-! ### The rules of `__append_to_token!` -/

/-- The forms `#(#src ..) suffix`: condition, option, iteration. -/
inductive Form
  /-- `#(#e: tt)+`, `#(#e: tt)-` -/
  | when (pos : Bool) (e tt : List MTok)
  /-- `#(#e)?` -/
  | opt (e : List MTok)
  /-- `#(#e:x tt)?`, `#(#e:_ tt)?` -/
  | optMap (e : List MTok) (x : Option Str) (tt : List MTok)
  /-- `#(#e)*`, `#(#e) sep *` -/
  | star (e : List MTok) (sep : Option MTok)
  /-- `#(#e sep)*` -/
  | starIn (e : List MTok) (sep : MTok)
  /-- `#(#e:x tt)*`, `#(#e:x tt) sep *`, `#(#e:_ tt)*`, `#(#e:_ tt) sep *` -/
  | starMap (e : List MTok) (x : Option Str) (tt : List MTok) (sep : Option MTok)

/-- `$tag:ident` or `($expr:expr)` after the inner `#`. -/
def srcOf : List MTok → Option (List MTok × List MTok)
  | .ident s :: r => some ([.ident s], r)
  | .group .paren e :: r => some (e, r)
  | _ => none

/-- The rules for `#(#var:...)+` and `-`, /repo/json_derive/quote/src/lib.rs:383-410: `r` what follows the variable inside the parentheses, `after`
what follows them. -/
def boolRule (e r after : List MTok) : Option (Form × List MTok) :=
  match r, after with
  | .op [':'] :: t :: tt, .op ['+'] :: rest => some (.when true e (t :: tt), rest)
  | .op [':'] :: t :: tt, .op ['-'] :: rest => some (.when false e (t :: tt), rest)
  | _, _ => none

/-- The rules for options, /repo/json_derive/quote/src/lib.rs:413-462. -/
def optRule (e r after : List MTok) : Option (Form × List MTok) :=
  match r, after with
  | [], .op ['?'] :: rest => some (.opt e, rest)
  | .op [':'] :: .ident x :: t :: tt, .op ['?'] :: rest => some (.optMap e (some x) (t :: tt), rest)
  | .op [':'] :: .under :: t :: tt, .op ['?'] :: rest => some (.optMap e none (t :: tt), rest)
  | _, _ => none

/-- The rules for iteration, /repo/json_derive/quote/src/lib.rs:465-590, in their order. -/
def starRule (e r after : List MTok) : Option (Form × List MTok) :=
  match r, after with
  | [], .op ['*'] :: rest => some (.star e none, rest)
  | [], sep :: .op ['*'] :: rest => some (.star e (some sep), rest)
  | [sep], .op ['*'] :: rest => some (.starIn e sep, rest)
  | .op [':'] :: .ident x :: t :: tt, .op ['*'] :: rest => some (.starMap e (some x) (t :: tt) none, rest)
  | .op [':'] :: .ident x :: t :: tt, sep :: .op ['*'] :: rest => some (.starMap e (some x) (t :: tt) (some sep), rest)
  | .op [':'] :: .under :: t :: tt, .op ['*'] :: rest => some (.starMap e none (t :: tt) none, rest)
  | .op [':'] :: .under :: t :: tt, sep :: .op ['*'] :: rest => some (.starMap e none (t :: tt) (some sep), rest)
  | _, _ => none

/-- The first rule that matches `#(# inner) after`, /repo/json_derive/quote/src/lib.rs:382-590. -/
def formOf (inner after : List MTok) : Option (Form × List MTok) :=
  match srcOf inner with
  | none => none
  | some (e, r) => boolRule e r after <|> optRule e r after <|> starRule e r after

/-- Two results one after the other. -/
def catO (a b : Option (List QTok)) : Option (List QTok) := a.bind (fun x => b.map (fun y => x ++ y))

/-- `for_each(|x| ..)`. -/
def forEach (body : QVal → Option (List QTok)) : List QVal → Option (List QTok)
  | [] => some []
  | v :: vs => catO (body v) (forEach body vs)

/-- `for (_i, x) in iter.enumerate() { if _i > 0 { sep }; .. }`, e.g. /repo/json_derive/quote/src/lib.rs:484-489. -/
def forSep (sep : Option (List QTok)) (body : QVal → Option (List QTok)) : Nat → List QVal → Option (List QTok)
  | _, [] => some []
  | i, v :: vs => catO (catO (if i > 0 then sep else some []) (body v)) (forSep sep body (i + 1) vs)

/-- The bodies of the rules of /repo/json_derive/quote/src/lib.rs:382-590, given the expansion of nested templates. -/
def runForm (ev : Ev) (expand : Scope → List MTok → Option (List QTok)) (sc : Scope) : Form → Option (List QTok)
  | .when pos e tt =>
    match ev sc e with
    | some (.bool b) => if b = pos then expand sc tt else some []
    | _ => none
  | .opt e =>
    match ev sc e with
    | some .absent => some []
    | some (.present v) => v.shown
    | _ => none
  | .optMap e x tt =>
    match ev sc e with
    | some .absent => some []
    | some (.present v) => expand (bindX x v sc) tt
    | _ => none
  | .star e none => ((ev sc e).bind QVal.items).bind (forEach QVal.shown)
  | .star e (some sep) => ((ev sc e).bind QVal.items).bind (forSep (expand sc [sep]) QVal.shown 0)
  | .starIn e sep => ((ev sc e).bind QVal.items).bind (forEach (fun v => catO v.shown (expand sc [sep])))
  | .starMap e x tt none => ((ev sc e).bind QVal.items).bind (forEach (fun v => expand (bindX x v sc) tt))
  | .starMap e x tt (some sep) => ((ev sc e).bind QVal.items).bind (forSep (expand sc [sep]) (fun v => expand (bindX x v sc) tt) 0)

/-- The parameters of `@params`, /repo/json_derive/quote/src/lib.rs:332: `a, b = expr, ...` (an expression has no comma outside brackets). -/
def paramList : List MTok → List MTok → List (List MTok)
  | acc, [] => if acc.isEmpty then [] else [acc.reverse]
  | acc, t :: ts =>
    match t with
    | .op [','] => acc.reverse :: paramList [] ts
    | t => paramList (t :: acc) ts

/-- The bindings and the map that `@params` sets up, /repo/json_derive/quote/src/lib.rs:334-338: `let param = expr;`, then `_hashmap.insert(..)`. -/
def setParams (ev : Ev) : List (List MTok) → Scope → QMap → Option (Scope × QMap)
  | [], sc, m => some (sc, m)
  | [.ident p] :: rest, sc, m =>
    match (ev sc [.ident p]).bind QVal.shown with
    | some ts => setParams ev rest sc (mapInsert p ts m)
    | none => none
  | (.ident p :: .op ['='] :: e) :: rest, sc, m =>
    match ev sc e with
    | some v =>
      match v.shown with
      | some ts => setParams ev rest ((p, v) :: sc) (mapInsert p ts m)
      | none => none
    | none => none
  | _, _, _ => none

/-! ### `@scope` -/

/-- A command of `@scope`, /repo/json_derive/quote/src/lib.rs:127-315 (`#execute(stmt)`, :217-225, runs Rust code: here it runs or fails; with assignments in Model/Assign). -/
inductive Cmd
  | block (tt : List MTok)
  | defineFn (name : Str) (args : List Str) (tt : List MTok)
  | define (name : Str) (tt : List MTok)
  | flag (name : Str)
  | include_ (e : List MTok)
  | quote (tt : List MTok)
  | execute (stmt : List MTok)
  | undef (name : Str)
  | ifdef (name : Str)
  | ifndef (name : Str)
  | if_ (e : List MTok)
  | elif (e : List MTok)
  | else_
  | endif
  | foreach (e : List MTok) (x : Str)
  | repeat_ (e : List MTok)
  | endfor
  | end_

/-- The state of a scope: `_flag`, `_iter`, `_hashmap`, /repo/json_derive/quote/src/lib.rs:366-370, and the scope's `#end` having been reached. -/
structure ScopeSt where
  on : Bool
  inIf : Bool
  iter : Option (List (List QTok))
  var : Str
  map : QMap
  ended : Bool

/-- `let mut _flag = _Flag(true, None); let mut _iter = _Iter(None, ""); let mut _hashmap = HashMap::new();`,
/repo/json_derive/quote/src/lib.rs:368-370. -/
def ScopeSt.init : ScopeSt := ⟨true, false, none, [], [], false⟩

/-- The loop over the elements of a `#foreach`, /repo/json_derive/quote/src/lib.rs:135-138. -/
def eachTranslate (tr : QMap → List QTok → QOut) (input : List QTok) (k : Str) : QMap → List (List QTok) → QOut
  | _, [] => .ok []
  | m, e :: es => (tr (mapInsert k e m) input).bind (fun out => (eachTranslate tr input k (mapInsert k e m) es).bind (fun rest => .ok (out ++ rest)))

/-- A text block `{..}`, /repo/json_derive/quote/src/lib.rs:128-149 (the map is restored afterwards, :139-143). -/
def runBlock (tr : QMap → List QTok → QOut) (st : ScopeSt) (tt : List MTok) : QOut :=
  if st.on then
    match st.iter with
    | some es => eachTranslate tr (lexTTs tt) st.var (mapRemove st.var st.map) es
    | none => tr st.map (lexTTs tt)
  else .ok []

/-- Leave the failures of `__translate` behind. -/
def QOut.get : QOut → Option (List QTok)
  | .ok ts => some ts
  | _ => none

/-- `$($option:ident$(($($params:tt)+))?),+`, /repo/json_derive/quote/src/lib.rs:71. -/
def optionList : List MTok → Option (List (Str × Option (List MTok)))
  | .ident o :: .group .paren ps :: r =>
    if ps.isEmpty then none
    else
      match r with
      | [] => some [(o, some ps)]
      | .op [','] :: rest => (optionList rest).map ((o, some ps) :: ·)
      | _ => none
  | [.ident o] => some [(o, none)]
  | .ident o :: .op [','] :: rest => (optionList rest).map ((o, none) :: ·)
  | _ => none

/-- `__parse_options!`, /repo/json_derive/quote/src/lib.rs:111-138: the modifier that is left at the end (what stands between `@` and `:`); `none`: no rule, or the
expression of a span does not compile. -/
def parseOptions (ev : Ev) (sc : Scope) : Option (List MTok) → List (Str × Option (List MTok)) → Option (Option (List MTok))
  | mode, [] => some mode
  | mode, (o, some ps) :: rest =>
    if o = "span".toList then if (ev sc ps).isSome then parseOptions ev sc mode rest else none
    else if o = "params".toList then parseOptions ev sc (some [.ident "params".toList, .group .paren ps]) rest
    else none
  | _, (o, none) :: rest =>
    if o = "literal".toList ∨ o = "scope".toList then parseOptions ev sc (some [.ident o]) rest
    else none

/-- The arms of `quote!`, /repo/json_derive/quote/src/lib.rs:69-107: what `__append_to_token!` is called with.  (`@options(..)` that is no list of options falls through to
the last arm.) -/
def wholeOf (ev : Ev) (sc : Scope) (ts : List MTok) : Option (List MTok) :=
  match ts with
  | .op ['@'] :: .ident w :: .op [':'] :: _ =>
    if w = "literal".toList || w = "scope".toList then some [.op ['#'], .group .paren ts] else some ts
  | .op ['@'] :: .ident w :: .group .paren ps :: .op [':'] :: tt =>
    if w = "options".toList then
      match optionList ps with
      | some opts =>
        match parseOptions ev sc none opts with
        | some (some mode) => some [.op ['#'], .group .paren (.op ['@'] :: (mode ++ .op [':'] :: tt))]
        | some none => some tt
        | none => none
      | none => some ts
    else if w = "span".toList then if (ev sc ps).isSome then some tt else none
    else if w = "params".toList then some [.op ['#'], .group .paren ts]
    else some ts
  | ts => some ts

/-- One command, /repo/json_derive/quote/src/lib.rs:127-315: the new state and what is emitted; `none`: a panic or compile error.  (Commands in an inactive
branch are only compiled; that they compile is not modelled.)  `#foreach(expr)` makes a vector of capacity `count()` and resizes it to its capacity (:301-303): the model takes
exactly `count()` rounds, which is what std's `Vec::with_capacity` gives for elements that are not zero-sized in practice (it promises at least as many).
`#execute(stmt)` (:217-225) runs the statement in a block of its own, so that what it declares ends with it; in this model it has no effect but that it may fail (statements that
assign to variables of the caller: Model/Assign). -/
def runCmd (ev : Ev) (expand : Scope → List MTok → Option (List QTok)) (tr : QMap → List QTok → QOut) (sc : Scope) (st : ScopeSt) (c : Cmd) :
    Option (ScopeSt × List QTok) :=
  if st.ended then none
  else
    match c with
    | .block tt => (runBlock tr st tt).get.map (fun out => (st, out))
    | .defineFn name args tt =>
      if st.iter.isSome then none
      else if st.on then
        (expand (args.foldl (fun sc a => (a, QVal.text [.punct '#' false, .ident a]) :: sc) sc) tt).map (fun v =>
          ({ st with map := mapInsert (name ++ ['-']) (lexTTs ((args.map (fun a => MTok.ident a)).intersperse (.op [',']))) (mapInsert (name ++ ['+']) v st.map) }, []))
      else some (st, [])
    | .define name tt =>
      if st.iter.isSome then none
      else if st.on then (expand sc tt).map (fun v => ({ st with map := mapInsert name v st.map }, []))
      else some (st, [])
    | .flag name =>
      if st.iter.isSome then none
      else if st.on then some ({ st with map := mapInsert name [] st.map }, [])
      else some (st, [])
    | .include_ e =>
      if st.iter.isSome then none
      else if st.on then
        match ev sc e with
        | some (.stream ts) => (tr st.map ts).get.map (fun out => (st, out))
        | _ => none
      else some (st, [])
    | .quote tt =>
      if st.iter.isSome then none
      else if st.on then (((wholeOf ev sc tt).bind (expand sc)).bind (fun ts => (tr st.map ts).get)).map (fun out => (st, out))
      else some (st, [])
    | .execute stmt =>
      if st.iter.isSome then none
      else if st.on then (ev sc stmt).map (fun _ => (st, []))
      else some (st, [])
    | .undef name =>
      if st.iter.isSome then none
      else if st.on then some ({ st with map := mapRemove name st.map }, [])
      else some (st, [])
    | .ifdef name => if st.iter.isSome then none else some ({ st with inIf := true, on := (mapGet name st.map).isSome }, [])
    | .ifndef name => if st.iter.isSome then none else some ({ st with inIf := true, on := !(mapGet name st.map).isSome }, [])
    | .if_ e =>
      if st.iter.isSome then none
      else
        match ev sc e with
        | some (.bool b) => some ({ st with inIf := true, on := b }, [])
        | _ => none
    | .elif e =>
      if st.iter.isSome || !st.inIf then none
      else
        match ev sc e with
        | some (.bool b) => some ({ st with on := b }, [])
        | _ => none
    | .else_ => if st.iter.isSome || !st.inIf then none else some ({ st with on := !st.on }, [])
    | .endif => if st.iter.isSome || !st.inIf then none else some ({ st with inIf := false, on := true }, [])
    | .foreach e x =>
      if st.iter.isSome then none
      else
        match ((ev sc e).bind QVal.items).bind (fun vs => collectO (vs.map QVal.shown)) with
        | some es => some ({ st with iter := some es, var := x }, [])
        | none => none
    | .repeat_ e =>
      if st.iter.isSome then none
      else
        match (ev sc e).bind QVal.items with
        | some vs => some ({ st with iter := some (List.replicate vs.length []), var := ['_'] }, [])
        | none => none
    | .endfor => if st.iter.isNone then none else some ({ st with iter := none, var := [] }, [])
    | .end_ => some ({ st with ended := true }, [])

/-- The commands of a scope one after the other, /repo/json_derive/quote/src/lib.rs:371-375. -/
def runCmds (ev : Ev) (expand : Scope → List MTok → Option (List QTok)) (tr : QMap → List QTok → QOut) (sc : Scope) :
    ScopeSt → List Cmd → Option (List QTok)
  | _, [] => some []
  | st, c :: cs =>
    match runCmd ev expand tr sc st c with
    | some (st', out) => (runCmds ev expand tr sc st' cs).map (fun rest => out ++ rest)
    | none => none

/-- `$($arg:ident),*`. -/
def argNames : List MTok → Option (List Str)
  | [] => some []
  | [.ident a] => some [a]
  | .ident a :: .op [','] :: rest => if rest.isEmpty then none else (argNames rest).map (a :: ·)
  | _ => none

/-- The rule of `__scope_command!` that a `#name(params)` matches, /repo/json_derive/quote/src/lib.rs:150-315 (`params`: `none` without parentheses). -/
def cmdOf (name : Str) (params : Option (List MTok)) : Option Cmd :=
  match params with
  | none =>
    if name = "else".toList then some .else_
    else if name = "endif".toList then some .endif
    else if name = "endfor".toList then some .endfor
    else if name = "end".toList then some .end_
    else none
  | some ps =>
    if name = "define".toList then
      match ps with
      | .ident p :: .group .paren args :: .op [','] :: t :: tt => (argNames args).map (fun a => .defineFn p a (t :: tt))
      | .ident p :: .op [','] :: t :: tt => some (.define p (t :: tt))
      | [.ident p] => some (.flag p)
      | _ => none
    else if name = "include".toList then some (.include_ ps)
    else if name = "quote".toList then some (.quote ps)
    else if name = "execute".toList then some (.execute ps)
    else if name = "undef".toList then (match ps with | [.ident p] => some (.undef p) | _ => none)
    else if name = "ifdef".toList then (match ps with | [.ident p] => some (.ifdef p) | _ => none)
    else if name = "ifndef".toList then (match ps with | [.ident p] => some (.ifndef p) | _ => none)
    else if name = "if".toList then some (.if_ ps)
    else if name = "elif".toList then some (.elif ps)
    else if name = "foreach".toList then
      match ps.reverse with
      | .ident x :: .op [','] :: e => some (.foreach e.reverse x)
      | _ => some (.repeat_ ps)
    else none

/-- The body of `@scope`, /repo/json_derive/quote/src/lib.rs:358-362: commands `#name(..)` and text blocks `{..}`. -/
def cmdsOf : List MTok → Option (List Cmd)
  | [] => some []
  | .op ['#'] :: .ident name :: .group .paren ps :: rest => (cmdOf name (some ps)).bind (fun c => (cmdsOf rest).map (c :: ·))
  | .op ['#'] :: .ident name :: rest => (cmdOf name none).bind (fun c => (cmdsOf rest).map (c :: ·))
  | .group .brace tt :: rest => (cmdsOf rest).map (.block tt :: ·)
  | _ => none

/-- Is it a text block? -/
def Cmd.isBlock : Cmd → Bool
  | .block _ => true
  | _ => false

/-! ### The macro -/

/-- The modifiers `#(@literal: ..)`, `#(@params(..): ..)`, `#(@scope: ..)`, /repo/json_derive/quote/src/lib.rs:326-378, given the
tokens after the `@`; `dep` bounds the nesting of calls of `__translate` (`translate`; a result does not depend on it).  (The variables set by `@params` are visible in what follows it.) -/
def runModifier (dep : Nat) (ev : Ev) (expand : Scope → List MTok → Option (List QTok)) (sc : Scope) (body after : List MTok) : Option (List QTok) :=
  match body with
  | .ident w :: .op [':'] :: tt =>
    if w = "literal".toList then
      if tt.isEmpty then none else catO (some (lexTTs tt)) (expand sc after)
    else if w = "scope".toList then
      match cmdsOf tt with
      | some cs => if cs.any Cmd.isBlock then catO (runCmds ev expand (translate dep) sc ScopeSt.init cs) (expand sc after) else none
      | none => none
    else none
  | .ident w :: .group .paren ps :: .op [':'] :: tt =>
    if w = "params".toList then
      if tt.isEmpty || (paramList [] ps).isEmpty then none
      else
        match setParams ev (paramList [] ps) sc [] with
        | some (sc', m) => catO (translate dep m (lexTTs tt)).get (expand sc' after)
        | none => none
    else none
  | _ => none

/-- The rules that start with `#`, given the tokens after it, /repo/json_derive/quote/src/lib.rs:326-657, 986-990.  The rules for `#![..]` and `#[..]`
(:626-657) give what the rule for a single `#` followed by the rules for `!` and groups give, so they are not listed separately. -/
def pound (dep : Nat) (ev : Ev) (expand : Scope → List MTok → Option (List QTok)) (sc : Scope) : List MTok → Option (List QTok)
  | .group .paren inner :: after =>
    match inner with
    | .op ['@'] :: body => runModifier dep ev expand sc body after
    | .op ['#'] :: r =>
      match formOf r after with
      | some (form, rest) => catO (runForm ev expand sc form) (expand sc rest)
      | none => none
    | e => catO ((ev sc e).bind QVal.shown) (expand sc after)
  | .ident tag :: rest => catO ((ev sc [.ident tag]).bind QVal.shown) (expand sc rest)
  | .op ['#'] :: rest => catO (some (genPunct '#')) (expand sc rest)
  | rest => catO (some (genPunct '#')) (expand sc rest)

/-- `__append_to_token!`, /repo/json_derive/quote/src/lib.rs:319-1008; the first argument bounds the nesting of macro calls (rustc's recursion limit is not
modelled).  Every rule emits a run of identifiers first and none looks at them, so they are emitted one by one here; the rules for groups and `!`
with a following `;` (:659-793) give what the rules for the single tokens give one after the other. -/
def expand (dep : Nat) (ev : Ev) : Nat → Scope → List MTok → Option (List QTok)
  | 0, _, _ => none
  | n + 1, sc, ts =>
    match ts with
    | [] => some []
    | .ident s :: rest => catO (some [.ident s]) (expand dep ev n sc rest)
    | .op s :: rest => if s = ['#'] then pound dep ev (expand dep ev n) sc rest else catO (some (genOp s)) (expand dep ev n sc rest)
    | .group d tt :: rest => catO ((expand dep ev n sc tt).map (fun g => [.group d g])) (expand dep ev n sc rest)
    | t :: rest => catO (some (lexTT t)) (expand dep ev n sc rest)

mutual
/-- Number of tokens, groups included. -/
def MTok.size : MTok → Nat
  | .group _ ts => mtoksSize ts + 1
  | _ => 1
/-- The same for a list. -/
def mtoksSize : List MTok → Nat
  | [] => 0
  | t :: ts => t.size + mtoksSize ts
end

/-- `quote!`, /repo/json_derive/quote/src/lib.rs:69-107 (spans are not modelled: `let _span = ..` only has to compile). -/
def quoteMacro (dep : Nat) (ev : Ev) (sc : Scope) (ts : List MTok) : Option (List QTok) :=
  (wholeOf ev sc ts).bind (fun us => expand dep ev (mtoksSize us + 1) sc us)

end RJ
