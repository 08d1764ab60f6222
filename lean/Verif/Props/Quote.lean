import Verif.Proof.Quote
import Verif.Proof.QuoteDec
import Verif.Proof.Subst
import Verif.Model.DeriveCode
import Mathlib.Data.List.Forall2
/-
  C52-C57: the `quote!` macro.
-/
namespace RJ
open Spec

/-! ### C52: a template means what its documentation says -/

/-- C52: for every well-formed template, in every scope and whatever its expressions evaluate to, `quote!` yields what the documentation of its syntax says;
it fails exactly if an expression of a piece that is reached fails or has the wrong type. -/
theorem C52_template (dep : Nat) (ev : Ev) (sc : Scope) (ts : List Tmpl) (h : allOk ts) (hat : NotAt (renderAll ts)) :
    quoteMacro dep ev sc (renderAll ts) = meansAll ev ts sc := by
  rw [quoteMacro_plain dep ev sc _ hat]
  exact renderAll_ok dep ev ts h _ sc (Nat.lt_succ_self _)

/-- A template with a variable, a repetition with a separator, a condition, an option and an attribute. -/
def sampleTmpl : List Tmpl :=
  [.attr false [.tok (.ident "test".toList)], .tok (.ident "fn".toList), .var "name".toList,
   .group .paren [.iterMap (.var "args".toList) (some "x".toList) [.var "x".toList, .tok (.op "::".toList), .tok (.ident "T".toList)] (some (.op [',']))],
   .opt (.var "ret".toList), .when true (.expr (lexCode "flag")) [.tok (.ident "where".toList), .hash]]

example : renderAll sampleTmpl = lexCode "#[test] fn #name(#(#args:x #x::T),*) #(#ret)? #(#(flag): where ##)+" := by rfl

/-- Beside C52: what the sample stands for. -/
example : allOk sampleTmpl ∧ NotAt (renderAll sampleTmpl) ∧
    meansAll evalExpr sampleTmpl
      [("name".toList, .text [.ident "f".toList]), ("args".toList, .list [.text [.ident "a".toList], .text [.ident "b".toList]]), ("ret".toList, .absent),
       ("flag".toList, .bool true)] =
      some [.punct '#' false, .group .bracket [.ident "test".toList], .ident "fn".toList, .ident "f".toList,
        .group .paren [.ident "a".toList, .punct ':' true, .punct ':' false, .ident "T".toList, .punct ',' false,
          .ident "b".toList, .punct ':' true, .punct ':' false, .ident "T".toList],
        .ident "where".toList, .punct '#' false] := by
  refine ⟨?_, ?_, rfl⟩
  · simp [sampleTmpl, allOk, Tmpl.Ok, PlainTok]
  · simp [sampleTmpl, renderAll, Tmpl.render, NotAt]

/-- C52: an option or iteration over something that is not there leaves nothing, whatever stands around it. -/
theorem C52_empty (dep : Nat) (ev : Ev) (sc : Scope) (src : Src) (x : Option Str) (body pre post : List Tmpl) (sep : Option MTok)
    (h : allOk (pre ++ [.iterMap src x body sep] ++ post)) (hat : NotAt (renderAll (pre ++ [.iterMap src x body sep] ++ post)))
    (hv : (ev sc src.code).bind QVal.items = some []) :
    quoteMacro dep ev sc (renderAll (pre ++ [.iterMap src x body sep] ++ post)) = catO (meansAll ev pre sc) (meansAll ev post sc) := by
  rw [C52_template dep ev sc _ h hat]
  rw [meansAll_append, meansAll_append]
  have : meansAll ev [.iterMap src x body sep] sc = some [] := by
    simp only [meansAll, Tmpl.means, hv, Option.bind_some, allSome, Option.map_some]
    cases sep <;> rfl
  rw [this, catO_nil]

theorem shown_iff (v : QVal) (ts : List QTok) : v.shown = some ts ↔ Displayed v ts := by
  constructor
  · intro h
    cases v with
    | text l => cases h; exact .text _
    | stream l => cases h; exact .stream _
    | bool b => cases b <;> cases h <;> constructor
    | absent => cases h
    | present v => cases h
    | list vs => cases h
    | record t ms => cases h; exact .record _ _
  · intro h
    cases h <;> rfl

theorem items_iff (v : QVal) (vs : List QVal) : v.items = some vs ↔ Iterated v vs := by
  constructor
  · intro h
    cases v <;> first | (cases h; done) | (cases h; constructor)
  · intro h
    cases h <;> rfl

/-- C52: `#x` stands for what the value of `x` looks like; it fails exactly if there is no such value or it cannot be printed. -/
theorem C52_variable (dep : Nat) (ev : Ev) (sc : Scope) (x : Str) (ts : List QTok) :
    quoteMacro dep ev sc [.op ['#'], .ident x] = some ts ↔ ∃ v, ev sc [.ident x] = some v ∧ Displayed v ts := by
  have h := C52_template dep ev sc [.var x] ⟨trivial, trivial⟩ (by simp [renderAll, Tmpl.render, NotAt])
  simp only [renderAll, Tmpl.render, List.append_nil, meansAll, Tmpl.means] at h
  rw [h]
  cases hv : ev sc [.ident x] with
  | none => simp
  | some v =>
    simp only [Option.bind_some]
    cases hs : v.shown with
    | none =>
      simp only [Option.bind_none, Option.some.injEq]
      constructor
      · intro h; cases h
      · rintro ⟨w, rfl, hd⟩
        rw [(shown_iff _ _).mpr hd] at hs; cases hs
    | some us =>
      simp only [Option.bind_some, Option.map_some, List.append_nil, Option.some.injEq]
      constructor
      · rintro rfl; exact ⟨v, rfl, (shown_iff _ _).mp hs⟩
      · rintro ⟨w, rfl, hd⟩
        rw [(shown_iff _ _).mpr hd] at hs
        exact (Option.some.inj hs).symm

/-- C52: `#(#xs)*` stands for what the elements of `xs` look like, in order. -/
theorem C52_elements (dep : Nat) (ev : Ev) (sc : Scope) (x : Str) (v : QVal) (vs : List QVal) (us : List (List QTok)) (hv : ev sc [.ident x] = some v)
    (hi : Iterated v vs) (hd : List.Forall₂ Displayed vs us) :
    quoteMacro dep ev sc [.op ['#'], .group .paren [.op ['#'], .ident x], .op ['*']] = some us.flatten := by
  have h := C52_template dep ev sc [.iter (.var x) none] ⟨by simp [Tmpl.Ok], trivial⟩ (by simp [renderAll, Tmpl.render, NotAt])
  simp only [renderAll, Tmpl.render, List.append_nil, meansAll, Tmpl.means, Src.toks, Src.code, sepTok, List.nil_append, hv, Option.bind_some,
    (items_iff v vs).mpr hi] at h
  have ha : allSome QVal.shown vs = some us := by
    clear hi h
    induction hd with
    | nil => rfl
    | cons h1 _ ih => rw [allSome, (shown_iff _ _).mpr h1, ih]; rfl
  rw [ha] at h
  simpa [joined] using h

/-- C52: the body of `#(#xs:x ..)*` is expanded once for each element, in order, with `x` standing for that element (and, with `_` for `x`, in the scope as it is). -/
theorem C52_body (dep : Nat) (ev : Ev) (sc : Scope) (xs : Str) (b : Option Str) (body : List Tmpl) (hb : body ≠ []) (ho : allOk body) (v : QVal) (vs : List QVal)
    (us : List (List QTok)) (hv : ev sc [.ident xs] = some v) (hi : Iterated v vs)
    (hd : List.Forall₂ (fun w u => meansAll ev body (match b with | some x => (x, w) :: sc | none => sc) = some u) vs us) :
    quoteMacro dep ev sc [.op ['#'], .group .paren (.op ['#'] :: .ident xs :: .op [':'] :: binderTok b :: renderAll body), .op ['*']] = some us.flatten := by
  have h := C52_template dep ev sc [.iterMap (.var xs) b body none] ⟨⟨hb, ho, fun _ h => (nomatch h)⟩, trivial⟩ (by simp [renderAll, Tmpl.render, NotAt])
  simp only [renderAll, Tmpl.render, List.append_nil, meansAll, Tmpl.means, Src.toks, Src.code, sepTok, List.nil_append, hv, Option.bind_some,
    (items_iff v vs).mpr hi] at h
  have ha : allSome (fun w => meansAll ev body (bindX b w sc)) vs = some us := by
    clear hi h
    induction hd with
    | nil => rfl
    | cons h1 _ ih =>
      rw [allSome, ih]
      cases b with
      | none => rw [show bindX none _ sc = sc from rfl]; rw [h1]; rfl
      | some x => rw [show bindX (some x) _ sc = (x, _) :: sc from rfl, h1]; rfl
  rw [ha] at h
  simpa [joined] using h

/-- Beside them: `#flag`, and `#(#opt)*` for an option that is there. -/
example : quoteMacro 5 evalExpr [("flag".toList, .bool false)] [.op ['#'], .ident "flag".toList] = some [.ident "false".toList] ∧
    quoteMacro 5 evalExpr [("opt".toList, .present (.text [.lit ['1']]))] [.op ['#'], .group .paren [.op ['#'], .ident "opt".toList], .op ['*']] = some [.lit ['1']] :=
  ⟨(C52_variable 5 evalExpr _ _ _).mpr ⟨_, rfl, .no⟩, C52_elements 5 evalExpr _ _ _ _ [[.lit ['1']]] rfl (.present _) (.cons (.text _) .nil)⟩

/-! ### C53: code without `#` is reproduced token for token -/

/-- C53: code without `#` comes out as the compiler itself would have tokenised it: nothing lost, nothing added, operators of two and three characters
kept together, at every depth. -/
theorem C53_verbatim (dep : Nat) (ev : Ev) (sc : Scope) (ts : List MTok) (h : NoHashes ts) (hat : NotAt ts) :
    quoteMacro dep ev sc ts = some (codeAll ts) := by
  have ih := tmplsOf_ok ev sc ts h
  have := C52_template dep ev sc (tmplsOf ts) ih.2.1 (by rw [ih.1]; exact hat)
  rw [ih.1, ih.2.2] at this
  exact this

/-- Beside C53: a piece of code with operators of one to three characters, groups and `_`. -/
def sampleCode : List MTok :=
  [.ident "fn".toList, .ident "f".toList, .group .paren [.ident "x".toList, .op [':'], .op ['&'], .ident "T".toList], .op ['-', '>'], .ident "u8".toList,
   .group .brace [.ident "x".toList, .op ['>', '>', '='], .lit ['1'], .op ['.', '.', '='], .lit ['2'], .op [';'], .ident "m".toList, .op ['!'],
     .group .paren [.ident "a".toList, .op [','], .under]]]

example : NoHashes sampleCode ∧ NotAt sampleCode ∧ sampleCode = lexCode "fn f(x: &T) -> u8 { x >>= 1..=2; m!(a, _) }" := by
  refine ⟨by simp [sampleCode, NoHashes, NoHash], by simp [sampleCode, NotAt], by decide +kernel⟩

/-- Beside C53: `a > > b` is not `a >> b`. -/
example : codeAll (lexCode "a > > b") = [.ident ['a'], .punct '>' false, .punct '>' false, .ident ['b']] ∧
    codeAll (lexCode "a >> b") = [.ident ['a'], .punct '>' true, .punct '>' false, .ident ['b']] := by
  constructor <;> decide +kernel

/-- C53: `@literal:` reproduces any code, `#` included. -/
theorem C53_literal (dep : Nat) (ev : Ev) (sc : Scope) (ts : List MTok) (h : ts ≠ []) :
    quoteMacro dep ev sc (.op ['@'] :: .ident "literal".toList :: .op [':'] :: ts) = some (codeAll ts) := by
  have hne : ts.isEmpty = false := by cases ts <;> simp_all
  simp only [quoteMacro, whole_at ev sc _ (.inl rfl), Option.bind_some, mtoksSize, MTok.size, expand, pound, runModifier, hne, lex_code.2]
  simp [catO]

/-! ### C54: identifiers -/

/-- C54: a printed value becomes one identifier token, without the compiler's lexer being asked, exactly if its text is an ASCII identifier. -/
theorem C54_identifier (lex : Str → Option (List QTok)) (s : Str) :
    (AsciiIdent s → parseText lex s = some [.ident s]) ∧ (¬ AsciiIdent s → parseText lex s = lex s) := by
  unfold parseText
  constructor
  · intro h; rw [if_pos ((isIdentText_iff s).2 h)]
  · intro h; rw [if_neg (fun e => h ((isIdentText_iff s).1 e))]

/-- C54: so the shortcut never changes a result: it agrees with any lexer that reads identifiers as identifiers. -/
theorem C54_shortcut (lex : Str → Option (List QTok)) (h : ∀ s, AsciiIdent s → lex s = some [.ident s]) : parseText lex = lex := by
  funext s
  by_cases hs : AsciiIdent s
  · rw [(C54_identifier lex s).1 hs, h s hs]
  · exact (C54_identifier lex s).2 hs

example : AsciiIdent "to_json2".toList ∧ ¬ AsciiIdent "2x".toList ∧ ¬ AsciiIdent "r#type".toList ∧ ¬ AsciiIdent "größe".toList ∧ ¬ AsciiIdent [] := by
  refine ⟨(isIdentText_iff _).1 (by decide +kernel), ?_, ?_, ?_, ?_⟩ <;> (rw [← isIdentText_iff]; decide +kernel)

/-! ### C56: `@params` substitutes once -/

theorem paramVals_none (ev : Ev) : ∀ (ps : List QParam) (sc : Scope) (vals : Str → Option (List QTok)) (x : Str), (∀ p ∈ ps, p.name ≠ x) → vals x = none →
    ∀ sc' vals', paramVals ev ps sc vals = some (sc', vals') → vals' x = none
  | [], sc, vals, x, _, hx, sc', vals', h => by cases h; exact hx
  | p :: ps, sc, vals, x, hp, hx, sc', vals', h => by
    simp only [paramVals] at h
    cases e1 : ev sc (p.value.getD [.ident p.name]) with
    | none => rw [e1] at h; simp at h
    | some v =>
      rw [e1] at h
      simp only [Option.bind_some] at h
      cases e2 : v.shown with
      | none => rw [e2] at h; simp at h
      | some ts =>
        rw [e2] at h
        simp only [Option.bind_some] at h
        refine paramVals_none ev ps _ _ x (fun q hq => hp q (by simp [hq])) ?_ sc' vals' h
        have : ¬ x = p.name := fun e => hp p (by simp) e.symm
        rw [if_neg this]; exact hx

/-- C56: `quote!(@params(x = e, y, ..): text)` is the text with every `#x`, at every depth, replaced by the text of its value (a later expression sees the earlier
parameters); a `#x` that is not a parameter disappears without an error.  Conditions: the values contain no `#` of their own, and no two `#` stand next to each other. -/
theorem C56_params (dep : Nat) (ev : Ev) (sc : Scope) (ps : List QParam) (tt : List MTok) (hps : ps ≠ []) (htt : tt ≠ [])
    (hcomma : ∀ p ∈ ps, .op [','] ∉ p.toks) (hname : ∀ p ∈ ps, ∀ x, p.name ≠ x ++ ['-']) (hd : NoDouble (codeAll tt)) (hdep : depth (codeAll tt) < dep)
    (hval : ∀ sc' vals, paramVals ev ps sc (fun _ => none) = some (sc', vals) → ∀ x v, vals x = some v → ∀ t ∈ v, ¬ IsHash t) :
    quoteMacro dep ev sc (.op ['@'] :: .ident "params".toList :: .group .paren (paramsToks ps) :: .op [':'] :: tt) =
      (paramVals ev ps sc (fun _ => none)).map (fun r => subst r.2 (codeAll tt)) := by
  have h0 : tt.isEmpty = false := by cases tt <;> simp_all
  have hl : paramList [] (paramsToks ps) = ps.map QParam.toks := by
    rw [paramList_join ps [] hcomma hps]
    cases ps with
    | nil => exact absurd rfl hps
    | cons p qs => simp
  have h1 : ((ps.map QParam.toks)).isEmpty = false := by cases ps <;> simp_all
  have key : quoteMacro dep ev sc (.op ['@'] :: .ident "params".toList :: .group .paren (paramsToks ps) :: .op [':'] :: tt) =
      match setParams ev (ps.map QParam.toks) sc [] with
      | some (_, m) => (translate dep m (lexTTs tt)).get
      | none => none := by
    simp only [quoteMacro, whole_params, Option.bind_some, mtoksSize, MTok.size, expand, pound, runModifier, hl, h0, h1]
    cases setParams ev (ps.map QParam.toks) sc [] with
    | none => simp
    | some r => simp [catO]
  rw [key]
  have hs := setParams_eq ev ps sc [] (fun _ => none) rfl
  cases e : paramVals ev ps sc (fun _ => none) with
  | none => rw [e] at hs; rw [hs]; rfl
  | some r =>
    obtain ⟨sc', vals⟩ := r
    rw [e] at hs
    obtain ⟨m, h2, h3⟩ := hs
    rw [h2]
    dsimp only
    have hm : GoodMap m := by
      constructor
      · intro x v hv
        exact hval sc' vals e x v (by rw [← h3]; exact hv)
      · intro x
        have := paramVals_none ev ps sc (fun _ => none) (x ++ ['-']) (fun p hp => hname p hp x) rfl sc' vals e
        rw [← h3] at this; exact this
    rw [lex_code.2, translate_subst hm dep _ hdep hd, h3]
    rfl

/-- Beside C56: `@params(a = x, b): f(#a, [#b, #c]);` -/
example : let ps : List QParam := [⟨"a".toList, some [.ident "x".toList]⟩, ⟨"b".toList, none⟩]
    let tt := lexCode "f(#a, [#b, #c]);"
    let sc : Scope := [("x".toList, .text [.lit ['1']]), ("b".toList, .text [.ident ['y'], .punct '+' false, .lit ['2']])]
    (∀ p ∈ ps, .op [','] ∉ p.toks) ∧ (∀ p ∈ ps, ∀ x, p.name ≠ x ++ ['-']) ∧ NoDouble (codeAll tt) ∧ depth (codeAll tt) = 2 ∧
    quoteMacro 3 evalExpr sc (lexCode "@params(a = x, b): f(#a, [#b, #c]);") = some (codeAll (lexCode "f(1, [y + 2, ]);")) ∧
    (.op ['@'] :: .ident "params".toList :: .group .paren (paramsToks ps) :: .op [':'] :: tt) = lexCode "@params(a = x, b): f(#a, [#b, #c]);" := by
  have e : lexCode "f(#a, [#b, #c]);" = [.ident ['f'], .group .paren [.op ['#'], .ident ['a'], .op [','], .group .bracket [.op ['#'], .ident ['b'], .op [','], .op ['#'], .ident ['c']]],
    .op [';']] := by decide +kernel
  refine ⟨by decide +kernel, ?_, ?_, by decide +kernel, by decide +kernel, by decide +kernel⟩
  · intro p hp x e
    simp only [List.mem_cons, List.not_mem_nil, or_false] at hp
    have := congrArg List.getLast? e
    rw [List.getLast?_append] at this
    rw [show ['-'].getLast?.or (List.getLast? x) = some '-' from rfl] at this
    rcases hp with rfl | rfl <;> exact absurd this (by decide)
  · rw [e]
    simp [codeAll, codeTok, NoDouble, NoDoubleIn, IsHash]

/-- C56: a value that contains a parameter is substituted again, so a value that contains its own `#x` never comes to an end. -/
theorem C56_self_reference (n : Nat) (m : QMap) (x : Str) (j : Bool) (h : mapGet x m = some [.punct '#' j, .ident x]) :
    translate n m [.punct '#' j, .ident x] = .more := by
  induction n with
  | zero => rfl
  | succ n ih =>
    have : translatePass (translate n) m false [.punct '#' j, .ident x] = .ok [.punct '#' j, .ident x] := by
      simp [translatePass, afterPound, h, QOut.bind]
    rw [translate, this]
    simp only [QOut.bind]
    rw [if_pos (by simp [remain, QTok.isPunct]), ih]

/-- C56: whatever the bound on nested calls, a result (or a panic) is the same for every larger one. -/
theorem C56_bound {n k : Nat} (hk : n ≤ k) (m : QMap) (ts : List QTok) (h : translate n m ts ≠ .more) : translate k m ts = translate n m ts :=
  translate_mono hk m ts h

/-- C56: a `#` kept as such before a substituted value is taken for a reference the second time round: `##x` with `x = y` vanishes instead of giving `#y`. -/
theorem C56_double_hash (x y : Str) (hxy : x ≠ y) (n : Nat) :
    translate (n + 2) [(x, [.ident y])] [.punct '#' false, .punct '#' false, .ident x] = .ok [] ∧
    subst (fun z => mapGet z [(x, [.ident y])]) [.punct '#' false, .punct '#' false, .ident x] = [.punct '#' false, .ident y] := by
  constructor
  · simp [translate, translatePass, afterPound, mapGet, QOut.bind, remain, QTok.isPunct, hxy]
  · rw [subst_hash_other _ _ _ _ (by simp) (by simp), subst_hash_ident]; simp [mapGet, subst]

/-- C56: no reference is left: whatever comes out of a substitution, in it no `#` is directly followed by an identifier or by parentheses (what a value brings in is substituted as well). -/
theorem C56_none_left (n : Nat) (m : QMap) (ts out : List QTok) (h : translate n m ts = .ok out) (pre post : List QTok) (j : Bool) (u : QTok)
    (e : out = pre ++ .punct '#' j :: u :: post) : (∀ s, u ≠ .ident s) ∧ (∀ g, u ≠ .group .paren g) := by
  have clean : remain out = false := by
    clear e
    induction n generalizing ts with
    | zero => cases h
    | succ n ih =>
      rw [translate] at h
      cases hp : translatePass (translate n) m false ts with
      | ok r =>
        rw [hp] at h
        simp only [QOut.bind] at h
        by_cases hr : remain r = true
        · rw [if_pos hr] at h
          exact ih r h
        · rw [if_neg hr] at h
          cases h
          simpa using hr
      | panic => rw [hp] at h; cases h
      | more => rw [hp] at h; cases h
  subst e
  clear h
  induction pre with
  | nil =>
    simp only [List.nil_append, remain, Bool.or_eq_false_iff] at clean
    constructor
    · rintro s rfl; simp [QTok.isPunct] at clean
    · rintro g rfl; simp [QTok.isPunct] at clean
  | cons t pre ih =>
    refine ih ?_
    cases pre with
    | nil =>
      have clean : remain (t :: QTok.punct '#' j :: u :: post) = false := clean
      rw [remain.eq_def] at clean
      exact (Bool.or_eq_false_iff.1 clean).2
    | cons t' pre => simp only [List.cons_append, remain, Bool.or_eq_false_iff] at clean; exact clean.2

/-- C56: a value that is a macro call is called: `#x` with `x = #(..)` gives what `#(..)` gives. -/
theorem C56_value_call (n : Nat) (m : QMap) (x : Str) (j j' : Bool) (g : List QTok) (h : mapGet x m = some [.punct '#' j, .group .paren g]) :
    translate (n + 1) m [.punct '#' j', .ident x] = translate n m [.punct '#' j, .group .paren g] := by
  have : translatePass (translate n) m false [.punct '#' j', .ident x] = .ok [.punct '#' j, .group .paren g] := by
    simp [translatePass, afterPound, h, QOut.bind]
  rw [translate, this]
  simp only [QOut.bind]
  rw [if_pos (by simp [remain, QTok.isPunct])]

/-- Beside `C56_value_call`: `x = #(f(1))`, and `f(a)` is `#a + 2`. -/
example : let m : QMap := [("x".toList, [.punct '#' false, .group .paren [.ident ['f'], .group .paren [.lit ['1']]]]), ("f-".toList, [.ident ['a']]),
      ("f+".toList, [.punct '#' false, .ident ['a'], .punct '+' false, .lit ['2']])]
    translate 3 m [.punct '#' false, .ident "x".toList] = .ok [.lit ['1'], .punct '+' false, .lit ['2']] := rfl

end RJ
