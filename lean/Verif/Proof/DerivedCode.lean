import Verif.Spec.DerivedCode
import Verif.Proof.Quote
import Verif.Proof.QuoteDec
import Verif.Proof.Derived
/- The templates of the derive macros, expanded. -/
namespace RJ
open Spec
set_option maxRecDepth 100000

/-- `lexCode` of a list of characters (so that the kernel does not have to decode a string). -/
def lexChars (cs : Str) : List MTok := (lexGo (cs.length + 1) cs [] []).getD []

theorem lexCode_ofList (cs : Str) : lexCode (String.ofList cs) = lexChars cs := by
  unfold lexCode
  rw [String.toList_ofList]
  rfl

/-- Plain code as a template. -/
def T (s : String) : List Tmpl := tmplsOf (lexCode s)

/-- `s.generics` etc. -/
def dotted (x m : String) : List MTok := [.ident x.toList, .op ['.'], .ident m.toList]

/-- `x.0` etc. -/
def dotLit (x m : String) : List MTok := [.ident x.toList, .op ['.'], .lit m.toList]

/-- The part before the braces. -/
def headTmpl (traitFor : String) : List Tmpl :=
  T "impl" ++ ([.opt (.expr (.op ['&'] :: dotted "s" "generics"))] ++ (T traitFor ++
    [.expr (dotted "s" "ident"), .optMap (.expr (.op ['&'] :: dotted "s" "generics")) (some "x".toList) [.expr (dotted "x" "only_idents" ++ [.group .paren []])],
     .opt (.expr (.op ['&'] :: dotted "s" "where_clause"))]))

/-- The loop over the members. -/
def addTmpl : List Tmpl :=
  T "match js.add_option" ++ ([.group .paren ([.expr (dotLit "x" "0")] ++ (T ", json::ToJson::to_json" ++
    ([.group .paren (T "&self." ++ [.expr (dotLit "x" "1")])] ++ T ", true")))] ++ T "{ Ok(_) => (), Err(_) => unreachable!() };")

/-- The template of `JsonEncode`. -/
def encodeTmpl : List Tmpl :=
  headTmpl "json::ToJson for" ++ [.group .brace (T "fn to_json(&self) -> json::Json" ++
    [.group .brace (T "let map = std::collections::HashMap::with_capacity" ++ ([.group .paren [.expr (dotted "v" "len" ++ [.group .paren []])]] ++
      (T "; let mut js = json::Json::Object(map);" ++ ([.iterMap (.var "v".toList) (some "x".toList) addTmpl none] ++ T "js"))))])]

theorem encodeTmpl_render : renderAll encodeTmpl = lexCode encodeSrc := by
  unfold encodeTmpl headTmpl addTmpl T encodeSrc
  repeat rw [lexCode_ofList]
  decide +kernel

/-- The initialiser of a member. -/
def getTmpl : List Tmpl :=
  [.expr (dotLit "x" "1")] ++ (T ":" ++ ([.group .brace (T "if let Some((v, _)) = obj.get" ++ ([.group .paren [.expr (dotLit "x" "0")]] ++
    ([.group .brace (T "<" ++ ([.expr (dotLit "x" "2")] ++ T "as json::FromJson>::from_json(v)?"))] ++ (T "else" ++
      [.group .brace (T "return Err" ++ ([.group .paren (T "json::Error::new" ++
        [.group .paren (T "json::ErrorKind::MissingKey, format!" ++ [.group .paren (T "\"missing key \\\"{}\\\".\"," ++ [.expr (dotLit "x" "0")])])])] ++ T ";"))]))))] ++
    T ","))

/-- The initialiser of an ignored field. -/
def defaultTmpl : List Tmpl := [.expr (dotted "x" "ident")] ++ T ": std::default::Default::default(),"

/-- The body of `from_json`. -/
def decodeBodyTmpl : List Tmpl :=
  T "match json" ++
    [.group .brace (T "json::Json::Object(obj) =>" ++
      ([.group .brace (T "Ok" ++ [.group .paren ([.expr (dotted "s" "ident")] ++
        [.group .brace ([.iterMap (.var "v".toList) (some "x".toList) getTmpl none] ++ [.iterMap (.var "ig".toList) (some "x".toList) defaultTmpl none])])])] ++
      (T "other => Err" ++
      ([.group .paren (T "json::Error::new" ++
        [.group .paren (T "json::ErrorKind::ConvertError, format!" ++
          [.group .paren (T "\"cannot convert {} to {}.\", other._kind(), stringify!" ++ [.group .paren [.expr (dotted "s" "ident")]])])])] ++
      T ","))))]

/-- The template of `JsonDecode`. -/
def decodeTmpl : List Tmpl :=
  headTmpl "json::FromJson for" ++
    [.group .brace (T "fn from_json(json: &json::Json) -> Result<Self, json::Error>" ++ [.group .brace decodeBodyTmpl])]

theorem decodeTmpl_render : renderAll decodeTmpl = lexCode decodeSrc := by
  unfold decodeTmpl headTmpl decodeBodyTmpl getTmpl defaultTmpl T decodeSrc
  repeat rw [lexCode_ofList]
  decide +kernel


/-! ### The pieces of code contain no `#` -/

theorem T_ok {s : String} (h : NoHashes (lexCode s)) : allOk (T s) = True := eq_true (tmplsOf_ok evalExpr [] _ h).2.1
theorem T_means {s : String} (h : NoHashes (lexCode s)) (ev : Ev) (sc : Scope) : meansAll ev (T s) sc = some (code s) := (tmplsOf_ok ev sc _ h).2.2

theorem snip0 : NoHashes (lexCode "impl") := by rw [lexCode_ofList]; decide +kernel
theorem snip1 : NoHashes (lexCode "match js.add_option") := by rw [lexCode_ofList]; decide +kernel
theorem snip2 : NoHashes (lexCode ", json::ToJson::to_json") := by rw [lexCode_ofList]; decide +kernel
theorem snip3 : NoHashes (lexCode "&self.") := by rw [lexCode_ofList]; decide +kernel
theorem snip4 : NoHashes (lexCode ", true") := by rw [lexCode_ofList]; decide +kernel
theorem snip5 : NoHashes (lexCode "{ Ok(_) => (), Err(_) => unreachable!() };") := by rw [lexCode_ofList]; decide +kernel
theorem snip6 : NoHashes (lexCode "fn to_json(&self) -> json::Json") := by rw [lexCode_ofList]; decide +kernel
theorem snip7 : NoHashes (lexCode "let map = std::collections::HashMap::with_capacity") := by rw [lexCode_ofList]; decide +kernel
theorem snip8 : NoHashes (lexCode "; let mut js = json::Json::Object(map);") := by rw [lexCode_ofList]; decide +kernel
theorem snip9 : NoHashes (lexCode "js") := by rw [lexCode_ofList]; decide +kernel
theorem snip10 : NoHashes (lexCode ":") := by rw [lexCode_ofList]; decide +kernel
theorem snip11 : NoHashes (lexCode "if let Some((v, _)) = obj.get") := by rw [lexCode_ofList]; decide +kernel
theorem snip12 : NoHashes (lexCode "<") := by rw [lexCode_ofList]; decide +kernel
theorem snip13 : NoHashes (lexCode "as json::FromJson>::from_json(v)?") := by rw [lexCode_ofList]; decide +kernel
theorem snip14 : NoHashes (lexCode "else") := by rw [lexCode_ofList]; decide +kernel
theorem snip15 : NoHashes (lexCode "return Err") := by rw [lexCode_ofList]; decide +kernel
theorem snip16 : NoHashes (lexCode "json::Error::new") := by rw [lexCode_ofList]; decide +kernel
theorem snip17 : NoHashes (lexCode "json::ErrorKind::MissingKey, format!") := by rw [lexCode_ofList]; decide +kernel
theorem snip18 : NoHashes (lexCode "\"missing key \\\"{}\\\".\",") := by rw [lexCode_ofList]; decide +kernel
theorem snip19 : NoHashes (lexCode ";") := by rw [lexCode_ofList]; decide +kernel
theorem snip20 : NoHashes (lexCode ",") := by rw [lexCode_ofList]; decide +kernel
theorem snip21 : NoHashes (lexCode ": std::default::Default::default(),") := by rw [lexCode_ofList]; decide +kernel
theorem snip22 : NoHashes (lexCode "match json") := by rw [lexCode_ofList]; decide +kernel
theorem snip23 : NoHashes (lexCode "json::Json::Object(obj) =>") := by rw [lexCode_ofList]; decide +kernel
theorem snip24 : NoHashes (lexCode "Ok") := by rw [lexCode_ofList]; decide +kernel
theorem snip25 : NoHashes (lexCode "other => Err") := by rw [lexCode_ofList]; decide +kernel
theorem snip26 : NoHashes (lexCode "json::ErrorKind::ConvertError, format!") := by rw [lexCode_ofList]; decide +kernel
theorem snip27 : NoHashes (lexCode "\"cannot convert {} to {}.\", other._kind(), stringify!") := by rw [lexCode_ofList]; decide +kernel
theorem snip28 : NoHashes (lexCode "fn from_json(json: &json::Json) -> Result<Self, json::Error>") := by rw [lexCode_ofList]; decide +kernel
theorem snip29 : NoHashes (lexCode "json::ToJson for") := by rw [lexCode_ofList]; decide +kernel
theorem snip30 : NoHashes (lexCode "json::FromJson for") := by rw [lexCode_ofList]; decide +kernel

/-! ### What the templates stand for -/

theorem meansAll_cons (ev : Ev) (t : Tmpl) (ts : List Tmpl) (sc : Scope) : meansAll ev (t :: ts) sc = catO (t.means ev sc) (meansAll ev ts sc) := by
  simp only [meansAll]; rfl
theorem meansAll_nil (ev : Ev) (sc : Scope) : meansAll ev [] sc = some [] := rfl

theorem allOk_one (t : Tmpl) : allOk [t] ↔ t.Ok := by simp [allOk]

theorem expr_ok (x m : String) (r : List MTok) : Tmpl.Ok (.expr (dotted x m ++ r)) ∧ Tmpl.Ok (.expr (dotted x m)) ∧ Tmpl.Ok (.expr (dotLit x m)) := by
  simp [Tmpl.Ok, dotted, dotLit]

theorem ne_append_right {α : Type} (a : List α) {b : List α} (h : b ≠ []) : a ++ b ≠ [] := by simp [h]

theorem headTmpl_ok {t : String} (h : NoHashes (lexCode t)) : allOk (headTmpl t) = True := by
  simp only [headTmpl, allOk_append, allOk, T_ok snip0, T_ok h, Tmpl.Ok, (expr_ok _ _ _).1, (expr_ok _ _ []).2.1]
  simp [dotted]

theorem addTmpl_ok : allOk addTmpl = True ∧ addTmpl ≠ [] := by
  constructor
  · simp only [addTmpl, allOk_append, allOk_one, T_ok snip1, T_ok snip2, T_ok snip3, T_ok snip4, T_ok snip5, Tmpl.Ok, (expr_ok _ _ []).2.2]
    simp [dotLit]
  · unfold addTmpl; simp

theorem getTmpl_ok : allOk getTmpl = True ∧ getTmpl ≠ [] := by
  constructor
  · simp only [getTmpl, allOk_append, allOk_one, T_ok snip10, T_ok snip11, T_ok snip12, T_ok snip13, T_ok snip14, T_ok snip15, T_ok snip16, T_ok snip17, T_ok snip18,
      T_ok snip19, T_ok snip20, Tmpl.Ok]
    simp [dotLit]
  · unfold getTmpl; simp

theorem defaultTmpl_ok : allOk defaultTmpl = True ∧ defaultTmpl ≠ [] := by
  constructor
  · simp only [defaultTmpl, allOk_append, allOk_one, T_ok snip21, Tmpl.Ok]
    simp [dotted]
  · unfold defaultTmpl; simp

theorem encodeTmpl_ok : allOk encodeTmpl := by
  simp only [encodeTmpl, allOk_append, allOk_one, headTmpl_ok snip29, T_ok snip6, T_ok snip7, T_ok snip8, T_ok snip9, Tmpl.Ok, addTmpl_ok.1, addTmpl_ok.2]
  simp [dotted, addTmpl_ok.2]

theorem decodeTmpl_ok : allOk decodeTmpl := by
  simp only [decodeTmpl, decodeBodyTmpl, allOk_append, allOk_one, headTmpl_ok snip30, T_ok snip16, T_ok snip20, T_ok snip22, T_ok snip23, T_ok snip24, T_ok snip25, T_ok snip26, T_ok snip27,
    T_ok snip28, Tmpl.Ok, getTmpl_ok.1, defaultTmpl_ok.1]
  simp [dotted, getTmpl_ok.2, defaultTmpl_ok.2]

/-- The variables of one member. -/
theorem x_zero (t : Option (List QTok)) (a b : QVal) (r : List (Str × QVal)) (sc : Scope) :
    evalExpr (("x".toList, .record t (("0".toList, a) :: ("1".toList, b) :: r)) :: sc) (dotLit "x" "0") = some a := rfl
theorem x_one (t : Option (List QTok)) (a b : QVal) (r : List (Str × QVal)) (sc : Scope) :
    evalExpr (("x".toList, .record t (("0".toList, a) :: ("1".toList, b) :: r)) :: sc) (dotLit "x" "1") = some b := rfl
theorem x_two (t : Option (List QTok)) (a b c : QVal) (r : List (Str × QVal)) (sc : Scope) :
    evalExpr (("x".toList, .record t (("0".toList, a) :: ("1".toList, b) :: ("2".toList, c) :: r)) :: sc) (dotLit "x" "2") = some c := rfl

theorem addTmpl_means (sc : Scope) (t : Option (List QTok)) (a b : QVal) (key : Str) (f : Field) (ha : a.shown = some (strLit key :: code ".to_string()"))
    (hb : b.shown = some (word f.name)) :
    meansAll evalExpr addTmpl (("x".toList, .record t [("0".toList, a), ("1".toList, b)]) :: sc) = some (addCall key f) := by
  simp only [addTmpl, meansAll_append, meansAll_cons, meansAll_nil, T_means snip1, T_means snip2, T_means snip3, T_means snip4, T_means snip5, Tmpl.means, x_zero, x_one,
    Option.bind_some, ha, hb, catO_some, Option.map_some, addCall, List.append_assoc, List.cons_append, List.nil_append, List.append_nil]

theorem getTmpl_means (L : Lexer) (sc : Scope) (t : Option (List QTok)) (a b c : QVal) (key : Str) (f : Field) (ha : a.shown = some [strLit key])
    (hb : b.shown = some (word f.name)) (hc : c.shown = some (L.printed f.ty)) :
    meansAll evalExpr getTmpl (("x".toList, .record t [("0".toList, a), ("1".toList, b), ("2".toList, c)]) :: sc) = some (getInit L key f) := by
  simp only [getTmpl, meansAll_append, meansAll_cons, meansAll_nil, T_means snip10, T_means snip11, T_means snip12, T_means snip13, T_means snip14, T_means snip15, T_means snip16,
    T_means snip17, T_means snip18, T_means snip19, T_means snip20, Tmpl.means, x_zero, x_one, x_two,
    Option.bind_some, ha, hb, hc, catO_some, Option.map_some, getInit, List.append_assoc, List.cons_append, List.nil_append, List.append_nil]

theorem defaultTmpl_means (sc : Scope) (t : Option (List QTok)) (a : QVal) (f : Field) (ha : a.shown = some (word f.name)) :
    meansAll evalExpr defaultTmpl (("x".toList, .record t [("ident".toList, a)]) :: sc) = some (defaultInit f) := by
  have h : evalExpr (("x".toList, .record t [("ident".toList, a)]) :: sc) (dotted "x" "ident") = some a := rfl
  simp only [defaultTmpl, meansAll_append, meansAll_cons, meansAll_nil, T_means snip21, Tmpl.means, h, Option.bind_some, ha, catO_some, Option.map_some, defaultInit, List.cons_append, List.nil_append, List.append_nil]

/-- What is known of the parts of the struct. -/
structure StructParts (L : Lexer) (it : StructItem) (s : Struct) : Prop where
  ident : it.ident = s.name
  generics : optToks Generics.toks it.generics = angleList (s.params.map Param.toks)
  args : optToks Generics.onlyIdents it.generics = angleList (s.params.map Param.name)
  where_ : optToks WhereClause.toks it.where_ = whereList (s.where_.map Param.toks)
  name : ReadsIdent L s.name

theorem str_shown {L : Lexer} {x : Str} (h : ReadsIdent L x) : (L.str x).shown = some (word x) := by
  show parseText L.text x = some [.ident x]
  unfold parseText
  by_cases hx : isIdent x = true
  · rw [if_pos hx]
  · rw [if_neg hx]
    rcases h with h | h
    · exact absurd ((isIdentText_iff x).2 h) hx
    · exact h

theorem s_generics (L : Lexer) (it : StructItem) (sc : Scope) : evalExpr (("s".toList, structVal L it) :: sc) (.op ['&'] :: dotted "s" "generics") =
    some (match it.generics with
       | some g => .present (.record (some (L.printed g.toks)) [("only_idents()".toList, L.toks g.onlyIdents)])
       | none => .absent) := rfl
theorem s_where (L : Lexer) (it : StructItem) (sc : Scope) : evalExpr (("s".toList, structVal L it) :: sc) (.op ['&'] :: dotted "s" "where_clause") =
    some (match it.where_ with
       | some w => .present (L.toks (WhereClause.toks w))
       | none => .absent) := rfl
theorem s_ident (L : Lexer) (it : StructItem) (sc : Scope) : evalExpr (("s".toList, structVal L it) :: sc) (dotted "s" "ident") = some (L.str it.ident) := rfl

theorem headTmpl_means {L : Lexer} (hL : LexerOk L) {it : StructItem} {s : Struct} (h : StructParts L it s) (t : String) (ht : NoHashes (lexCode t)) (sc : Scope) :
    meansAll evalExpr (headTmpl t) (("s".toList, structVal L it) :: sc) = some (implHead L (code t) s) := by
  have hi : (L.str it.ident).shown = some (word s.name) := by rw [h.ident]; exact str_shown h.name
  have hx : ∀ g : Generics, evalExpr (("x".toList, .record (some (L.printed g.toks)) [("only_idents()".toList, L.toks g.onlyIdents)]) :: ("s".toList, structVal L it) :: sc)
      (dotted "x" "only_idents" ++ [.group .paren []]) = some (L.toks g.onlyIdents) := fun _ => rfl
  have hts : ∀ ts, (L.toks ts).shown = some (L.printed ts) := fun _ => rfl
  have hg : Tmpl.means evalExpr (.opt (.expr (.op ['&'] :: dotted "s" "generics"))) (("s".toList, structVal L it) :: sc) =
      some (L.printed (angleList (s.params.map Param.toks))) := by
    rw [← h.generics]
    simp only [Tmpl.means, Src.code, s_generics]
    cases it.generics with
    | none => simp only [optToks, hL.empty]
    | some g => rfl
  have ha : Tmpl.means evalExpr (.optMap (.expr (.op ['&'] :: dotted "s" "generics")) (some "x".toList) [.expr (dotted "x" "only_idents" ++ [.group .paren []])])
      (("s".toList, structVal L it) :: sc) = some (L.printed (angleList (s.params.map Param.name))) := by
    rw [← h.args]
    simp only [Tmpl.means, Src.code, s_generics]
    cases it.generics with
    | none => simp only [optToks, hL.empty]
    | some g => simp only [bindX, meansAll_cons, meansAll_nil, Tmpl.means, hx, Option.bind_some, hts, catO_nil, optToks]
  have hw : Tmpl.means evalExpr (.opt (.expr (.op ['&'] :: dotted "s" "where_clause"))) (("s".toList, structVal L it) :: sc) =
      some (L.printed (whereList (s.where_.map Param.toks))) := by
    rw [← h.where_]
    simp only [Tmpl.means, Src.code, s_where]
    cases it.where_ with
    | none => simp only [optToks, hL.empty]
    | some g => rfl
  have hn : Tmpl.means evalExpr (.expr (dotted "s" "ident")) (("s".toList, structVal L it) :: sc) = some (word s.name) := by
    simp only [Tmpl.means, s_ident, Option.bind_some, hi]
  simp only [headTmpl, meansAll_append, meansAll_cons, meansAll_nil, hg, ha, hw, hn, T_means snip0, T_means ht, catO_some, Option.map_some, List.append_nil, implHead,
    List.append_assoc]

theorem allSome_map {α β γ : Type} (f : α → Option β) (g : γ → α) (k : γ → β) : ∀ l : List γ, (∀ m ∈ l, f (g m) = some (k m)) → allSome f (l.map g) = some (l.map k)
  | [], _ => rfl
  | m :: l, h => by
    simp only [List.map_cons, allSome, h m (by simp), allSome_map f g k l (fun x hx => h x (by simp [hx])), Option.bind_some, Option.map_some]

theorem encodeTmpl_means {L : Lexer} (hL : LexerOk L) {it : StructItem} {s : Struct} (h : StructParts L it s) (ms : List (Str × Field))
    (hk : ∀ m ∈ ms, encodeKey m.1 = some m.2.key ∧ ReadsIdent L m.2.name) :
    meansAll evalExpr encodeTmpl (encodeScope L it (ms.map (fun m => (m.1, m.2.name)))) = some (encodeCode L s ms) := by
  have hloop : Tmpl.means evalExpr (.iterMap (.var "v".toList) (some "x".toList) addTmpl none) (encodeScope L it (ms.map (fun m => (m.1, m.2.name)))) =
      some (ms.flatMap (fun m => addCall m.1 m.2)) := by
    have e : evalExpr (encodeScope L it (ms.map (fun m => (m.1, m.2.name)))) [.ident "v".toList] =
        some (.list ((ms.map (fun m => (m.1, m.2.name))).map (fun p => .record none [("0".toList, L.str (encodeKeyText p.1)), ("1".toList, L.str p.2)]))) := rfl
    simp only [Tmpl.means, Src.code, e, Option.bind_some, QVal.items, List.map_map]
    rw [allSome_map _ _ (fun m : Str × Field => addCall m.1 m.2)]
    · simp only [Option.map_some, joined, List.flatMap_def]
    · intro m hm
      apply addTmpl_means
      · show parseText L.text ('"' :: (m.1 ++ "\".to_string()".toList)) = _
        unfold parseText
        rw [if_neg, hL.call _ _ (hk m hm).1]
        rw [isIdentText_iff]
        rintro ⟨c, r, e1, e2, _⟩
        cases e1
        rcases e2 with e2 | e2
        · revert e2; unfold Letter; decide
        · revert e2; decide
      · exact str_shown (hk m hm).2
  have hlen : Tmpl.means evalExpr (.expr (dotted "v" "len" ++ [.group .paren []])) (encodeScope L it (ms.map (fun m => (m.1, m.2.name)))) =
      some [.lit (toString ms.length).toList] := by
    have e : evalExpr (encodeScope L it (ms.map (fun m => (m.1, m.2.name)))) (dotted "v" "len" ++ [.group .paren []]) =
        some (.text [.lit (toString ((ms.map (fun m => (m.1, m.2.name))).map (fun p => QVal.record none [("0".toList, L.str (encodeKeyText p.1)), ("1".toList, L.str p.2)])).length).toList]) := rfl
    simp only [Tmpl.means, e, Option.bind_some, List.length_map]
    rfl
  unfold encodeTmpl
  simp only [meansAll_append, meansAll_cons, meansAll_nil, Tmpl.means.eq_2, T_means snip6, T_means snip7, T_means snip8, T_means snip9, hloop, hlen]
  rw [show encodeScope L it (ms.map (fun m => (m.1, m.2.name))) = ("s".toList, structVal L it) :: [("v".toList, _)] from rfl, headTmpl_means hL h _ snip29]
  simp only [catO_some, Option.map_some, encodeCode, encodeBody, List.append_assoc, List.append_nil, List.cons_append, List.nil_append]

theorem decodeTmpl_means {L : Lexer} (hL : LexerOk L) {it : StructItem} {s : Struct} (h : StructParts L it s) (ms : List (Str × Field))
    (hk : ∀ m ∈ ms, decodeKey m.1 = some m.2.key ∧ ReadsIdent L m.2.name) (hg : ∀ f ∈ s.ignored, ReadsIdent L f.name) :
    meansAll evalExpr decodeTmpl (decodeScope L it (ms.map (fun m => (m.1, m.2.name, m.2.ty))) (s.ignored.map Field.name)) = some (decodeCode L s ms) := by
  have hloop : Tmpl.means evalExpr (.iterMap (.var "v".toList) (some "x".toList) getTmpl none)
      (decodeScope L it (ms.map (fun m => (m.1, m.2.name, m.2.ty))) (s.ignored.map Field.name)) = some (ms.flatMap (fun m => getInit L m.1 m.2)) := by
    have e : evalExpr (decodeScope L it (ms.map (fun m => (m.1, m.2.name, m.2.ty))) (s.ignored.map Field.name)) [.ident "v".toList] =
        some (.list ((ms.map (fun m => (m.1, m.2.name, m.2.ty))).map (fun p => .record none [("0".toList, L.str (decodeKeyText p.1)), ("1".toList, L.str p.2.1), ("2".toList, L.toks p.2.2)]))) := rfl
    simp only [Tmpl.means, Src.code, e, Option.bind_some, QVal.items, List.map_map]
    rw [allSome_map _ _ (fun m : Str × Field => getInit L m.1 m.2)]
    · simp only [Option.map_some, joined, List.flatMap_def]
    · intro m hm
      apply getTmpl_means
      · show parseText L.text ('"' :: (m.1 ++ ['"'])) = _
        unfold parseText
        rw [if_neg, hL.literal _ _ (hk m hm).1]
        rw [isIdentText_iff]
        rintro ⟨c, r, e1, e2, _⟩
        cases e1
        rcases e2 with e2 | e2
        · revert e2; unfold Letter; decide
        · revert e2; decide
      · exact str_shown (hk m hm).2
      · rfl
  have hdef : Tmpl.means evalExpr (.iterMap (.var "ig".toList) (some "x".toList) defaultTmpl none)
      (decodeScope L it (ms.map (fun m => (m.1, m.2.name, m.2.ty))) (s.ignored.map Field.name)) = some (s.ignored.flatMap defaultInit) := by
    have e : evalExpr (decodeScope L it (ms.map (fun m => (m.1, m.2.name, m.2.ty))) (s.ignored.map Field.name)) [.ident "ig".toList] =
        some (.list ((s.ignored.map Field.name).map (fun i => .record none [("ident".toList, L.str i)]))) := rfl
    simp only [Tmpl.means, Src.code, e, Option.bind_some, QVal.items, List.map_map]
    rw [allSome_map _ _ defaultInit]
    · simp only [Option.map_some, joined, List.flatMap_def]
    · intro f hf
      apply defaultTmpl_means
      exact str_shown (hg f hf)
  have hn : Tmpl.means evalExpr (.expr (dotted "s" "ident")) (decodeScope L it (ms.map (fun m => (m.1, m.2.name, m.2.ty))) (s.ignored.map Field.name)) = some (word s.name) := by
    rw [show decodeScope L it (ms.map (fun m => (m.1, m.2.name, m.2.ty))) (s.ignored.map Field.name) = ("s".toList, structVal L it) :: _ from rfl]
    simp only [Tmpl.means, s_ident, Option.bind_some]
    rw [h.ident]; exact str_shown h.name
  unfold decodeTmpl decodeBodyTmpl
  simp only [meansAll_append, meansAll_cons, meansAll_nil, Tmpl.means.eq_2, T_means snip16, T_means snip20, T_means snip22, T_means snip23, T_means snip24, T_means snip25, T_means snip26,
    T_means snip27, T_means snip28, hloop, hdef, hn]
  rw [show decodeScope L it (ms.map (fun m => (m.1, m.2.name, m.2.ty))) (s.ignored.map Field.name) = ("s".toList, structVal L it) :: [("v".toList, _), ("ig".toList, _)] from rfl,
    headTmpl_means hL h _ snip30]
  simp only [catO_some, Option.map_some, decodeCode, Spec.decodeBody, List.append_assoc, List.append_nil, List.cons_append, List.nil_append]

end RJ
