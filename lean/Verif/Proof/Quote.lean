import Verif.Spec.Quote
/-
  The `quote!` expander against the meaning of templates.
-/
namespace RJ
open Spec

theorem lexOp_eq : ∀ s : Str, lexOp s = codeTok (.op s)
  | [] => rfl
  | [c] => rfl
  | c :: d :: s => by
    rw [lexOp, lexOp_eq (d :: s)]
    simp [codeTok]

theorem opRules_ok : ∀ p ∈ opRules, p.2 = lexOp p.1.toList := by
  simp only [opRules, List.forall_mem_cons]
  repeat' constructor
  intro x h
  cases h

theorem findOp_ok (s : Str) (ts : List QTok) : ∀ l : List (String × List QTok), (∀ p ∈ l, p.2 = lexOp p.1.toList) → findOp s l = some ts → ts = lexOp s
  | [], _, h => by cases h
  | (o, us) :: l, hl, h => by
    rw [findOp] at h
    by_cases ho : o.toList = s
    · rw [if_pos ho] at h
      cases h
      rw [← ho]
      exact hl _ (List.mem_cons_self ..)
    · rw [if_neg ho] at h
      exact findOp_ok s ts l (fun p hp => hl p (by simp [hp])) h

/-- Every operator becomes its characters, joint but for the last. -/
theorem genOp_eq (s : Str) : genOp s = codeTok (.op s) := by
  rw [genOp, ← lexOp_eq]
  cases h : findOp s opRules with
  | none => rfl
  | some ts => exact findOp_ok s ts opRules opRules_ok h

theorem catO_some (a : List QTok) (b : Option (List QTok)) : catO (some a) b = b.map (fun y => a ++ y) := rfl
theorem catO_none (b : Option (List QTok)) : catO none b = none := rfl
theorem catO_nil (a : Option (List QTok)) : catO a (some []) = a := by cases a <;> simp [catO]
theorem catO_assoc (a b c : Option (List QTok)) : catO (catO a b) c = catO a (catO b c) := by
  cases a with
  | none => rfl
  | some a =>
    cases b with
    | none => rfl
    | some b =>
      cases c with
      | none => rfl
      | some c => simp [catO]

theorem mtoksSize_append : ∀ a b : List MTok, mtoksSize (a ++ b) = mtoksSize a + mtoksSize b
  | [], b => by simp [mtoksSize]
  | t :: a, b => by simp only [List.cons_append, mtoksSize, mtoksSize_append a b]; omega

theorem MTok.size_pos (t : MTok) : 0 < t.size := by cases t <;> simp [MTok.size]

theorem forEach_eq (f : QVal → Option (List QTok)) : ∀ vs, forEach f vs = (allSome f vs).map List.flatten
  | [] => rfl
  | v :: vs => by
    rw [forEach, forEach_eq f vs, allSome]
    cases f v with
    | none => rfl
    | some a => cases allSome f vs <;> simp [catO]

theorem forEach_sep (t : List QTok) : ∀ vs, forEach (fun v => catO v.shown (some t)) vs = (allSome QVal.shown vs).map (fun xs => xs.flatMap (fun x => x ++ t))
  | [] => rfl
  | v :: vs => by
    rw [forEach, forEach_sep t vs, allSome]
    cases v.shown with
    | none => rfl
    | some a => cases allSome QVal.shown vs <;> simp [catO]

theorem forSep_pos (t : List QTok) (f : QVal → Option (List QTok)) : ∀ vs i, 0 < i →
    forSep (some t) f i vs = (allSome f vs).map (fun xs => xs.flatMap (fun x => t ++ x))
  | [], _, _ => rfl
  | v :: vs, i, hi => by
    rw [forSep, forSep_pos t f vs (i + 1) (by omega), if_pos hi, allSome]
    cases f v with
    | none => rfl
    | some a => cases allSome f vs <;> simp [catO]

theorem intersperse_flatMap (t : List QTok) : ∀ (x : List QTok) (xs : List (List QTok)),
    ((x :: xs).intersperse t).flatten = x ++ xs.flatMap (fun x => t ++ x)
  | x, [] => by simp
  | x, y :: ys => by
    have h : (x :: y :: ys).intersperse t = x :: t :: (y :: ys).intersperse t := rfl
    rw [h, List.flatten_cons, List.flatten_cons, intersperse_flatMap t y ys]
    simp

theorem forSep_eq (t : List QTok) (f : QVal → Option (List QTok)) (vs : List QVal) :
    forSep (some t) f 0 vs = (allSome f vs).map (fun xs => (xs.intersperse t).flatten) := by
  cases vs with
  | nil => rfl
  | cons v vs =>
    rw [forSep, forSep_pos t f vs 1 (by omega), if_neg (by omega), allSome]
    cases f v with
    | none => rfl
    | some a =>
      cases allSome f vs with
      | none => rfl
      | some xs =>
        show some (([] ++ a) ++ xs.flatMap _) = some (((a :: xs).intersperse t).flatten)
        rw [intersperse_flatMap, List.nil_append]

theorem starRule_sep (e : List MTok) (x : Option Str) (t : MTok) (us : List MTok) (s : MTok) (rest : List MTok) (h : s ≠ .op ['*']) :
    starRule e (.op [':'] :: binderTok x :: t :: us) (s :: .op ['*'] :: rest) = some (.starMap e x (t :: us) (some s), rest) := by
  cases x with
  | none =>
    show starRule e (.op [':'] :: .under :: t :: us) (s :: .op ['*'] :: rest) = _
    unfold starRule
    split <;> simp_all
    rename_i h
    exact h _ _ _ _ rfl rfl rfl rfl
  | some x =>
    show starRule e (.op [':'] :: .ident x :: t :: us) (s :: .op ['*'] :: rest) = _
    unfold starRule
    split <;> simp_all
    rename_i h
    exact h _ _ _ _ _ rfl rfl rfl rfl rfl

theorem optRule_sep (e : List MTok) (s : MTok) (rest : List MTok) (h : s ≠ .op ['?']) : optRule e [] (s :: rest) = none := by
  unfold optRule
  split <;> simp_all

variable (dep : Nat) (ev : Ev)

theorem expand_ident (n : Nat) (sc : Scope) (s : Str) (rest : List MTok) :
    expand dep ev (n + 1) sc (.ident s :: rest) = catO (some [.ident s]) (expand dep ev n sc rest) := rfl
theorem expand_group (n : Nat) (sc : Scope) (d : Delim) (tt rest : List MTok) :
    expand dep ev (n + 1) sc (.group d tt :: rest) = catO ((expand dep ev n sc tt).map (fun g => [.group d g])) (expand dep ev n sc rest) := rfl
theorem expand_op (n : Nat) (sc : Scope) (s : Str) (h : s ≠ ['#']) (rest : List MTok) :
    expand dep ev (n + 1) sc (.op s :: rest) = catO (some (genOp s)) (expand dep ev n sc rest) := if_neg h
theorem expand_pound (n : Nat) (sc : Scope) (rest : List MTok) :
    expand dep ev (n + 1) sc (.op ['#'] :: rest) = pound dep ev (expand dep ev n) sc rest := rfl
theorem expand_nil (n : Nat) (sc : Scope) : expand dep ev (n + 1) sc [] = some [] := rfl

/-- A plain token. -/
theorem expand_plain (n : Nat) (sc : Scope) (t : MTok) (h : PlainTok t) (rest : List MTok) :
    expand dep ev (n + 1) sc (t :: rest) = catO (some (codeTok t)) (expand dep ev n sc rest) := by
  cases t with
  | op s => rw [expand_op dep ev n sc s h.1, genOp_eq]
  | group d ts => exact h.elim
  | ident s => rfl
  | under => rfl
  | lit s => rfl
  | life s => rfl

/-- The rules that read `#( # src .. ) suffix`. -/
theorem pound_form (n : Nat) (sc : Scope) (r after : List MTok) :
    pound dep ev (expand dep ev n) sc (.group .paren (.op ['#'] :: r) :: after) =
      match formOf r after with
      | some (form, rest) => catO (runForm ev (expand dep ev n) sc form) (expand dep ev n sc rest)
      | none => none := rfl

theorem srcOf_toks (src : Src) (r : List MTok) : srcOf (src.toks ++ r) = some (src.code, r) := by
  cases src <;> rfl

theorem formOf_eq (src : Src) (r after : List MTok) :
    formOf (src.toks ++ r) after = (boolRule src.code r after <|> optRule src.code r after <|> starRule src.code r after) := by
  rw [formOf, srcOf_toks]

/-- A value: `#(e)`. -/
theorem pound_expr (n : Nat) (sc : Scope) (e after : List MTok) (h1 : e.head? ≠ some (.op ['#'])) (h2 : e.head? ≠ some (.op ['@'])) :
    pound dep ev (expand dep ev n) sc (.group .paren e :: after) = catO ((ev sc e).bind QVal.shown) (expand dep ev n sc after) := by
  unfold pound
  split
  · rename_i h
    cases h
    split
    · exact absurd rfl h2
    · exact absurd rfl h1
    · rfl
  · rename_i h; cases h
  · rename_i h; cases h
  · rename_i h _ _; exact absurd rfl (h _ _)

theorem renderAll_ne {ts : List Tmpl} (h : ts ≠ []) : ∃ t us, renderAll ts = t :: us := by
  cases ts with
  | nil => exact absurd rfl h
  | cons t ts =>
    rw [renderAll]
    cases t with
    | attr i ts => cases i <;> exact ⟨_, _, rfl⟩
    | _ => exact ⟨_, _, rfl⟩

theorem one_size (t : MTok) : mtoksSize [t] = t.size := by simp [mtoksSize]

theorem plain_size {t : MTok} (h : PlainTok t) : t.size = 1 := by
  cases t with
  | group d ts => exact h.elim
  | _ => rfl

theorem expand_sep (n : Nat) (hn : 1 < n) (sc : Scope) (t : MTok) (h : PlainTok t) : expand dep ev n sc [t] = some (codeTok t) := by
  obtain ⟨n, rfl⟩ : ∃ m, n = m + 2 := ⟨n - 2, by omega⟩
  rw [expand_plain dep ev (n + 1) sc t h, expand_nil, catO_nil]

mutual
/-- One piece of a template. -/
theorem Tmpl.expand_ok : ∀ (t : Tmpl), t.Ok → ∀ (n : Nat) (sc : Scope) (rest : List MTok), mtoksSize (t.render ++ rest) < n →
    ∃ n', mtoksSize rest < n' ∧ expand dep ev n sc (t.render ++ rest) = catO (t.means ev sc) (expand dep ev n' sc rest)
  | t, hok, 0, sc, rest, hn => by omega
  | .tok t, hok, n + 1, sc, rest, hn => by
    rw [Tmpl.render, List.singleton_append, mtoksSize] at hn
    have := t.size_pos
    exact ⟨n, by omega, by rw [Tmpl.render, List.singleton_append, expand_plain dep ev n sc t hok]; rfl⟩
  | .group d ts, hok, n + 1, sc, rest, hn => by
    rw [Tmpl.render, List.singleton_append, mtoksSize, MTok.size] at hn
    exact ⟨n, by omega, by
      rw [Tmpl.render, List.singleton_append, expand_group, renderAll_ok ts hok n sc (by omega), Tmpl.means]⟩
  | .hash, hok, n + 1, sc, rest, hn => by
    simp only [Tmpl.render, List.cons_append, mtoksSize, MTok.size, List.nil_append] at hn
    exact ⟨n, by omega, by rw [Tmpl.render, List.cons_append, expand_pound]; rfl⟩
  | .attr false ts, hok, n + 1, sc, rest, hn => by
    simp only [Tmpl.render, List.cons_append, mtoksSize, MTok.size, List.nil_append] at hn
    obtain ⟨n, rfl⟩ : ∃ m, n = m + 1 := ⟨n - 1, by omega⟩
    refine ⟨n, by omega, ?_⟩
    rw [Tmpl.render, List.cons_append, expand_pound]
    show catO (some (genPunct '#')) (expand dep ev (n + 1) sc (.group .bracket (renderAll ts) :: rest)) = _
    rw [expand_group, renderAll_ok ts hok n sc (by omega), Tmpl.means]
    cases meansAll ev ts sc with
    | none => rfl
    | some g => rw [← catO_assoc]; rfl
  | .attr true ts, hok, n + 1, sc, rest, hn => by
    simp only [Tmpl.render, List.cons_append, mtoksSize, MTok.size, List.nil_append] at hn
    obtain ⟨n, rfl⟩ : ∃ m, n = m + 2 := ⟨n - 2, by omega⟩
    refine ⟨n, by omega, ?_⟩
    rw [Tmpl.render, List.cons_append, expand_pound]
    show catO (some (genPunct '#')) (expand dep ev (n + 2) sc (.op ['!'] :: .group .bracket (renderAll ts) :: rest)) = _
    rw [expand_op _ _ _ _ _ (by decide), expand_group, renderAll_ok ts hok n sc (by omega), Tmpl.means]
    cases meansAll ev ts sc with
    | none => rfl
    | some g => rw [← catO_assoc, ← catO_assoc]; rfl
  | .var x, hok, n + 1, sc, rest, hn => by
    simp only [Tmpl.render, List.cons_append, mtoksSize, MTok.size, List.nil_append] at hn
    exact ⟨n, by omega, by rw [Tmpl.render, List.cons_append, expand_pound]; rfl⟩
  | .expr e, hok, n + 1, sc, rest, hn => by
    simp only [Tmpl.render, List.cons_append, mtoksSize, MTok.size, List.nil_append] at hn
    refine ⟨n, by omega, ?_⟩
    rw [Tmpl.render, List.cons_append, expand_pound, List.cons_append, List.nil_append, pound_expr dep ev n sc e rest hok.1 hok.2, Tmpl.means]
  | .when pos src body, hok, n + 1, sc, rest, hn => by
    simp only [Tmpl.render, List.cons_append, mtoksSize, mtoksSize_append, MTok.size, List.nil_append] at hn
    refine ⟨n, by omega, ?_⟩
    have hb := renderAll_ok body hok.2 n sc (by omega)
    obtain ⟨t, us, he⟩ := renderAll_ne hok.1
    rw [Tmpl.render, List.cons_append, expand_pound, List.cons_append, pound_form, formOf_eq]
    have hr : boolRule src.code (.op [':'] :: renderAll body) ([.op [if pos then '+' else '-']] ++ rest) = some (.when pos src.code (renderAll body), rest) := by
      rw [he]; cases pos <;> rfl
    rw [hr]
    show catO (runForm _ _ _ _) _ = _
    congr 1
    rw [runForm, Tmpl.means, hb]
    rfl
  | .opt src, hok, n + 1, sc, rest, hn => by
    simp only [Tmpl.render, List.cons_append, mtoksSize, MTok.size, List.nil_append] at hn
    refine ⟨n, by omega, ?_⟩
    rw [Tmpl.render, List.cons_append, expand_pound, List.cons_append, pound_form, ← List.append_nil src.toks, formOf_eq]
    show catO (runForm _ _ _ _) _ = _
    congr 1
  | .optMap src x body, hok, n + 1, sc, rest, hn => by
    simp only [Tmpl.render, List.cons_append, mtoksSize, mtoksSize_append, MTok.size, List.nil_append] at hn
    refine ⟨n, by omega, ?_⟩
    have hb := fun sc => renderAll_ok body hok.2 n sc (by omega)
    obtain ⟨t, us, he⟩ := renderAll_ne hok.1
    rw [Tmpl.render, List.cons_append, expand_pound, List.cons_append, pound_form, formOf_eq]
    have hr : (boolRule src.code (.op [':'] :: binderTok x :: renderAll body) ([.op ['?']] ++ rest)
        <|> optRule src.code (.op [':'] :: binderTok x :: renderAll body) ([.op ['?']] ++ rest)
        <|> starRule src.code (.op [':'] :: binderTok x :: renderAll body) ([.op ['?']] ++ rest)) = some (.optMap src.code x (renderAll body), rest) := by
      rw [he]; cases x <;> rfl
    rw [hr]
    show catO (runForm _ _ _ _) _ = _
    congr 1
    rw [runForm, Tmpl.means]
    simp only [hb]
    rfl
  | .iter src sep, hok, n + 1, sc, rest, hn => by
    simp only [Tmpl.render, List.cons_append, mtoksSize, mtoksSize_append, MTok.size, List.nil_append] at hn
    refine ⟨n, by omega, ?_⟩
    rw [Tmpl.render, List.cons_append, expand_pound, List.cons_append, pound_form, ← List.append_nil src.toks, formOf_eq]
    have hr : (boolRule src.code [] (sepTok sep ++ [.op ['*']] ++ rest)
        <|> optRule src.code [] (sepTok sep ++ [.op ['*']] ++ rest)
        <|> starRule src.code [] (sepTok sep ++ [.op ['*']] ++ rest)) = some (.star src.code sep, rest) := by
      cases sep with
      | none => rfl
      | some t =>
        obtain ⟨h1, h2, h3⟩ := hok t rfl
        have e1 : boolRule src.code [] (sepTok (some t) ++ [.op ['*']] ++ rest) = none := rfl
        have e2 : optRule src.code [] (sepTok (some t) ++ [.op ['*']] ++ rest) = none := by
          show optRule src.code [] (t :: .op ['*'] :: rest) = none
          exact optRule_sep _ _ _ h3
        have e3 : starRule src.code [] (sepTok (some t) ++ [.op ['*']] ++ rest) = some (.star src.code (some t), rest) := by
          show starRule src.code [] (t :: .op ['*'] :: rest) = _
          unfold starRule
          split <;> first | (rename_i h _; cases h; done) | skip
          · rename_i h; cases h; exact absurd rfl h2
          · rename_i h; cases h; rfl
          all_goals simp_all
        rw [e1, e2, e3]; rfl
    rw [hr]
    show catO (runForm _ _ _ _) _ = _
    congr 1
    rw [Tmpl.means]
    cases sep with
    | none =>
      rw [runForm]
      have : forEach QVal.shown = fun vs => (allSome QVal.shown vs).map (joined none) := funext (fun vs => forEach_eq _ vs)
      rw [this]
    | some t =>
      obtain ⟨h1, -, -⟩ := hok t rfl
      rw [runForm, expand_sep dep ev n (by omega) sc t h1]
      have : forSep (some (codeTok t)) QVal.shown 0 = fun vs => (allSome QVal.shown vs).map (joined (some t)) := funext (fun vs => forSep_eq _ _ vs)
      rw [this]
  | .iterEach src sep, hok, n + 1, sc, rest, hn => by
    simp only [Tmpl.render, List.cons_append, mtoksSize, mtoksSize_append, MTok.size, List.nil_append, plain_size hok] at hn
    refine ⟨n, by omega, ?_⟩
    rw [Tmpl.render, List.cons_append, expand_pound, List.cons_append, pound_form, formOf_eq]
    have hr : (boolRule src.code [sep] ([.op ['*']] ++ rest) <|> optRule src.code [sep] ([.op ['*']] ++ rest)
        <|> starRule src.code [sep] ([.op ['*']] ++ rest)) = some (.starIn src.code sep, rest) := by
      have e1 : boolRule src.code [sep] ([.op ['*']] ++ rest) = none := by
        unfold boolRule
        split <;> first | rfl | (rename_i h; cases h; done)
      have e2 : optRule src.code [sep] ([.op ['*']] ++ rest) = none := by
        unfold optRule
        split <;> first | rfl | (rename_i h _; cases h; done) | (rename_i h; cases h; done)
      rw [e1, e2]; rfl
    rw [hr]
    show catO (runForm _ _ _ _) _ = _
    congr 1
    rw [Tmpl.means, runForm, expand_sep dep ev n (by omega) sc sep hok]
    have : forEach (fun v => catO v.shown (some (codeTok sep))) = _ := funext (fun vs => forEach_sep (codeTok sep) vs)
    rw [this]
  | .iterMap src x body sep, hok, n + 1, sc, rest, hn => by
    simp only [Tmpl.render, List.cons_append, mtoksSize, mtoksSize_append, MTok.size, List.nil_append] at hn
    refine ⟨n, by omega, ?_⟩
    have hb := fun sc => renderAll_ok body hok.2.1 n sc (by omega)
    obtain ⟨t, us, he⟩ := renderAll_ne hok.1
    rw [Tmpl.render, List.cons_append, expand_pound, List.cons_append, pound_form, formOf_eq]
    have hr : (boolRule src.code (.op [':'] :: binderTok x :: renderAll body) (sepTok sep ++ [.op ['*']] ++ rest)
        <|> optRule src.code (.op [':'] :: binderTok x :: renderAll body) (sepTok sep ++ [.op ['*']] ++ rest)
        <|> starRule src.code (.op [':'] :: binderTok x :: renderAll body) (sepTok sep ++ [.op ['*']] ++ rest))
          = some (.starMap src.code x (renderAll body) sep, rest) := by
      rw [he]
      cases sep with
      | none => cases x <;> rfl
      | some s =>
        obtain ⟨h1, h2, h3, h4, h5⟩ := hok.2.2 s rfl
        have e1 : boolRule src.code (.op [':'] :: binderTok x :: t :: us) (sepTok (some s) ++ [.op ['*']] ++ rest) = none := by
          show boolRule src.code (.op [':'] :: binderTok x :: t :: us) (s :: .op ['*'] :: rest) = none
          unfold boolRule
          split
          · rename_i h; cases h; exact absurd rfl h4
          · rename_i h; cases h; exact absurd rfl h5
          · rfl
        have e2 : optRule src.code (.op [':'] :: binderTok x :: t :: us) (sepTok (some s) ++ [.op ['*']] ++ rest) = none := by
          show optRule src.code (.op [':'] :: binderTok x :: t :: us) (s :: .op ['*'] :: rest) = none
          unfold optRule
          split
          · rename_i h _; cases h
          · rename_i h; cases h; exact absurd rfl h3
          · rename_i h; cases h; exact absurd rfl h3
          · rfl
        have e3 : starRule src.code (.op [':'] :: binderTok x :: t :: us) (sepTok (some s) ++ [.op ['*']] ++ rest)
            = some (.starMap src.code x (t :: us) (some s), rest) := by
          exact starRule_sep _ _ _ _ _ _ h2
        rw [e1, e2, e3]; rfl
    rw [hr]
    show catO (runForm _ _ _ _) _ = _
    congr 1
    rw [Tmpl.means]
    cases sep with
    | none =>
      rw [runForm]
      simp only [hb]
      have : forEach (fun v => meansAll ev body (bindX x v sc)) = fun vs => (allSome (fun v => meansAll ev body (bindX x v sc)) vs).map (joined none) :=
        funext (fun vs => forEach_eq _ vs)
      rw [this]
    | some s =>
      obtain ⟨h1, -⟩ := hok.2.2 s rfl
      rw [runForm, expand_sep dep ev n (by omega) sc s h1]
      simp only [hb]
      have : forSep (some (codeTok s)) (fun v => meansAll ev body (bindX x v sc)) 0
          = fun vs => (allSome (fun v => meansAll ev body (bindX x v sc)) vs).map (joined (some s)) := funext (fun vs => forSep_eq _ _ vs)
      rw [this]
/-- A whole template. -/
theorem renderAll_ok : ∀ (ts : List Tmpl), allOk ts → ∀ (n : Nat) (sc : Scope), mtoksSize (renderAll ts) < n →
    expand dep ev n sc (renderAll ts) = meansAll ev ts sc
  | _, _, 0, _, hn => by omega
  | [], _, n + 1, sc, _ => rfl
  | t :: ts, hok, n + 1, sc, hn => by
    rw [renderAll] at hn
    obtain ⟨n', h1, h2⟩ := Tmpl.expand_ok t hok.1 (n + 1) sc (renderAll ts) hn
    rw [renderAll, h2, renderAll_ok ts hok.2 n' sc h1, meansAll]
    rfl
end

/-! ### Code as a template -/

mutual
/-- The template of a token. -/
def tmplOf : MTok → Tmpl
  | .group d ts => .group d (tmplsOf ts)
  | t => .tok t
/-- The template of a list of tokens. -/
def tmplsOf : List MTok → List Tmpl
  | [] => []
  | t :: ts => tmplOf t :: tmplsOf ts
end

mutual
theorem tmplOf_ok (ev : Ev) (sc : Scope) : ∀ t : MTok, NoHash t → (tmplOf t).render = [t] ∧ (tmplOf t).Ok ∧ (tmplOf t).means ev sc = some (codeTok t)
  | .group d ts, h => by
    have ih := tmplsOf_ok ev sc ts h
    simp only [tmplOf, Tmpl.render, Tmpl.Ok, Tmpl.means, ih.1, ih.2.2, codeTok]
    exact ⟨trivial, ih.2.1, rfl⟩
  | .op s, h => ⟨rfl, h, rfl⟩
  | .ident _, _ => ⟨rfl, trivial, rfl⟩
  | .under, _ => ⟨rfl, trivial, rfl⟩
  | .lit _, _ => ⟨rfl, trivial, rfl⟩
  | .life _, _ => ⟨rfl, trivial, rfl⟩
theorem tmplsOf_ok (ev : Ev) (sc : Scope) : ∀ ts : List MTok, NoHashes ts →
    renderAll (tmplsOf ts) = ts ∧ allOk (tmplsOf ts) ∧ meansAll ev (tmplsOf ts) sc = some (codeAll ts)
  | [], _ => ⟨rfl, trivial, rfl⟩
  | t :: ts, h => by
    obtain ⟨h1, h2, h3⟩ := tmplOf_ok ev sc t h.1
    obtain ⟨i1, i2, i3⟩ := tmplsOf_ok ev sc ts h.2
    simp only [tmplsOf, renderAll, allOk, meansAll, h1, i1, h3, i3, codeAll]
    exact ⟨rfl, ⟨h2, i2⟩, rfl⟩
end

theorem meansAll_append (ev : Ev) (sc : Scope) (a b : List Tmpl) : meansAll ev (a ++ b) sc = catO (meansAll ev a sc) (meansAll ev b sc) := by
  induction a with
  | nil => simp [meansAll, catO]
  | cons t a ih =>
    simp only [List.cons_append, meansAll, ih]
    cases t.means ev sc <;> cases meansAll ev a sc <;> cases meansAll ev b sc <;> simp [catO]

theorem allOk_append (a b : List Tmpl) : allOk (a ++ b) ↔ allOk a ∧ allOk b := by
  induction a with
  | nil => simp [allOk]
  | cons t a ih => simp only [List.cons_append, allOk, ih, and_assoc]

theorem whole_plain (ev : Ev) (sc : Scope) (ts : List MTok) (h : NotAt ts) : wholeOf ev sc ts = some ts := by
  unfold wholeOf
  split
  · exact absurd rfl h
  · exact absurd rfl h
  · rfl

theorem quoteMacro_plain (dep : Nat) (ev : Ev) (sc : Scope) (ts : List MTok) (h : NotAt ts) :
    quoteMacro dep ev sc ts = expand dep ev (mtoksSize ts + 1) sc ts := by
  unfold quoteMacro
  rw [whole_plain ev sc ts h]; rfl

theorem whole_at (ev : Ev) (sc : Scope) (w : Str) (hw : w = "literal".toList ∨ w = "scope".toList) (tt : List MTok) :
    wholeOf ev sc (.op ['@'] :: .ident w :: .op [':'] :: tt) = some [.op ['#'], .group .paren (.op ['@'] :: .ident w :: .op [':'] :: tt)] := by
  rcases hw with rfl | rfl <;> simp [wholeOf]

theorem whole_params (ev : Ev) (sc : Scope) (ps tt : List MTok) : wholeOf ev sc (.op ['@'] :: .ident "params".toList :: .group .paren ps :: .op [':'] :: tt) =
    some [.op ['#'], .group .paren (.op ['@'] :: .ident "params".toList :: .group .paren ps :: .op [':'] :: tt)] := by
  simp [wholeOf]

theorem quoteMacro_scope (dep : Nat) (ev : Ev) (sc : Scope) (tt : List MTok) : quoteMacro dep ev sc (.op ['@'] :: .ident "scope".toList :: .op [':'] :: tt) =
    expand dep ev (mtoksSize [.op ['#'], .group .paren (.op ['@'] :: .ident "scope".toList :: .op [':'] :: tt)] + 1) sc
      [.op ['#'], .group .paren (.op ['@'] :: .ident "scope".toList :: .op [':'] :: tt)] := by
  unfold quoteMacro
  rw [whole_at ev sc _ (.inr rfl)]; rfl

/-! ### Identifiers -/

theorem bytesOf_ascii (c : Char) (h : c.toNat < 128) : (String.utf8EncodeChar c).map UInt8.toNat = [c.toNat] := by
  have : c.val.toNat ≤ 127 := Nat.le_of_lt_succ h
  simp only [String.utf8EncodeChar, this, if_true, List.map_cons, List.map_nil]
  simp
  omega

theorem bytesOf_high (c : Char) (h : 128 ≤ c.toNat) : ∃ b bs, (String.utf8EncodeChar c).map UInt8.toNat = b :: bs ∧ 128 ≤ b := by
  have h' : ¬ c.val.toNat ≤ 127 := by have : c.val.toNat = c.toNat := rfl; omega
  simp only [String.utf8EncodeChar, h', if_false]
  split
  · exact ⟨_, _, rfl, by simp; omega⟩
  · split
    · exact ⟨_, _, rfl, by simp; omega⟩
    · exact ⟨_, _, rfl, by simp; omega⟩


theorem table_start : ∀ b, b < 128 → ((identTable.take 53).contains b = true ↔ (65 ≤ b ∧ b ≤ 90) ∨ (97 ≤ b ∧ b ≤ 122) ∨ b = 95) := by decide +kernel
theorem table_rest : ∀ b, b < 128 → (identTable.contains b = true ↔ (65 ≤ b ∧ b ≤ 90) ∨ (97 ≤ b ∧ b ≤ 122) ∨ (48 ≤ b ∧ b ≤ 57) ∨ b = 95) := by decide +kernel
theorem table_ascii : ∀ b ∈ identTable, b < 128 := by decide +kernel

theorem table_high {b : Nat} (h : 128 ≤ b) : identTable.contains b = false ∧ (identTable.take 53).contains b = false := by
  constructor
  · cases e : identTable.contains b with
    | false => rfl
    | true => have := table_ascii b (by simpa using e); omega
  · cases e : (identTable.take 53).contains b with
    | false => rfl
    | true => have := table_ascii b (List.mem_of_mem_take (by simpa using e)); omega

theorem qchar_le (a b : Char) : a ≤ b ↔ a.toNat ≤ b.toNat := Iff.rfl
theorem qchar_eq (a b : Char) : a = b ↔ a.toNat = b.toNat := ⟨fun h => by rw [h], fun h => Char.ext (UInt32.toNat_inj.1 h)⟩

theorem restAll_iff : ∀ s : Str, (bytesOf s).all (fun x => identTable.contains x) = true ↔ ∀ x ∈ s, Letter x ∨ ('0' ≤ x ∧ x ≤ '9') ∨ x = '_'
  | [] => by simp [bytesOf]
  | c :: s => by
    have ih := restAll_iff s
    have e : bytesOf (c :: s) = (String.utf8EncodeChar c).map UInt8.toNat ++ bytesOf s := by simp [bytesOf]
    rw [e, List.all_append, Bool.and_eq_true, ih, List.forall_mem_cons]
    refine and_congr_left (fun _ => ?_)
    by_cases h : c.toNat < 128
    · rw [bytesOf_ascii c h]
      simp only [List.all_cons, List.all_nil, Bool.and_true]
      rw [table_rest _ h]
      simp only [Letter, qchar_le, qchar_eq, Char.reduceToNat]
      omega
    · obtain ⟨b, bs, e, hb⟩ := bytesOf_high c (by omega)
      rw [e]
      simp only [List.all_cons, (table_high hb).1, Bool.false_and, Bool.false_eq_true, false_iff]
      simp only [Letter, qchar_le, qchar_eq, Char.reduceToNat]
      omega

theorem isIdentText_iff (s : Str) : isIdent s = true ↔ AsciiIdent s := by
  cases s with
  | nil => simp [isIdent, bytesOf, AsciiIdent]
  | cons c s =>
    have e : bytesOf (c :: s) = (String.utf8EncodeChar c).map UInt8.toNat ++ bytesOf s := by simp [bytesOf]
    have right : AsciiIdent (c :: s) ↔ (Letter c ∨ c = '_') ∧ ∀ x ∈ s, Letter x ∨ ('0' ≤ x ∧ x ≤ '9') ∨ x = '_' := by
      constructor
      · rintro ⟨c', r, h, h1, h2⟩; cases h; exact ⟨h1, h2⟩
      · exact fun h => ⟨c, s, rfl, h.1, h.2⟩
    rw [right]
    by_cases h : c.toNat < 128
    · have ee : bytesOf (c :: s) = c.toNat :: bytesOf s := by rw [e, bytesOf_ascii c h]; rfl
      unfold isIdent
      rw [ee]
      dsimp only
      have ts := table_start _ h
      rw [← restAll_iff s]
      have hc : (Letter c ∨ c = '_') ↔ (65 ≤ c.toNat ∧ c.toNat ≤ 90) ∨ (97 ≤ c.toNat ∧ c.toNat ≤ 122) ∨ c.toNat = 95 := by
        simp only [Letter, qchar_le, qchar_eq, Char.reduceToNat]; omega
      rw [hc, ← ts]
      cases (identTable.take 53).contains c.toNat <;> simp
    · obtain ⟨b, bs, eb, hb⟩ := bytesOf_high c (by omega)
      have ee : bytesOf (c :: s) = b :: (bs ++ bytesOf s) := by rw [e, eb]; rfl
      unfold isIdent
      rw [ee]
      dsimp only
      rw [(table_high hb).2]
      simp only [Bool.not_false, if_true, Bool.false_eq_true, false_iff]
      simp only [Letter, qchar_le, qchar_eq, Char.reduceToNat]
      omega

end RJ
