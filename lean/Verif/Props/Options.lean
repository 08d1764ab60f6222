import Verif.Spec.Options
import Verif.Props.Macros
/-
  C75: `@options(..)` and `@span(..)` of `quote!`.
-/
namespace RJ
open Spec

/-- An option as the macro takes it apart. -/
def optPair : QOpt → Str × Option (List MTok)
  | .span e => ("span".toList, some e)
  | .literal => ("literal".toList, none)
  | .params ps => ("params".toList, some ps)
  | .scope => ("scope".toList, none)

theorem optionList_toks {ev : Ev} {sc : Scope} : ∀ (l : List QOpt), l ≠ [] → (∀ o ∈ l, o.Ok ev sc) → optionList (optsToks l) = some (l.map optPair)
  | [o], _, h => by
    have ho := h o (by simp)
    cases o with
    | span e => have : e.isEmpty = false := by cases e <;> simp_all [QOpt.Ok]
                simp [optsToks, QOpt.toks, optionList, this, optPair]
    | literal => simp [optsToks, QOpt.toks, optionList, optPair]
    | params ps => have : ps.isEmpty = false := by cases ps <;> simp_all [QOpt.Ok]
                   simp [optsToks, QOpt.toks, optionList, this, optPair]
    | scope => simp [optsToks, QOpt.toks, optionList, optPair]
  | o :: p :: r, _, h => by
    have ih := optionList_toks (p :: r) (by simp) (fun x hx => h x (by simp [List.mem_cons.1 hx]))
    have ho := h o (by simp)
    cases o with
    | span e => have : e.isEmpty = false := by cases e <;> simp_all [QOpt.Ok]
                simp [optsToks, QOpt.toks, optionList, this, optPair, ih]
    | literal => simp [optsToks, QOpt.toks, optionList, optPair, ih]
    | params ps => have : ps.isEmpty = false := by cases ps <;> simp_all [QOpt.Ok]
                   simp [optsToks, QOpt.toks, optionList, this, optPair, ih]
    | scope => simp [optsToks, QOpt.toks, optionList, optPair, ih]

/-- The modifier of a form. -/
def modeOf : QOpt → Option (List MTok)
  | .span _ => none
  | .literal => some [.ident "literal".toList]
  | .params ps => some [.ident "params".toList, .group .paren ps]
  | .scope => some [.ident "scope".toList]

/-- The last modifier. -/
def lastMode : List QOpt → Option (List MTok)
  | [] => none
  | o :: r => (lastMode r).or (modeOf o)

theorem form_mode : ∀ l : List QOpt, lastForm l = (lastMode l).map (fun m => .op ['@'] :: (m ++ [.op [':']]))
  | [] => rfl
  | o :: r => by
    rw [lastForm, lastMode, form_mode r]
    cases lastMode r with
    | some m => rfl
    | none => cases o <;> rfl

theorem parseOptions_last {ev : Ev} {sc : Scope} : ∀ (l : List QOpt) (mode : Option (List MTok)), (∀ o ∈ l, o.Ok ev sc) →
    parseOptions ev sc mode (l.map optPair) = some ((lastMode l).or mode)
  | [], mode, _ => rfl
  | o :: r, mode, h => by
    have ho := h o (by simp)
    have ih := fun m => parseOptions_last (ev := ev) (sc := sc) r m (fun x hx => h x (by simp [hx]))
    rw [List.map_cons, lastMode]
    cases o with
    | span e =>
      obtain ⟨_, v, hv⟩ := ho
      simp [optPair, parseOptions, hv, ih, modeOf]
    | literal => simp [optPair, parseOptions, ih, modeOf]
    | params ps => simp [optPair, parseOptions, ih, modeOf]
    | scope => simp [optPair, parseOptions, ih, modeOf]

theorem whole_options (ev : Ev) (sc : Scope) (ps tt : List MTok) : wholeOf ev sc (.op ['@'] :: .ident "options".toList :: .group .paren ps :: .op [':'] :: tt) =
    match optionList ps with
      | some opts =>
        match parseOptions ev sc none opts with
        | some (some mode) => some [.op ['#'], .group .paren (.op ['@'] :: (mode ++ .op [':'] :: tt))]
        | some none => some tt
        | none => none
      | none => some (.op ['@'] :: .ident "options".toList :: .group .paren ps :: .op [':'] :: tt) := by
  simp [wholeOf]
  rfl

theorem whole_span {ev : Ev} {sc : Scope} {e : List MTok} {v : QVal} (h : ev sc e = some v) (tt : List MTok) :
    wholeOf ev sc (.op ['@'] :: .ident "span".toList :: .group .paren e :: .op [':'] :: tt) = some tt := by
  simp [wholeOf, h]

/-- C75: options: the last of `literal`, `params(..)` and `scope` decides, as if it were the only one; spans change nothing. -/
theorem C75_options (dep : Nat) (ev : Ev) (sc : Scope) (opts : List QOpt) (hne : opts ≠ []) (h : ∀ o ∈ opts, o.Ok ev sc) (tt : List MTok) :
    (∀ form, lastForm opts = some form →
      quoteMacro dep ev sc (.op ['@'] :: .ident "options".toList :: .group .paren (optsToks opts) :: .op [':'] :: tt) = quoteMacro dep ev sc (form ++ tt)) ∧
    (lastForm opts = none → ∀ e v, ev sc e = some v →
      quoteMacro dep ev sc (.op ['@'] :: .ident "options".toList :: .group .paren (optsToks opts) :: .op [':'] :: tt) =
        quoteMacro dep ev sc (.op ['@'] :: .ident "span".toList :: .group .paren e :: .op [':'] :: tt)) := by
  have key : wholeOf ev sc (.op ['@'] :: .ident "options".toList :: .group .paren (optsToks opts) :: .op [':'] :: tt) =
      some (match lastMode opts with | some mode => [.op ['#'], .group .paren (.op ['@'] :: (mode ++ .op [':'] :: tt))] | none => tt) := by
    rw [whole_options, optionList_toks opts hne h]
    dsimp only
    rw [parseOptions_last opts none h, Option.or_none]
    cases lastMode opts <;> rfl
  constructor
  · intro form hf
    rw [form_mode] at hf
    obtain ⟨m, hm, rfl⟩ := Option.map_eq_some_iff.1 hf
    unfold quoteMacro
    rw [key, hm]
    have : ∀ l : List QOpt, lastMode l = some m → m = [.ident "literal".toList] ∨ m = [.ident "scope".toList] ∨ ∃ ps, m = [.ident "params".toList, .group .paren ps] := by
      intro l
      induction l with
      | nil => intro h; cases h
      | cons o r ih =>
        intro h
        rw [lastMode] at h
        cases e : lastMode r with
        | some m' => rw [e] at h; cases h; exact ih e
        | none =>
          rw [e] at h
          cases o with
          | span _ => cases h
          | literal => cases h; exact .inl rfl
          | scope => cases h; exact .inr (.inl rfl)
          | params ps => cases h; exact .inr (.inr ⟨ps, rfl⟩)
    rcases this opts hm with rfl | rfl | ⟨ps, rfl⟩
    · simp only [List.cons_append, List.nil_append, whole_at ev sc _ (.inl rfl)]
    · simp only [List.cons_append, List.nil_append, whole_at ev sc _ (.inr rfl)]
    · simp only [List.cons_append, List.nil_append, whole_params]
  · intro hf e v hv
    rw [form_mode, Option.map_eq_none_iff] at hf
    unfold quoteMacro
    rw [key, hf, whole_span hv]

/-- C75: with a span (and nothing else) the text is a template, even if it begins with `@`. -/
theorem C75_span (dep : Nat) (ev : Ev) (sc : Scope) (e : List MTok) (v : QVal) (h : ev sc e = some v) (ts : List Tmpl) (hok : allOk ts) :
    quoteMacro dep ev sc (.op ['@'] :: .ident "span".toList :: .group .paren e :: .op [':'] :: renderAll ts) = meansAll ev ts sc := by
  unfold quoteMacro
  rw [whole_span h, Option.bind_some]
  exact renderAll_ok dep ev ts hok _ sc (by omega)

theorem optionList_word {ev : Ev} {sc : Scope} (post : List QOpt) : (∀ o ∈ post, o.Ok ev sc) → ∀ (w : Str) (ps : Option (List MTok)), ps ≠ some [] →
    optionList (wordToks w ps ++ post.flatMap (fun o => .op [','] :: o.toks)) = some ((w, ps) :: post.map optPair) := by
  induction post with
  | nil =>
    intro _ w ps hps
    cases ps with
    | none => simp [wordToks, optionList]
    | some ps =>
      have : ps.isEmpty = false := by cases ps <;> simp_all
      simp [wordToks, optionList, this]
  | cons o post ih =>
    intro h w ps hps
    have ho := h o (by simp)
    have ih' := ih (fun x hx => h x (by simp [hx]))
    have inner : optionList (o.toks ++ post.flatMap (fun o => .op [','] :: o.toks)) = some (optPair o :: post.map optPair) := by
      cases o with
      | span e => exact ih' "span".toList (some e) (by simpa using ho.1)
      | literal => exact ih' "literal".toList none (by simp)
      | params e => exact ih' "params".toList (some e) (by simpa [QOpt.Ok] using ho)
      | scope => exact ih' "scope".toList none (by simp)
    cases ps with
    | none => simp [wordToks, optionList, inner]
    | some ps =>
      have : ps.isEmpty = false := by cases ps <;> simp_all
      simp [wordToks, optionList, this, inner]

theorem optionList_pre {ev : Ev} {sc : Scope} (pre : List QOpt) (tail : List MTok) (r : List (Str × Option (List MTok))) (ht : optionList tail = some r) (h : ∀ o ∈ pre, o.Ok ev sc) :
    optionList (pre.flatMap (fun o => o.toks ++ [.op [',']]) ++ tail) = some (pre.map optPair ++ r) := by
  induction pre with
  | nil => exact ht
  | cons o pre ih =>
    have ho := h o (by simp)
    have ih' := ih (fun x hx => h x (by simp [hx]))
    rw [List.flatMap_cons]
    generalize hg : pre.flatMap (fun o => o.toks ++ [.op [',']]) ++ tail = tail' at ih'
    rw [List.append_assoc, hg]
    cases o with
    | span e => have : e.isEmpty = false := by cases e <;> simp_all [QOpt.Ok]
                simp [QOpt.toks, optionList, this, optPair, ih']
    | literal => simp [QOpt.toks, optionList, optPair, ih']
    | params ps => have : ps.isEmpty = false := by cases ps <;> simp_all [QOpt.Ok]
                   simp [QOpt.toks, optionList, this, optPair, ih']
    | scope => simp [QOpt.toks, optionList, optPair, ih']

theorem parseOptions_bad {ev : Ev} {sc : Scope} {w : Str} {ps : Option (List MTok)} (hbad : NoOption w ps) (r : List (Str × Option (List MTok))) (pre : List QOpt) :
    ∀ (mode : Option (List MTok)), (∀ o ∈ pre, o.Ok ev sc) → parseOptions ev sc mode (pre.map optPair ++ (w, ps) :: r) = none := by
  induction pre with
  | nil =>
    intro mode _
    cases ps with
    | none => rw [List.map_nil, List.nil_append, parseOptions, if_neg (fun h => h.elim hbad.1 hbad.2)]
    | some ps => rw [List.map_nil, List.nil_append, parseOptions, if_neg hbad.2.1, if_neg hbad.2.2]
  | cons o pre ih =>
    intro mode h
    have ho := h o (by simp)
    have ih' := fun m => ih m (fun x hx => h x (by simp [hx]))
    rw [List.map_cons, List.cons_append]
    cases o with
    | span e => obtain ⟨_, v, hv⟩ := ho; simp [optPair, parseOptions, hv, ih']
    | literal => simp [optPair, parseOptions, ih']
    | params ps => simp [optPair, parseOptions, ih']
    | scope => simp [optPair, parseOptions, ih']

/-- C75: an unknown option, `literal(..)`, `scope(..)`, `span` or `params` without parentheses does not compile, whatever the other options are. -/
theorem C75_unknown (dep : Nat) (ev : Ev) (sc : Scope) (pre post : List QOpt) (hpre : ∀ o ∈ pre, o.Ok ev sc) (hpost : ∀ o ∈ post, o.Ok ev sc) (w : Str) (ps : Option (List MTok))
    (hbad : NoOption w ps) (tt : List MTok) :
    quoteMacro dep ev sc (.op ['@'] :: .ident "options".toList :: .group .paren
      (pre.flatMap (fun o => o.toks ++ [.op [',']]) ++ (wordToks w ps ++ post.flatMap (fun o => .op [','] :: o.toks))) :: .op [':'] :: tt) = none := by
  have hps : ps ≠ some [] := by
    rintro rfl
    exact hbad.1 rfl
  unfold quoteMacro
  rw [whole_options, optionList_pre pre _ _ (optionList_word post hpost w ps hps) hpre]
  dsimp only
  rw [parseOptions_bad hbad _ pre none hpre]; rfl

/-- C75: a span that is no expression does not compile, either as the only option or among others. -/
theorem C75_bad_span (dep : Nat) (ev : Ev) (sc : Scope) (e : List MTok) (h : ev sc e = none) (hne : e ≠ []) (tt : List MTok) :
    quoteMacro dep ev sc (.op ['@'] :: .ident "span".toList :: .group .paren e :: .op [':'] :: tt) = none ∧
    ∀ pre post : List QOpt, (∀ o ∈ pre, o.Ok ev sc) → (∀ o ∈ post, o.Ok ev sc) →
      quoteMacro dep ev sc (.op ['@'] :: .ident "options".toList :: .group .paren
        (pre.flatMap (fun o => o.toks ++ [.op [',']]) ++ (wordToks "span".toList (some e) ++ post.flatMap (fun o => .op [','] :: o.toks))) :: .op [':'] :: tt) = none := by
  constructor
  · simp [quoteMacro, wholeOf, h]
  · intro pre post hpre hpost
    have bad : ∀ (pre : List QOpt) (mode : Option (List MTok)) (r), (∀ o ∈ pre, o.Ok ev sc) → parseOptions ev sc mode (pre.map optPair ++ ("span".toList, some e) :: r) = none := by
      intro pre
      induction pre with
      | nil => intro mode r _; simp [parseOptions, h]
      | cons o pre ih =>
        intro mode r hp
        have ho := hp o (by simp)
        have ih' := fun m => ih m r (fun x hx => hp x (by simp [hx]))
        rw [List.map_cons, List.cons_append]
        generalize hg : pre.map optPair ++ ("span".toList, some e) :: r = l at ih'
        cases o with
        | span e => obtain ⟨_, v, hv⟩ := ho; simp [optPair, parseOptions, hv, ih']
        | literal => simp [optPair, parseOptions, ih']
        | params ps => simp [optPair, parseOptions, ih']
        | scope => simp [optPair, parseOptions, ih']
    unfold quoteMacro
    rw [whole_options, optionList_pre pre _ _ (optionList_word post hpost _ _ (by simpa using hne)) hpre]
    dsimp only
    rw [bad pre none _ hpre]; rfl

end RJ
