import Verif.Proof.Macros
/- `@scope` programs with macros run as the language they are written in. -/
namespace RJ
open Spec

/-! ### Reading the commands -/

/-- The commands of a statement. -/
def actCmds : Act → List Cmd
  | .text tt => [.block tt]
  | .define x body => [.define x (renderAll body)]
  | .macro_ f ps body => [.defineFn f ps (renderAll body)]
  | .flag x => [.flag x]
  | .undef x => [.undef x]
  | .include_ e => [.include_ e]
  | .quote_ body => [.quote (renderAll body)]
  | .execute stmt => [.execute stmt]
  | .each e x texts => .foreach e x :: (texts.map Cmd.block ++ [.endfor])
  | .times e texts => .repeat_ e :: (texts.map Cmd.block ++ [.endfor])

/-- The commands of a branch. -/
def branchCmds : Branch → List Cmd
  | .elif e l => .elif e :: l.flatMap actCmds
  | .else_ l => .else_ :: l.flatMap actCmds

/-- The commands of a statement of a program. -/
def partCmds : Part → List Cmd
  | .act a => actCmds a
  | .cond c l bs => condCmd c :: (l.flatMap actCmds ++ (bs.flatMap branchCmds ++ [.endif]))

theorem argNames_formals : ∀ ps : List Str, argNames (formalToks ps) = some ps
  | [] => rfl
  | [p] => rfl
  | p :: q :: ps => by
    have ih := argNames_formals (q :: ps)
    have e : formalToks (p :: q :: ps) = .ident p :: .op [','] :: formalToks (q :: ps) := by simp [formalToks]
    rw [e, argNames, ih]
    have : (formalToks (q :: ps)).isEmpty = false := by cases ps <;> simp [formalToks]
    rw [this]; rfl

theorem act_read {ev : Ev} {sc : Scope} (a : Act) (h : a.Ok ev sc) (rest : List MTok) (hr : NoParen rest) : cmdsOf (a.toks ++ rest) = (cmdsOf rest).map (actCmds a ++ ·) := by
  cases a with
  | text tt => rw [show (Act.text tt).toks ++ rest = .group .brace tt :: rest from rfl, cmdsOf_brace]; rfl
  | define x body =>
    obtain ⟨t, us, e⟩ := renderAll_ne h.2.1
    show cmdsOf (.op ['#'] :: .ident "define".toList :: .group .paren (.ident x :: .op [','] :: renderAll body) :: rest) = _
    rw [cmdsOf_paren, e]
    simp [cmdOf, actCmds, e]
  | macro_ f ps body =>
    obtain ⟨t, us, e⟩ := renderAll_ne h.2.1
    show cmdsOf (.op ['#'] :: .ident "define".toList :: .group .paren (.ident f :: .group .paren (formalToks ps) :: .op [','] :: renderAll body) :: rest) = _
    rw [cmdsOf_paren, e]
    simp [cmdOf, actCmds, e, argNames_formals]
  | flag x =>
    show cmdsOf (.op ['#'] :: .ident "define".toList :: .group .paren [.ident x] :: rest) = _
    rw [cmdsOf_paren]
    simp [cmdOf, actCmds]
  | undef x =>
    show cmdsOf (.op ['#'] :: .ident "undef".toList :: .group .paren [.ident x] :: rest) = _
    rw [cmdsOf_paren]
    simp [cmdOf, actCmds]
  | include_ c =>
    show cmdsOf (.op ['#'] :: .ident "include".toList :: .group .paren c :: rest) = _
    rw [cmdsOf_paren]
    simp [cmdOf, actCmds]
  | quote_ body =>
    show cmdsOf (.op ['#'] :: .ident "quote".toList :: .group .paren (renderAll body) :: rest) = _
    rw [cmdsOf_paren]
    simp [cmdOf, actCmds]
  | execute stmt =>
    show cmdsOf (.op ['#'] :: .ident "execute".toList :: .group .paren stmt :: rest) = _
    rw [cmdsOf_paren]
    simp [cmdOf, actCmds]
  | each c x texts =>
    show cmdsOf (.op ['#'] :: .ident "foreach".toList :: .group .paren (c ++ [.op [','], .ident x]) :: (texts.map _ ++ [.op ['#'], .ident "endfor".toList]) ++ rest) = _
    simp only [List.append_assoc, List.cons_append, List.nil_append]
    rw [cmdsOf_paren, texts_read, endfor_read rest hr]
    have : cmdOf "foreach".toList (some (c ++ [.op [','], .ident x])) = some (.foreach c x) := by
      simp [cmdOf]
    rw [this]
    cases cmdsOf rest <;> simp [actCmds]
  | times c texts =>
    show cmdsOf (.op ['#'] :: .ident "foreach".toList :: .group .paren c :: (texts.map _ ++ [.op ['#'], .ident "endfor".toList]) ++ rest) = _
    simp only [List.append_assoc, List.cons_append, List.nil_append]
    rw [cmdsOf_paren, texts_read, endfor_read rest hr]
    have : cmdOf "foreach".toList (some c) = some (.repeat_ c) := by
      simp only [cmdOf]
      rw [if_neg (by decide), if_neg (by decide), if_neg (by decide), if_neg (by decide), if_neg (by decide), if_neg (by decide), if_neg (by decide), if_neg (by decide), if_neg (by decide), if_pos trivial]
      split
      · rename_i x d e
        refine absurd ?_ (h.1 d.reverse x)
        have := congrArg List.reverse e
        simpa using this
      · rfl
    rw [this]
    cases cmdsOf rest <;> simp [actCmds]

theorem act_noParen (a : Act) (r : List MTok) : NoParen (a.toks ++ r) := by
  cases a <;> simp [NoParen, Act.toks]

theorem acts_noParen (l : List Act) (r : List MTok) (h : NoParen r) : NoParen (l.flatMap Act.toks ++ r) := by
  cases l with
  | nil => exact h
  | cons s l => rw [List.flatMap_cons, List.append_assoc]; exact act_noParen s _

theorem acts_read {ev : Ev} {sc : Scope} : ∀ (l : List Act), (∀ a ∈ l, a.Ok ev sc) → ∀ (rest : List MTok), NoParen rest →
    cmdsOf (l.flatMap Act.toks ++ rest) = (cmdsOf rest).map (l.flatMap actCmds ++ ·)
  | [], _, rest, _ => by simp
  | s :: l, h, rest, hr => by
    rw [List.flatMap_cons, List.append_assoc, act_read s (h s (by simp)) _ (acts_noParen l rest hr), acts_read l (fun x hx => h x (by simp [hx])) rest hr]
    cases cmdsOf rest <;> simp

theorem branches_noParen (l : List Branch) (r : List MTok) (h : NoParen r) : NoParen (l.flatMap Branch.toks ++ r) := by
  cases l with
  | nil => exact h
  | cons b l => cases b <;> simp [NoParen, Branch.toks]

theorem branches_read {ev : Ev} {sc : Scope} : ∀ (l : List Branch), (∀ b ∈ l, ∀ a ∈ b.acts, a.Ok ev sc) → ∀ (rest : List MTok), NoParen rest →
    cmdsOf (l.flatMap Branch.toks ++ rest) = (cmdsOf rest).map (l.flatMap branchCmds ++ ·)
  | [], _, rest, _ => by simp
  | b :: l, h, rest, hr => by
    have ih := branches_read l (fun x hx => h x (by simp [hx])) rest hr
    have hn := branches_noParen l rest hr
    cases b with
    | elif c acts =>
      rw [List.flatMap_cons, List.append_assoc]
      show cmdsOf (.op ['#'] :: .ident "elif".toList :: .group .paren c :: (acts.flatMap Act.toks ++ _)) = _
      rw [cmdsOf_paren, acts_read acts (h (.elif c acts) (by simp)) _ hn, ih]
      have : cmdOf "elif".toList (some c) = some (.elif c) := by simp [cmdOf]
      rw [this]
      cases cmdsOf rest <;> simp [branchCmds]
    | else_ acts =>
      rw [List.flatMap_cons, List.append_assoc]
      show cmdsOf (.op ['#'] :: .ident "else".toList :: (acts.flatMap Act.toks ++ _)) = _
      rw [else_read _ (acts_noParen acts _ hn), acts_read acts (h (.else_ acts) (by simp)) _ hn, ih]
      cases cmdsOf rest <;> simp [branchCmds]

theorem part_read {ev : Ev} {sc : Scope} (p : Part) (h : p.Ok ev sc) (rest : List MTok) (hr : NoParen rest) : cmdsOf (p.toks ++ rest) = (cmdsOf rest).map (partCmds p ++ ·) := by
  cases p with
  | act a => exact act_read a h rest hr
  | cond c l bs =>
    have hend : NoParen (.op ['#'] :: .ident "endif".toList :: rest) := by simp [NoParen]
    simp only [Part.toks, List.append_assoc, List.cons_append, List.nil_append]
    rw [cond_read, acts_read l h.2.1 _ (branches_noParen bs _ hend), branches_read bs h.2.2 _ hend, endif_read rest hr]
    cases cmdsOf rest <;> simp [partCmds]

theorem part_noParen (p : Part) (r : List MTok) : NoParen (p.toks ++ r) := by
  cases p with
  | act a => exact act_noParen a r
  | cond c l bs => cases c <;> simp [NoParen, Part.toks, Cond.toks]

theorem parts_noParen (l : List Part) (r : List MTok) (h : NoParen r) : NoParen (l.flatMap Part.toks ++ r) := by
  cases l with
  | nil => exact h
  | cons s l => rw [List.flatMap_cons, List.append_assoc]; exact part_noParen s _

theorem parts_read {ev : Ev} {sc : Scope} (rest : List MTok) (hr : NoParen rest) : ∀ (l : List Part), (∀ p ∈ l, p.Ok ev sc) →
    cmdsOf (l.flatMap Part.toks ++ rest) = (cmdsOf rest).map (l.flatMap partCmds ++ ·)
  | [], _ => by simp
  | p :: l, h => by
    rw [List.flatMap_cons, List.append_assoc, part_read p (h p (by simp)) _ (parts_noParen l rest hr), parts_read rest hr l (fun x hx => h x (by simp [hx]))]
    cases cmdsOf rest <;> simp

theorem prog_read {ev : Ev} {sc : Scope} (l : List Part) (h : ∀ p ∈ l, p.Ok ev sc) (ended : Bool) :
    cmdsOf (progToks l ended) = some (l.flatMap partCmds ++ if ended then [.end_] else []) := by
  unfold progToks
  cases ended with
  | false => rw [parts_read _ (by simp [NoParen]) l h]; simp [cmdsOf]
  | true =>
    rw [parts_read _ (by simp [NoParen]) l h]
    simp only [if_true]
    rw [cmdsOf_word _ _ (by simp [NoParen])]
    simp [cmdOf, cmdsOf]

/-! ### Loops -/

theorem set_set (e : Env) (x : Str) (w w' : Option (List QTok)) : (e.set x w).set x w' = e.set x w' := by
  unfold Env.set
  congr 1
  funext y; unfold Defs.set; by_cases h : y = x <;> simp [h]

theorem each_sound {x : Str} (hx : Named x) {e : Env} {ts : List QTok} (ht : Tame ts) (n : Nat) : ∀ (vs : List (List QTok)) (m0 : QMap) (w : Option (List QTok)) (out : List QTok),
    (∀ v ∈ vs, Settled v) → Keeps m0 (e.set x w) → eachTranslate (translate n) ts x m0 vs = .ok out → InTurn (fun v => Expand (e.set x (some v)) ts) vs out
  | [], _, _, out, _, _, h => by
    simp only [eachTranslate] at h; cases h; rfl
  | v :: vs, m0, w, out, hv, hm, h => by
    have h1 : Keeps (mapInsert x v m0) (e.set x (some v)) := by
      have := keeps_set hm hx (hv v (by simp)); rwa [set_set] at this
    rw [eachTranslate] at h
    obtain ⟨o1, h2, h3⟩ := QOut.bind_ok h
    obtain ⟨o2, h4, h5⟩ := QOut.bind_ok h3
    cases h5
    exact ⟨o1, o2, expand_sound n _ _ _ _ h1 ht h2, each_sound hx ht n vs _ _ o2 (fun y hy => hv y (by simp [hy])) h1 h4, rfl⟩

theorem each_reached {x : Str} (hx : Named x) {e : Env} {ts : List QTok} (ht : Tame ts) : ∀ (vs : List (List QTok)) (m0 : QMap) (w : Option (List QTok)) (out : List QTok),
    (∀ v ∈ vs, Settled v) → Keeps m0 (e.set x w) → InTurn (fun v => Expand (e.set x (some v)) ts) vs out →
    ∃ n0, ∀ n, n0 ≤ n → eachTranslate (translate n) ts x m0 vs = .ok out
  | [], _, _, out, _, _, h => ⟨0, fun n _ => by rw [show out = [] from h]; rfl⟩
  | v :: vs, m0, w, out, hv, hm, h => by
    have h1 : Keeps (mapInsert x v m0) (e.set x (some v)) := by
      have := keeps_set hm hx (hv v (by simp)); rwa [set_set] at this
    obtain ⟨o1, o2, h2, h3, rfl⟩ := h
    obtain ⟨n1, h4⟩ := (expand_iff h1 ht o1).1 h2
    obtain ⟨n2, h5⟩ := each_reached hx ht vs _ _ o2 (fun y hy => hv y (by simp [hy])) h1 h3
    refine ⟨max n1 n2, fun n hn => ?_⟩
    rw [eachTranslate, h4 n (by omega), QOut.bind, h5 n (by omega)]; rfl

/-! ### Running -/

/-- Templates are expanded as they mean. -/
def ExOk (ev : Ev) (ex : Scope → List MTok → Option (List QTok)) (N : Nat) : Prop :=
  ∀ sc body, allOk body → mtoksSize (renderAll body) < N → ex sc (renderAll body) = meansAll ev body sc

section
variable {ev : Ev} {ex : Scope → List MTok → Option (List QTok)} {sc : Scope} {n N : Nat}

/-- The loop state. -/
abbrev inside (on inIf : Bool) (vs : List (List QTok)) (x : Str) (m : QMap) : ScopeSt := ⟨on, inIf, some vs, x, m, false⟩

theorem loop_off (inIf : Bool) (vs : List (List QTok)) (x : Str) (m : QMap) (rest : List Cmd) : ∀ texts : List (List MTok),
    runCmds ev ex (translate n) sc (inside false inIf vs x m) (texts.map Cmd.block ++ (.endfor :: rest)) = runCmds ev ex (translate n) sc (outside false inIf m) rest
  | [] => by
    rw [List.map_nil, List.nil_append, runCmds_cons]; simp [runCmd]
  | tt :: texts => by
    rw [List.map_cons, List.cons_append, runCmds_cons]
    simp [runCmd, runBlock, QOut.get, loop_off inIf vs x m rest texts]

theorem block_in (inIf : Bool) (vs : List (List QTok)) (x : Str) (m : QMap) (tt : List MTok) :
    runCmd ev ex (translate n) sc (inside true inIf vs x m) (.block tt) =
      (eachTranslate (translate n) (codeAll tt) x (mapRemove x m) vs).get.map (fun out => (inside true inIf vs x m, out)) := by
  simp [runCmd, runBlock, lex_code.2]

theorem loop_sound {x : Str} (hx : Named x) {e : Env} {m : QMap} (hm : Keeps m e) {vs : List (List QTok)} (hv : ∀ v ∈ vs, Settled v) (inIf : Bool) (rest : List Cmd) :
    ∀ (texts : List (List MTok)) (out : List QTok), (∀ tt ∈ texts, Tame (codeAll tt)) →
    runCmds ev ex (translate n) sc (inside true inIf vs x m) (texts.map Cmd.block ++ (.endfor :: rest)) = some out →
    ∃ o1 o2, LoopText e x vs texts o1 ∧ runCmds ev ex (translate n) sc (outside true inIf m) rest = some o2 ∧ out = o1 ++ o2
  | [], out, _, h => by
    rw [List.map_nil, List.nil_append, runCmds_cons] at h
    simp [runCmd] at h
    exact ⟨[], out, rfl, h, rfl⟩
  | tt :: texts, out, ht, h => by
    rw [List.map_cons, List.cons_append, runCmds_cons, block_in] at h
    cases e1 : eachTranslate (translate n) (codeAll tt) x (mapRemove x m) vs with
    | panic => rw [e1] at h; cases h
    | more => rw [e1] at h; cases h
    | ok o1 =>
      rw [e1] at h
      simp only [QOut.get, Option.map_some] at h
      cases e2 : runCmds ev ex (translate n) sc (inside true inIf vs x m) (texts.map Cmd.block ++ (.endfor :: rest)) with
      | none => rw [e2] at h; cases h
      | some o =>
        rw [e2] at h
        cases h
        obtain ⟨o2, o3, h1, h2, rfl⟩ := loop_sound hx hm hv inIf rest texts o (fun y hy => ht y (by simp [hy])) e2
        refine ⟨o1 ++ o2, o3, ⟨o1, o2, ?_, h1, rfl⟩, h2, by simp⟩
        exact each_sound hx (ht tt (by simp)) n vs _ none o1 hv (keeps_unset hm hx) e1

theorem loop_reached {x : Str} (hx : Named x) {e : Env} {m : QMap} (hm : Keeps m e) {vs : List (List QTok)} (hv : ∀ v ∈ vs, Settled v) (inIf : Bool) :
    ∀ (texts : List (List MTok)) (out : List QTok), (∀ tt ∈ texts, Tame (codeAll tt)) → LoopText e x vs texts out →
    ∃ n0, ∀ n, n0 ≤ n → ∀ ex rest, runCmds ev ex (translate n) sc (inside true inIf vs x m) (texts.map Cmd.block ++ (.endfor :: rest)) =
      (runCmds ev ex (translate n) sc (outside true inIf m) rest).map (fun r => out ++ r)
  | [], out, _, h => ⟨0, fun n _ ex rest => by
      rw [show out = [] from h, List.map_nil, List.nil_append, runCmds_cons]; simp [runCmd]⟩
  | tt :: texts, out, ht, h => by
    obtain ⟨o1, o2, h1, h2, rfl⟩ := h
    obtain ⟨n1, h3⟩ := each_reached hx (ht tt (by simp)) vs _ none o1 hv (keeps_unset hm hx) h1
    obtain ⟨n2, h4⟩ := loop_reached hx hm hv inIf texts o2 (fun y hy => ht y (by simp [hy])) h2
    refine ⟨max n1 n2, fun n hn ex rest => ?_⟩
    rw [List.map_cons, List.cons_append, runCmds_cons, block_in, h3 n (by omega)]
    simp only [QOut.get, Option.map_some]
    rw [h4 n (by omega) ex rest]
    cases runCmds ev ex (translate n) sc (outside true inIf m) rest <;> simp

theorem elements_eq (c : List MTok) : ((ev sc c).bind QVal.items).bind (fun vs => collectO (vs.map QVal.shown)) = elements ev sc c := by
  unfold elements; congr 1; funext vs; exact collect_allSome vs

theorem foreach_run (on inIf : Bool) (c : List MTok) (x : Str) (m : QMap) : runCmd ev ex (translate n) sc (outside on inIf m) (.foreach c x) =
    (elements ev sc c).map (fun vs => (inside on inIf vs x m, [])) := by
  simp only [runCmd, elements_eq]
  cases elements ev sc c <;> simp

theorem repeat_run (on inIf : Bool) (c : List MTok) (m : QMap) : runCmd ev ex (translate n) sc (outside on inIf m) (.repeat_ c) =
    (rounds ev sc c).map (fun k => (inside on inIf (List.replicate k []) "_".toList m, [])) := by
  simp only [runCmd, rounds]
  cases (ev sc c).bind QVal.items <;> simp

/-! ### A statement of a branch that is not taken -/

theorem act_off (a : Act) (inIf : Bool) (m : QMap) (rest : List Cmd) :
    (a.Skips ev sc → runCmds ev ex (translate n) sc (outside false inIf m) (actCmds a ++ rest) = runCmds ev ex (translate n) sc (outside false inIf m) rest) ∧
    (¬ a.Skips ev sc → runCmds ev ex (translate n) sc (outside false inIf m) (actCmds a ++ rest) = none) := by
  cases a with
  | each c x texts =>
    simp only [actCmds, List.cons_append, List.append_assoc, List.nil_append]
    rw [runCmds_cons, foreach_run]
    simp only [Act.Skips]
    cases e : elements ev sc c with
    | none => simp
    | some vs => simp [loop_off]
  | times c texts =>
    simp only [actCmds, List.cons_append, List.append_assoc, List.nil_append]
    rw [runCmds_cons, repeat_run]
    simp only [Act.Skips]
    cases e : rounds ev sc c with
    | none => simp
    | some vs => simp [loop_off]
  | _ =>
    refine ⟨fun _ => ?_, fun h => absurd trivial h⟩
    simp only [actCmds, List.cons_append, List.nil_append]
    rw [runCmds_cons]
    simp [runCmd, runBlock, QOut.get]

theorem acts_off (inIf : Bool) (m : QMap) (rest : List Cmd) : ∀ l : List Act,
    ((∀ a ∈ l, a.Skips ev sc) → runCmds ev ex (translate n) sc (outside false inIf m) (l.flatMap actCmds ++ rest) = runCmds ev ex (translate n) sc (outside false inIf m) rest) ∧
    ((¬ ∀ a ∈ l, a.Skips ev sc) → runCmds ev ex (translate n) sc (outside false inIf m) (l.flatMap actCmds ++ rest) = none)
  | [] => ⟨fun _ => rfl, fun h => absurd (by simp) h⟩
  | a :: l => by
    obtain ⟨h1, h2⟩ := acts_off inIf m rest l
    obtain ⟨h3, h4⟩ := act_off (ev := ev) (ex := ex) (sc := sc) (n := n) a inIf m (l.flatMap actCmds ++ rest)
    rw [List.flatMap_cons, List.append_assoc]
    constructor
    · intro h
      rw [h3 (h a (by simp)), h1 (fun x hx => h x (by simp [hx]))]
    · intro h
      by_cases ha : a.Skips ev sc
      · rw [h3 ha, h2]
        intro h'; exact h (by intro x hx; rcases List.mem_cons.1 hx with rfl | hx; exact ha; exact h' x hx)
      · exact h4 ha

/-! ### A statement that is run -/

theorem get_some {o : QOut} {v : List QTok} (h : o.get = some v) : o = .ok v := by
  cases o with
  | ok ts => cases h; rfl
  | panic => cases h
  | more => cases h

/-- A command that does not start a loop. -/
theorem one_sound {c : Cmd} {rest : List Cmd} {st : ScopeSt} {out : List QTok} {tr : QMap → List QTok → QOut} (h : runCmds ev ex tr sc st ([c] ++ rest) = some out) :
    ∃ st' o1 o2, runCmd ev ex tr sc st c = some (st', o1) ∧ runCmds ev ex tr sc st' rest = some o2 ∧ out = o1 ++ o2 := by
  rw [List.cons_append, List.nil_append, runCmds_cons] at h
  cases e : runCmd ev ex tr sc st c with
  | none => rw [e] at h; cases h
  | some r =>
    obtain ⟨st', o1⟩ := r
    rw [e] at h
    dsimp only at h
    cases e2 : runCmds ev ex tr sc st' rest with
    | none => rw [e2] at h; cases h
    | some o2 => rw [e2] at h; cases h; exact ⟨st', o1, o2, rfl, e2, rfl⟩

theorem one_run {c : Cmd} {st st' : ScopeSt} {o1 : List QTok} {tr : QMap → List QTok → QOut} (h : runCmd ev ex tr sc st c = some (st', o1)) (rest : List Cmd) :
    runCmds ev ex tr sc st ([c] ++ rest) = (runCmds ev ex tr sc st' rest).map (fun r => o1 ++ r) := by
  rw [List.cons_append, List.nil_append, runCmds_cons, h]

theorem act_sound (hex : ExOk ev ex N) (a : Act) (ha : a.Ok ev sc) (hN : mtoksSize a.toks ≤ N) (inIf : Bool) {m : QMap} {e : Env} (hm : Keeps m e) {rest : List Cmd} {out : List QTok}
    (h : runCmds ev ex (translate n) sc (outside true inIf m) (actCmds a ++ rest) = some out) :
    ∃ e' m' o1 o2, a.Does ev sc e e' o1 ∧ Keeps m' e' ∧ runCmds ev ex (translate n) sc (outside true inIf m') rest = some o2 ∧ out = o1 ++ o2 := by
  cases a with
  | each c x texts =>
    simp only [actCmds, List.cons_append, List.append_assoc, List.nil_append] at h
    rw [runCmds_cons, foreach_run] at h
    cases e1 : elements ev sc c with
    | none => rw [e1] at h; cases h
    | some vs =>
      rw [e1] at h
      simp only [Option.map_some, List.nil_append, Option.map_id_fun', id_eq] at h
      obtain ⟨o1, o2, h1, h2, h3⟩ := loop_sound ha.1 hm (ha.2.2 vs e1) inIf rest texts out ha.2.1 h
      exact ⟨e, m, o1, o2, ⟨vs, e1, rfl, h1⟩, hm, h2, h3⟩
  | times c texts =>
    simp only [actCmds, List.cons_append, List.append_assoc, List.nil_append] at h
    rw [runCmds_cons, repeat_run] at h
    cases e1 : rounds ev sc c with
    | none => rw [e1] at h; cases h
    | some k =>
      rw [e1] at h
      simp only [Option.map_some, List.nil_append, Option.map_id_fun', id_eq] at h
      obtain ⟨o1, o2, h1, h2, h3⟩ := loop_sound (x := "_".toList) ⟨by decide, by decide⟩ hm
        (fun v hv => by rw [(List.mem_replicate.1 hv).2]; trivial) inIf rest texts out ha.2 h
      exact ⟨e, m, o1, o2, ⟨k, e1, rfl, h1⟩, hm, h2, h3⟩
  | text tt =>
    obtain ⟨st', o1, o2, h1, h2, h3⟩ := one_sound h
    simp only [runCmd, runBlock, lex_code.2, Bool.false_eq_true, if_false, if_true, Option.map_eq_some_iff, Prod.mk.injEq] at h1
    obtain ⟨o, h1, rfl, rfl⟩ := h1
    exact ⟨e, m, o, o2, ⟨rfl, expand_sound n m e _ _ hm ha (get_some h1)⟩, hm, h2, h3⟩
  | define x body =>
    obtain ⟨st', o1, o2, h1, h2, h3⟩ := one_sound h
    have hb : ex sc (renderAll body) = meansAll ev body sc := hex sc body ha.2.2.1 (by simp only [Act.toks, mtoksSize, MTok.size] at hN; omega)
    simp only [runCmd, hb, Bool.false_eq_true, if_false, if_true, Option.isSome_none, Option.map_eq_some_iff, Prod.mk.injEq] at h1
    obtain ⟨v, hv, rfl, rfl⟩ := h1
    exact ⟨_, _, [], o2, ⟨v, hv, rfl, rfl⟩, keeps_set hm ha.1 (ha.2.2.2 v hv), h2, h3⟩
  | macro_ f ps body =>
    obtain ⟨st', o1, o2, h1, h2, h3⟩ := one_sound h
    have hb : ex (paramScope ps sc) (renderAll body) = meansAll ev body (paramScope ps sc) :=
      hex _ body ha.2.2.1 (by simp only [Act.toks, mtoksSize, MTok.size] at hN; omega)
    unfold paramScope at hb
    simp only [runCmd, hb, Bool.false_eq_true, if_false, if_true, Option.isSome_none, Option.map_eq_some_iff, Prod.mk.injEq] at h1
    obtain ⟨v, hv, rfl, rfl⟩ := h1
    exact ⟨_, _, [], o2, ⟨v, hv, rfl, rfl⟩, keeps_mac hm f ha.1 (ha.2.2.2 v hv), h2, h3⟩
  | flag x =>
    obtain ⟨st', o1, o2, h1, h2, h3⟩ := one_sound h
    simp only [runCmd, Bool.false_eq_true, if_false, if_true, Option.isSome_none, Option.some.injEq, Prod.mk.injEq] at h1
    obtain ⟨rfl, rfl⟩ := h1
    exact ⟨_, _, [], o2, ⟨rfl, rfl⟩, keeps_set hm ha trivial, h2, h3⟩
  | undef x =>
    obtain ⟨st', o1, o2, h1, h2, h3⟩ := one_sound h
    simp only [runCmd, Bool.false_eq_true, if_false, if_true, Option.isSome_none, Option.some.injEq, Prod.mk.injEq] at h1
    obtain ⟨rfl, rfl⟩ := h1
    exact ⟨_, _, [], o2, ⟨rfl, rfl⟩, keeps_unset hm ha, h2, h3⟩
  | include_ c =>
    obtain ⟨st', o1, o2, h1, h2, h3⟩ := one_sound h
    simp only [runCmd, Bool.false_eq_true, if_false, if_true, Option.isSome_none] at h1
    split at h1
    · rename_i ts hts
      simp only [Option.map_eq_some_iff, Prod.mk.injEq] at h1
      obtain ⟨o, h1, rfl, rfl⟩ := h1
      exact ⟨e, m, o, o2, ⟨ts, hts, rfl, expand_sound n m e _ _ hm (ha ts hts) (get_some h1)⟩, hm, h2, h3⟩
    · cases h1
  | quote_ body =>
    obtain ⟨st', o1, o2, h1, h2, h3⟩ := one_sound h
    have hb : ex sc (renderAll body) = meansAll ev body sc := hex sc body ha.1 (by simp only [Act.toks, mtoksSize, MTok.size] at hN; omega)
    simp only [runCmd, whole_plain ev sc _ ha.2.1, Option.bind_some, hb, Bool.false_eq_true, if_false, if_true, Option.isSome_none, Option.map_eq_some_iff, Option.bind_eq_some_iff, Prod.mk.injEq] at h1
    obtain ⟨o, ⟨ts, hts, h1⟩, rfl, rfl⟩ := h1
    exact ⟨e, m, o, o2, ⟨ts, hts, rfl, expand_sound n m e _ _ hm (ha.2.2 ts hts) (get_some h1)⟩, hm, h2, h3⟩
  | execute stmt =>
    obtain ⟨st', o1, o2, h1, h2, h3⟩ := one_sound h
    simp only [runCmd, Bool.false_eq_true, if_false, if_true, Option.isSome_none, Option.map_eq_some_iff, Prod.mk.injEq] at h1
    obtain ⟨v, hv, rfl, rfl⟩ := h1
    exact ⟨e, m, [], o2, ⟨⟨v, hv⟩, rfl, rfl⟩, hm, h2, h3⟩

theorem act_reached (a : Act) (ha : a.Ok ev sc) (hN : mtoksSize a.toks ≤ N) (inIf : Bool) {m : QMap} {e e' : Env} (hm : Keeps m e) {o1 : List QTok} (h : a.Does ev sc e e' o1) :
    ∃ m' n0, Keeps m' e' ∧ ∀ n, n0 ≤ n → ∀ ex, ExOk ev ex N → ∀ rest, runCmds ev ex (translate n) sc (outside true inIf m) (actCmds a ++ rest) =
      (runCmds ev ex (translate n) sc (outside true inIf m') rest).map (fun r => o1 ++ r) := by
  cases a with
  | each c x texts =>
    obtain ⟨vs, h1, rfl, h2⟩ := h
    obtain ⟨n0, h3⟩ := loop_reached (ev := ev) (sc := sc) ha.1 hm (ha.2.2 vs h1) inIf texts o1 ha.2.1 h2
    refine ⟨m, n0, hm, fun n hn ex _ rest => ?_⟩
    simp only [actCmds, List.cons_append, List.append_assoc, List.nil_append]
    rw [runCmds_cons, foreach_run, h1]
    simp only [Option.map_some, List.nil_append, Option.map_id_fun', id_eq]
    exact h3 n hn ex rest
  | times c texts =>
    obtain ⟨k, h1, rfl, h2⟩ := h
    obtain ⟨n0, h3⟩ := loop_reached (ev := ev) (sc := sc) (x := "_".toList) ⟨by decide, by decide⟩ hm
      (fun v hv => by rw [(List.mem_replicate.1 hv).2]; trivial) inIf texts o1 ha.2 h2
    refine ⟨m, n0, hm, fun n hn ex _ rest => ?_⟩
    simp only [actCmds, List.cons_append, List.append_assoc, List.nil_append]
    rw [runCmds_cons, repeat_run, h1]
    simp only [Option.map_some, List.nil_append, Option.map_id_fun', id_eq]
    exact h3 n hn ex rest
  | text tt =>
    obtain ⟨rfl, h1⟩ := h
    obtain ⟨n0, h2⟩ := (expand_iff hm ha o1).1 h1
    refine ⟨m, n0, hm, fun n hn ex _ rest => one_run ?_ rest⟩
    simp [runCmd, runBlock, lex_code.2, h2 n hn, QOut.get]
  | define x body =>
    obtain ⟨v, hv, rfl, rfl⟩ := h
    refine ⟨mapInsert x v m, 0, keeps_set hm ha.1 (ha.2.2.2 v hv), fun n _ ex hex rest => one_run ?_ rest⟩
    have hb : ex sc (renderAll body) = meansAll ev body sc := hex sc body ha.2.2.1 (by simp only [Act.toks, mtoksSize, MTok.size] at hN; omega)
    simp [runCmd, hb, hv]
  | macro_ f ps body =>
    obtain ⟨v, hv, rfl, rfl⟩ := h
    refine ⟨_, 0, keeps_mac hm f ha.1 (ha.2.2.2 v hv), fun n _ ex hex rest => one_run ?_ rest⟩
    have hb : ex (paramScope ps sc) (renderAll body) = meansAll ev body (paramScope ps sc) :=
      hex _ body ha.2.2.1 (by simp only [Act.toks, mtoksSize, MTok.size] at hN; omega)
    unfold paramScope at hb hv
    simp only [runCmd, hb, hv, Bool.false_eq_true, if_false, if_true, Option.isSome_none, Option.map_some]
    rfl
  | flag x =>
    obtain ⟨rfl, rfl⟩ := h
    refine ⟨mapInsert x [] m, 0, keeps_set hm ha trivial, fun n _ ex hex rest => one_run ?_ rest⟩
    simp [runCmd]
  | undef x =>
    obtain ⟨rfl, rfl⟩ := h
    refine ⟨mapRemove x m, 0, keeps_unset hm ha, fun n _ ex hex rest => one_run ?_ rest⟩
    simp [runCmd]
  | include_ c =>
    obtain ⟨ts, h0, rfl, h1⟩ := h
    obtain ⟨n0, h2⟩ := (expand_iff hm (ha ts h0) o1).1 h1
    refine ⟨m, n0, hm, fun n hn ex _ rest => one_run ?_ rest⟩
    simp [runCmd, h0, h2 n hn, QOut.get]
  | quote_ body =>
    obtain ⟨ts, h0, rfl, h1⟩ := h
    obtain ⟨n0, h2⟩ := (expand_iff hm (ha.2.2 ts h0) o1).1 h1
    refine ⟨m, n0, hm, fun n hn ex hex rest => one_run ?_ rest⟩
    have hb : ex sc (renderAll body) = meansAll ev body sc := hex sc body ha.1 (by simp only [Act.toks, mtoksSize, MTok.size] at hN; omega)
    simp [runCmd, whole_plain ev sc _ ha.2.1, hb, h0, h2 n hn, QOut.get]
  | execute stmt =>
    obtain ⟨⟨v, hv⟩, rfl, rfl⟩ := h
    exact ⟨m, 0, hm, fun n _ ex _ rest => one_run (by simp [runCmd, hv]) rest⟩

/-- Small enough and well-formed. -/
def ActsOk (ev : Ev) (sc : Scope) (N : Nat) (l : List Act) : Prop := ∀ a ∈ l, a.Ok ev sc ∧ mtoksSize a.toks ≤ N

theorem acts_small {l : List Act} (h : ∀ a ∈ l, a.Ok ev sc) (hN : mtoksSize (l.flatMap Act.toks) ≤ N) : ActsOk ev sc N l := by
  induction l with
  | nil => intro a ha; cases ha
  | cons b l ih =>
    rw [List.flatMap_cons, mtoksSize_append] at hN
    intro a ha
    rcases List.mem_cons.1 ha with rfl | ha
    · exact ⟨h a (by simp), by omega⟩
    · exact ih (fun x hx => h x (by simp [hx])) (by omega) a ha

theorem acts_sound (hex : ExOk ev ex N) (inIf : Bool) (rest : List Cmd) : ∀ (l : List Act), ActsOk ev sc N l → ∀ {m : QMap} {e : Env}, Keeps m e → ∀ {out : List QTok},
    runCmds ev ex (translate n) sc (outside true inIf m) (l.flatMap actCmds ++ rest) = some out →
    ∃ e' m' o1 o2, ActsDo ev sc l e e' o1 ∧ Keeps m' e' ∧ runCmds ev ex (translate n) sc (outside true inIf m') rest = some o2 ∧ out = o1 ++ o2
  | [], _, m, e, hm, out, h => ⟨e, m, [], out, ⟨rfl, rfl⟩, hm, h, rfl⟩
  | a :: l, hl, m, e, hm, out, h => by
    rw [List.flatMap_cons, List.append_assoc] at h
    obtain ⟨e1, m1, o1, o2, h1, h2, h3, rfl⟩ := act_sound hex a (hl a (by simp)).1 (hl a (by simp)).2 inIf hm h
    obtain ⟨e2, m2, o3, o4, h4, h5, h6, rfl⟩ := acts_sound hex inIf rest l (fun x hx => hl x (by simp [hx])) h2 h3
    exact ⟨e2, m2, o1 ++ o3, o4, ⟨e1, o1, o3, h1, h4, rfl⟩, h5, h6, by simp⟩

theorem acts_reached (inIf : Bool) : ∀ (l : List Act), ActsOk ev sc N l → ∀ {m : QMap} {e e' : Env}, Keeps m e → ∀ {o1 : List QTok}, ActsDo ev sc l e e' o1 →
    ∃ m' n0, Keeps m' e' ∧ ∀ n, n0 ≤ n → ∀ ex, ExOk ev ex N → ∀ rest, runCmds ev ex (translate n) sc (outside true inIf m) (l.flatMap actCmds ++ rest) =
      (runCmds ev ex (translate n) sc (outside true inIf m') rest).map (fun r => o1 ++ r)
  | [], _, m, e, e', hm, o1, h => by
    obtain ⟨rfl, rfl⟩ := h
    exact ⟨m, 0, hm, fun n _ ex _ rest => by simp⟩
  | a :: l, hl, m, e, e', hm, o1, h => by
    obtain ⟨e1, oa, ob, h1, h2, rfl⟩ := h
    obtain ⟨m1, n1, h3, h4⟩ := act_reached a (hl a (by simp)).1 (hl a (by simp)).2 inIf hm h1
    obtain ⟨m2, n2, h5, h6⟩ := acts_reached inIf l (fun x hx => hl x (by simp [hx])) h3 h2
    refine ⟨m2, max n1 n2, h5, fun n hn ex hex rest => ?_⟩
    rw [List.flatMap_cons, List.append_assoc, h4 n (by omega) ex hex, h6 n (by omega) ex hex]
    cases runCmds ev ex (translate n) sc (outside true inIf m2) rest <;> simp

/-! ### Branches -/

theorem branch_sound (hex : ExOk ev ex N) (on : Bool) (rest : List Cmd) {l : List Act} (hl : ActsOk ev sc N l) {m : QMap} {e : Env} (hm : Keeps m e) {out : List QTok}
    (h : runCmds ev ex (translate n) sc (outside on true m) (l.flatMap actCmds ++ rest) = some out) :
    ∃ e' m' o1 o2, BranchDo ev sc on l e e' o1 ∧ Keeps m' e' ∧ runCmds ev ex (translate n) sc (outside on true m') rest = some o2 ∧ out = o1 ++ o2 := by
  cases on with
  | true => exact acts_sound hex true rest l hl hm h
  | false =>
    obtain ⟨h1, h2⟩ := acts_off (ev := ev) (ex := ex) (sc := sc) (n := n) true m rest l
    by_cases hs : ∀ a ∈ l, a.Skips ev sc
    · rw [h1 hs] at h
      exact ⟨e, m, [], out, ⟨hs, rfl, rfl⟩, hm, h, rfl⟩
    · rw [h2 hs] at h; cases h

theorem branch_reached (on : Bool) {l : List Act} (hl : ActsOk ev sc N l) {m : QMap} {e e' : Env} (hm : Keeps m e) {o1 : List QTok} (h : BranchDo ev sc on l e e' o1) :
    ∃ m' n0, Keeps m' e' ∧ ∀ n, n0 ≤ n → ∀ ex, ExOk ev ex N → ∀ rest, runCmds ev ex (translate n) sc (outside on true m) (l.flatMap actCmds ++ rest) =
      (runCmds ev ex (translate n) sc (outside on true m') rest).map (fun r => o1 ++ r) := by
  cases on with
  | true => exact acts_reached true l hl hm h
  | false =>
    obtain ⟨hs, rfl, rfl⟩ := h
    exact ⟨m, 0, hm, fun n _ ex _ rest => by rw [(acts_off true m rest l).1 hs]; simp⟩

theorem elif_run (on : Bool) (c : List MTok) (m : QMap) : runCmd ev ex (translate n) sc (outside on true m) (.elif c) =
    match ev sc c with | some (.bool b) => some (outside b true m, []) | _ => none := by
  simp only [runCmd, Bool.false_eq_true, if_false, Option.isSome_none, Bool.not_true, Bool.or_self]
  rfl

theorem else_run (on : Bool) (m : QMap) : runCmd ev ex (translate n) sc (outside on true m) .else_ = some (outside (!on) true m, []) := by
  simp [runCmd]

theorem endif_run (on : Bool) (m : QMap) : runCmd ev ex (translate n) sc (outside on true m) .endif = some (outside true false m, []) := by
  simp [runCmd]

theorem branches_sound (hex : ExOk ev ex N) (rest : List Cmd) : ∀ (bs : List Branch), (∀ b ∈ bs, ActsOk ev sc N b.acts) → ∀ (on : Bool) {m : QMap} {e : Env}, Keeps m e → ∀ {out : List QTok},
    runCmds ev ex (translate n) sc (outside on true m) (bs.flatMap branchCmds ++ (.endif :: rest)) = some out →
    ∃ e' m' o1 o2, BranchesDo ev sc on bs e e' o1 ∧ Keeps m' e' ∧ runCmds ev ex (translate n) sc (outside true false m') rest = some o2 ∧ out = o1 ++ o2
  | [], _, on, m, e, hm, out, h => by
    obtain ⟨st', o1, o2, h1, h2, h3⟩ := one_sound (c := .endif) h
    rw [endif_run] at h1
    cases h1
    exact ⟨e, m, [], o2, ⟨rfl, rfl⟩, hm, h2, h3⟩
  | .elif c l :: bs, hb, on, m, e, hm, out, h => by
    rw [List.flatMap_cons, List.append_assoc] at h
    obtain ⟨st', o0, o, h1, h2, rfl⟩ := one_sound (c := .elif c) (rest := l.flatMap actCmds ++ _) h
    rw [elif_run] at h1
    split at h1
    · rename_i b hc
      cases h1
      obtain ⟨e1, m1, o1, o2, h3, h4, h5, rfl⟩ := branch_sound hex b _ (hb (.elif c l) (by simp)) hm h2
      obtain ⟨e2, m2, o3, o4, h6, h7, h8, rfl⟩ := branches_sound hex rest bs (fun x hx => hb x (by simp [hx])) b h4 h5
      exact ⟨e2, m2, o1 ++ o3, o4, ⟨b, e1, o1, o3, hc, h3, h6, rfl⟩, h7, h8, by simp⟩
    · cases h1
  | .else_ l :: bs, hb, on, m, e, hm, out, h => by
    rw [List.flatMap_cons, List.append_assoc] at h
    obtain ⟨st', o0, o, h1, h2, rfl⟩ := one_sound (c := .else_) (rest := l.flatMap actCmds ++ _) h
    rw [else_run] at h1
    cases h1
    obtain ⟨e1, m1, o1, o2, h3, h4, h5, rfl⟩ := branch_sound hex (!on) _ (hb (.else_ l) (by simp)) hm h2
    obtain ⟨e2, m2, o3, o4, h6, h7, h8, rfl⟩ := branches_sound hex rest bs (fun x hx => hb x (by simp [hx])) (!on) h4 h5
    exact ⟨e2, m2, o1 ++ o3, o4, ⟨e1, o1, o3, h3, h6, rfl⟩, h7, h8, by simp⟩

theorem branches_reached : ∀ (bs : List Branch), (∀ b ∈ bs, ActsOk ev sc N b.acts) → ∀ (on : Bool) {m : QMap} {e e' : Env}, Keeps m e → ∀ {o1 : List QTok}, BranchesDo ev sc on bs e e' o1 →
    ∃ m' n0, Keeps m' e' ∧ ∀ n, n0 ≤ n → ∀ ex, ExOk ev ex N → ∀ rest, runCmds ev ex (translate n) sc (outside on true m) (bs.flatMap branchCmds ++ (.endif :: rest)) =
      (runCmds ev ex (translate n) sc (outside true false m') rest).map (fun r => o1 ++ r)
  | [], _, on, m, e, e', hm, o1, h => by
    obtain ⟨rfl, rfl⟩ := h
    exact ⟨m, 0, hm, fun n _ ex _ rest => one_run (c := .endif) (endif_run on m) rest⟩
  | .elif c l :: bs, hb, on, m, e, e', hm, o1, h => by
    obtain ⟨b, e1, oa, ob, hc, h1, h2, rfl⟩ := h
    obtain ⟨m1, n1, h3, h4⟩ := branch_reached (l := l) b (hb (.elif c l) (by simp)) hm h1
    obtain ⟨m2, n2, h5, h6⟩ := branches_reached bs (fun x hx => hb x (by simp [hx])) b h3 h2
    refine ⟨m2, max n1 n2, h5, fun n hn ex hex rest => ?_⟩
    rw [List.flatMap_cons, List.append_assoc]
    have := one_run (ev := ev) (ex := ex) (sc := sc) (tr := translate n) (c := .elif c) (st := outside on true m) (st' := outside b true m) (o1 := []) (by rw [elif_run, hc])
      (l.flatMap actCmds ++ (bs.flatMap branchCmds ++ (.endif :: rest)))
    rw [show branchCmds (.elif c l) ++ (bs.flatMap branchCmds ++ (.endif :: rest)) = [.elif c] ++ (l.flatMap actCmds ++ (bs.flatMap branchCmds ++ (.endif :: rest))) from rfl]
    rw [this, h4 n (by omega) ex hex, h6 n (by omega) ex hex]
    cases runCmds ev ex (translate n) sc (outside true false m2) rest <;> simp
  | .else_ l :: bs, hb, on, m, e, e', hm, o1, h => by
    obtain ⟨e1, oa, ob, h1, h2, rfl⟩ := h
    obtain ⟨m1, n1, h3, h4⟩ := branch_reached (l := l) (!on) (hb (.else_ l) (by simp)) hm h1
    obtain ⟨m2, n2, h5, h6⟩ := branches_reached bs (fun x hx => hb x (by simp [hx])) (!on) h3 h2
    refine ⟨m2, max n1 n2, h5, fun n hn ex hex rest => ?_⟩
    rw [List.flatMap_cons, List.append_assoc]
    have := one_run (ev := ev) (ex := ex) (sc := sc) (tr := translate n) (c := .else_) (st := outside on true m) (st' := outside (!on) true m) (o1 := []) (else_run on m)
      (l.flatMap actCmds ++ (bs.flatMap branchCmds ++ (.endif :: rest)))
    rw [show branchCmds (.else_ l) ++ (bs.flatMap branchCmds ++ (.endif :: rest)) = [.else_] ++ (l.flatMap actCmds ++ (bs.flatMap branchCmds ++ (.endif :: rest))) from rfl]
    rw [this, h4 n (by omega) ex hex, h6 n (by omega) ex hex]
    cases runCmds ev ex (translate n) sc (outside true false m2) rest <;> simp

/-! ### Programs -/

theorem if_run (c : Cond) (hc : c.Ok) {m : QMap} {e : Env} (h : Keeps m e) : runCmd ev ex (translate n) sc (outside true false m) (condCmd c) =
    (c.holds ev sc e.value).map (fun b => (outside b true m, [])) := by
  cases c with
  | ifdef x => simp [condCmd, runCmd, Cond.holds, h.value x hc]
  | ifndef x =>
    simp only [condCmd, runCmd, Cond.holds, h.value x hc]
    cases e.value x <;> simp
  | test t =>
    simp only [condCmd, runCmd, Cond.holds]
    cases ev sc t with
    | none => simp
    | some v => cases v <;> simp

/-- Small enough and well-formed. -/
theorem branch_small : ∀ {bs : List Branch}, (∀ b ∈ bs, ∀ a ∈ b.acts, a.Ok ev sc) → mtoksSize (bs.flatMap Branch.toks) ≤ N → ∀ b ∈ bs, ActsOk ev sc N b.acts
  | b' :: bs, h, hN, b, hb => by
    rw [List.flatMap_cons, mtoksSize_append] at hN
    rcases List.mem_cons.1 hb with rfl | hb
    · refine acts_small (h b (by simp)) ?_
      cases b <;> simp only [Branch.toks, mtoksSize_append, Branch.acts] at hN ⊢ <;> omega
    · exact branch_small (fun x hx => h x (by simp [hx])) (by omega) b hb

theorem part_sound (hex : ExOk ev ex N) (p : Part) (hp : p.Ok ev sc) (hN : mtoksSize p.toks ≤ N) {m : QMap} {e : Env} (hm : Keeps m e) {rest : List Cmd} {out : List QTok}
    (h : runCmds ev ex (translate n) sc (outside true false m) (partCmds p ++ rest) = some out) :
    ∃ e' m' o1 o2, p.Does ev sc e e' o1 ∧ Keeps m' e' ∧ runCmds ev ex (translate n) sc (outside true false m') rest = some o2 ∧ out = o1 ++ o2 := by
  cases p with
  | act a => exact act_sound hex a hp hN false hm h
  | cond c l bs =>
    simp only [partCmds, List.cons_append, List.append_assoc, List.nil_append] at h
    obtain ⟨st', o0, o, h1, h2, rfl⟩ := one_sound (c := condCmd c) h
    rw [if_run c hp.1 hm] at h1
    simp only [Option.map_eq_some_iff, Prod.mk.injEq] at h1
    obtain ⟨b, hb, rfl, rfl⟩ := h1
    simp only [Part.toks, mtoksSize_append] at hN
    obtain ⟨e1, m1, o1, o2, h3, h4, h5, rfl⟩ := branch_sound hex b _ (acts_small hp.2.1 (by omega)) hm h2
    obtain ⟨e2, m2, o3, o4, h6, h7, h8, rfl⟩ := branches_sound hex rest bs (branch_small hp.2.2 (by omega)) b h4 h5
    exact ⟨e2, m2, o1 ++ o3, o4, ⟨b, e1, o1, o3, hb, h3, h6, rfl⟩, h7, h8, by simp⟩

theorem part_reached (p : Part) (hp : p.Ok ev sc) (hN : mtoksSize p.toks ≤ N) {m : QMap} {e e' : Env} (hm : Keeps m e) {o1 : List QTok} (h : p.Does ev sc e e' o1) :
    ∃ m' n0, Keeps m' e' ∧ ∀ n, n0 ≤ n → ∀ ex, ExOk ev ex N → ∀ rest, runCmds ev ex (translate n) sc (outside true false m) (partCmds p ++ rest) =
      (runCmds ev ex (translate n) sc (outside true false m') rest).map (fun r => o1 ++ r) := by
  cases p with
  | act a => exact act_reached a hp hN false hm h
  | cond c l bs =>
    obtain ⟨b, e1, oa, ob, hc, h1, h2, rfl⟩ := h
    simp only [Part.toks, mtoksSize_append] at hN
    obtain ⟨m1, n1, h3, h4⟩ := branch_reached b (acts_small (N := N) hp.2.1 (by omega)) hm h1
    obtain ⟨m2, n2, h5, h6⟩ := branches_reached bs (branch_small (N := N) hp.2.2 (by omega)) b h3 h2
    refine ⟨m2, max n1 n2, h5, fun n hn ex hex rest => ?_⟩
    have := one_run (ev := ev) (ex := ex) (sc := sc) (tr := translate n) (c := condCmd c) (st := outside true false m) (st' := outside b true m) (o1 := []) (by rw [if_run c hp.1 hm, hc]; rfl)
      (l.flatMap actCmds ++ (bs.flatMap branchCmds ++ (.endif :: rest)))
    simp only [partCmds, List.cons_append, List.append_assoc, List.nil_append]
    rw [List.cons_append, List.nil_append] at this
    rw [this, h4 n (by omega) ex hex, h6 n (by omega) ex hex]
    cases runCmds ev ex (translate n) sc (outside true false m2) rest <;> simp

theorem parts_sound (hex : ExOk ev ex N) {tail : List Cmd} (htail : ∀ m tr, runCmds ev ex tr sc (outside true false m) tail = some []) : ∀ (l : List Part), (∀ p ∈ l, p.Ok ev sc) →
    mtoksSize (l.flatMap Part.toks) ≤ N → ∀ {m : QMap} {e : Env}, Keeps m e → ∀ {out : List QTok},
    runCmds ev ex (translate n) sc (outside true false m) (l.flatMap partCmds ++ tail) = some out → PartsDo ev sc l e out
  | [], _, _, m, e, _, out, h => by
    rw [List.flatMap_nil, List.nil_append, htail] at h; cases h; rfl
  | p :: l, hl, hN, m, e, hm, out, h => by
    rw [List.flatMap_cons, mtoksSize_append] at hN
    rw [List.flatMap_cons, List.append_assoc] at h
    obtain ⟨e1, m1, o1, o2, h1, h2, h3, rfl⟩ := part_sound hex p (hl p (by simp)) (by omega) hm h
    exact ⟨e1, o1, o2, h1, parts_sound hex htail l (fun x hx => hl x (by simp [hx])) (by omega) h2 h3, rfl⟩

theorem parts_reached {tail : List Cmd} (htail : ∀ ex m tr, runCmds ev ex tr sc (outside true false m) tail = some []) : ∀ (l : List Part), (∀ p ∈ l, p.Ok ev sc) →
    mtoksSize (l.flatMap Part.toks) ≤ N → ∀ {m : QMap} {e : Env}, Keeps m e → ∀ {out : List QTok}, PartsDo ev sc l e out →
    ∃ n0, ∀ n, n0 ≤ n → ∀ ex, ExOk ev ex N → runCmds ev ex (translate n) sc (outside true false m) (l.flatMap partCmds ++ tail) = some out
  | [], _, _, m, e, _, out, h => ⟨0, fun n _ ex _ => by rw [show out = [] from h]; exact htail _ _ _⟩
  | p :: l, hl, hN, m, e, hm, out, h => by
    rw [List.flatMap_cons, mtoksSize_append] at hN
    obtain ⟨e1, o1, o2, h1, h2, rfl⟩ := h
    obtain ⟨m1, n1, h3, h4⟩ := part_reached p (hl p (by simp)) (N := N) (by omega) hm h1
    obtain ⟨n2, h5⟩ := parts_reached htail l (fun x hx => hl x (by simp [hx])) (by omega) h3 h2
    refine ⟨max n1 n2, fun n hn ex hex => ?_⟩
    rw [List.flatMap_cons, List.append_assoc, h4 n (by omega) ex hex, h5 n (by omega) ex hex]; rfl
end

end RJ
