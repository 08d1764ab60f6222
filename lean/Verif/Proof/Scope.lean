import Verif.Proof.Subst
import Verif.Proof.Map
/- `@scope` programs run as the structured language they are written in. -/
namespace RJ
open Spec

/-! ### Reading the commands -/

/-- The commands of a simple statement. -/
def simpleCmd : Simple → Cmd
  | .text tt => .block tt
  | .define x body => .define x (renderAll body)
  | .flag x => .flag x
  | .undef x => .undef x

/-- The command of a condition. -/
def condCmd : Cond → Cmd
  | .ifdef x => .ifdef x
  | .ifndef x => .ifndef x
  | .test e => .if_ e

/-- The commands of an else part. -/
def elseCmds : Option (List Simple) → List Cmd
  | some b => Cmd.else_ :: b.map simpleCmd
  | none => []

/-- The commands of a statement. -/
def stmtCmds : Stmt → List Cmd
  | .one s => [simpleCmd s]
  | .cond c a b => condCmd c :: (a.map simpleCmd ++ (elseCmds b ++ [.endif]))
  | .each e x texts => .foreach e x :: (texts.map Cmd.block ++ [.endfor])

/-- Does not start with parentheses. -/
def NoParen (ts : List MTok) : Prop := ∀ g, ts.head? ≠ some (.group .paren g)

theorem cmdsOf_paren (name : Str) (ps rest : List MTok) :
    cmdsOf (.op ['#'] :: .ident name :: .group .paren ps :: rest) = (cmdOf name (some ps)).bind (fun c => (cmdsOf rest).map (c :: ·)) := by
  simp [cmdsOf]
theorem cmdsOf_word (name : Str) (rest : List MTok) (h : NoParen rest) :
    cmdsOf (.op ['#'] :: .ident name :: rest) = (cmdOf name none).bind (fun c => (cmdsOf rest).map (c :: ·)) := by
  rw [cmdsOf]
  intro ps r e
  exact h ps (by rw [e]; rfl)
theorem cmdsOf_brace (tt rest : List MTok) : cmdsOf (.group .brace tt :: rest) = (cmdsOf rest).map (.block tt :: ·) := by simp [cmdsOf]

theorem simple_read {n : Nat} {ev : Ev} {sc : Scope} (s : Simple) (h : s.Ok n ev sc) (rest : List MTok) :
    cmdsOf (s.toks ++ rest) = (cmdsOf rest).map (simpleCmd s :: ·) := by
  cases s with
  | text tt => exact cmdsOf_brace tt rest
  | define x body =>
    obtain ⟨t, us, e⟩ := renderAll_ne h.2.1
    show cmdsOf (.op ['#'] :: .ident "define".toList :: .group .paren (.ident x :: .op [','] :: renderAll body) :: rest) = _
    rw [cmdsOf_paren, e]
    simp [cmdOf, simpleCmd, e]
  | flag x =>
    show cmdsOf (.op ['#'] :: .ident "define".toList :: .group .paren [.ident x] :: rest) = _
    rw [cmdsOf_paren]
    simp [cmdOf, simpleCmd]
  | undef x =>
    show cmdsOf (.op ['#'] :: .ident "undef".toList :: .group .paren [.ident x] :: rest) = _
    rw [cmdsOf_paren]
    simp [cmdOf, simpleCmd]

theorem simples_read {n : Nat} {ev : Ev} {sc : Scope} : ∀ (l : List Simple), (∀ s ∈ l, s.Ok n ev sc) → ∀ (rest : List MTok),
    cmdsOf (l.flatMap Simple.toks ++ rest) = (cmdsOf rest).map (l.map simpleCmd ++ ·)
  | [], _, rest => by simp
  | s :: l, h, rest => by
    rw [List.flatMap_cons, List.append_assoc, simple_read s (h s (by simp)), simples_read l (fun x hx => h x (by simp [hx]))]
    cases cmdsOf rest <;> simp

theorem texts_read : ∀ (l : List (List MTok)) (rest : List MTok),
    cmdsOf (l.map (fun tt => MTok.group .brace tt) ++ rest) = (cmdsOf rest).map (l.map Cmd.block ++ ·)
  | [], rest => by simp
  | s :: l, rest => by
    rw [List.map_cons, List.cons_append, cmdsOf_brace, texts_read l]
    cases cmdsOf rest <;> simp

theorem cond_read (c : Cond) (rest : List MTok) : cmdsOf (c.toks ++ rest) = (cmdsOf rest).map (condCmd c :: ·) := by
  cases c with
  | ifdef x =>
    show cmdsOf (.op ['#'] :: .ident "ifdef".toList :: .group .paren [.ident x] :: rest) = _
    rw [cmdsOf_paren]; simp [cmdOf, condCmd]
  | ifndef x =>
    show cmdsOf (.op ['#'] :: .ident "ifndef".toList :: .group .paren [.ident x] :: rest) = _
    rw [cmdsOf_paren]; simp [cmdOf, condCmd]
  | test e =>
    show cmdsOf (.op ['#'] :: .ident "if".toList :: .group .paren e :: rest) = _
    rw [cmdsOf_paren]; simp [cmdOf, condCmd]

theorem simple_noParen (s : Simple) (r : List MTok) : NoParen (s.toks ++ r) := by
  cases s <;> simp [NoParen, Simple.toks]

theorem simples_noParen (l : List Simple) (r : List MTok) (h : NoParen r) : NoParen (l.flatMap Simple.toks ++ r) := by
  cases l with
  | nil => exact h
  | cons s l => rw [List.flatMap_cons, List.append_assoc]; exact simple_noParen s _

theorem stmt_noParen (s : Stmt) (r : List MTok) : NoParen (s.toks ++ r) := by
  cases s with
  | one s => exact simple_noParen s r
  | cond c a b => cases c <;> simp [NoParen, Stmt.toks, Cond.toks]
  | each e x t => simp [NoParen, Stmt.toks]

theorem stmts_noParen (l : List Stmt) : NoParen (l.flatMap Stmt.toks) := by
  cases l with
  | nil => simp [NoParen]
  | cons s l => rw [List.flatMap_cons]; exact stmt_noParen s _

theorem else_read (rest : List MTok) (h : NoParen rest) : cmdsOf (.op ['#'] :: .ident "else".toList :: rest) = (cmdsOf rest).map (Cmd.else_ :: ·) := by
  rw [cmdsOf_word _ _ h]; simp [cmdOf]
theorem endif_read (rest : List MTok) (h : NoParen rest) : cmdsOf (.op ['#'] :: .ident "endif".toList :: rest) = (cmdsOf rest).map (Cmd.endif :: ·) := by
  rw [cmdsOf_word _ _ h]; simp [cmdOf]
theorem endfor_read (rest : List MTok) (h : NoParen rest) : cmdsOf (.op ['#'] :: .ident "endfor".toList :: rest) = (cmdsOf rest).map (Cmd.endfor :: ·) := by
  rw [cmdsOf_word _ _ h]; simp [cmdOf]

theorem stmt_read {n : Nat} {ev : Ev} {sc : Scope} (s : Stmt) (h : s.Ok n ev sc) (rest : List MTok) (hr : NoParen rest) :
    cmdsOf (s.toks ++ rest) = (cmdsOf rest).map (stmtCmds s ++ ·) := by
  cases s with
  | one s => exact simple_read s h rest
  | cond c a b =>
    have hend : NoParen ([.op ['#'], .ident "endif".toList] ++ rest) := by simp [NoParen]
    simp only [Stmt.toks, List.append_assoc]
    rw [cond_read, simples_read a h.1]
    cases b with
    | none =>
      simp only [List.nil_append, List.cons_append]
      rw [endif_read rest hr]
      cases cmdsOf rest <;> simp [stmtCmds, elseCmds]
    | some b =>
      simp only [List.nil_append, List.cons_append] at hend ⊢
      rw [else_read _ (simples_noParen b _ hend), simples_read b h.2, endif_read rest hr]
      cases cmdsOf rest <;> simp [stmtCmds, elseCmds]
  | each e x texts =>
    show cmdsOf (.op ['#'] :: .ident "foreach".toList :: .group .paren (e ++ [.op [','], .ident x]) :: (texts.map _ ++ [.op ['#'], .ident "endfor".toList]) ++ rest) = _
    simp only [List.append_assoc, List.cons_append, List.nil_append]
    rw [cmdsOf_paren, texts_read, endfor_read rest hr]
    have : cmdOf "foreach".toList (some (e ++ [.op [','], .ident x])) = some (.foreach e x) := by
      simp [cmdOf]
    rw [this]
    cases cmdsOf rest <;> simp [stmtCmds]

theorem stmts_read {n : Nat} {ev : Ev} {sc : Scope} : ∀ (l : List Stmt), (∀ s ∈ l, s.Ok n ev sc) → cmdsOf (l.flatMap Stmt.toks) = some (l.flatMap stmtCmds)
  | [], _ => rfl
  | s :: l, h => by
    rw [List.flatMap_cons, stmt_read s (h s (by simp)) _ (stmts_noParen l), stmts_read l (fun x hx => h x (by simp [hx]))]
    simp

/-! ### Running them -/

/-- The map holds the definitions. -/
structure Holds (m : QMap) (d : Defs) : Prop where
  eq : (fun x => mapGet x m) = d
  good : GoodMap m
  nodup : (m.map (·.1)).Nodup

theorem nodup_insert {β : Type} (k : Str) (v : β) : ∀ m : List (Str × β), (m.map (·.1)).Nodup → ((mapInsert k v m).map (·.1)).Nodup
  | [], _ => by simp [mapInsert]
  | (k', v') :: m, h => by
    have h' := List.nodup_cons.1 h
    unfold mapInsert
    by_cases e : k' = k
    · rw [if_pos e]; simpa [e] using h
    · rw [if_neg e]
      simp only [List.map_cons, List.nodup_cons]
      refine ⟨?_, nodup_insert k v m h'.2⟩
      rw [← mapGet_none_iff, mapGet_insert', if_neg e, mapGet_none_iff]
      exact h'.1

theorem holds_insert {m : QMap} {d : Defs} (h : Holds m d) {x : Str} (hx : NameOk x) {v : List QTok} (hv : NoOwnHash v) : Holds (mapInsert x v m) (d.set x (some v)) where
  eq := by
    funext y
    rw [mapGet_insert']
    unfold Defs.set
    rw [← h.eq]
  good := by
    constructor
    · intro y w hw
      rw [mapGet_insert'] at hw
      by_cases e : y = x
      · rw [if_pos e] at hw; cases hw; exact hv
      · rw [if_neg e] at hw; exact h.good.values y w hw
    · intro y
      rw [mapGet_insert', if_neg (fun e => hx y e.symm)]
      exact h.good.noMacro y
  nodup := nodup_insert _ _ _ h.nodup

theorem holds_remove {m : QMap} {d : Defs} (h : Holds m d) (x : Str) : Holds (mapRemove x m) (d.set x none) where
  eq := by
    funext y
    rw [mapGet_remove x m h.nodup]
    unfold Defs.set
    rw [← h.eq]
    by_cases e : x = y
    · rw [if_pos e, if_pos e.symm]
    · rw [if_neg e, if_neg (fun e' => e e'.symm)]
  good := by
    constructor
    · intro y w hw
      rw [mapGet_remove x m h.nodup] at hw
      by_cases e : x = y
      · rw [if_pos e] at hw; cases hw
      · rw [if_neg e] at hw; exact h.good.values y w hw
    · intro y
      rw [mapGet_remove x m h.nodup]
      by_cases e : x = y ++ ['-']
      · rw [if_pos e]
      · rw [if_neg e]; exact h.good.noMacro y
  nodup := by
    rw [mapRemove_keys x m h.nodup]
    exact h.nodup.erase x

theorem block_run {m : QMap} {d : Defs} (h : Holds m d) {n : Nat} {tt : List MTok} (ht : BlockOk n tt) : translate n m (lexTTs tt) = .ok (blockText d tt) := by
  rw [lex_code.2, translate_subst h.good n _ ht.2 ht.1, h.eq]; rfl

/-- Outside of a loop. -/
abbrev outside (on inIf : Bool) (m : QMap) : ScopeSt := ⟨on, inIf, none, [], m, false⟩

section
variable {ev : Ev} {ex : Scope → List MTok → Option (List QTok)} {sc : Scope} {n N : Nat}

theorem simple_off (s : Simple) (inIf : Bool) (m : QMap) : runCmd ev ex (translate n) sc (outside false inIf m) (simpleCmd s) = some (outside false inIf m, []) := by
  cases s <;> simp [simpleCmd, runCmd, runBlock, QOut.get]

theorem simple_on (hex : ∀ body, allOk body → mtoksSize (renderAll body) < N → ex sc (renderAll body) = meansAll ev body sc) (s : Simple) (hs : s.Ok n ev sc)
    (hN : mtoksSize s.toks ≤ N) (inIf : Bool) {m : QMap} {d : Defs} (h : Holds m d) :
    match s.run ev sc d with
    | some (d', out) => ∃ m', runCmd ev ex (translate n) sc (outside true inIf m) (simpleCmd s) = some (outside true inIf m', out) ∧ Holds m' d'
    | none => runCmd ev ex (translate n) sc (outside true inIf m) (simpleCmd s) = none := by
  cases s with
  | text tt =>
    refine ⟨m, ?_, h⟩
    simp [simpleCmd, runCmd, runBlock, block_run h hs, QOut.get]
  | define x body =>
    have hb : ex sc (renderAll body) = meansAll ev body sc := by
      apply hex body hs.2.2.1
      simp only [Simple.toks, mtoksSize, MTok.size] at hN
      omega
    simp only [Simple.run]
    cases e : meansAll ev body sc with
    | none => simp [simpleCmd, runCmd, hb, e]
    | some v =>
      refine ⟨mapInsert x v m, ?_, holds_insert h hs.1 (hs.2.2.2 v e)⟩
      simp [simpleCmd, runCmd, hb, e]
  | flag x =>
    refine ⟨mapInsert x [] m, ?_, holds_insert h hs (by simp [NoOwnHash])⟩
    simp [simpleCmd, runCmd]
  | undef x =>
    refine ⟨mapRemove x m, ?_, holds_remove h x⟩
    simp [simpleCmd, runCmd]

theorem runCmds_cons (st : ScopeSt) (c : Cmd) (cs : List Cmd) (tr : QMap → List QTok → QOut) : runCmds ev ex tr sc st (c :: cs) =
    match runCmd ev ex tr sc st c with
    | some (st', out) => (runCmds ev ex tr sc st' cs).map (fun rest => out ++ rest)
    | none => none := rfl

theorem simples_off (inIf : Bool) (m : QMap) (rest : List Cmd) : ∀ l : List Simple,
    runCmds ev ex (translate n) sc (outside false inIf m) (l.map simpleCmd ++ rest) = runCmds ev ex (translate n) sc (outside false inIf m) rest
  | [] => rfl
  | s :: l => by
    rw [List.map_cons, List.cons_append, runCmds_cons, simple_off]
    simp [simples_off inIf m rest l]

theorem simples_on (hex : ∀ body, allOk body → mtoksSize (renderAll body) < N → ex sc (renderAll body) = meansAll ev body sc) (inIf : Bool) : ∀ (l : List Simple),
    (∀ s ∈ l, s.Ok n ev sc ∧ mtoksSize s.toks ≤ N) → ∀ {m : QMap} {d : Defs}, Holds m d →
    match runSimples ev sc d l with
    | some (d', out) => ∃ m', Holds m' d' ∧ ∀ rest, runCmds ev ex (translate n) sc (outside true inIf m) (l.map simpleCmd ++ rest) =
        (runCmds ev ex (translate n) sc (outside true inIf m') rest).map (fun r => out ++ r)
    | none => ∀ rest, runCmds ev ex (translate n) sc (outside true inIf m) (l.map simpleCmd ++ rest) = none
  | [], _, m, d, h => ⟨m, h, fun rest => by simp⟩
  | s :: l, hl, m, d, h => by
    have h1 := simple_on hex s (hl s (by simp)).1 (hl s (by simp)).2 inIf h
    simp only [runSimples]
    cases e : s.run ev sc d with
    | none =>
      rw [e] at h1
      intro rest
      rw [List.map_cons, List.cons_append, runCmds_cons, h1]
    | some r =>
      obtain ⟨d1, out1⟩ := r
      rw [e] at h1
      obtain ⟨m1, h2, h3⟩ := h1
      have ih := simples_on hex inIf l (fun x hx => hl x (by simp [hx])) h3
      simp only [Option.bind_some]
      cases e2 : runSimples ev sc d1 l with
      | none =>
        rw [e2] at ih
        intro rest
        rw [List.map_cons, List.cons_append, runCmds_cons, h2]
        dsimp only
        rw [ih rest]; rfl
      | some r =>
        obtain ⟨d2, out2⟩ := r
        rw [e2] at ih
        obtain ⟨m2, h4, h5⟩ := ih
        refine ⟨m2, h4, fun rest => ?_⟩
        rw [List.map_cons, List.cons_append, runCmds_cons, h2]
        dsimp only
        rw [h5 rest]
        cases runCmds ev ex (translate n) sc (outside true inIf m2) rest <;> simp

theorem cond_run (c : Cond) {m : QMap} {d : Defs} (h : Holds m d) : runCmd ev ex (translate n) sc (outside true false m) (condCmd c) =
    (c.holds ev sc d).map (fun b => (outside b true m, [])) := by
  cases c with
  | ifdef x => simp [condCmd, runCmd, Cond.holds, ← h.eq]
  | ifndef x =>
    simp only [condCmd, runCmd, Cond.holds, ← h.eq]
    cases mapGet x m <;> simp
  | test e =>
    simp only [condCmd, runCmd, Cond.holds]
    cases ev sc e with
    | none => simp
    | some v => cases v <;> simp

theorem collect_allSome : ∀ vs : List QVal, collectO (vs.map QVal.shown) = allSome QVal.shown vs
  | [] => rfl
  | v :: vs => by
    simp only [List.map_cons, allSome]
    cases v.shown with
    | none => rfl
    | some t => simp [collectO, collect_allSome vs]

theorem each_block {x : Str} (hx : NameOk x) {d : Defs} {tt : List MTok} (ht : BlockOk n tt) : ∀ (vs : List (List QTok)) (m0 : QMap), (∀ v ∈ vs, NoOwnHash v) →
    Holds m0 d ∨ Holds m0 (d.set x none) ∨ (∃ w, Holds m0 (d.set x (some w))) →
    eachTranslate (translate n) (lexTTs tt) x m0 vs = .ok (vs.flatMap (fun v => blockText (d.set x (some v)) tt))
  | [], _, _, _ => rfl
  | v :: vs, m0, hv, h => by
    have hset : ∀ w w', Defs.set (Defs.set d x w) x w' = d.set x w' := by
      intro w w'; funext y; unfold Defs.set; by_cases e : y = x <;> simp [e]
    have h1 : Holds (mapInsert x v m0) (d.set x (some v)) := by
      rcases h with h | h | ⟨w, h⟩
      · exact holds_insert h hx (hv v (by simp))
      · have := holds_insert h hx (hv v (by simp)); rwa [hset] at this
      · have := holds_insert h hx (hv v (by simp)); rwa [hset] at this
    rw [eachTranslate, block_run h1 ht]
    simp only [QOut.bind]
    rw [each_block hx ht vs _ (fun y hy => hv y (by simp [hy])) (Or.inr (Or.inr ⟨v, h1⟩))]
    simp

theorem each_blocks {x : Str} (hx : NameOk x) {m : QMap} {d : Defs} (h : Holds m d) {vs : List (List QTok)} (hv : ∀ v ∈ vs, NoOwnHash v) (rest : List Cmd) :
    ∀ texts : List (List MTok), (∀ tt ∈ texts, BlockOk n tt) →
    runCmds ev ex (translate n) sc ⟨true, false, some vs, x, m, false⟩ (texts.map Cmd.block ++ rest) =
      (runCmds ev ex (translate n) sc ⟨true, false, some vs, x, m, false⟩ rest).map (fun r => texts.flatMap (fun tt => vs.flatMap (fun v => blockText (d.set x (some v)) tt)) ++ r)
  | [], _ => by simp
  | tt :: texts, ht => by
    rw [List.map_cons, List.cons_append, runCmds_cons]
    have : runCmd ev ex (translate n) sc ⟨true, false, some vs, x, m, false⟩ (.block tt) =
        some (⟨true, false, some vs, x, m, false⟩, vs.flatMap (fun v => blockText (d.set x (some v)) tt)) := by
      simp only [runCmd, runBlock]
      rw [if_neg (by simp), if_pos trivial, each_block hx (ht tt (by simp)) vs _ hv (Or.inr (Or.inl (holds_remove h x)))]
      rfl
    rw [this]
    dsimp only
    rw [each_blocks hx h hv rest texts (fun y hy => ht y (by simp [hy]))]
    cases runCmds ev ex (translate n) sc ⟨true, false, some vs, x, m, false⟩ rest <;> simp

theorem stmt_run (hex : ∀ body, allOk body → mtoksSize (renderAll body) < N → ex sc (renderAll body) = meansAll ev body sc) (s : Stmt) (hs : s.Ok n ev sc)
    (hN : mtoksSize s.toks ≤ N) {m : QMap} {d : Defs} (h : Holds m d) :
    match s.run ev sc d with
    | some (d', out) => ∃ m', Holds m' d' ∧ ∀ rest, runCmds ev ex (translate n) sc (outside true false m) (stmtCmds s ++ rest) =
        (runCmds ev ex (translate n) sc (outside true false m') rest).map (fun r => out ++ r)
    | none => ∀ rest, runCmds ev ex (translate n) sc (outside true false m) (stmtCmds s ++ rest) = none := by
  have small : ∀ l : List Simple, mtoksSize (l.flatMap Simple.toks) ≤ N → ∀ s ∈ l, mtoksSize s.toks ≤ N := by
    intro l
    induction l with
    | nil => simp
    | cons a l ih =>
      intro hl s hs
      rw [List.flatMap_cons, mtoksSize_append] at hl
      rcases List.mem_cons.1 hs with rfl | hs
      · omega
      · exact ih (by omega) s hs
  have hendif : ∀ (b : Bool) (m' : QMap) (rest : List Cmd), runCmds ev ex (translate n) sc (outside b true m') (Cmd.endif :: rest) =
      runCmds ev ex (translate n) sc (outside true false m') rest := by
    intro b m' rest
    rw [runCmds_cons]
    simp [runCmd]
  cases s with
  | one s =>
    have h1 := simple_on hex s hs hN false h
    simp only [Stmt.run]
    cases e : s.run ev sc d with
    | none =>
      rw [e] at h1
      intro rest
      simp only [stmtCmds, List.cons_append, List.nil_append]
      rw [runCmds_cons, h1]
    | some r =>
      obtain ⟨d1, out1⟩ := r
      rw [e] at h1
      obtain ⟨m1, h2, h3⟩ := h1
      refine ⟨m1, h3, fun rest => ?_⟩
      simp only [stmtCmds, List.cons_append, List.nil_append]
      rw [runCmds_cons, h2]
  | cond c a b =>
    have ha : ∀ s ∈ a, s.Ok n ev sc ∧ mtoksSize s.toks ≤ N := by
      intro s hsa
      refine ⟨hs.1 s hsa, small a ?_ s hsa⟩
      simp only [Stmt.toks, mtoksSize_append] at hN
      omega
    have hb : ∀ s ∈ b.getD [], s.Ok n ev sc ∧ mtoksSize s.toks ≤ N := by
      intro s hsb
      refine ⟨hs.2 s hsb, small (b.getD []) ?_ s hsb⟩
      cases b with
      | none => cases hsb
      | some b => simp only [Stmt.toks, mtoksSize_append, Option.getD_some] at hN ⊢; omega
    simp only [Stmt.run]
    cases e : c.holds ev sc d with
    | none =>
      intro rest
      simp only [stmtCmds, List.cons_append]
      rw [runCmds_cons, cond_run c h, e]
      rfl
    | some t =>
      simp only [Option.bind_some]
      cases t with
      | true =>
        have h1 := simples_on hex true a ha h
        have hskip : ∀ (m' : QMap) (rest : List Cmd), runCmds ev ex (translate n) sc (outside true true m')
            (elseCmds b ++ (Cmd.endif :: rest)) = runCmds ev ex (translate n) sc (outside true false m') rest := by
          intro m' rest
          cases b with
          | none => exact hendif true m' rest
          | some b =>
            simp only [elseCmds, List.cons_append]
            rw [runCmds_cons]
            simp only [runCmd]
            simp [simples_off, hendif]
        rw [if_pos rfl]
        cases e2 : runSimples ev sc d a with
        | none =>
          rw [e2] at h1
          intro rest
          simp only [stmtCmds, List.cons_append, List.append_assoc]
          rw [runCmds_cons, cond_run c h, e]
          simp [h1]
        | some r =>
          obtain ⟨d1, out1⟩ := r
          rw [e2] at h1
          obtain ⟨m1, h2, h3⟩ := h1
          refine ⟨m1, h2, fun rest => ?_⟩
          simp only [stmtCmds, List.cons_append, List.append_assoc]
          rw [runCmds_cons, cond_run c h, e]
          simp [h3, hskip]
          rfl
      | false =>
        rw [if_neg (by simp)]
        cases b with
        | none =>
          refine ⟨m, h, fun rest => ?_⟩
          simp only [stmtCmds, List.cons_append, List.append_assoc]
          rw [runCmds_cons, cond_run c h, e]
          simp [simples_off, elseCmds, hendif]
        | some b =>
          have h1 := simples_on hex true b hb h
          simp only [Option.getD_some] at h1 ⊢
          have hflip : ∀ rest : List Cmd, runCmds ev ex (translate n) sc (outside false true m) (Cmd.else_ :: rest) = runCmds ev ex (translate n) sc (outside true true m) rest := by
            intro rest; rw [runCmds_cons]; simp [runCmd]
          cases e2 : runSimples ev sc d b with
          | none =>
            rw [e2] at h1
            intro rest
            simp only [stmtCmds, List.cons_append, List.append_assoc]
            rw [runCmds_cons, cond_run c h, e]
            simp [simples_off, elseCmds, hflip, h1]
          | some r =>
            obtain ⟨d1, out1⟩ := r
            rw [e2] at h1
            obtain ⟨m1, h2, h3⟩ := h1
            refine ⟨m1, h2, fun rest => ?_⟩
            simp only [stmtCmds, List.cons_append, List.append_assoc]
            rw [runCmds_cons, cond_run c h, e]
            simp [simples_off, elseCmds, hflip, h3, hendif]
            rfl
  | each e x texts =>
    simp only [Stmt.run]
    have hread : ((ev sc e).bind QVal.items).bind (fun vs => collectO (vs.map QVal.shown)) = ((ev sc e).bind QVal.items).bind (allSome QVal.shown) := by
      congr 1; funext vs; exact collect_allSome vs
    cases e2 : ((ev sc e).bind QVal.items).bind (allSome QVal.shown) with
    | none =>
      intro rest
      simp only [stmtCmds, List.cons_append]
      rw [runCmds_cons]
      simp only [runCmd, hread, e2]
      simp
    | some vs =>
      refine ⟨m, h, fun rest => ?_⟩
      simp only [stmtCmds, List.cons_append, List.append_assoc, List.nil_append]
      rw [runCmds_cons]
      simp only [runCmd, hread, e2]
      have := each_blocks (ev := ev) (ex := ex) (sc := sc) hs.1 h (hs.2.2 vs e2) (.endfor :: rest) texts hs.2.1
      simp only [Bool.false_eq_true, if_false, Option.isSome_none, List.nil_append, Option.map_id_fun', id_eq]
      rw [this, runCmds_cons]
      simp [runCmd]

theorem stmts_run (hex : ∀ body, allOk body → mtoksSize (renderAll body) < N → ex sc (renderAll body) = meansAll ev body sc) : ∀ (l : List Stmt),
    (∀ s ∈ l, s.Ok n ev sc) → mtoksSize (l.flatMap Stmt.toks) ≤ N → ∀ {m : QMap} {d : Defs}, Holds m d →
    runCmds ev ex (translate n) sc (outside true false m) (l.flatMap stmtCmds) = runStmts ev sc d l
  | [], _, _, _, _, _ => rfl
  | s :: l, hl, hN, m, d, h => by
    rw [List.flatMap_cons, mtoksSize_append] at hN
    have h1 := stmt_run hex s (hl s (by simp)) (by omega) h
    rw [List.flatMap_cons]
    simp only [runStmts]
    cases e : s.run ev sc d with
    | none => rw [e] at h1; exact h1 _
    | some r =>
      obtain ⟨d1, out1⟩ := r
      rw [e] at h1
      obtain ⟨m1, h2, h3⟩ := h1
      rw [h3, stmts_run hex l (fun x hx => hl x (by simp [hx])) (by omega) h2]
      rfl
end

end RJ
