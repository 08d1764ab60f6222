import Verif.Proof.MacroScope
import Verif.Spec.Assign
/-
  Lemmas for C96: `#execute` with assignments.
-/
namespace RJ
open Spec

/-- Is it `#execute`? -/
def Cmd.isExec : Cmd → Bool
  | .execute _ => true
  | _ => false

section
variable {asn : Asn} {ev : Ev} {ex : Scope → List MTok → Option (List QTok)} {sc : Scope} {n N : Nat} {fin : Scope}

theorem runCmdA_other {tr : QMap → List QTok → QOut} {c : Cmd} (h : c.isExec = false) (st : ScopeSt) :
    runCmdA asn ev ex tr sc st c = (runCmd ev ex tr sc st c).map (fun r => (sc, r)) := by
  cases c <;> first | rfl | cases h

theorem runCmdsA_cons {tr : QMap → List QTok → QOut} {c : Cmd} (h : c.isExec = false) (st : ScopeSt) (cs : List Cmd) :
    runCmdsA asn ev ex tr sc st (c :: cs) =
      match runCmd ev ex tr sc st c with
      | some (st', out) => (runCmdsA asn ev ex tr sc st' cs).map (fun r => (r.1, out ++ r.2))
      | none => none := by
  rw [runCmdsA, runCmdA_other h]
  cases runCmd ev ex tr sc st c <;> rfl

theorem map_nil_out (o : Option (Scope × List QTok)) : o.map (fun r => (r.1, [] ++ r.2)) = o := by
  cases o <;> simp

theorem loop_offA (inIf : Bool) (vs : List (List QTok)) (x : Str) (m : QMap) (rest : List Cmd) : ∀ texts : List (List MTok),
    runCmdsA asn ev ex (translate n) sc (inside false inIf vs x m) (texts.map Cmd.block ++ (.endfor :: rest)) = runCmdsA asn ev ex (translate n) sc (outside false inIf m) rest
  | [] => by
    rw [List.map_nil, List.nil_append, runCmdsA_cons rfl]; simp [runCmd]
  | tt :: texts => by
    rw [List.map_cons, List.cons_append, runCmdsA_cons rfl]
    simp [runCmd, runBlock, QOut.get, loop_offA inIf vs x m rest texts]

theorem loop_soundA {x : Str} (hx : Named x) {e : Env} {m : QMap} (hm : Keeps m e) {vs : List (List QTok)} (hv : ∀ v ∈ vs, Settled v) (inIf : Bool) (rest : List Cmd) :
    ∀ (texts : List (List MTok)) (out : List QTok), (∀ tt ∈ texts, Tame (codeAll tt)) →
    runCmdsA asn ev ex (translate n) sc (inside true inIf vs x m) (texts.map Cmd.block ++ (.endfor :: rest)) = some (fin, out) →
    ∃ o1 o2, LoopText e x vs texts o1 ∧ runCmdsA asn ev ex (translate n) sc (outside true inIf m) rest = some (fin, o2) ∧ out = o1 ++ o2
  | [], out, _, h => by
    rw [List.map_nil, List.nil_append, runCmdsA_cons rfl] at h
    simp [runCmd] at h
    exact ⟨[], out, rfl, h, rfl⟩
  | tt :: texts, out, ht, h => by
    rw [List.map_cons, List.cons_append, runCmdsA_cons rfl, block_in] at h
    cases e1 : eachTranslate (translate n) (codeAll tt) x (mapRemove x m) vs with
    | panic => rw [e1] at h; cases h
    | more => rw [e1] at h; cases h
    | ok o1 =>
      rw [e1] at h
      simp only [QOut.get, Option.map_some] at h
      cases e2 : runCmdsA asn ev ex (translate n) sc (inside true inIf vs x m) (texts.map Cmd.block ++ (.endfor :: rest)) with
      | none => rw [e2] at h; cases h
      | some o' =>
        obtain ⟨f', o⟩ := o'
        rw [e2] at h
        simp only [Option.map_some, Option.some.injEq, Prod.mk.injEq] at h
        obtain ⟨hf, rfl⟩ := h
        rw [hf] at e2
        obtain ⟨o2, o3, h1, h2, rfl⟩ := loop_soundA hx hm hv inIf rest texts o (fun y hy => ht y (by simp [hy])) e2
        refine ⟨o1 ++ o2, o3, ⟨o1, o2, ?_, h1, rfl⟩, h2, by simp⟩
        exact each_sound hx (ht tt (by simp)) n vs _ none o1 hv (keeps_unset hm hx) e1

theorem loop_reachedA {x : Str} (hx : Named x) {e : Env} {m : QMap} (hm : Keeps m e) {vs : List (List QTok)} (hv : ∀ v ∈ vs, Settled v) (inIf : Bool) :
    ∀ (texts : List (List MTok)) (out : List QTok), (∀ tt ∈ texts, Tame (codeAll tt)) → LoopText e x vs texts out →
    ∃ n0, ∀ n, n0 ≤ n → ∀ ex rest, runCmdsA asn ev ex (translate n) sc (inside true inIf vs x m) (texts.map Cmd.block ++ (.endfor :: rest)) =
      (runCmdsA asn ev ex (translate n) sc (outside true inIf m) rest).map (fun r => (r.1, out ++ r.2))
  | [], out, _, h => ⟨0, fun n _ ex rest => by
      rw [show out = [] from h, List.map_nil, List.nil_append, runCmdsA_cons rfl]; simp [runCmd]⟩
  | tt :: texts, out, ht, h => by
    obtain ⟨o1, o2, h1, h2, rfl⟩ := h
    obtain ⟨n1, h3⟩ := each_reached hx (ht tt (by simp)) vs _ none o1 hv (keeps_unset hm hx) h1
    obtain ⟨n2, h4⟩ := loop_reachedA hx hm hv inIf texts o2 (fun y hy => ht y (by simp [hy])) h2
    refine ⟨max n1 n2, fun n hn ex rest => ?_⟩
    rw [List.map_cons, List.cons_append, runCmdsA_cons rfl, block_in, h3 n (by omega)]
    simp only [QOut.get, Option.map_some]
    rw [h4 n (by omega) ex rest]
    cases runCmdsA asn ev ex (translate n) sc (outside true inIf m) rest <;> simp

theorem act_offA (a : Act) (inIf : Bool) (m : QMap) (rest : List Cmd) :
    (a.Skips ev sc → runCmdsA asn ev ex (translate n) sc (outside false inIf m) (actCmds a ++ rest) = runCmdsA asn ev ex (translate n) sc (outside false inIf m) rest) ∧
    (¬ a.Skips ev sc → runCmdsA asn ev ex (translate n) sc (outside false inIf m) (actCmds a ++ rest) = none) := by
  cases a with
  | each c x texts =>
    simp only [actCmds, List.cons_append, List.append_assoc, List.nil_append]
    rw [runCmdsA_cons rfl, foreach_run]
    simp only [Act.Skips]
    cases e : elements ev sc c with
    | none => simp
    | some vs => simp [loop_offA]
  | times c texts =>
    simp only [actCmds, List.cons_append, List.append_assoc, List.nil_append]
    rw [runCmdsA_cons rfl, repeat_run]
    simp only [Act.Skips]
    cases e : rounds ev sc c with
    | none => simp
    | some vs => simp [loop_offA]
  | execute stmt =>
    refine ⟨fun _ => ?_, fun h => absurd trivial h⟩
    simp only [actCmds, List.cons_append, List.nil_append]
    rw [runCmdsA]
    simp [runCmdA]
  | _ =>
    refine ⟨fun _ => ?_, fun h => absurd trivial h⟩
    simp only [actCmds, List.cons_append, List.nil_append]
    rw [runCmdsA_cons rfl]
    simp [runCmd, runBlock, QOut.get]

theorem acts_offA (inIf : Bool) (m : QMap) (rest : List Cmd) : ∀ l : List Act,
    ((∀ a ∈ l, a.Skips ev sc) → runCmdsA asn ev ex (translate n) sc (outside false inIf m) (l.flatMap actCmds ++ rest) = runCmdsA asn ev ex (translate n) sc (outside false inIf m) rest) ∧
    ((¬ ∀ a ∈ l, a.Skips ev sc) → runCmdsA asn ev ex (translate n) sc (outside false inIf m) (l.flatMap actCmds ++ rest) = none)
  | [] => ⟨fun _ => rfl, fun h => absurd (by simp) h⟩
  | a :: l => by
    obtain ⟨h1, h2⟩ := acts_offA inIf m rest l
    obtain ⟨h3, h4⟩ := act_offA (asn := asn) (ev := ev) (ex := ex) (sc := sc) (n := n) a inIf m (l.flatMap actCmds ++ rest)
    rw [List.flatMap_cons, List.append_assoc]
    constructor
    · intro h
      rw [h3 (h a (by simp)), h1 (fun x hx => h x (by simp [hx]))]
    · intro h
      by_cases ha : a.Skips ev sc
      · rw [h3 ha, h2]
        intro h'; exact h (by intro x hx; rcases List.mem_cons.1 hx with rfl | hx; exact ha; exact h' x hx)
      · exact h4 ha


/-- A command that does not start a loop. -/
theorem one_soundA {c : Cmd} {rest : List Cmd} {st : ScopeSt} {out : List QTok} {tr : QMap → List QTok → QOut} (hc : c.isExec = false) (h : runCmdsA asn ev ex tr sc st ([c] ++ rest) = some (fin, out)) :
    ∃ st' o1 o2, runCmd ev ex tr sc st c = some (st', o1) ∧ runCmdsA asn ev ex tr sc st' rest = some (fin, o2) ∧ out = o1 ++ o2 := by
  rw [List.cons_append, List.nil_append, runCmdsA_cons hc] at h
  cases e : runCmd ev ex tr sc st c with
  | none => rw [e] at h; cases h
  | some r =>
    obtain ⟨st', o1⟩ := r
    rw [e] at h
    dsimp only at h
    cases e2 : runCmdsA asn ev ex tr sc st' rest with
    | none => rw [e2] at h; cases h
    | some o2 => rw [e2] at h; obtain ⟨f, o⟩ := o2; cases h; exact ⟨st', o1, o, rfl, e2, rfl⟩

theorem one_runA {c : Cmd} {st st' : ScopeSt} {o1 : List QTok} {tr : QMap → List QTok → QOut} (hc : c.isExec = false) (h : runCmd ev ex tr sc st c = some (st', o1)) (rest : List Cmd) :
    runCmdsA asn ev ex tr sc st ([c] ++ rest) = (runCmdsA asn ev ex tr sc st' rest).map (fun r => (r.1, o1 ++ r.2)) := by
  rw [List.cons_append, List.nil_append, runCmdsA_cons hc, h]

theorem act_soundA (hex : ExOk ev ex N) (a : Act) (hne : ∀ stmt, a ≠ .execute stmt) (ha : a.Ok ev sc) (hN : mtoksSize a.toks ≤ N) (inIf : Bool) {m : QMap} {e : Env} (hm : Keeps m e) {rest : List Cmd} {out : List QTok}
    (h : runCmdsA asn ev ex (translate n) sc (outside true inIf m) (actCmds a ++ rest) = some (fin, out)) :
    ∃ e' m' o1 o2, a.Does ev sc e e' o1 ∧ Keeps m' e' ∧ runCmdsA asn ev ex (translate n) sc (outside true inIf m') rest = some (fin, o2) ∧ out = o1 ++ o2 := by
  cases a with
  | each c x texts =>
    simp only [actCmds, List.cons_append, List.append_assoc, List.nil_append] at h
    rw [runCmdsA_cons rfl, foreach_run] at h
    cases e1 : elements ev sc c with
    | none => rw [e1] at h; cases h
    | some vs =>
      rw [e1] at h
      simp only [Option.map_some, List.nil_append, Option.map_id_fun', id_eq] at h
      obtain ⟨o1, o2, h1, h2, h3⟩ := loop_soundA ha.1 hm (ha.2.2 vs e1) inIf rest texts out ha.2.1 h
      exact ⟨e, m, o1, o2, ⟨vs, e1, rfl, h1⟩, hm, h2, h3⟩
  | times c texts =>
    simp only [actCmds, List.cons_append, List.append_assoc, List.nil_append] at h
    rw [runCmdsA_cons rfl, repeat_run] at h
    cases e1 : rounds ev sc c with
    | none => rw [e1] at h; cases h
    | some k =>
      rw [e1] at h
      simp only [Option.map_some, List.nil_append, Option.map_id_fun', id_eq] at h
      obtain ⟨o1, o2, h1, h2, h3⟩ := loop_soundA (x := "_".toList) ⟨by decide, by decide⟩ hm
        (fun v hv => by rw [(List.mem_replicate.1 hv).2]; trivial) inIf rest texts out ha.2 h
      exact ⟨e, m, o1, o2, ⟨k, e1, rfl, h1⟩, hm, h2, h3⟩
  | text tt =>
    obtain ⟨st', o1, o2, h1, h2, h3⟩ := one_soundA rfl h
    simp only [runCmd, runBlock, lex_code.2, Bool.false_eq_true, if_false, if_true, Option.map_eq_some_iff, Prod.mk.injEq] at h1
    obtain ⟨o, h1, rfl, rfl⟩ := h1
    exact ⟨e, m, o, o2, ⟨rfl, expand_sound n m e _ _ hm ha (get_some h1)⟩, hm, h2, h3⟩
  | define x body =>
    obtain ⟨st', o1, o2, h1, h2, h3⟩ := one_soundA rfl h
    have hb : ex sc (renderAll body) = meansAll ev body sc := hex sc body ha.2.2.1 (by simp only [Act.toks, mtoksSize, MTok.size] at hN; omega)
    simp only [runCmd, hb, Bool.false_eq_true, if_false, if_true, Option.isSome_none, Option.map_eq_some_iff, Prod.mk.injEq] at h1
    obtain ⟨v, hv, rfl, rfl⟩ := h1
    exact ⟨_, _, [], o2, ⟨v, hv, rfl, rfl⟩, keeps_set hm ha.1 (ha.2.2.2 v hv), h2, h3⟩
  | macro_ f ps body =>
    obtain ⟨st', o1, o2, h1, h2, h3⟩ := one_soundA rfl h
    have hb : ex (paramScope ps sc) (renderAll body) = meansAll ev body (paramScope ps sc) :=
      hex _ body ha.2.2.1 (by simp only [Act.toks, mtoksSize, MTok.size] at hN; omega)
    unfold paramScope at hb
    simp only [runCmd, hb, Bool.false_eq_true, if_false, if_true, Option.isSome_none, Option.map_eq_some_iff, Prod.mk.injEq] at h1
    obtain ⟨v, hv, rfl, rfl⟩ := h1
    exact ⟨_, _, [], o2, ⟨v, hv, rfl, rfl⟩, keeps_mac hm f ha.1 (ha.2.2.2 v hv), h2, h3⟩
  | flag x =>
    obtain ⟨st', o1, o2, h1, h2, h3⟩ := one_soundA rfl h
    simp only [runCmd, Bool.false_eq_true, if_false, if_true, Option.isSome_none, Option.some.injEq, Prod.mk.injEq] at h1
    obtain ⟨rfl, rfl⟩ := h1
    exact ⟨_, _, [], o2, ⟨rfl, rfl⟩, keeps_set hm ha trivial, h2, h3⟩
  | undef x =>
    obtain ⟨st', o1, o2, h1, h2, h3⟩ := one_soundA rfl h
    simp only [runCmd, Bool.false_eq_true, if_false, if_true, Option.isSome_none, Option.some.injEq, Prod.mk.injEq] at h1
    obtain ⟨rfl, rfl⟩ := h1
    exact ⟨_, _, [], o2, ⟨rfl, rfl⟩, keeps_unset hm ha, h2, h3⟩
  | include_ c =>
    obtain ⟨st', o1, o2, h1, h2, h3⟩ := one_soundA rfl h
    simp only [runCmd, Bool.false_eq_true, if_false, if_true, Option.isSome_none] at h1
    split at h1
    · rename_i ts hts
      simp only [Option.map_eq_some_iff, Prod.mk.injEq] at h1
      obtain ⟨o, h1, rfl, rfl⟩ := h1
      exact ⟨e, m, o, o2, ⟨ts, hts, rfl, expand_sound n m e _ _ hm (ha ts hts) (get_some h1)⟩, hm, h2, h3⟩
    · cases h1
  | quote_ body =>
    obtain ⟨st', o1, o2, h1, h2, h3⟩ := one_soundA rfl h
    have hb : ex sc (renderAll body) = meansAll ev body sc := hex sc body ha.1 (by simp only [Act.toks, mtoksSize, MTok.size] at hN; omega)
    simp only [runCmd, whole_plain ev sc _ ha.2.1, Option.bind_some, hb, Bool.false_eq_true, if_false, if_true, Option.isSome_none, Option.map_eq_some_iff, Option.bind_eq_some_iff, Prod.mk.injEq] at h1
    obtain ⟨o, ⟨ts, hts, h1⟩, rfl, rfl⟩ := h1
    exact ⟨e, m, o, o2, ⟨ts, hts, rfl, expand_sound n m e _ _ hm (ha.2.2 ts hts) (get_some h1)⟩, hm, h2, h3⟩
  | execute stmt => exact absurd rfl (hne stmt)

theorem act_reachedA (a : Act) (hne : ∀ stmt, a ≠ .execute stmt) (ha : a.Ok ev sc) (hN : mtoksSize a.toks ≤ N) (inIf : Bool) {m : QMap} {e e' : Env} (hm : Keeps m e) {o1 : List QTok} (h : a.Does ev sc e e' o1) :
    ∃ m' n0, Keeps m' e' ∧ ∀ n, n0 ≤ n → ∀ ex, ExOk ev ex N → ∀ rest, runCmdsA asn ev ex (translate n) sc (outside true inIf m) (actCmds a ++ rest) =
      (runCmdsA asn ev ex (translate n) sc (outside true inIf m') rest).map (fun r => (r.1, o1 ++ r.2)) := by
  cases a with
  | each c x texts =>
    obtain ⟨vs, h1, rfl, h2⟩ := h
    obtain ⟨n0, h3⟩ := loop_reachedA (asn := asn) (ev := ev) (sc := sc) ha.1 hm (ha.2.2 vs h1) inIf texts o1 ha.2.1 h2
    refine ⟨m, n0, hm, fun n hn ex _ rest => ?_⟩
    simp only [actCmds, List.cons_append, List.append_assoc, List.nil_append]
    rw [runCmdsA_cons rfl, foreach_run, h1]
    simp only [Option.map_some, List.nil_append, Option.map_id_fun', id_eq]
    exact h3 n hn ex rest
  | times c texts =>
    obtain ⟨k, h1, rfl, h2⟩ := h
    obtain ⟨n0, h3⟩ := loop_reachedA (asn := asn) (ev := ev) (sc := sc) (x := "_".toList) ⟨by decide, by decide⟩ hm
      (fun v hv => by rw [(List.mem_replicate.1 hv).2]; trivial) inIf texts o1 ha.2 h2
    refine ⟨m, n0, hm, fun n hn ex _ rest => ?_⟩
    simp only [actCmds, List.cons_append, List.append_assoc, List.nil_append]
    rw [runCmdsA_cons rfl, repeat_run, h1]
    simp only [Option.map_some, List.nil_append, Option.map_id_fun', id_eq]
    exact h3 n hn ex rest
  | text tt =>
    obtain ⟨rfl, h1⟩ := h
    obtain ⟨n0, h2⟩ := (expand_iff hm ha o1).1 h1
    refine ⟨m, n0, hm, fun n hn ex _ rest => one_runA rfl ?_ rest⟩
    simp [runCmd, runBlock, lex_code.2, h2 n hn, QOut.get]
  | define x body =>
    obtain ⟨v, hv, rfl, rfl⟩ := h
    refine ⟨mapInsert x v m, 0, keeps_set hm ha.1 (ha.2.2.2 v hv), fun n _ ex hex rest => one_runA rfl ?_ rest⟩
    have hb : ex sc (renderAll body) = meansAll ev body sc := hex sc body ha.2.2.1 (by simp only [Act.toks, mtoksSize, MTok.size] at hN; omega)
    simp [runCmd, hb, hv]
  | macro_ f ps body =>
    obtain ⟨v, hv, rfl, rfl⟩ := h
    refine ⟨_, 0, keeps_mac hm f ha.1 (ha.2.2.2 v hv), fun n _ ex hex rest => one_runA rfl ?_ rest⟩
    have hb : ex (paramScope ps sc) (renderAll body) = meansAll ev body (paramScope ps sc) :=
      hex _ body ha.2.2.1 (by simp only [Act.toks, mtoksSize, MTok.size] at hN; omega)
    unfold paramScope at hb hv
    simp only [runCmd, hb, hv, Bool.false_eq_true, if_false, if_true, Option.isSome_none, Option.map_some]
    rfl
  | flag x =>
    obtain ⟨rfl, rfl⟩ := h
    refine ⟨mapInsert x [] m, 0, keeps_set hm ha trivial, fun n _ ex hex rest => one_runA rfl ?_ rest⟩
    simp [runCmd]
  | undef x =>
    obtain ⟨rfl, rfl⟩ := h
    refine ⟨mapRemove x m, 0, keeps_unset hm ha, fun n _ ex hex rest => one_runA rfl ?_ rest⟩
    simp [runCmd]
  | include_ c =>
    obtain ⟨ts, h0, rfl, h1⟩ := h
    obtain ⟨n0, h2⟩ := (expand_iff hm (ha ts h0) o1).1 h1
    refine ⟨m, n0, hm, fun n hn ex _ rest => one_runA rfl ?_ rest⟩
    simp [runCmd, h0, h2 n hn, QOut.get]
  | quote_ body =>
    obtain ⟨ts, h0, rfl, h1⟩ := h
    obtain ⟨n0, h2⟩ := (expand_iff hm (ha.2.2 ts h0) o1).1 h1
    refine ⟨m, n0, hm, fun n hn ex hex rest => one_runA rfl ?_ rest⟩
    have hb : ex sc (renderAll body) = meansAll ev body sc := hex sc body ha.1 (by simp only [Act.toks, mtoksSize, MTok.size] at hN; omega)
    simp [runCmd, whole_plain ev sc _ ha.2.1, hb, h0, h2 n hn, QOut.get]
  | execute stmt => exact absurd rfl (hne stmt)

end

section
variable {asn : Asn} {ev : Ev} {ex : Scope → List MTok → Option (List QTok)} {n N : Nat} {fin : Scope} {S : Scope → Prop}

theorem doesA_other {a : Act} (hne : ∀ stmt, a ≠ .execute stmt) (s s' : Scope × Env) (out : List QTok) :
    a.DoesA asn ev s s' out ↔ a.Does ev s.1 s.2 s'.2 out ∧ s'.1 = s.1 := by
  cases a <;> first | exact Iff.rfl | exact absurd rfl (hne _)

/-- A statement, for all values of the variables. -/
def ActOkA (asn : Asn) (ev : Ev) (S : Scope → Prop) (N : Nat) (a : Act) : Prop :=
  (∀ sc, S sc → a.Ok ev sc) ∧ mtoksSize a.toks ≤ N ∧ ∀ stmt, a = .execute stmt → ∀ sc sc', S sc → asn sc stmt = some sc' → S sc'

theorem step_sound (hex : ExOk ev ex N) (a : Act) (ha : ActOkA asn ev S N a) (inIf : Bool) {sc : Scope} (hs : S sc) {m : QMap} {e : Env} (hm : Keeps m e) {rest : List Cmd} {out : List QTok}
    (h : runCmdsA asn ev ex (translate n) sc (outside true inIf m) (actCmds a ++ rest) = some (fin, out)) :
    ∃ s' m' o1 o2, a.DoesA asn ev (sc, e) s' o1 ∧ S s'.1 ∧ Keeps m' s'.2 ∧ runCmdsA asn ev ex (translate n) s'.1 (outside true inIf m') rest = some (fin, o2) ∧ out = o1 ++ o2 := by
  by_cases hx : ∃ stmt, a = .execute stmt
  · obtain ⟨stmt, rfl⟩ := hx
    rw [actCmds, List.cons_append, List.nil_append, runCmdsA, runCmdA] at h
    simp only [Bool.false_eq_true, if_false, if_true, Option.isSome_none] at h
    cases e1 : asn sc stmt with
    | none => rw [e1] at h; cases h
    | some sc' =>
      rw [e1] at h
      dsimp only [Option.map_some] at h
      rw [map_nil_out] at h
      exact ⟨(sc', e), m, [], out, ⟨e1, rfl, rfl⟩, ha.2.2 stmt rfl sc sc' hs e1, hm, h, rfl⟩
  · have hne : ∀ stmt, a ≠ .execute stmt := fun stmt h => hx ⟨stmt, h⟩
    obtain ⟨e', m', o1, o2, h1, h2, h3, h4⟩ := act_soundA hex a hne (ha.1 sc hs) ha.2.1 inIf hm h
    exact ⟨(sc, e'), m', o1, o2, (doesA_other hne _ _ _).2 ⟨h1, rfl⟩, hs, h2, h3, h4⟩

theorem step_reached (a : Act) (ha : ActOkA asn ev S N a) (inIf : Bool) {s s' : Scope × Env} (hs : S s.1) {m : QMap} (hm : Keeps m s.2) {o1 : List QTok} (h : a.DoesA asn ev s s' o1) :
    ∃ m' n0, S s'.1 ∧ Keeps m' s'.2 ∧ ∀ n, n0 ≤ n → ∀ ex, ExOk ev ex N → ∀ rest, runCmdsA asn ev ex (translate n) s.1 (outside true inIf m) (actCmds a ++ rest) =
      (runCmdsA asn ev ex (translate n) s'.1 (outside true inIf m') rest).map (fun r => (r.1, o1 ++ r.2)) := by
  obtain ⟨sc, e⟩ := s
  obtain ⟨sc', e'⟩ := s'
  dsimp only at hs hm ⊢
  by_cases hx : ∃ stmt, a = .execute stmt
  · obtain ⟨stmt, rfl⟩ := hx
    obtain ⟨h1, h2, rfl⟩ := h
    dsimp only at h1 h2
    subst h2
    refine ⟨m, 0, ha.2.2 stmt rfl sc sc' hs h1, hm, fun n _ ex _ rest => ?_⟩
    rw [actCmds, List.cons_append, List.nil_append, runCmdsA, runCmdA]
    simp [h1]
  · have hne : ∀ stmt, a ≠ .execute stmt := fun stmt h => hx ⟨stmt, h⟩
    obtain ⟨h1, h2⟩ := (doesA_other hne _ _ _).1 h
    dsimp only at h1 h2
    subst h2
    obtain ⟨m', n0, h3, h4⟩ := act_reachedA (asn := asn) a hne (ha.1 sc' hs) ha.2.1 inIf hm h1
    exact ⟨m', n0, hs, h3, h4⟩

theorem acts_soundA (hex : ExOk ev ex N) (inIf : Bool) (rest : List Cmd) : ∀ (l : List Act), (∀ a ∈ l, ActOkA asn ev S N a) → ∀ {sc : Scope} {m : QMap} {e : Env}, S sc → Keeps m e → ∀ {out : List QTok},
    runCmdsA asn ev ex (translate n) sc (outside true inIf m) (l.flatMap actCmds ++ rest) = some (fin, out) →
    ∃ s' m' o1 o2, ActsDoA asn ev l (sc, e) s' o1 ∧ S s'.1 ∧ Keeps m' s'.2 ∧ runCmdsA asn ev ex (translate n) s'.1 (outside true inIf m') rest = some (fin, o2) ∧ out = o1 ++ o2
  | [], _, sc, m, e, hs, hm, out, h => ⟨(sc, e), m, [], out, ⟨rfl, rfl⟩, hs, hm, h, rfl⟩
  | a :: l, hl, sc, m, e, hs, hm, out, h => by
    rw [List.flatMap_cons, List.append_assoc] at h
    obtain ⟨s1, m1, o1, o2, h1, hs1, h2, h3, rfl⟩ := step_sound hex a (hl a (by simp)) inIf hs hm h
    obtain ⟨s2, m2, o3, o4, h4, hs2, h5, h6, rfl⟩ := acts_soundA hex inIf rest l (fun x hx => hl x (by simp [hx])) hs1 h2 h3
    exact ⟨s2, m2, o1 ++ o3, o4, ⟨s1, o1, o3, h1, h4, rfl⟩, hs2, h5, h6, by simp⟩

theorem acts_reachedA (inIf : Bool) : ∀ (l : List Act), (∀ a ∈ l, ActOkA asn ev S N a) → ∀ {s s' : Scope × Env} {m : QMap}, S s.1 → Keeps m s.2 → ∀ {o1 : List QTok}, ActsDoA asn ev l s s' o1 →
    ∃ m' n0, S s'.1 ∧ Keeps m' s'.2 ∧ ∀ n, n0 ≤ n → ∀ ex, ExOk ev ex N → ∀ rest, runCmdsA asn ev ex (translate n) s.1 (outside true inIf m) (l.flatMap actCmds ++ rest) =
      (runCmdsA asn ev ex (translate n) s'.1 (outside true inIf m') rest).map (fun r => (r.1, o1 ++ r.2))
  | [], _, s, s', m, hs, hm, o1, h => by
    obtain ⟨rfl, rfl⟩ := h
    exact ⟨m, 0, hs, hm, fun n _ ex _ rest => by simp⟩
  | a :: l, hl, s, s', m, hs, hm, o1, h => by
    obtain ⟨s1, oa, ob, h1, h2, rfl⟩ := h
    obtain ⟨m1, n1, hs1, h3, h4⟩ := step_reached a (hl a (by simp)) inIf hs hm h1
    obtain ⟨m2, n2, hs2, h5, h6⟩ := acts_reachedA inIf l (fun x hx => hl x (by simp [hx])) hs1 h3 h2
    refine ⟨m2, max n1 n2, hs2, h5, fun n hn ex hex rest => ?_⟩
    rw [List.flatMap_cons, List.append_assoc, h4 n (by omega) ex hex, h6 n (by omega) ex hex]
    cases runCmdsA asn ev ex (translate n) s'.1 (outside true inIf m2) rest <;> simp

theorem branch_soundA (hex : ExOk ev ex N) (on : Bool) (rest : List Cmd) {l : List Act} (hl : ∀ a ∈ l, ActOkA asn ev S N a) {sc : Scope} {m : QMap} {e : Env} (hs : S sc) (hm : Keeps m e) {out : List QTok}
    (h : runCmdsA asn ev ex (translate n) sc (outside on true m) (l.flatMap actCmds ++ rest) = some (fin, out)) :
    ∃ s' m' o1 o2, BranchDoA asn ev on l (sc, e) s' o1 ∧ S s'.1 ∧ Keeps m' s'.2 ∧ runCmdsA asn ev ex (translate n) s'.1 (outside on true m') rest = some (fin, o2) ∧ out = o1 ++ o2 := by
  cases on with
  | true => exact acts_soundA hex true rest l hl hs hm h
  | false =>
    obtain ⟨h1, h2⟩ := acts_offA (asn := asn) (ev := ev) (ex := ex) (sc := sc) (n := n) true m rest l
    by_cases hk : ∀ a ∈ l, a.Skips ev sc
    · rw [h1 hk] at h
      exact ⟨(sc, e), m, [], out, ⟨hk, rfl, rfl⟩, hs, hm, h, rfl⟩
    · rw [h2 hk] at h; cases h

theorem branch_reachedA (on : Bool) {l : List Act} (hl : ∀ a ∈ l, ActOkA asn ev S N a) {s s' : Scope × Env} {m : QMap} (hs : S s.1) (hm : Keeps m s.2) {o1 : List QTok} (h : BranchDoA asn ev on l s s' o1) :
    ∃ m' n0, S s'.1 ∧ Keeps m' s'.2 ∧ ∀ n, n0 ≤ n → ∀ ex, ExOk ev ex N → ∀ rest, runCmdsA asn ev ex (translate n) s.1 (outside on true m) (l.flatMap actCmds ++ rest) =
      (runCmdsA asn ev ex (translate n) s'.1 (outside on true m') rest).map (fun r => (r.1, o1 ++ r.2)) := by
  cases on with
  | true => exact acts_reachedA true l hl hs hm h
  | false =>
    obtain ⟨hk, rfl, rfl⟩ := h
    exact ⟨m, 0, hs, hm, fun n _ ex _ rest => by rw [(acts_offA true m rest l).1 hk]; simp⟩

theorem branches_soundA (hex : ExOk ev ex N) (rest : List Cmd) : ∀ (bs : List Branch), (∀ b ∈ bs, ∀ a ∈ b.acts, ActOkA asn ev S N a) → ∀ (on : Bool) {sc : Scope} {m : QMap} {e : Env}, S sc → Keeps m e → ∀ {out : List QTok},
    runCmdsA asn ev ex (translate n) sc (outside on true m) (bs.flatMap branchCmds ++ (.endif :: rest)) = some (fin, out) →
    ∃ s' m' o1 o2, BranchesDoA asn ev on bs (sc, e) s' o1 ∧ S s'.1 ∧ Keeps m' s'.2 ∧ runCmdsA asn ev ex (translate n) s'.1 (outside true false m') rest = some (fin, o2) ∧ out = o1 ++ o2
  | [], _, on, sc, m, e, hs, hm, out, h => by
    obtain ⟨st', o1, o2, h1, h2, h3⟩ := one_soundA (c := .endif) rfl h
    rw [endif_run] at h1
    cases h1
    exact ⟨(sc, e), m, [], o2, ⟨rfl, rfl⟩, hs, hm, h2, h3⟩
  | .elif c l :: bs, hb, on, sc, m, e, hs, hm, out, h => by
    rw [List.flatMap_cons, List.append_assoc] at h
    obtain ⟨st', o0, o, h1, h2, rfl⟩ := one_soundA (c := .elif c) (rest := l.flatMap actCmds ++ _) rfl h
    rw [elif_run] at h1
    split at h1
    · rename_i b hc
      cases h1
      obtain ⟨s1, m1, o1, o2, h3, hs1, h4, h5, rfl⟩ := branch_soundA hex b _ (hb (.elif c l) (by simp)) hs hm h2
      obtain ⟨s2, m2, o3, o4, h6, hs2, h7, h8, rfl⟩ := branches_soundA hex rest bs (fun x hx => hb x (by simp [hx])) b hs1 h4 h5
      exact ⟨s2, m2, o1 ++ o3, o4, ⟨b, s1, o1, o3, hc, h3, h6, rfl⟩, hs2, h7, h8, by simp⟩
    · cases h1
  | .else_ l :: bs, hb, on, sc, m, e, hs, hm, out, h => by
    rw [List.flatMap_cons, List.append_assoc] at h
    obtain ⟨st', o0, o, h1, h2, rfl⟩ := one_soundA (c := .else_) (rest := l.flatMap actCmds ++ _) rfl h
    rw [else_run] at h1
    cases h1
    obtain ⟨s1, m1, o1, o2, h3, hs1, h4, h5, rfl⟩ := branch_soundA hex (!on) _ (hb (.else_ l) (by simp)) hs hm h2
    obtain ⟨s2, m2, o3, o4, h6, hs2, h7, h8, rfl⟩ := branches_soundA hex rest bs (fun x hx => hb x (by simp [hx])) (!on) hs1 h4 h5
    exact ⟨s2, m2, o1 ++ o3, o4, ⟨s1, o1, o3, h3, h6, rfl⟩, hs2, h7, h8, by simp⟩

theorem branches_reachedA : ∀ (bs : List Branch), (∀ b ∈ bs, ∀ a ∈ b.acts, ActOkA asn ev S N a) → ∀ (on : Bool) {s s' : Scope × Env} {m : QMap}, S s.1 → Keeps m s.2 → ∀ {o1 : List QTok}, BranchesDoA asn ev on bs s s' o1 →
    ∃ m' n0, S s'.1 ∧ Keeps m' s'.2 ∧ ∀ n, n0 ≤ n → ∀ ex, ExOk ev ex N → ∀ rest, runCmdsA asn ev ex (translate n) s.1 (outside on true m) (bs.flatMap branchCmds ++ (.endif :: rest)) =
      (runCmdsA asn ev ex (translate n) s'.1 (outside true false m') rest).map (fun r => (r.1, o1 ++ r.2))
  | [], _, on, s, s', m, hs, hm, o1, h => by
    obtain ⟨rfl, rfl⟩ := h
    exact ⟨m, 0, hs, hm, fun n _ ex _ rest => one_runA (c := .endif) rfl (endif_run on m) rest⟩
  | .elif c l :: bs, hb, on, s, s', m, hs, hm, o1, h => by
    obtain ⟨b, s1, oa, ob, hc, h1, h2, rfl⟩ := h
    obtain ⟨m1, n1, hs1, h3, h4⟩ := branch_reachedA (l := l) b (hb (.elif c l) (by simp)) hs hm h1
    obtain ⟨m2, n2, hs2, h5, h6⟩ := branches_reachedA bs (fun x hx => hb x (by simp [hx])) b hs1 h3 h2
    refine ⟨m2, max n1 n2, hs2, h5, fun n hn ex hex rest => ?_⟩
    rw [List.flatMap_cons, List.append_assoc]
    have := one_runA (asn := asn) (ev := ev) (ex := ex) (sc := s.1) (tr := translate n) (c := .elif c) (st := outside on true m) (st' := outside b true m) (o1 := []) rfl (by rw [elif_run, hc])
      (l.flatMap actCmds ++ (bs.flatMap branchCmds ++ (.endif :: rest)))
    rw [show branchCmds (.elif c l) ++ (bs.flatMap branchCmds ++ (.endif :: rest)) = [.elif c] ++ (l.flatMap actCmds ++ (bs.flatMap branchCmds ++ (.endif :: rest))) from rfl]
    rw [this, h4 n (by omega) ex hex, h6 n (by omega) ex hex]
    cases runCmdsA asn ev ex (translate n) s'.1 (outside true false m2) rest <;> simp
  | .else_ l :: bs, hb, on, s, s', m, hs, hm, o1, h => by
    obtain ⟨s1, oa, ob, h1, h2, rfl⟩ := h
    obtain ⟨m1, n1, hs1, h3, h4⟩ := branch_reachedA (l := l) (!on) (hb (.else_ l) (by simp)) hs hm h1
    obtain ⟨m2, n2, hs2, h5, h6⟩ := branches_reachedA bs (fun x hx => hb x (by simp [hx])) (!on) hs1 h3 h2
    refine ⟨m2, max n1 n2, hs2, h5, fun n hn ex hex rest => ?_⟩
    rw [List.flatMap_cons, List.append_assoc]
    have := one_runA (asn := asn) (ev := ev) (ex := ex) (sc := s.1) (tr := translate n) (c := .else_) (st := outside on true m) (st' := outside (!on) true m) (o1 := []) rfl (else_run on m)
      (l.flatMap actCmds ++ (bs.flatMap branchCmds ++ (.endif :: rest)))
    rw [show branchCmds (.else_ l) ++ (bs.flatMap branchCmds ++ (.endif :: rest)) = [.else_] ++ (l.flatMap actCmds ++ (bs.flatMap branchCmds ++ (.endif :: rest))) from rfl]
    rw [this, h4 n (by omega) ex hex, h6 n (by omega) ex hex]
    cases runCmdsA asn ev ex (translate n) s'.1 (outside true false m2) rest <;> simp

theorem condCmd_notExec (c : Cond) : (condCmd c).isExec = false := by cases c <;> rfl

theorem size_mem {l : List Act} {a : Act} (h : a ∈ l) : mtoksSize a.toks ≤ mtoksSize (l.flatMap Act.toks) := by
  induction l with
  | nil => cases h
  | cons b l ih =>
    rw [List.flatMap_cons, mtoksSize_append]
    rcases List.mem_cons.1 h with rfl | h
    · omega
    · have := ih h; omega

theorem size_branch {bs : List Branch} {b : Branch} (h : b ∈ bs) : mtoksSize b.toks ≤ mtoksSize (bs.flatMap Branch.toks) := by
  induction bs with
  | nil => cases h
  | cons d bs ih =>
    rw [List.flatMap_cons, mtoksSize_append]
    rcases List.mem_cons.1 h with rfl | h
    · omega
    · have := ih h; omega

theorem part_acts {p : Part} (hp : p.OkA asn ev S) (hN : mtoksSize p.toks ≤ N) : ∀ a ∈ p.allActs, ActOkA asn ev S N a := by
  intro a ha
  refine ⟨fun sc hs => ?_, ?_, fun stmt h => hp.2 stmt (h ▸ ha)⟩
  · have := hp.1 sc hs
    cases p with
    | act b => rw [Part.allActs, List.mem_singleton] at ha; subst ha; exact this
    | cond c l bs =>
      rcases List.mem_append.1 ha with ha | ha
      · exact this.2.1 a ha
      · obtain ⟨b, hb, ha⟩ := List.mem_flatMap.1 ha
        exact this.2.2 b hb a ha
  · cases p with
    | act b => rw [Part.allActs, List.mem_singleton] at ha; subst ha; exact hN
    | cond c l bs =>
      simp only [Part.toks, mtoksSize_append] at hN
      rcases List.mem_append.1 ha with ha | ha
      · have := size_mem ha; omega
      · obtain ⟨b, hb, ha⟩ := List.mem_flatMap.1 ha
        have h1 := size_branch hb
        have h2 := size_mem ha
        cases b <;> simp only [Branch.toks, mtoksSize_append, Branch.acts] at h1 h2 <;> omega

theorem part_soundA (hex : ExOk ev ex N) (p : Part) (hp : p.OkA asn ev S) (hN : mtoksSize p.toks ≤ N) {sc : Scope} {m : QMap} {e : Env} (hs : S sc) (hm : Keeps m e) {rest : List Cmd} {out : List QTok}
    (h : runCmdsA asn ev ex (translate n) sc (outside true false m) (partCmds p ++ rest) = some (fin, out)) :
    ∃ s' m' o1 o2, p.DoesA asn ev (sc, e) s' o1 ∧ S s'.1 ∧ Keeps m' s'.2 ∧ runCmdsA asn ev ex (translate n) s'.1 (outside true false m') rest = some (fin, o2) ∧ out = o1 ++ o2 := by
  have ha := part_acts hp hN
  cases p with
  | act a => exact step_sound hex a (ha a (by simp [Part.allActs])) false hs hm h
  | cond c l bs =>
    simp only [partCmds, List.cons_append, List.append_assoc, List.nil_append] at h
    obtain ⟨st', o0, o, h1, h2, rfl⟩ := one_soundA (c := condCmd c) (condCmd_notExec c) h
    rw [if_run c (hp.1 sc hs).1 hm] at h1
    simp only [Option.map_eq_some_iff, Prod.mk.injEq] at h1
    obtain ⟨b, hb, rfl, rfl⟩ := h1
    obtain ⟨s1, m1, o1, o2, h3, hs1, h4, h5, rfl⟩ := branch_soundA hex b _ (fun a h => ha a (List.mem_append_left _ h)) hs hm h2
    obtain ⟨s2, m2, o3, o4, h6, hs2, h7, h8, rfl⟩ := branches_soundA hex rest bs (fun b hb a h => ha a (List.mem_append_right _ (List.mem_flatMap.2 ⟨b, hb, h⟩))) b hs1 h4 h5
    exact ⟨s2, m2, o1 ++ o3, o4, ⟨b, s1, o1, o3, hb, h3, h6, rfl⟩, hs2, h7, h8, by simp⟩

theorem part_reachedA (p : Part) (hp : p.OkA asn ev S) (hN : mtoksSize p.toks ≤ N) {s s' : Scope × Env} {m : QMap} (hs : S s.1) (hm : Keeps m s.2) {o1 : List QTok} (h : p.DoesA asn ev s s' o1) :
    ∃ m' n0, S s'.1 ∧ Keeps m' s'.2 ∧ ∀ n, n0 ≤ n → ∀ ex, ExOk ev ex N → ∀ rest, runCmdsA asn ev ex (translate n) s.1 (outside true false m) (partCmds p ++ rest) =
      (runCmdsA asn ev ex (translate n) s'.1 (outside true false m') rest).map (fun r => (r.1, o1 ++ r.2)) := by
  have ha := part_acts hp hN
  cases p with
  | act a => exact step_reached a (ha a (by simp [Part.allActs])) false hs hm h
  | cond c l bs =>
    obtain ⟨b, s1, oa, ob, hc, h1, h2, rfl⟩ := h
    obtain ⟨m1, n1, hs1, h3, h4⟩ := branch_reachedA b (fun a h => ha a (List.mem_append_left _ h)) hs hm h1
    obtain ⟨m2, n2, hs2, h5, h6⟩ := branches_reachedA bs (fun b hb a h => ha a (List.mem_append_right _ (List.mem_flatMap.2 ⟨b, hb, h⟩))) b hs1 h3 h2
    refine ⟨m2, max n1 n2, hs2, h5, fun n hn ex hex rest => ?_⟩
    have := one_runA (asn := asn) (ev := ev) (ex := ex) (sc := s.1) (tr := translate n) (c := condCmd c) (st := outside true false m) (st' := outside b true m) (o1 := []) (condCmd_notExec c)
      (by rw [if_run c (hp.1 s.1 hs).1 hm, hc]; rfl)
      (l.flatMap actCmds ++ (bs.flatMap branchCmds ++ (.endif :: rest)))
    simp only [partCmds, List.cons_append, List.append_assoc, List.nil_append]
    rw [List.cons_append, List.nil_append] at this
    rw [this, h4 n (by omega) ex hex, h6 n (by omega) ex hex]
    cases runCmdsA asn ev ex (translate n) s'.1 (outside true false m2) rest <;> simp

theorem parts_soundA (hex : ExOk ev ex N) {tail : List Cmd} (htail : ∀ sc m tr, runCmdsA asn ev ex tr sc (outside true false m) tail = some (sc, [])) : ∀ (l : List Part), (∀ p ∈ l, p.OkA asn ev S) →
    mtoksSize (l.flatMap Part.toks) ≤ N → ∀ {sc : Scope} {m : QMap} {e : Env}, S sc → Keeps m e → ∀ {out : List QTok},
    runCmdsA asn ev ex (translate n) sc (outside true false m) (l.flatMap partCmds ++ tail) = some (fin, out) → PartsDoA asn ev l (sc, e) fin out
  | [], _, _, sc, m, e, _, _, out, h => by
    rw [List.flatMap_nil, List.nil_append, htail] at h; cases h; exact ⟨rfl, rfl⟩
  | p :: l, hl, hN, sc, m, e, hs, hm, out, h => by
    rw [List.flatMap_cons, mtoksSize_append] at hN
    rw [List.flatMap_cons, List.append_assoc] at h
    obtain ⟨s1, m1, o1, o2, h1, hs1, h2, h3, rfl⟩ := part_soundA hex p (hl p (by simp)) (by omega) hs hm h
    exact ⟨s1, o1, o2, h1, parts_soundA hex htail l (fun x hx => hl x (by simp [hx])) (by omega) hs1 h2 h3, rfl⟩

theorem parts_reachedA {tail : List Cmd} (htail : ∀ ex sc m tr, runCmdsA asn ev ex tr sc (outside true false m) tail = some (sc, [])) : ∀ (l : List Part), (∀ p ∈ l, p.OkA asn ev S) →
    mtoksSize (l.flatMap Part.toks) ≤ N → ∀ {s : Scope × Env} {m : QMap}, S s.1 → Keeps m s.2 → ∀ {out : List QTok}, PartsDoA asn ev l s fin out →
    ∃ n0, ∀ n, n0 ≤ n → ∀ ex, ExOk ev ex N → runCmdsA asn ev ex (translate n) s.1 (outside true false m) (l.flatMap partCmds ++ tail) = some (fin, out)
  | [], _, _, s, m, _, _, out, h => ⟨0, fun n _ ex _ => by rw [h.1, h.2]; exact htail _ _ _ _⟩
  | p :: l, hl, hN, s, m, hs, hm, out, h => by
    rw [List.flatMap_cons, mtoksSize_append] at hN
    obtain ⟨s1, o1, o2, h1, h2, rfl⟩ := h
    obtain ⟨m1, n1, hs1, h3, h4⟩ := part_reachedA p (hl p (by simp)) (N := N) (by omega) hs hm h1
    obtain ⟨n2, h5⟩ := parts_reachedA htail l (fun x hx => hl x (by simp [hx])) (by omega) hs1 h3 h2
    refine ⟨max n1 n2, fun n hn ex hex => ?_⟩
    rw [List.flatMap_cons, List.append_assoc, h4 n (by omega) ex hex, h5 n (by omega) ex hex]; rfl
end

end RJ
