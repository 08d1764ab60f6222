import Verif.Proof.AssignRun
import Verif.Props.Misplaced
import Verif.Props.Macros
/-
  C96: `#execute` statements that assign to variables of the caller.
-/
namespace RJ
open Spec

theorem tail_runA (asn : Asn) (ev : Ev) (ended : Bool) (ex : Scope → List MTok → Option (List QTok)) (sc : Scope) (m : QMap) (tr : QMap → List QTok → QOut) :
    runCmdsA asn ev ex tr sc (outside true false m) (if ended then [Cmd.end_] else []) = some (sc, []) := by
  cases ended <;> simp [runCmdsA, runCmdA, runCmd]

theorem scope_runA (dep : Nat) (asn : Asn) (ev : Ev) (S : Scope → Prop) (sc : Scope) (hs : S sc) (prog : List Part) (ended : Bool) (h : ∀ p ∈ prog, p.OkA asn ev S) (ht : prog.any Part.hasText = true) :
    ∃ ex, ExOk ev ex (mtoksSize (progToks prog ended) + 1) ∧
    quoteScopeA dep asn ev sc (progToks prog ended) =
      runCmdsA asn ev ex (translate dep) sc (outside true false []) (prog.flatMap partCmds ++ if ended then [Cmd.end_] else []) := by
  refine ⟨expand dep ev (mtoksSize (progToks prog ended) + 5), ?_, ?_⟩
  · intro sc body hb hsz
    exact renderAll_ok dep ev body hb _ sc (by omega)
  · unfold quoteScopeA
    rw [prog_read prog (fun p hp => (h p hp).1 sc hs) ended]
    dsimp only
    rw [isBlock_prog, if_pos ht]
    rfl

/-- **C96.** A `@scope` program (of C73) whose `#execute` statements assign to variables of the caller: everything after such a statement — conditions, loops, definitions, included and
quoted streams, and the caller itself afterwards — sees the new values, a statement of a branch that is not taken assigns nothing, and in particular an `#elif` is decided by the values at that point.
The macro gives the stream `out` and leaves the variables `sc'` (whatever the bound on the nesting of its calls, if it is large enough) if and only if the program does so.
`S` are the values that the variables can take. -/
theorem C96_scope (asn : Asn) (ev : Ev) (S : Scope → Prop) (sc : Scope) (hs : S sc) (prog : List Part) (ended : Bool) (h : ∀ p ∈ prog, p.OkA asn ev S) (ht : prog.any Part.hasText = true)
    (sc' : Scope) (out : List QTok) :
    (PartsDoA asn ev prog (sc, Env.empty) sc' out → ∃ n0, ∀ dep, n0 ≤ dep → quoteScopeA dep asn ev sc (progToks prog ended) = some (sc', out)) ∧
    (∀ dep, quoteScopeA dep asn ev sc (progToks prog ended) = some (sc', out) → PartsDoA asn ev prog (sc, Env.empty) sc' out) := by
  have hle : mtoksSize (prog.flatMap Part.toks) ≤ mtoksSize (progToks prog ended) + 1 := by
    unfold progToks; rw [mtoksSize_append]; omega
  constructor
  · intro hd
    obtain ⟨n0, h1⟩ := parts_reachedA (fun ex sc m tr => tail_runA asn ev ended ex sc m tr) prog h hle hs keeps_empty hd
    refine ⟨n0, fun dep hdep => ?_⟩
    obtain ⟨ex, h2, h3⟩ := scope_runA dep asn ev S sc hs prog ended h ht
    rw [h3]
    exact h1 dep hdep ex h2
  · intro dep hq
    obtain ⟨ex, h2, h3⟩ := scope_runA dep asn ev S sc hs prog ended h ht
    rw [h3] at hq
    exact parts_soundA h2 (fun sc m tr => tail_runA asn ev ended ex sc m tr) prog h hle hs keeps_empty hq

/-- The commands without assignments. -/
theorem runCmds_plain (ev : Ev) (ex : Scope → List MTok → Option (List QTok)) (tr : QMap → List QTok → QOut) (sc : Scope) (cs : List Cmd) (st : ScopeSt) :
    runCmdsA (fun sc stmt => (ev sc stmt).map (fun _ => sc)) ev ex tr sc st cs = (runCmds ev ex tr sc st cs).map (fun o => (sc, o)) := by
  induction cs generalizing st with
  | nil => rfl
  | cons c cs ih =>
    have h1 : runCmdA (fun sc stmt => (ev sc stmt).map (fun _ => sc)) ev ex tr sc st c = (runCmd ev ex tr sc st c).map (fun r => (sc, r)) := by
      cases c with
      | execute stmt =>
        simp only [runCmdA, runCmd]
        by_cases h1 : st.ended = true
        · rw [if_pos h1, if_pos h1]; rfl
        rw [if_neg h1, if_neg h1]
        by_cases h2 : st.iter.isSome = true
        · rw [if_pos h2, if_pos h2]; rfl
        rw [if_neg h2, if_neg h2]
        by_cases h3 : st.on = true
        · rw [if_pos h3, if_pos h3]; cases ev sc stmt <;> rfl
        · rw [if_neg h3, if_neg h3]; rfl
      | _ => rfl
    rw [runCmdsA, runCmds, h1]
    cases e : runCmd ev ex tr sc st c with
    | none => rfl
    | some r =>
      obtain ⟨st', o⟩ := r
      dsimp only [Option.map_some]
      rw [ih]
      cases runCmds ev ex tr sc st' cs <;> rfl

/-- **C96, without assignments.** If the statements assign nothing this is the macro of C73. -/
theorem C96_plain (dep : Nat) (ev : Ev) (sc : Scope) (tt : List MTok) :
    (quoteScopeA dep (fun sc stmt => (ev sc stmt).map (fun _ => sc)) ev sc tt).map Prod.snd = quoteMacro dep ev sc (.op ['@'] :: .ident "scope".toList :: .op [':'] :: tt) := by
  have hsz : mtoksSize [.op ['#'], .group .paren (.op ['@'] :: .ident "scope".toList :: .op [':'] :: tt)] = (mtoksSize tt + 4) + 1 := by
    simp only [mtoksSize, MTok.size]; omega
  rw [quoteMacro_scope, hsz, expand, if_pos rfl]
  simp only [pound, runModifier]
  rw [if_neg (by decide), if_pos trivial]
  unfold quoteScopeA
  cases cmdsOf tt with
  | none => rfl
  | some cs =>
    dsimp only
    split
    · rw [runCmds_plain, expand, catO_nil]
      cases runCmds ev _ (translate dep) sc ScopeSt.init cs <;> rfl
    · rfl

/-- Whatever a command assigns, its state is that of a run without assignments. -/
theorem cmdA_state {asn : Asn} {ev : Ev} {ex : Scope → List MTok → Option (List QTok)} {tr : QMap → List QTok → QOut} {sc sc' : Scope} {st st' : ScopeSt} {c : Cmd} {out : List QTok}
    (h : runCmdA asn ev ex tr sc st c = some (sc', st', out)) : ∃ ev', runCmd ev' ex tr sc st c = some (st', out) := by
  by_cases hc : c.isExec = false
  · rw [runCmdA_other hc] at h
    refine ⟨ev, ?_⟩
    cases e : runCmd ev ex tr sc st c with
    | none => rw [e] at h; cases h
    | some r => rw [e] at h; cases h; rfl
  · cases c with
    | execute stmt =>
      refine ⟨fun _ _ => some (.bool true), ?_⟩
      simp only [runCmdA] at h
      simp only [runCmd]
      by_cases h1 : st.ended = true
      · rw [if_pos h1] at h; cases h
      rw [if_neg h1] at h ⊢
      by_cases h2 : st.iter.isSome = true
      · rw [if_pos h2] at h; cases h
      rw [if_neg h2] at h ⊢
      by_cases h3 : st.on = true
      · rw [if_pos h3] at h ⊢
        cases e : asn sc stmt with
        | none => rw [e] at h; cases h
        | some x => rw [e] at h; cases h; rfl
      · rw [if_neg h3] at h ⊢; cases h; rfl
    | _ => exact absurd rfl hc

theorem cmdsA_placed {asn : Asn} {ev : Ev} {ex : Scope → List MTok → Option (List QTok)} {tr : QMap → List QTok → QOut} : ∀ (cs : List Cmd) (p0 : List Word) (sc : Scope) (st : ScopeSt) (out : Scope × List QTok),
    Tells p0 st → runCmdsA asn ev ex tr sc st cs = some out → ∀ p w q, cs.map cmdWord = p ++ w :: q → MayFollow (p0 ++ p) w
  | [], _, _, _, _, _, _, p, w, q, e => by simp at e
  | c :: cs, p0, sc, st, out, ht, h, p, w, q, e => by
    rw [runCmdsA] at h
    cases h1 : runCmdA asn ev ex tr sc st c with
    | none => rw [h1] at h; cases h
    | some r =>
      obtain ⟨sc', st', o⟩ := r
      rw [h1] at h
      simp only [Option.map_eq_some_iff] at h
      obtain ⟨o', h2, _⟩ := h
      obtain ⟨ev', h1'⟩ := cmdA_state h1
      obtain ⟨h3, h4⟩ := cmd_placed ht h1'
      cases p with
      | nil => simp only [List.map_cons, List.nil_append, List.cons.injEq] at e; rw [← e.1, List.append_nil]; exact h3
      | cons x p =>
        simp only [List.map_cons, List.cons_append, List.cons.injEq] at e
        obtain ⟨rfl, e⟩ := e
        rcases h4 with h4 | h4
        · cases cs with
          | nil => simp at e
          | cons d cs =>
            rw [runCmdsA] at h2
            cases h5 : runCmdA asn ev ex tr sc' st' d with
            | none => rw [h5] at h2; cases h2
            | some r2 =>
              obtain ⟨ev2, h6⟩ := cmdA_state (sc' := r2.1) (st' := r2.2.1) (out := r2.2.2) h5
              rw [runCmd.eq_def, if_pos h4] at h6; cases h6
        · have := cmdsA_placed cs _ sc' st' o' h4 h2 p w q e
          simpa using this

/-- **C96, placement.** Assignments do not change where the pieces of a scope may stand (C74): in particular no `#execute` between `#foreach` and `#endfor`, or after `#end`. -/
theorem C96_placed (dep : Nat) (asn : Asn) (ev : Ev) (sc : Scope) (ts : List MTok) (out : Scope × List QTok) (h : quoteScopeA dep asn ev sc ts = some out) :
    ∃ ws, wordsOf ts = some ws ∧ .text ∈ ws ∧ WellPlaced ws := by
  unfold quoteScopeA at h
  cases h1 : cmdsOf ts with
  | none => rw [h1] at h; cases h
  | some cs =>
    rw [h1] at h
    dsimp only at h
    split at h
    · rename_i h2
      refine ⟨cs.map cmdWord, words_cmds ts cs h1, ?_, ?_⟩
      · obtain ⟨c, hc, hb⟩ := List.any_eq_true.1 h2
        refine List.mem_map.2 ⟨c, hc, ?_⟩
        cases c <;> first | rfl | cases hb
      · intro p w q e
        have := cmdsA_placed cs [] sc ScopeSt.init out tells_init h p w q e
        simpa using this
    · cases h

/-! ### A program that meets the conditions -/

/-- The statements `x = e`, for a variable `x` of the caller. -/
def assignExpr : Asn := fun sc stmt =>
  match stmt with
  | .ident x :: .op ['='] :: e => if sc.any (fun q => q.1 == x) then (evalExpr sc e).map (fun v => sc.map (fun q => if q.1 = x then (x, v) else q)) else none
  | _ => none

/-- The variables of the example. -/
def asnScope (b : Bool) : Scope := [("p".toList, .bool b), ("q".toList, .bool true)]

/-- Its program: a statement in a branch that is taken, and one in a branch that is not. -/
def asnProg : List Part :=
  [.cond (.test [.ident ['p']]) [.execute [.ident ['z'], .op ['='], .ident ['q']], .text (lexCode "a;")] [.else_ [.execute [.ident ['p'], .op ['='], .ident ['q']], .text (lexCode "b;")]],
   .cond (.test [.ident ['p']]) [.text (lexCode "c;")] [],
   .act (.define "T".toList [.var "p".toList]),
   .act (.text (lexCode "#T"))]

theorem asnProg_ok : ∀ p ∈ asnProg, p.OkA assignExpr evalExpr (fun sc => ∃ b, sc = asnScope b) := by
  intro p hp
  simp only [asnProg, List.mem_cons, List.not_mem_nil, or_false] at hp
  rcases hp with rfl | rfl | rfl | rfl
  · refine ⟨fun sc _ => ⟨trivial, ?_, ?_⟩, ?_⟩
    · intro a ha
      simp only [List.mem_cons, List.not_mem_nil, or_false] at ha
      rcases ha with rfl | rfl
      · trivial
      · exact tameB_ok (by decide +kernel)
    · intro b hb a ha
      simp only [List.mem_cons, List.not_mem_nil, or_false] at hb
      subst hb
      simp only [Branch.acts, List.mem_cons, List.not_mem_nil, or_false] at ha
      rcases ha with rfl | rfl
      · trivial
      · exact tameB_ok (by decide +kernel)
    · intro stmt hm sc sc' hs h
      obtain ⟨b, rfl⟩ := hs
      simp only [Part.allActs, Branch.acts, List.flatMap_cons, List.flatMap_nil, List.cons_append, List.nil_append, List.append_nil, List.mem_cons, Act.execute.injEq, List.not_mem_nil, or_false,
        reduceCtorEq, false_or] at hm
      rcases hm with rfl | rfl
      · cases b <;> exact (nomatch h)
      · have h' : some (asnScope true) = some sc' := by rw [← h]; cases b <;> rfl
        cases h'
        exact ⟨true, rfl⟩
  · refine ⟨fun sc _ => ⟨trivial, ?_, fun b hb => nomatch hb⟩, fun stmt hm => ?_⟩
    · intro a ha
      simp only [List.mem_cons, List.not_mem_nil, or_false] at ha
      subst ha
      exact tameB_ok (by decide +kernel)
    · simp [Part.allActs] at hm
  · refine ⟨fun sc hs => ?_, fun stmt hm => by simp [Part.allActs] at hm⟩
    obtain ⟨b, rfl⟩ := hs
    exact ⟨namedB_ok (by decide), by simp, by simp [allOk, Tmpl.Ok], all_ok (fun v => settledB_ok) (by cases b <;> decide +kernel)⟩
  · exact ⟨fun sc _ => tameB_ok (by decide +kernel), fun stmt hm => by simp [Part.allActs] at hm⟩

example : progToks asnProg false = lexCode "#if(p) #execute(z = q) {a;} #else #execute(p = q) {b;} #endif #if(p) {c;} #endif #define(T, #p) {#T}" := by decide +kernel

/-- What it emits. -/
def asnOut : List QTok := codeAll (lexCode "b; c; true")

/-- The assignment is seen by the second condition, by the definition, and by the caller. -/
example : ∃ sc', PartsDoA assignExpr evalExpr asnProg (asnScope false, Env.empty) sc' asnOut ∧
    sc'.map (fun q => (q.1, q.2.shown)) = [("p".toList, some [.ident "true".toList]), ("q".toList, some [.ident "true".toList])] := by
  have h : (quoteScopeA 2 assignExpr evalExpr (asnScope false) (progToks asnProg false)).map (fun r => r.2) = some asnOut := by decide +kernel
  have h' : (quoteScopeA 2 assignExpr evalExpr (asnScope false) (progToks asnProg false)).map (fun r => r.1.map (fun q => (q.1, q.2.shown))) =
      some [("p".toList, some [.ident "true".toList]), ("q".toList, some [.ident "true".toList])] := by decide +kernel
  have hC := fun sc' => (C96_scope assignExpr evalExpr (fun sc => ∃ b, sc = asnScope b) (asnScope false) ⟨false, rfl⟩ asnProg false asnProg_ok (by decide) sc' asnOut).2 2
  generalize quoteScopeA 2 assignExpr evalExpr (asnScope false) (progToks asnProg false) = r at h h' hC
  generalize asnOut = out at h hC ⊢
  cases r with
  | none => cases h
  | some r =>
    obtain ⟨sc', o⟩ := r
    simp only [Option.map_some, Option.some.injEq] at h h'
    subst h
    exact ⟨sc', hC sc' rfl, h'⟩

end RJ
