import Verif.Proof.Scope
import Verif.Proof.QuoteDec
import Verif.Model.DeriveCode
/-
  C57: the `@scope` programs of `quote!`.
-/
namespace RJ
open Spec

theorem isBlock_simple (s : Simple) : (simpleCmd s).isBlock = s.isText := by cases s <;> rfl

theorem isBlock_simples (l : List Simple) : (l.map simpleCmd).any Cmd.isBlock = l.any Simple.isText := by
  induction l with
  | nil => rfl
  | cons s l ih => simp only [List.map_cons, List.any_cons, ih, isBlock_simple]

theorem isBlock_stmt (s : Stmt) : (stmtCmds s).any Cmd.isBlock = s.hasText := by
  cases s with
  | one s => simp [stmtCmds, Stmt.hasText, isBlock_simple]
  | cond c a b =>
    have hc : (condCmd c).isBlock = false := by cases c <;> rfl
    simp only [stmtCmds, Stmt.hasText, List.any_cons, List.any_append, hc, isBlock_simples, Bool.false_or]
    cases b with
    | none => simp [elseCmds, Cmd.isBlock]
    | some b => simp only [elseCmds, List.any_cons, isBlock_simples, List.any_nil, Cmd.isBlock, Option.getD_some, Bool.false_or, Bool.or_false]
  | each e x texts =>
    simp only [stmtCmds, Stmt.hasText, List.any_cons, List.any_append, Cmd.isBlock, Bool.false_or, List.any_nil, Bool.or_false]
    cases texts <;> simp [Cmd.isBlock]

theorem isBlock_stmts (l : List Stmt) : (l.flatMap stmtCmds).any Cmd.isBlock = l.any Stmt.hasText := by
  induction l with
  | nil => rfl
  | cons s l ih => simp only [List.flatMap_cons, List.any_append, List.any_cons, ih, isBlock_stmt]

/-- C57: a `@scope` program of definitions, conditions (`#ifdef`, `#ifndef`, `#if`, with or without `#else`), loops and text blocks emits what running it statement by
statement gives: definitions hold from where they are made until they are replaced or undefined, exactly one branch of a condition is run, a loop's texts are
emitted once per element with the loop variable defined as that element only there; it fails exactly if an expression that is reached does.
Conditions: no value contains a `#` of its own, no two `#` stand next to each other in a text. -/
theorem C57_scope (dep : Nat) (ev : Ev) (sc : Scope) (prog : List Stmt) (h : ∀ s ∈ prog, s.Ok dep ev sc) (ht : prog.any Stmt.hasText = true) :
    quoteMacro dep ev sc (.op ['@'] :: .ident "scope".toList :: .op [':'] :: prog.flatMap Stmt.toks) = runStmts ev sc (fun _ => none) prog := by
  have key : ∀ N, mtoksSize (prog.flatMap Stmt.toks) ≤ N → runCmds ev (expand dep ev (N + 1)) (translate dep) sc ScopeSt.init (prog.flatMap stmtCmds) =
      runStmts ev sc (fun _ => none) prog := by
    intro N hN
    refine stmts_run (N := N) ?_ prog h hN (m := []) (d := fun _ => none) ⟨rfl, ⟨?_, ?_⟩, List.nodup_nil⟩
    · intro body hb hsz
      exact renderAll_ok dep ev body hb _ sc (by omega)
    · intro x v hv; cases hv
    · intro x; rfl
  have hsz : mtoksSize [.op ['#'], .group .paren (.op ['@'] :: .ident "scope".toList :: .op [':'] :: prog.flatMap Stmt.toks)] = (mtoksSize (prog.flatMap Stmt.toks) + 4) + 1 := by
    simp only [mtoksSize, MTok.size]; omega
  rw [quoteMacro_scope]
  rw [hsz, expand]
  rw [if_pos rfl]
  simp only [pound, runModifier]
  rw [if_neg (by decide), if_pos trivial, stmts_read prog h]
  dsimp only
  rw [isBlock_stmts, if_pos ht, key _ (by omega), expand, catO_nil]

/-- Beside C57: a program with a definition, a condition with both branches, a loop and an undefinition. -/
def sampleScope : List Stmt :=
  [.one (.define "T".toList [.tok (.ident "u8".toList)]),
   .cond (.ifdef "T".toList) [.text (lexCode "let a: #T;")] (some [.text (lexCode "let b;")]),
   .each [.ident "xs".toList] "x".toList [lexCode "f(#x, #T);"],
   .one (.undef "T".toList),
   .cond (.test [.ident "debug".toList]) [.flag "D".toList] none,
   .cond (.ifndef "D".toList) [.text (lexCode "release(#T);")] none]

theorem nameOk_of {x : Str} (c : Char) (h : x.getLast? = some c) (hc : c ≠ '-') : NameOk x := by
  intro y e
  rw [e, List.getLast?_append, show ['-'].getLast?.or (List.getLast? y) = some '-' from rfl] at h
  exact hc (Option.some.inj h).symm

example : let sc : Scope := [("xs".toList, .list [.text [.lit ['1']], .text [.ident ['y']]]), ("debug".toList, .bool false)]
    (∀ s ∈ sampleScope, s.Ok 3 evalExpr sc) ∧ sampleScope.any Stmt.hasText = true ∧
    (.op ['@'] :: .ident "scope".toList :: .op [':'] :: sampleScope.flatMap Stmt.toks) =
      lexCode "@scope: #define(T, u8) #ifdef(T) {let a: #T;} #else {let b;} #endif #foreach(xs, x) {f(#x, #T);} #endfor #undef(T) #if(debug) #define(D) #endif #ifndef(D) {release(#T);} #endif" ∧
    quoteMacro 3 evalExpr sc (.op ['@'] :: .ident "scope".toList :: .op [':'] :: sampleScope.flatMap Stmt.toks) =
      some (codeAll (lexCode "let a: u8; f(1, u8); f(y, u8); release();")) := by
  have e1 : lexCode "let a: #T;" = [.ident "let".toList, .ident ['a'], .op [':'], .op ['#'], .ident ['T'], .op [';']] := by decide +kernel
  have e2 : lexCode "let b;" = [.ident "let".toList, .ident ['b'], .op [';']] := by decide +kernel
  have e3 : lexCode "f(#x, #T);" = [.ident ['f'], .group .paren [.op ['#'], .ident ['x'], .op [','], .op ['#'], .ident ['T']], .op [';']] := by decide +kernel
  have e4 : lexCode "release(#T);" = [.ident "release".toList, .group .paren [.op ['#'], .ident ['T']], .op [';']] := by decide +kernel
  have b1 : BlockOk 3 (lexCode "let a: #T;") := by
    rw [e1]; refine ⟨?_, by decide +kernel⟩; simp [codeAll, codeTok, NoDouble, NoDoubleIn, IsHash]
  have b2 : BlockOk 3 (lexCode "let b;") := by
    rw [e2]; refine ⟨?_, by decide +kernel⟩; simp [codeAll, codeTok, NoDouble, NoDoubleIn, IsHash]
  have b3 : BlockOk 3 (lexCode "f(#x, #T);") := by
    rw [e3]; refine ⟨?_, by decide +kernel⟩; simp [codeAll, codeTok, NoDouble, NoDoubleIn, IsHash]
  have b4 : BlockOk 3 (lexCode "release(#T);") := by
    rw [e4]; refine ⟨?_, by decide +kernel⟩; simp [codeAll, codeTok, NoDouble, NoDoubleIn, IsHash]
  refine ⟨?_, by rfl, by decide +kernel, by decide +kernel⟩
  intro s hs
  simp only [sampleScope, List.mem_cons, List.not_mem_nil, or_false] at hs
  rcases hs with rfl | rfl | rfl | rfl | rfl | rfl
  · refine ⟨nameOk_of 'T' rfl (by decide), by simp, by simp [allOk, Tmpl.Ok, PlainTok], ?_⟩
    intro v hv
    have hv : some [QTok.ident "u8".toList] = some v := hv
    cases hv
    intro t ht; simp only [List.mem_cons, List.not_mem_nil, or_false] at ht; subst ht; simp [IsHash]
  · refine ⟨?_, ?_⟩
    · intro s hs; simp only [List.mem_cons, List.not_mem_nil, or_false] at hs; subst hs; exact b1
    · intro s hs; simp only [Option.getD_some, List.mem_cons, List.not_mem_nil, or_false] at hs; subst hs; exact b2
  · refine ⟨nameOk_of 'x' rfl (by decide), ?_, ?_⟩
    · intro tt ht; simp only [List.mem_cons, List.not_mem_nil, or_false] at ht; subst ht; exact b3
    · intro vs hv
      have hv : some [[QTok.lit ['1']], [QTok.ident ['y']]] = some vs := hv
      cases hv
      intro v hv t ht
      simp only [List.mem_cons, List.not_mem_nil, or_false] at hv
      rcases hv with rfl | rfl <;> (simp only [List.mem_cons, List.not_mem_nil, or_false] at ht; subst ht; simp [IsHash])
  · trivial
  · refine ⟨?_, ?_⟩
    · intro s hs; simp only [List.mem_cons, List.not_mem_nil, or_false] at hs; subst hs; exact nameOk_of 'D' rfl (by decide)
    · intro s hs; cases hs
  · refine ⟨?_, ?_⟩
    · intro s hs; simp only [List.mem_cons, List.not_mem_nil, or_false] at hs; subst hs; exact b4
    · intro s hs; cases hs

/-- C57: `#elif` does not look at the branches before it, and the `#else` after it only at the last one: of
`#if(e1) {A} #elif(e2) {B} #else {C} #endif`, with `e1` true, `A` is emitted and then `B` or `C` as well. -/
theorem C57_elif (dep : Nat) (ev : Ev) (sc : Scope) (e1 e2 A B C : List MTok) (b1 b2 : Bool) (h1 : ev sc e1 = some (.bool b1)) (h2 : ev sc e2 = some (.bool b2))
    (hA : BlockOk dep A) (hB : BlockOk dep B) (hC : BlockOk dep C) :
    quoteMacro dep ev sc [.op ['@'], .ident "scope".toList, .op [':'], .op ['#'], .ident "if".toList, .group .paren e1, .group .brace A,
      .op ['#'], .ident "elif".toList, .group .paren e2, .group .brace B, .op ['#'], .ident "else".toList, .group .brace C, .op ['#'], .ident "endif".toList] =
    some ((if b1 then blockText (fun _ => none) A else []) ++ (if b2 then blockText (fun _ => none) B else blockText (fun _ => none) C)) := by
  have hg : Holds [] (fun _ => none) := ⟨rfl, ⟨fun _ _ hv => (by cases hv), fun _ => rfl⟩, List.nodup_nil⟩
  have tA := block_run hg hA
  have tB := block_run hg hB
  have tC := block_run hg hC
  have hc : cmdsOf [.op ['#'], .ident "if".toList, .group .paren e1, .group .brace A,
      .op ['#'], .ident "elif".toList, .group .paren e2, .group .brace B, .op ['#'], .ident "else".toList, .group .brace C, .op ['#'], .ident "endif".toList] =
      some [.if_ e1, .block A, .elif e2, .block B, .else_, .block C, .endif] := by
    simp [cmdsOf, cmdOf]
  have key : ∀ ex, runCmds ev ex (translate dep) sc ScopeSt.init [.if_ e1, .block A, .elif e2, .block B, .else_, .block C, .endif] =
      some ((if b1 then blockText (fun _ => none) A else []) ++ (if b2 then blockText (fun _ => none) B else blockText (fun _ => none) C)) := by
    intro ex
    cases b1 <;> cases b2 <;> simp [runCmds, runCmd, ScopeSt.init, runBlock, h1, h2, tA, tB, tC, QOut.get]
  rw [quoteMacro_scope]
  generalize hN : mtoksSize _ = N
  have hN' : ∃ M, N = M + 1 := by
    cases N with
    | zero => simp [mtoksSize, MTok.size] at hN
    | succ M => exact ⟨M, rfl⟩
  obtain ⟨M, rfl⟩ := hN'
  rw [expand, if_pos rfl]
  simp only [pound, runModifier]
  rw [if_neg (by decide), if_pos trivial, hc]
  dsimp only
  rw [if_pos (by rfl), key, expand, catO_nil]

/-- C57: a call of a macro with another number of arguments than it was defined with panics, whatever the macro is. -/
theorem C57_call_arity (n : Nat) (m : QMap) (name : Str) (names args rest : List QTok) (j : Bool) (h : mapGet (name ++ ['-']) m = some names)
    (hne : (qSplit names ",").length ≠ (qSplit args ",").length) :
    translate (n + 1) m (.punct '#' j :: .group .paren [.ident name, .group .paren args] :: rest) = .panic := by
  simp [translate, translatePass, afterPound, callMacro, h, hne, QOut.bind]

/-- Beside it: `#define(f(a, b), #a + #b)` called as `#(f(1))`. -/
example : mapGet ("f".toList ++ ['-']) [("f-".toList, [QTok.ident ['a'], QTok.punct ',' false, QTok.ident ['b']])] = some [.ident ['a'], .punct ',' false, .ident ['b']] ∧
    (qSplit [.ident ['a'], .punct ',' false, .ident ['b']] ",").length ≠ (qSplit [.lit ['1']] ",").length := by
  constructor <;> decide +kernel

/-- Beside it: a macro defined and called with the right number of arguments. -/
example : quoteMacro 4 evalExpr [] (lexCode "@scope: #define(add(a, b), #a + #b) {let x = #(add(1, y));}") = some (codeAll (lexCode "let x = 1 + y;")) := by
  decide +kernel

end RJ
