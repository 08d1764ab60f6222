import Verif.Props.Options
/-
  C75: concrete cases.
-/
namespace RJ
open Spec

/-- Beside C75: several options: `scope` comes last, so the text is a scope. -/
example : quoteMacro 3 evalExpr macroScope (lexCode "@options(literal, span(p), scope, span(q)): #define(T, u8) {#T #U}") = some (codeAll (lexCode "u8")) := by decide +kernel

/-- Beside C75: the conditions hold of those options. -/
example : (∀ o ∈ [QOpt.literal, .span [.ident ['p']], .scope, .span [.ident ['q']]], o.Ok evalExpr macroScope) ∧
    lastForm [QOpt.literal, .span [.ident ['p']], .scope, .span [.ident ['q']]] = some [.op ['@'], .ident "scope".toList, .op [':']] := by
  refine ⟨?_, rfl⟩
  intro o ho
  simp only [List.mem_cons, List.not_mem_nil, or_false] at ho
  rcases ho with rfl | rfl | rfl | rfl
  · trivial
  · exact ⟨by simp, .bool true, rfl⟩
  · trivial
  · exact ⟨by simp, .bool false, rfl⟩

/-- Beside C75: a template that begins with `@`. -/
example : quoteMacro 3 evalExpr macroScope (lexCode "@span(p): @scope: {#p}") = some (codeAll (lexCode "@scope: {true}")) := by decide +kernel

/-- Beside C75: a misspelt option. -/
example : quoteMacro 3 evalExpr macroScope (lexCode "@options(literal, scoped): a") = none := by decide +kernel

/-- Beside C75: what is no list of options is ordinary code. -/
example : quoteMacro 3 evalExpr macroScope (lexCode "@options(): a") = some (codeAll (lexCode "@options(): a")) := by decide +kernel

/-- Beside C75: `#quote` in a scope may be of any form: here a scope of its own, which knows nothing of `T`, whose result is then expanded. -/
example : quoteMacro 5 evalExpr macroScope (lexCode "@scope: #define(T, u8) {#T} #quote(@scope: #define(U, u16) {#T #U}) #quote(@literal: #T)") = some (codeAll (lexCode "u8 u16 u8")) := by decide +kernel

end RJ
