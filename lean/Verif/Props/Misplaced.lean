import Verif.Proof.PlacedRun
import Verif.Props.Macros
/-
  C74: commands of `@scope` out of place.
-/
namespace RJ
open Spec

/-- The scope of `quote!(@scope: ..)` that gives a result consists of text and commands. -/
theorem scope_runs {dep : Nat} {ev : Ev} {sc : Scope} {ts : List MTok} {out : List QTok}
    (h : quoteMacro dep ev sc (.op ['@'] :: .ident "scope".toList :: .op [':'] :: ts) = some out) :
    ∃ cs ex o, cmdsOf ts = some cs ∧ cs.any Cmd.isBlock = true ∧ runCmds ev ex (translate dep) sc ScopeSt.init cs = some o := by
  rw [quoteMacro_scope] at h
  have hsz : mtoksSize [.op ['#'], .group .paren (.op ['@'] :: .ident "scope".toList :: .op [':'] :: ts)] + 1 = (mtoksSize ts + 4) + 1 + 1 := by
    simp only [mtoksSize, MTok.size]; omega
  rw [hsz, expand, if_pos rfl] at h
  simp only [pound, runModifier] at h
  rw [if_neg (by decide), if_pos trivial] at h
  cases e : cmdsOf ts with
  | none => rw [e] at h; cases h
  | some cs =>
    rw [e] at h
    dsimp only at h
    by_cases hb : cs.any Cmd.isBlock = true
    · rw [if_pos hb] at h
      cases e2 : runCmds ev (expand dep ev (mtoksSize ts + 4 + 1)) (translate dep) sc ScopeSt.init cs with
      | none => rw [e2] at h; cases h
      | some o => exact ⟨cs, _, o, rfl, hb, e2⟩
    · rw [if_neg hb] at h; cases h

/-- C74: `quote!(@scope: ts)` gives a result only if `ts` consists of text blocks and commands, among them a text block, and each stands where it may: nothing after `#end`;
`#elif`, `#else` and `#endif` after an `#if` that no `#endif` has closed; `#endfor` after a `#foreach` and text; and no other command between `#foreach` and `#endfor`. -/
theorem C74_placed (dep : Nat) (ev : Ev) (sc : Scope) (ts : List MTok) (out : List QTok)
    (h : quoteMacro dep ev sc (.op ['@'] :: .ident "scope".toList :: .op [':'] :: ts) = some out) : ∃ ws, wordsOf ts = some ws ∧ .text ∈ ws ∧ WellPlaced ws := by
  obtain ⟨cs, ex, o, h1, h2, h3⟩ := scope_runs h
  refine ⟨cs.map cmdWord, words_cmds ts cs h1, ?_, ?_⟩
  · obtain ⟨c, hc, hb⟩ := List.any_eq_true.1 h2
    refine List.mem_map.2 ⟨c, hc, ?_⟩
    cases c <;> first | rfl | cases hb
  · intro p w q e
    have := cmds_placed cs [] ScopeSt.init o tells_init h3 p w q e
    simpa using this

/-- C74: and these are all the conditions on where the pieces stand: a scope of texts without `#` and of commands with a name, a condition, a statement that runs or something to iterate over gives a
result if and only if every piece stands where it may. -/
theorem C74_exact (ev : Ev) (sc : Scope) (ts : List MTok) (h : GoodPieces ev sc ts) :
    ((∃ n0, ∀ dep, n0 ≤ dep → ∃ out, quoteMacro dep ev sc (.op ['@'] :: .ident "scope".toList :: .op [':'] :: ts) = some out) ↔
      ∃ ws, wordsOf ts = some ws ∧ .text ∈ ws ∧ WellPlaced ws) := by
  constructor
  · rintro ⟨n0, h1⟩
    obtain ⟨out, h2⟩ := h1 n0 (Nat.le_refl _)
    exact C74_placed n0 ev sc ts out h2
  · rintro ⟨ws, h1, h2, h3⟩
    have hk : ∀ w ∈ ws, w.Known := by
      intro w hw
      obtain ⟨p, q, rfl⟩ := List.append_of_mem hw
      exact (h3 p w q rfl).known
    obtain ⟨cs, n0, h4, rfl, h5⟩ := pieces_good ts h ws h1 hk
    refine ⟨n0, fun dep hd => ?_⟩
    have hb : cs.any Cmd.isBlock = true := by
      obtain ⟨c, hc, e⟩ := List.mem_map.1 h2
      refine List.any_eq_true.2 ⟨c, hc, ?_⟩
      cases c <;> first | rfl | cases e
    have hsz : mtoksSize [.op ['#'], .group .paren (.op ['@'] :: .ident "scope".toList :: .op [':'] :: ts)] + 1 = (mtoksSize ts + 4) + 1 + 1 := by
      simp only [mtoksSize, MTok.size]; omega
    obtain ⟨out, h6⟩ := cmds_run (ev := ev) (ex := expand dep ev (mtoksSize ts + 4 + 1)) (sc := sc) (n := dep) cs [] ScopeSt.init shows_init (fun c hc => (h5 c hc).mono hd) h3
    refine ⟨out, ?_⟩
    rw [quoteMacro_scope]
    rw [hsz, expand, if_pos rfl]
    simp only [pound, runModifier]
    rw [if_neg (by decide), if_pos trivial, h4]
    dsimp only
    rw [if_pos hb, h6, expand, catO_nil]

/-! ### Examples -/

/-- Beside C74: the program of C73 gives a result, so its pieces are well placed. -/
example : ∃ ws, wordsOf (progToks macroProg true) = some ws ∧ .text ∈ ws ∧ WellPlaced ws :=
  C74_placed 8 evalExpr macroScope _ macroOut (by decide +kernel)

/-- Beside C74: conditions do not nest: an `#if` inside an `#if` leaves the second `#endif` without a partner, so the macro fails, whatever the conditions. -/
example (dep : Nat) (ev : Ev) (sc : Scope) (c d : List MTok) :
    quoteMacro dep ev sc (.op ['@'] :: .ident "scope".toList :: .op [':'] :: (.op ['#'] :: .ident "if".toList :: .group .paren c :: .op ['#'] :: .ident "if".toList :: .group .paren d ::
      .group .brace [] :: (lexCode "#endif #endif"))) = none := by
  have e : lexCode "#endif #endif" = [.op ['#'], .ident "endif".toList, .op ['#'], .ident "endif".toList] := by decide +kernel
  cases h : quoteMacro dep ev sc _ with
  | none => rfl
  | some out =>
    obtain ⟨ws, h1, _, h2⟩ := C74_placed _ _ _ _ _ h
    rw [e] at h1
    simp only [wordsOf, Option.map_some, Option.some.injEq] at h1
    subst h1
    obtain ⟨a, o, b, h3, h4, h5⟩ := (h2 [.called "if".toList, .called "if".toList, .text, .plain "endif".toList] (.plain "endif".toList) [] rfl).opened (.inr rfl)
    rcases snoc_split (α := Word) (p := [.called "if".toList, .called "if".toList, .text]) (w := .plain "endif".toList) h3 with ⟨_, rfl, _⟩ | ⟨b', rfl, _⟩
    · exact h4.elim
    · exact absurd h5 (by simp)

/-- Beside C74: a command between `#foreach` and `#endfor`, the same. -/
example (dep : Nat) (ev : Ev) (sc : Scope) (c d : List MTok) (rest : List MTok) :
    quoteMacro dep ev sc (.op ['@'] :: .ident "scope".toList :: .op [':'] :: (.op ['#'] :: .ident "foreach".toList :: .group .paren c :: .group .brace [] ::
      .op ['#'] :: .ident "include".toList :: .group .paren d :: rest)) = none := by
  cases h : quoteMacro dep ev sc _ with
  | none => rfl
  | some out =>
    obtain ⟨ws, h1, _, h2⟩ := C74_placed _ _ _ _ _ h
    simp only [wordsOf, Option.map_map] at h1
    obtain ⟨l, _, rfl⟩ := Option.map_eq_some_iff.1 h1
    have := (h2 [.called "foreach".toList, .text] (.called "include".toList) l rfl).within [] [.text] rfl (by simp)
    simp at this

/-- Beside C74: pieces that meet the condition, well placed: an `#if` that is never closed, a loop closed by `#end`. -/
example : ∃ n0, ∀ dep, n0 ≤ dep → ∃ out, quoteMacro dep evalExpr macroScope (lexCode "@scope: #if(p) {a} #ifdef(T) #else {b} #foreach(xs, x) {c} #end") = some out := by
  have e : lexCode "@scope: #if(p) {a} #ifdef(T) #else {b} #foreach(xs, x) {c} #end" =
      .op ['@'] :: .ident "scope".toList :: .op [':'] :: lexCode "#if(p) {a} #ifdef(T) #else {b} #foreach(xs, x) {c} #end" := by decide +kernel
  have e2 : lexCode "#if(p) {a} #ifdef(T) #else {b} #foreach(xs, x) {c} #end" =
      [.op ['#'], .ident "if".toList, .group .paren [.ident ['p']], .group .brace [.ident ['a']], .op ['#'], .ident "ifdef".toList, .group .paren [.ident ['T']], .op ['#'], .ident "else".toList,
       .group .brace [.ident ['b']], .op ['#'], .ident "foreach".toList, .group .paren [.ident "xs".toList, .op [','], .ident ['x']], .group .brace [.ident ['c']], .op ['#'], .ident "end".toList] := by decide +kernel
  rw [e, e2]
  refine (C74_exact evalExpr macroScope _ ?_).2 ?_
  · simp only [GoodPieces]
    refine ⟨.inr (.inl ⟨by simp, true, rfl⟩), by simp [codeAll, codeTok, HashFree, HashFreeIn], .inl ⟨by simp, _, rfl⟩, by simp [codeAll, codeTok, HashFree, HashFreeIn],
      .inr (.inr (.inr ⟨rfl, .inl ⟨[.ident "xs".toList], ['x'], [[.ident ['i']], [.ident ['j']]], rfl, rfl⟩⟩)), by simp [codeAll, codeTok, HashFree, HashFreeIn], trivial⟩
  · obtain ⟨out, h⟩ : ∃ out, quoteMacro 8 evalExpr macroScope (.op ['@'] :: .ident "scope".toList :: .op [':'] :: lexCode "#if(p) {a} #ifdef(T) #else {b} #foreach(xs, x) {c} #end") = some out :=
      ⟨codeAll (lexCode "a b c c"), by decide +kernel⟩
    rw [e2] at h
    exact C74_placed 8 _ _ _ _ h

end RJ
