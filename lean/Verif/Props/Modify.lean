import Verif.Proof.Modify
import Verif.Props.Quote
import Verif.Props.Scope
/-
  C92: modifiers inside templates of `quote!`.
-/
namespace RJ
open Spec

/-- **C92.** A template with modifiers at any depth: each stands for what `quote!` gives for the modifier on its own, with the variables in scope where it stands; the variables
of a `@params` remain visible to what follows it in the same group, and only there. -/
theorem C92_modifiers (dep : Nat) (ev : Ev) (sc : Scope) (ts : List MTmpl) (h : allModsOk ts) (hat : NotAt (renderMods ts)) :
    quoteMacro dep ev sc (renderMods ts) = modsMean (quoteMacro dep ev) ev ts sc := by
  rw [quoteMacro_plain dep ev sc _ hat]
  exact renderMods_ok dep ev ts h _ sc (Nat.lt_succ_self _)

/-- **C92.** `#(@literal: ..)` anywhere in a template reproduces its text, and what follows sees the same variables. -/
theorem C92_literal (dep : Nat) (ev : Ev) (sc : Scope) (a b : List MTmpl) (tt : List MTok) (htt : tt ≠ []) (h : allModsOk (a ++ .literal tt :: b))
    (hat : NotAt (renderMods (a ++ .literal tt :: b))) (hl : ∀ t ∈ a, ∀ ps us, t ≠ .params ps us) :
    quoteMacro dep ev sc (renderMods (a ++ .literal tt :: b)) =
      catO (modsMean (quoteMacro dep ev) ev a sc) (catO (some (codeAll tt)) (modsMean (quoteMacro dep ev) ev b sc)) := by
  rw [C92_modifiers dep ev sc _ h hat]
  clear h hat
  induction a with
  | nil =>
    rw [List.nil_append, modsMean, modsMean, MTmpl.means, literalToks, C53_literal dep ev sc tt htt]
    show catO _ _ = catO _ _
    rw [catO_some []]
    simp [MTmpl.leaves, catO]
    rfl
  | cons t a ih =>
    have e : t.leaves ev sc = sc := by
      cases t with
      | params ps us => exact absurd rfl (hl _ (by simp) ps us)
      | _ => rfl
    rw [List.cons_append, modsMean, modsMean, e, ih (fun u hu => hl u (List.mem_cons_of_mem _ hu))]
    show catO _ _ = catO (catO _ _) _
    rw [catO_assoc]

/-- **C92.** A modifier without text (`#(@literal:)`, `#(@params(..):)`, `#(@scope:)`), without parameters (`#(@params(): ..)`), or of another name inside a template
(`#(@span(e): ..)`, `#(@options(..): ..)`, `#(@foo: ..)`) does not compile, whatever follows it. -/
theorem C92_refused (dep : Nat) (ev : Ev) (sc : Scope) (w : Str) (ps tt post : List MTok) :
    quoteMacro dep ev sc (.op ['#'] :: .group .paren [.op ['@'], .ident w, .op [':']] :: post) = none ∧
    quoteMacro dep ev sc (.op ['#'] :: .group .paren [.op ['@'], .ident w, .group .paren ps, .op [':']] :: post) = none ∧
    quoteMacro dep ev sc (.op ['#'] :: .group .paren (.op ['@'] :: .ident w :: .group .paren [] :: .op [':'] :: tt) :: post) = none ∧
    (w ≠ "literal".toList → w ≠ "scope".toList →
      quoteMacro dep ev sc (.op ['#'] :: .group .paren (.op ['@'] :: .ident w :: .op [':'] :: tt) :: post) = none) ∧
    (w ≠ "params".toList →
      quoteMacro dep ev sc (.op ['#'] :: .group .paren (.op ['@'] :: .ident w :: .group .paren ps :: .op [':'] :: tt) :: post) = none) := by
  have key : ∀ body : List MTok, (∀ E, modifierOut dep ev E sc body = none) →
      quoteMacro dep ev sc (.op ['#'] :: .group .paren (.op ['@'] :: body) :: post) = none := by
    intro body hb
    rw [quoteMacro_plain dep ev sc _ (by simp [NotAt]), expand_pound]
    show runModifier dep ev _ sc body post = none
    rw [runModifier_eq, hb]; rfl
  refine ⟨key _ ?_, key _ ?_, key _ ?_, fun h1 h2 => key _ ?_, fun h1 => key _ ?_⟩ <;> intro E
  · simp only [modifierOut]
    by_cases h1 : w = "literal".toList
    · rw [if_pos h1, if_pos List.isEmpty_nil]
    rw [if_neg h1]
    by_cases h2 : w = "scope".toList
    · rw [if_pos h2]; rfl
    · rw [if_neg h2]
  · simp only [modifierOut]
    by_cases h1 : w = "params".toList
    · rw [if_pos h1, if_pos (by rw [List.isEmpty_nil]; rfl)]
    · rw [if_neg h1]
  · simp only [modifierOut]
    by_cases h1 : w = "params".toList
    · rw [if_pos h1, if_pos (by rw [show (paramList [] []).isEmpty = true from rfl, Bool.or_true])]
    · rw [if_neg h1]
  · simp only [modifierOut, if_neg h1, if_neg h2]
  · simp only [modifierOut, if_neg h1]

/-- **C92.** A modifier that does not compile where it stands makes the whole template fail, however deep in groups it is. -/
theorem C92_fails (dep : Nat) (ev : Ev) (sc : Scope) (m : MTmpl) (hm : m.Ok) (hat : NotAt m.render) (hf : m.means (quoteMacro dep ev) ev sc = none) (ds : List Delim) :
    quoteMacro dep ev sc (ds.foldr (fun d ts => [.group d ts]) m.render) = none := by
  have hr : ∀ ds : List Delim, ∃ u : MTmpl, u.Ok ∧ u.render = ds.foldr (fun d ts => [.group d ts]) m.render ∧ u.means (quoteMacro dep ev) ev sc = none := by
    intro ds
    induction ds with
    | nil => exact ⟨m, hm, rfl, hf⟩
    | cons d ds ih =>
      obtain ⟨u, h1, h2, h3⟩ := ih
      refine ⟨.group d [u], ⟨h1, trivial⟩, ?_, ?_⟩
      · simp [MTmpl.render, renderMods, h2]
      · simp [MTmpl.means, modsMean, h3]
  obtain ⟨u, h1, h2, h3⟩ := hr ds
  have hn : NotAt u.render := by
    rw [h2]
    cases ds with
    | nil => exact hat
    | cons d ds => simp [NotAt]
  have := C92_modifiers dep ev sc [u] ⟨h1, trivial⟩ (by simpa [renderMods] using hn)
  rw [renderMods, renderMods, List.append_nil, h2, modsMean, h3] at this
  exact this

/-- A template with modifiers: `#(#xs:x [ #(@params(y = x): #y ; #x) #y ] ) , * #(@literal: #a)`. -/
def sampleMods : List MTmpl :=
  [.iterMap (.var "xs".toList) (some ['x'])
      [.group .bracket [.params [⟨['y'], some [.ident ['x']]⟩] [.op ['#'], .ident ['y'], .op [';'], .op ['#'], .ident ['x']], .plain (.var ['y'])]] (some (.op [','])),
   .literal [.op ['#'], .ident ['a']]]

/-- Beside C92: the template is well-formed, is this text, and expands. -/
example : let sc : Scope := [("xs".toList, .list [.text [.lit ['1']], .text [.ident ['z']]])]
    allModsOk sampleMods ∧ NotAt (renderMods sampleMods) ∧ renderMods sampleMods = lexCode "#(#xs:x [#(@params(y = x): #y; #x) #y]),* #(@literal: #a)" ∧
    quoteMacro 3 evalExpr sc (renderMods sampleMods) = some (codeAll (lexCode "[1; 1], [z; z] #a")) := by
  refine ⟨?_, by simp [sampleMods, renderMods, MTmpl.render, NotAt], by decide +kernel, by decide +kernel⟩
  simp [sampleMods, allModsOk, MTmpl.Ok, Tmpl.Ok, PlainTok, QParam.toks]

/-- Beside C92_fails: a modifier with an unknown variable, two groups down. -/
example : let m : MTmpl := .params [⟨['y'], some [.ident ['u']]⟩] [.op ['#'], .ident ['y']]
    m.Ok ∧ NotAt m.render ∧ m.means (quoteMacro 3 evalExpr) evalExpr [] = none ∧
      [Delim.brace, .paren].foldr (fun d ts => [.group d ts]) m.render = lexCode "{(#(@params(y = u): #y))}" := by
  refine ⟨by simp [MTmpl.Ok, QParam.toks], by simp [MTmpl.render, NotAt], by decide +kernel, by decide +kernel⟩

end RJ
