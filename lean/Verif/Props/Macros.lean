import Verif.Proof.MacroScope
import Verif.Proof.QuoteDec
import Verif.Model.DeriveCode
/-
  C73: the whole language of `@scope`, macros with arguments included.
-/
namespace RJ
open Spec

theorem isBlock_texts (texts : List (List MTok)) : (texts.map Cmd.block).any Cmd.isBlock = !texts.isEmpty := by
  cases texts <;> simp [Cmd.isBlock]

theorem isBlock_act (a : Act) : (actCmds a).any Cmd.isBlock = a.hasText := by
  cases a with
  | each c x texts => simp only [actCmds, Act.hasText, List.any_cons, List.any_append, isBlock_texts]; simp [Cmd.isBlock]
  | times c texts => simp only [actCmds, Act.hasText, List.any_cons, List.any_append, isBlock_texts]; simp [Cmd.isBlock]
  | _ => simp [actCmds, Act.hasText, Cmd.isBlock]

theorem isBlock_acts (l : List Act) : (l.flatMap actCmds).any Cmd.isBlock = l.any Act.hasText := by
  induction l with
  | nil => rfl
  | cons s l ih => simp only [List.flatMap_cons, List.any_append, List.any_cons, ih, isBlock_act]

theorem isBlock_branches (l : List Branch) : (l.flatMap branchCmds).any Cmd.isBlock = l.any Branch.hasText := by
  induction l with
  | nil => rfl
  | cons b l ih =>
    rw [List.flatMap_cons, List.any_append, List.any_cons, ih]
    cases b <;> simp [branchCmds, Branch.hasText, isBlock_act, Cmd.isBlock, List.any_cons]

theorem isBlock_part (p : Part) : (partCmds p).any Cmd.isBlock = p.hasText := by
  cases p with
  | act a => exact isBlock_act a
  | cond c l bs =>
    have hc : (condCmd c).isBlock = false := by cases c <;> rfl
    simp only [partCmds, Part.hasText, List.any_cons, List.any_append, hc, isBlock_acts, isBlock_branches, Bool.false_or]
    simp [Cmd.isBlock]

theorem isBlock_prog (l : List Part) (ended : Bool) : (l.flatMap partCmds ++ if ended then [Cmd.end_] else []).any Cmd.isBlock = l.any Part.hasText := by
  have : (l.flatMap partCmds).any Cmd.isBlock = l.any Part.hasText := by
    induction l with
    | nil => rfl
    | cons p l ih => simp only [List.flatMap_cons, List.any_append, List.any_cons, ih, isBlock_part]
  rw [List.any_append, this]
  cases ended <;> simp [Cmd.isBlock]

/-- `quote!(@scope: ..)` runs the commands. -/
theorem scope_run (dep : Nat) (ev : Ev) (sc : Scope) (prog : List Part) (ended : Bool) (h : ∀ p ∈ prog, p.Ok ev sc) (ht : prog.any Part.hasText = true) :
    ∃ ex, ExOk ev ex (mtoksSize (progToks prog ended) + 1) ∧
    quoteMacro dep ev sc (.op ['@'] :: .ident "scope".toList :: .op [':'] :: progToks prog ended) =
      runCmds ev ex (translate dep) sc (outside true false []) (prog.flatMap partCmds ++ if ended then [Cmd.end_] else []) := by
  have hsz : mtoksSize [.op ['#'], .group .paren (.op ['@'] :: .ident "scope".toList :: .op [':'] :: progToks prog ended)] = (mtoksSize (progToks prog ended) + 4) + 1 := by
    simp only [mtoksSize, MTok.size]; omega
  refine ⟨expand dep ev (mtoksSize (progToks prog ended) + 4 + 1), ?_, ?_⟩
  · intro sc body hb hsz
    exact renderAll_ok dep ev body hb _ sc (by omega)
  · rw [quoteMacro_scope]
    rw [hsz, expand]
    rw [if_pos rfl]
    simp only [pound, runModifier]
    rw [if_neg (by decide), if_pos trivial, prog_read prog h ended]
    dsimp only
    rw [isBlock_prog, if_pos ht, expand, catO_nil]
    rfl

theorem tail_run (ev : Ev) (ex : Scope → List MTok → Option (List QTok)) (sc : Scope) (ended : Bool) (m : QMap) (tr : QMap → List QTok → QOut) :
    runCmds ev ex tr sc (outside true false m) (if ended then [Cmd.end_] else []) = some [] := by
  cases ended <;> simp [runCmds, runCmd]

/-- C73: a `@scope` program — definitions, macros with arguments, `#include`, `#quote`, conditions with any chain of `#elif` and `#else`, loops with or without a
variable, in branches or not, a final `#end` — emits exactly what the language says: the macro gives `out` (whatever the bound on the nesting of its calls, if it
is large enough) if and only if the program runs to `out`.  Conditions: every `#` of a text or a macro body is followed by something other than `#` and `,`, a
`#` of a value by something it does not apply to. -/
theorem C73_scope (ev : Ev) (sc : Scope) (prog : List Part) (ended : Bool) (h : ∀ p ∈ prog, p.Ok ev sc) (ht : prog.any Part.hasText = true) (out : List QTok) :
    (PartsDo ev sc prog Env.empty out → ∃ n0, ∀ dep, n0 ≤ dep →
      quoteMacro dep ev sc (.op ['@'] :: .ident "scope".toList :: .op [':'] :: progToks prog ended) = some out) ∧
    (∀ dep, quoteMacro dep ev sc (.op ['@'] :: .ident "scope".toList :: .op [':'] :: progToks prog ended) = some out → PartsDo ev sc prog Env.empty out) := by
  have hle : mtoksSize (prog.flatMap Part.toks) ≤ mtoksSize (progToks prog ended) + 1 := by
    unfold progToks; rw [mtoksSize_append]; omega
  constructor
  · intro hd
    obtain ⟨n0, h1⟩ := parts_reached (fun ex m tr => tail_run ev ex sc ended m tr) prog h hle keeps_empty hd
    refine ⟨n0, fun dep hdep => ?_⟩
    obtain ⟨ex, h2, h3⟩ := scope_run dep ev sc prog ended h ht
    rw [h3]
    exact h1 dep hdep ex h2
  · intro dep hq
    obtain ⟨ex, h2, h3⟩ := scope_run dep ev sc prog ended h ht
    rw [h3] at hq
    exact parts_sound h2 (fun m tr => tail_run ev ex sc ended m tr) prog h hle keeps_empty hq

/-- C73: a stream has at most one expansion. -/
theorem C73_expansion_unique (e : Env) (ts v : List QTok) (h : Expand e ts v) : ∀ w, Expand e ts w → v = w := by
  refine Expand.rec (motive_1 := fun e ts v _ => ∀ w, Expand e ts w → v = w) (motive_2 := fun e acts vals _ => ∀ w, ExpandAll e acts w → vals = w)
    ?_ ?_ ?_ ?_ ?_ ?_ ?_ ?_ ?_ h
  · intro e w h; cases h; rfl
  · intro e t r v hk _ ih w h
    cases h with
    | keep _ h => rw [ih _ h]
    | group _ _ => exact absurd hk id
    | var _ => exact absurd rfl hk
    | hash _ _ => exact absurd rfl hk
    | other _ _ => exact absurd rfl hk
    | call _ _ _ _ _ _ => exact absurd rfl hk
  · intro e d g w r v _ _ ih1 ih2 w' h
    cases h with
    | keep hk h => exact absurd hk id
    | group h1 h2 => rw [ih1 _ h1, ih2 _ h2]
  · intro e j x r v _ ih w h
    cases h with
    | keep hk h => exact absurd rfl hk
    | var h => rw [ih _ h]
    | hash hh _ => exact absurd trivial (hh _ rfl)
  · intro e j r v hh _ ih w h
    cases h with
    | keep hk h => exact absurd rfl hk
    | var h => exact absurd trivial (hh _ rfl)
    | hash _ h => rw [ih _ h]
    | other _ _ => exact absurd trivial (hh _ rfl)
    | call _ _ _ _ _ _ => exact absurd trivial (hh _ rfl)
  · intro e j g r v hg _ ih w h
    cases h with
    | keep hk h => exact absurd rfl hk
    | hash hh _ => exact absurd trivial (hh _ rfl)
    | other _ h => exact ih _ h
    | call h1 _ _ _ _ _ => rw [hg _ _ rfl] at h1; cases h1
  · intro e j f as r ps body acts vals w v hf ha hlen _ _ _ ih1 ih2 ih3 w' h
    cases h with
    | keep hk h => exact absurd rfl hk
    | hash hh _ => exact absurd trivial (hh _ rfl)
    | other hg _ => rw [hg _ _ rfl] at hf; cases hf
    | call h1 h2 _ h4 h5 h6 =>
      rw [hf] at h1; cases h1
      cases argList_unique ha h2
      cases ih1 _ h4
      rw [ih2 _ h5, ih3 _ h6]
  · intro e w h; cases h; rfl
  · intro e a v as vs _ _ ih1 ih2 w h
    cases h with
    | cons h1 h2 => rw [ih1 _ h1, ih2 _ h2]

/-- C73: the arguments of a call are split at the commas outside of groups and of angle brackets, in exactly one way. -/
theorem C73_arguments (ts : List QTok) : ∃ acts, ArgList ts acts ∧ qSplit ts "," = acts ∧ ∀ acts', ArgList ts acts' → acts' = acts :=
  ⟨_, argList_split ts, rfl, fun _ h => argList_unique h (argList_split ts)⟩

/-! ### A program that meets the conditions -/

/-- `IsHash`, computed. -/
def hashB : QTok → Bool
  | .punct c _ => c == '#'
  | _ => false
/-- `IsComma`, computed. -/
def commaB : QTok → Bool
  | .punct c _ => c == ','
  | _ => false
/-- `Applied`, computed. -/
def appliedB : QTok → Bool
  | .ident _ => true
  | .group .paren _ => true
  | _ => false
/-- `Named`, computed. -/
def namedB (x : Str) : Bool := x.getLast? != some '-' && x.getLast? != some '+'
/-- `Settled`, computed. -/
def settledB : List QTok → Bool
  | [] => true
  | t :: r => (!hashB t || r.head?.any (fun u => !appliedB u)) && settledB r
mutual
/-- `TameIn`, computed. -/
def tameInB : QTok → Bool
  | .group _ g => tameB g
  | .ident x => namedB x
  | _ => true
/-- `Tame`, computed. -/
def tameB : List QTok → Bool
  | [] => true
  | t :: r => tameInB t && (!hashB t || r.head?.any (fun u => !hashB u && !commaB u)) && tameB r
end

theorem hashB_iff (t : QTok) : hashB t = true ↔ IsHash t := by cases t <;> simp [hashB, IsHash]
theorem commaB_iff (t : QTok) : commaB t = true ↔ IsComma t := by cases t <;> simp [commaB, IsComma]
theorem appliedB_iff (t : QTok) : appliedB t = true ↔ Applied t := by
  cases t with
  | group d g => cases d <;> simp [appliedB, Applied]
  | _ => simp [appliedB, Applied]
theorem namedB_ok {x : Str} (h : namedB x = true) : Named x := by
  unfold namedB at h; simp at h; exact h

theorem settledB_ok : ∀ {v : List QTok}, settledB v = true → Settled v
  | [], _ => trivial
  | t :: r, h => by
    simp only [settledB, Bool.and_eq_true, Bool.or_eq_true, Bool.not_eq_true'] at h
    refine ⟨fun ht => ?_, settledB_ok h.2⟩
    rcases h.1 with h1 | h1
    · rw [(hashB_iff t).2 ht] at h1; cases h1
    · cases e : r.head? with
      | none => rw [e] at h1; cases h1
      | some u =>
        rw [e] at h1
        exact ⟨u, rfl, fun hu => by rw [← appliedB_iff] at hu; simp [hu] at h1⟩

theorem tameB_ok {v : List QTok} : tameB v = true → Tame v := by
  refine QTok.rec_1 (motive_1 := fun t => tameInB t = true → TameIn t) (motive_2 := fun ts => tameB ts = true → Tame ts) ?_ ?_ ?_ ?_ ?_ ?_ v
  · intro c j _; trivial
  · intro s h; exact namedB_ok h
  · intro s _; trivial
  · intro d g ih h; exact ih h
  · intro _; trivial
  · intro t r ih1 ih2 h
    simp only [tameB, Bool.and_eq_true, Bool.or_eq_true, Bool.not_eq_true'] at h
    refine ⟨ih1 h.1.1, fun ht => ?_, ih2 h.2⟩
    rcases h.1.2 with h1 | h1
    · rw [(hashB_iff t).2 ht] at h1; cases h1
    · cases e : r.head? with
      | none => rw [e] at h1; cases h1
      | some u =>
        rw [e] at h1
        refine ⟨u, rfl, fun hu => ?_, fun hu => ?_⟩
        · rw [← hashB_iff] at hu; simp [hu] at h1
        · rw [← commaB_iff] at hu; simp [hu] at h1

theorem all_ok {o : Option (List QTok)} {p : List QTok → Bool} {P : List QTok → Prop} (hp : ∀ v, p v = true → P v) (h : o.all p = true) : ∀ v, o = some v → P v := by
  intro v hv; rw [hv] at h; exact hp v h

/-- The variables of the example. -/
def macroScope : Scope :=
  [("xs".toList, .list [.text [.ident ['i']], .text [.ident ['j']]]), ("p".toList, .bool true), ("q".toList, .bool false),
   ("s".toList, .stream [.punct '#' false, .ident ['T'], .punct ';' false])]

/-- Its program: a macro, a macro that calls it, a condition with three branches and a loop, an `#include`, a `#quote`, an `#execute`, an `#undef` that leaves the macro alone. -/
def macroProg : List Part :=
  [.act (.define "T".toList [.tok (.ident "u8".toList)]),
   .act (.macro_ "f".toList ["a".toList, "b".toList] [.tok (.ident "fn".toList), .var "a".toList, .group .paren [.tok (.ident ['x']), .tok (.op [':']), .var "b".toList], .tok (.op ['-', '>']),
     .hash, .tok (.ident ['T']), .group .brace []]),
   .act (.macro_ "g".toList ["a".toList] [.hash, .group .paren [.tok (.ident ['f']), .group .paren [.var "a".toList, .tok (.op [',']), .tok (.ident "Vec".toList), .tok (.op ['<']),
     .hash, .tok (.ident ['T']), .tok (.op [',']), .tok (.lit ['3']), .tok (.op ['>'])]]]),
   .act (.text (lexCode "#(g(z)) #(none(1))")),
   .cond (.test [.ident ['p']]) [.text (lexCode "a;")] [.elif [.ident ['q']] [.text (lexCode "b;")], .else_ [.text (lexCode "c;"), .times [.ident "xs".toList] [lexCode "r;"]]],
   .act (.include_ [.ident ['s']]),
   .act (.quote_ [.tok (.ident ['x'])]),
   .act (.execute [.ident ['p']]),
   .act (.undef "f".toList),
   .act (.text (lexCode "#(f(k, u16))")),
   .act (.each [.ident "xs".toList] "x".toList [lexCode "#(f(#x, u32))"])]

/-- Beside C73: the conditions hold of it, it is written as the text below, and it emits the text after that. -/
theorem macroProg_ok : ∀ p ∈ macroProg, p.Ok evalExpr macroScope := by
  intro p hp
  simp only [macroProg, List.mem_cons, List.not_mem_nil, or_false] at hp
  rcases hp with rfl | rfl | rfl | rfl | rfl | rfl | rfl | rfl | rfl | rfl | rfl
  · exact ⟨namedB_ok (by decide), by simp, by simp [allOk, Tmpl.Ok, PlainTok], all_ok (fun v => settledB_ok) (by decide +kernel)⟩
  · refine ⟨?_, by simp, by simp [allOk, Tmpl.Ok, PlainTok], all_ok (fun v => tameB_ok) (by decide +kernel)⟩
    intro p hp; simp only [List.mem_cons, List.not_mem_nil, or_false] at hp
    rcases hp with rfl | rfl <;> exact namedB_ok (by decide)
  · refine ⟨?_, by simp, by simp [allOk, Tmpl.Ok, PlainTok], all_ok (fun v => tameB_ok) (by decide +kernel)⟩
    intro p hp; simp only [List.mem_cons, List.not_mem_nil, or_false] at hp
    subst hp; exact namedB_ok (by decide)
  · exact tameB_ok (by decide +kernel)
  · refine ⟨trivial, ?_, ?_⟩
    · intro a ha; simp only [List.mem_cons, List.not_mem_nil, or_false] at ha; subst ha; exact tameB_ok (by decide +kernel)
    · intro b hb; simp only [List.mem_cons, List.not_mem_nil, or_false] at hb
      rcases hb with rfl | rfl
      · intro a ha; simp only [Branch.acts, List.mem_cons, List.not_mem_nil, or_false] at ha; subst ha; exact tameB_ok (by decide +kernel)
      · intro a ha; simp only [Branch.acts, List.mem_cons, List.not_mem_nil, or_false] at ha
        rcases ha with rfl | rfl
        · exact tameB_ok (by decide +kernel)
        · refine ⟨?_, ?_⟩
          · intro d x e
            have := congrArg List.length e
            simp at this
          · intro tt ht; simp only [List.mem_cons, List.not_mem_nil, or_false] at ht; subst ht; exact tameB_ok (by decide +kernel)
  · intro ts h
    have h : some (QVal.stream [.punct '#' false, .ident ['T'], .punct ';' false]) = some (.stream ts) := h
    cases h
    exact tameB_ok (by decide +kernel)
  · exact ⟨by simp [allOk, Tmpl.Ok, PlainTok], by simp [NotAt, renderAll, Tmpl.render], all_ok (fun v => tameB_ok) (by decide +kernel)⟩
  · trivial
  · exact namedB_ok (by decide)
  · exact tameB_ok (by decide +kernel)
  · refine ⟨namedB_ok (by decide), ?_, ?_⟩
    · intro tt ht; simp only [List.mem_cons, List.not_mem_nil, or_false] at ht; subst ht; exact tameB_ok (by decide +kernel)
    · intro vs h
      have h : some [[QTok.ident ['i']], [QTok.ident ['j']]] = some vs := h
      cases h
      intro v hv
      simp only [List.mem_cons, List.not_mem_nil, or_false] at hv
      rcases hv with rfl | rfl <;> exact settledB_ok (by decide)

/-- What it emits. -/
def macroOut : List QTok :=
  codeAll (lexCode "fn z(x: Vec<u8, 3>) -> u8 {} a; c; r; r; u8; x fn k(x: u16) -> u8 {} fn i(x: u32) -> u8 {} fn j(x: u32) -> u8 {}")

example : (.op ['@'] :: .ident "scope".toList :: .op [':'] :: progToks macroProg true) =
    lexCode "@scope: #define(T, u8) #define(f(a, b), fn #a(x: #b) -> ##T {}) #define(g(a), ##(f(#a, Vec<##T, 3>))) {#(g(z)) #(none(1))} #if(p) {a;} #elif(q) {b;} #else {c;} #foreach(xs) {r;} #endfor #endif #include(s) #quote(x) #execute(p) #undef(f) {#(f(k, u16))} #foreach(xs, x) {#(f(#x, u32))} #endfor #end" := by
  decide +kernel

example : PartsDo evalExpr macroScope macroProg Env.empty macroOut :=
  (C73_scope evalExpr macroScope macroProg true macroProg_ok (by rfl) macroOut).2 8 (by decide +kernel)

/-- Beside C73: a macro that calls itself never ends: there is no result, whatever the bound. -/
example : ∀ out, ¬ PartsDo evalExpr [] [.act (.macro_ "f".toList [] [.hash, .group .paren [.tok (.ident ['f']), .group .paren []]]), .act (.text (lexCode "#(f())"))] Env.empty out := by
  intro out h
  obtain ⟨e1, o1, o2, ⟨v, hv, rfl, rfl⟩, ⟨e2, o3, o4, ⟨rfl, h2⟩, _, rfl⟩, rfl⟩ := h
  have hv' : some [QTok.punct '#' false, .group .paren [.ident ['f'], .group .paren []]] = some v := hv
  cases hv'
  have e0 : codeAll (lexCode "#(f())") = [QTok.punct '#' false, .group .paren [.ident ['f'], .group .paren []]] := by decide +kernel
  rw [e0] at h2
  have key : ∀ (e : Env) (ts v : List QTok), Expand e ts v → e.mac ['f'] = some ([], [QTok.punct '#' false, .group .paren [.ident ['f'], .group .paren []]]) →
      ts ≠ [QTok.punct '#' false, .group .paren [.ident ['f'], .group .paren []]] := by
    intro e ts v h
    refine Expand.rec (motive_1 := fun e ts _ _ => e.mac ['f'] = some ([], [QTok.punct '#' false, .group .paren [.ident ['f'], .group .paren []]]) →
      ts ≠ [QTok.punct '#' false, .group .paren [.ident ['f'], .group .paren []]]) (motive_2 := fun _ _ _ _ => True) ?_ ?_ ?_ ?_ ?_ ?_ ?_ ?_ ?_ h
    · intro e _ h; cases h
    · intro e t r v hk _ _ _ h; cases h; exact absurd rfl hk
    · intro e d g w r v _ _ _ _ _ h; cases h
    · intro e j x r v _ _ _ h; cases h
    · intro e j r v hh _ _ _ h; cases h; exact absurd trivial (hh _ rfl)
    · intro e j g r v hg _ _ hm h; cases h; rw [hg _ _ rfl] at hm; cases hm
    · intro e j f as r ps body acts vals w v hf _ _ _ _ _ _ ih2 _ hm h
      cases h
      rw [hm] at hf; cases hf
      refine ih2 ?_ rfl
      have : ∀ (ps : List Str) (vals : List (List QTok)) (e : Env), (e.bind ps vals).mac = e.mac := by
        intro ps
        induction ps with
        | nil => intro vals e; rfl
        | cons p ps ih => intro vals e; cases vals with | nil => rfl | cons v vals => rw [Env.bind, ih]; rfl
      rw [this]; exact hm
    · intro e; trivial
    · intro e a v as vs _ _ _ _; trivial
  exact key _ _ _ h2 rfl rfl

end RJ
