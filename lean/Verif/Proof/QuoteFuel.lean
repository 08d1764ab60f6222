import Verif.Proof.Quote
/-
  The bound on the nesting of macro calls in `expand` does not matter, as long as it is above the number of tokens.
-/
namespace RJ
open Spec

/-- The two expansions agree on texts of fewer than `k` tokens. -/
def Agree (k : Nat) (E E' : Scope → List MTok → Option (List QTok)) : Prop := ∀ sc ts, mtoksSize ts < k → E sc ts = E' sc ts

/-- The templates in a form have at most `k` tokens. -/
def Form.le (k : Nat) : Form → Prop
  | .when _ _ tt => mtoksSize tt ≤ k
  | .opt _ => True
  | .optMap _ _ tt => mtoksSize tt ≤ k
  | .star _ sep => ∀ t, sep = some t → mtoksSize [t] ≤ k
  | .starIn _ sep => mtoksSize [sep] ≤ k
  | .starMap _ _ tt sep => mtoksSize tt ≤ k ∧ ∀ t, sep = some t → mtoksSize [t] ≤ k

theorem runForm_congr (ev : Ev) {k : Nat} {E E' : Scope → List MTok → Option (List QTok)} (h : Agree (k + 1) E E') (sc : Scope) (f : Form) (hf : f.le k) :
    runForm ev E sc f = runForm ev E' sc f := by
  have hh : ∀ sc tt, mtoksSize tt ≤ k → E sc tt = E' sc tt := fun sc tt ht => h sc tt (by omega)
  cases f with
  | when pos e tt => simp only [runForm, hh sc tt hf]
  | opt e => rfl
  | optMap e x tt => simp only [runForm, fun v => hh (bindX x v sc) tt hf]
  | star e sep =>
    cases sep with
    | none => rfl
    | some t => simp only [runForm, hh sc [t] (hf t rfl)]
  | starIn e sep => simp only [runForm, hh sc [sep] hf]
  | starMap e x tt sep =>
    cases sep with
    | none => simp only [runForm, fun v => hh (bindX x v sc) tt hf.1]
    | some t => simp only [runForm, fun v => hh (bindX x v sc) tt hf.1, hh sc [t] (hf.2 t rfl)]

theorem boolRule_le {e r after : List MTok} {f : Form} {rest : List MTok} (h : boolRule e r after = some (f, rest)) :
    f.le (mtoksSize r + mtoksSize after) ∧ mtoksSize rest ≤ mtoksSize after := by
  unfold boolRule at h
  split at h
  · cases h; simp only [Form.le, mtoksSize, MTok.size]; omega
  · cases h; simp only [Form.le, mtoksSize, MTok.size]; omega
  · cases h

theorem optRule_le {e r after : List MTok} {f : Form} {rest : List MTok} (h : optRule e r after = some (f, rest)) :
    f.le (mtoksSize r + mtoksSize after) ∧ mtoksSize rest ≤ mtoksSize after := by
  unfold optRule at h
  split at h
  · cases h; simp only [Form.le, mtoksSize, MTok.size, true_and]; omega
  · cases h; simp only [Form.le, mtoksSize, MTok.size]; omega
  · cases h; simp only [Form.le, mtoksSize, MTok.size]; omega
  · cases h

theorem starRule_le {e r after : List MTok} {f : Form} {rest : List MTok} (h : starRule e r after = some (f, rest)) :
    f.le (mtoksSize r + mtoksSize after) ∧ mtoksSize rest ≤ mtoksSize after := by
  unfold starRule at h
  split at h
  · cases h; refine ⟨fun t ht => (nomatch ht), ?_⟩; simp only [mtoksSize]; omega
  · cases h; refine ⟨fun t ht => (by cases ht; simp only [mtoksSize]; omega), ?_⟩; simp only [mtoksSize]; omega
  · cases h; simp only [Form.le, mtoksSize, MTok.size]; omega
  · cases h; refine ⟨⟨by simp only [mtoksSize]; omega, fun t ht => (nomatch ht)⟩, ?_⟩; simp only [mtoksSize]; omega
  · cases h; refine ⟨⟨by simp only [mtoksSize]; omega, fun t ht => by cases ht; simp only [mtoksSize]; omega⟩, ?_⟩; simp only [mtoksSize]; omega
  · cases h; refine ⟨⟨by simp only [mtoksSize]; omega, fun t ht => (nomatch ht)⟩, ?_⟩; simp only [mtoksSize]; omega
  · cases h; refine ⟨⟨by simp only [mtoksSize]; omega, fun t ht => by cases ht; simp only [mtoksSize]; omega⟩, ?_⟩; simp only [mtoksSize]; omega
  · cases h

theorem Form.le_mono {a b : Nat} (hab : a ≤ b) : ∀ {f : Form}, f.le a → f.le b
  | .when _ _ _, h => Nat.le_trans h hab
  | .opt _, _ => trivial
  | .optMap _ _ _, h => Nat.le_trans h hab
  | .star _ _, h => fun t ht => Nat.le_trans (h t ht) hab
  | .starIn _ _, h => Nat.le_trans h hab
  | .starMap _ _ _ _, h => ⟨Nat.le_trans h.1 hab, fun t ht => Nat.le_trans (h.2 t ht) hab⟩

theorem srcOf_le {inner e r : List MTok} (h : srcOf inner = some (e, r)) : mtoksSize r ≤ mtoksSize inner := by
  unfold srcOf at h
  split at h
  · cases h; simp only [mtoksSize]; omega
  · cases h; simp only [mtoksSize]; omega
  · cases h

theorem formOf_le {inner after : List MTok} {f : Form} {rest : List MTok} (h : formOf inner after = some (f, rest)) :
    f.le (mtoksSize inner + mtoksSize after) ∧ mtoksSize rest ≤ mtoksSize after := by
  unfold formOf at h
  split at h
  · cases h
  · rename_i e r hs
    have h1 := srcOf_le hs
    have aux : f.le (mtoksSize r + mtoksSize after) ∧ mtoksSize rest ≤ mtoksSize after := by
      cases hb : boolRule e r after with
      | some p => rw [hb] at h; cases h; exact boolRule_le hb
      | none =>
        cases ho : optRule e r after with
        | some p => rw [hb, ho] at h; cases h; exact optRule_le ho
        | none => rw [hb, ho] at h; exact starRule_le h
    exact ⟨Form.le_mono (by omega) aux.1, aux.2⟩

/-! ### Commands -/

/-- The templates in a command have at most `k` tokens. -/
def Cmd.le (k : Nat) : Cmd → Prop
  | .defineFn _ _ tt => mtoksSize tt ≤ k
  | .define _ tt => mtoksSize tt ≤ k
  | .quote tt => mtoksSize tt + 2 ≤ k
  | _ => True

theorem Cmd.le_mono {a b : Nat} (hab : a ≤ b) : ∀ {c : Cmd}, c.le a → c.le b := by
  intro c h
  cases c <;> first | trivial | (unfold Cmd.le at h ⊢; omega)

theorem optionList_le (n : Nat) : ∀ (ps : List MTok) (l : List (Str × Option (List MTok))), ps.length ≤ n → optionList ps = some l →
    ∀ p ∈ l, mtoksSize (match p.2 with | some q => [.ident p.1, .group .paren q] | none => [.ident p.1]) ≤ mtoksSize ps := by
  induction n with
  | zero =>
    intro ps l hn h
    have : ps = [] := List.eq_nil_of_length_eq_zero (by omega)
    subst this
    simp [optionList] at h
  | succ n ih =>
    intro ps l hn h p hp
    unfold optionList at h
    split at h
    · split at h
      · cases h
      · split at h
        · cases h
          rw [List.mem_singleton] at hp
          subst hp
          simp [mtoksSize, MTok.size]
        · rename_i rest
          rw [Option.map_eq_some_iff] at h
          obtain ⟨l', h', rfl⟩ := h
          rcases List.mem_cons.mp hp with rfl | hp
          · simp only [mtoksSize, MTok.size]; omega
          · have := ih rest l' (by simp only [List.length_cons] at hn; omega) h' p hp
            simp only [mtoksSize, MTok.size] at this ⊢
            omega
        · cases h
    · cases h
      rw [List.mem_singleton] at hp
      subst hp
      simp [mtoksSize, MTok.size]
    · rename_i rest
      rw [Option.map_eq_some_iff] at h
      obtain ⟨l', h', rfl⟩ := h
      rcases List.mem_cons.mp hp with rfl | hp
      · simp only [mtoksSize, MTok.size]; omega
      · have := ih rest l' (by simp only [List.length_cons] at hn; omega) h' p hp
        simp only [mtoksSize, MTok.size] at this ⊢
        omega
    · cases h

theorem parseOptions_le (ev : Ev) (sc : Scope) (k : Nat) : ∀ (l : List (Str × Option (List MTok))) (mode r : Option (List MTok)),
    (∀ p ∈ l, mtoksSize (match p.2 with | some q => [.ident p.1, .group .paren q] | none => [.ident p.1]) ≤ k) → (∀ m, mode = some m → mtoksSize m ≤ k) →
    parseOptions ev sc mode l = some r → ∀ m, r = some m → mtoksSize m ≤ k
  | [], mode, r, _, hm, h, m, e => by
    simp only [parseOptions, Option.some.injEq] at h
    exact hm m (by rw [h, e])
  | (o, some ps) :: rest, mode, r, hl, hm, h, m, e => by
    rw [parseOptions] at h
    have h0 := hl (o, some ps) (by simp)
    have hr := fun p hp => hl p (List.mem_cons_of_mem _ hp)
    split at h
    · split at h
      · exact parseOptions_le ev sc k rest mode r hr hm h m e
      · cases h
    · split at h
      · refine parseOptions_le ev sc k rest _ r hr ?_ h m e
        intro m hm
        cases hm
        simp only [mtoksSize, MTok.size] at h0 ⊢
        exact h0
      · cases h
  | (o, none) :: rest, mode, r, hl, hm, h, m, e => by
    rw [parseOptions] at h
    have h0 := hl (o, none) (by simp)
    have hr := fun p hp => hl p (List.mem_cons_of_mem _ hp)
    split at h
    · refine parseOptions_le ev sc k rest _ r hr ?_ h m e
      intro m hm
      cases hm
      exact h0
    · cases h

theorem wholeOf_le (ev : Ev) (sc : Scope) (ts us : List MTok) (h : wholeOf ev sc ts = some us) : mtoksSize us ≤ mtoksSize ts + 2 := by
  unfold wholeOf at h
  split at h
  · split at h
    · cases h; simp only [mtoksSize, MTok.size]; omega
    · cases h; omega
  · rename_i w ps tt
    split at h
    · split at h
      · rename_i opts ho
        split at h
        · rename_i mode hp
          cases h
          have := parseOptions_le ev sc (mtoksSize ps) opts none _ (optionList_le _ ps opts (Nat.le_refl _) ho) (fun m hm => (nomatch hm)) hp mode rfl
          simp only [mtoksSize, MTok.size, mtoksSize_append]; omega
        · cases h; simp only [mtoksSize, MTok.size]; omega
        · cases h
      · cases h; omega
    · split at h
      · split at h
        · cases h; simp only [mtoksSize, MTok.size]; omega
        · cases h
      · split at h
        · cases h; simp only [mtoksSize, MTok.size]; omega
        · cases h; omega
  · cases h; omega

theorem runCmd_congr (ev : Ev) (tr : QMap → List QTok → QOut) {k : Nat} {E E' : Scope → List MTok → Option (List QTok)} (h : Agree (k + 1) E E') (sc : Scope)
    (st : ScopeSt) (c : Cmd) (hc : c.le k) : runCmd ev E tr sc st c = runCmd ev E' tr sc st c := by
  have hh : ∀ sc tt, mtoksSize tt ≤ k → E sc tt = E' sc tt := fun sc tt ht => h sc tt (by omega)
  cases c with
  | defineFn name args tt => simp only [runCmd, fun sc => hh sc tt hc]
  | define name tt => simp only [runCmd, fun sc => hh sc tt hc]
  | quote tt =>
    have : (wholeOf ev sc tt).bind (E sc) = (wholeOf ev sc tt).bind (E' sc) := by
      cases hw : wholeOf ev sc tt with
      | none => rfl
      | some us =>
        have := wholeOf_le ev sc tt us hw
        exact hh sc us (by unfold Cmd.le at hc; omega)
    simp only [runCmd, this]
  | _ => rfl

theorem runCmds_congr (ev : Ev) (tr : QMap → List QTok → QOut) {k : Nat} {E E' : Scope → List MTok → Option (List QTok)} (h : Agree (k + 1) E E') (sc : Scope) :
    ∀ (cs : List Cmd) (st : ScopeSt), (∀ c ∈ cs, c.le k) → runCmds ev E tr sc st cs = runCmds ev E' tr sc st cs
  | [], _, _ => rfl
  | c :: cs, st, hc => by
    rw [runCmds, runCmds, runCmd_congr ev tr h sc st c (hc c (by simp))]
    cases runCmd ev E' tr sc st c with
    | none => rfl
    | some r =>
      obtain ⟨st', out⟩ := r
      dsimp only
      rw [runCmds_congr ev tr h sc cs st' (fun c hx => hc c (List.mem_cons_of_mem _ hx))]

theorem cmdOf_le {name : Str} {params : Option (List MTok)} {c : Cmd} (h : cmdOf name params = some c) :
    c.le ((params.map mtoksSize).getD 0 + 2) := by
  cases params with
  | none =>
    simp only [cmdOf] at h
    by_cases h1 : name = "else".toList
    · rw [if_pos h1] at h; cases h; trivial
    rw [if_neg h1] at h
    by_cases h1 : name = "endif".toList
    · rw [if_pos h1] at h; cases h; trivial
    rw [if_neg h1] at h
    by_cases h1 : name = "endfor".toList
    · rw [if_pos h1] at h; cases h; trivial
    rw [if_neg h1] at h
    by_cases h1 : name = "end".toList
    · rw [if_pos h1] at h; cases h; trivial
    rw [if_neg h1] at h
    cases h
  | some ps =>
    simp only [cmdOf] at h
    by_cases h1 : name = "define".toList
    · rw [if_pos h1] at h
      split at h
      · rw [Option.map_eq_some_iff] at h
        obtain ⟨a, _, rfl⟩ := h
        simp only [Cmd.le, mtoksSize, Option.map_some, Option.getD_some]; omega
      · cases h
        simp only [Cmd.le, mtoksSize, Option.map_some, Option.getD_some]; omega
      · cases h; trivial
      · cases h
    rw [if_neg h1] at h
    by_cases h1 : name = "include".toList
    · rw [if_pos h1] at h; cases h; trivial
    rw [if_neg h1] at h
    by_cases h1 : name = "quote".toList
    · rw [if_pos h1] at h; cases h; exact Nat.le_refl _
    rw [if_neg h1] at h
    by_cases h1 : name = "execute".toList
    · rw [if_pos h1] at h; cases h; trivial
    rw [if_neg h1] at h
    by_cases h1 : name = "undef".toList
    · rw [if_pos h1] at h
      split at h
      · cases h; trivial
      · cases h
    rw [if_neg h1] at h
    by_cases h1 : name = "ifdef".toList
    · rw [if_pos h1] at h
      split at h
      · cases h; trivial
      · cases h
    rw [if_neg h1] at h
    by_cases h1 : name = "ifndef".toList
    · rw [if_pos h1] at h
      split at h
      · cases h; trivial
      · cases h
    rw [if_neg h1] at h
    by_cases h1 : name = "if".toList
    · rw [if_pos h1] at h; cases h; trivial
    rw [if_neg h1] at h
    by_cases h1 : name = "elif".toList
    · rw [if_pos h1] at h; cases h; trivial
    rw [if_neg h1] at h
    by_cases h1 : name = "foreach".toList
    · rw [if_pos h1] at h
      split at h
      · cases h; trivial
      · cases h; trivial
    rw [if_neg h1] at h
    cases h

theorem cmdsOf_le (n : Nat) : ∀ (ts : List MTok) (cs : List Cmd), ts.length ≤ n → cmdsOf ts = some cs → ∀ c ∈ cs, c.le (mtoksSize ts) := by
  induction n with
  | zero =>
    intro ts cs hn h
    have : ts = [] := List.eq_nil_of_length_eq_zero (by omega)
    subst this
    simp [cmdsOf] at h
    subst h
    simp
  | succ n ih =>
    intro ts cs hn h c hc
    unfold cmdsOf at h
    split at h
    · cases h; cases hc
    · rename_i name ps rest
      rw [Option.bind_eq_some_iff] at h
      obtain ⟨d, hd, h⟩ := h
      rw [Option.map_eq_some_iff] at h
      obtain ⟨l, hl, rfl⟩ := h
      rcases List.mem_cons.mp hc with rfl | hc
      · exact Cmd.le_mono (by simp only [mtoksSize, MTok.size, Option.map_some, Option.getD_some, Option.map_none, Option.getD_none]; omega) (cmdOf_le hd)
      · exact Cmd.le_mono (by simp only [mtoksSize, MTok.size]; omega) (ih rest l (by simp only [List.length_cons] at hn; omega) hl c hc)
    · rename_i name rest _
      rw [Option.bind_eq_some_iff] at h
      obtain ⟨d, hd, h⟩ := h
      rw [Option.map_eq_some_iff] at h
      obtain ⟨l, hl, rfl⟩ := h
      rcases List.mem_cons.mp hc with rfl | hc
      · exact Cmd.le_mono (by simp only [mtoksSize, MTok.size, Option.map_some, Option.getD_some, Option.map_none, Option.getD_none]; omega) (cmdOf_le hd)
      · exact Cmd.le_mono (by simp only [mtoksSize, MTok.size]; omega) (ih rest l (by simp only [List.length_cons] at hn; omega) hl c hc)
    · rename_i tt rest
      rw [Option.map_eq_some_iff] at h
      obtain ⟨l, hl, rfl⟩ := h
      rcases List.mem_cons.mp hc with rfl | hc
      · trivial
      · exact Cmd.le_mono (by simp only [mtoksSize, MTok.size]; omega) (ih rest l (by simp only [List.length_cons] at hn; omega) hl c hc)
    · cases h

/-! ### The expander -/

variable (dep : Nat) (ev : Ev)

/-- What a modifier emits and the scope it leaves to what follows. -/
def modifierOut (E : Scope → List MTok → Option (List QTok)) (sc : Scope) (body : List MTok) : Option (List QTok × Scope) :=
  match body with
  | .ident w :: .op [':'] :: tt =>
    if w = "literal".toList then
      if tt.isEmpty then none else some (lexTTs tt, sc)
    else if w = "scope".toList then
      match cmdsOf tt with
      | some cs => if cs.any Cmd.isBlock then (runCmds ev E (translate dep) sc ScopeSt.init cs).map (·, sc) else none
      | none => none
    else none
  | .ident w :: .group .paren ps :: .op [':'] :: tt =>
    if w = "params".toList then
      if tt.isEmpty || (paramList [] ps).isEmpty then none
      else
        match setParams ev (paramList [] ps) sc [] with
        | some (sc', m) => (translate dep m (lexTTs tt)).get.map (·, sc')
        | none => none
    else none
  | _ => none

theorem runModifier_eq (E : Scope → List MTok → Option (List QTok)) (sc : Scope) (body after : List MTok) :
    runModifier dep ev E sc body after = (modifierOut dep ev E sc body).bind (fun r => (E r.2 after).map (fun y => r.1 ++ y)) := by
  by_cases hA : ∃ w tt, body = .ident w :: .op [':'] :: tt
  · obtain ⟨w, tt, rfl⟩ := hA
    simp only [runModifier, modifierOut]
    by_cases h1 : w = "literal".toList
    · rw [if_pos h1, if_pos h1]
      by_cases h2 : tt.isEmpty = true
      · rw [if_pos h2, if_pos h2]; rfl
      · rw [if_neg h2, if_neg h2]; rfl
    rw [if_neg h1, if_neg h1]
    by_cases h1 : w = "scope".toList
    · rw [if_pos h1, if_pos h1]
      cases cmdsOf tt with
      | none => rfl
      | some cs =>
        dsimp only
        by_cases h2 : cs.any Cmd.isBlock = true
        · rw [if_pos h2, if_pos h2]
          cases runCmds ev E (translate dep) sc ScopeSt.init cs <;> rfl
        · rw [if_neg h2, if_neg h2]; rfl
    · rw [if_neg h1, if_neg h1]; rfl
  by_cases hB : ∃ w ps tt, body = .ident w :: .group .paren ps :: .op [':'] :: tt
  · obtain ⟨w, ps, tt, rfl⟩ := hB
    simp only [runModifier, modifierOut]
    by_cases h1 : w = "params".toList
    · rw [if_pos h1, if_pos h1]
      by_cases h2 : (tt.isEmpty || (paramList [] ps).isEmpty) = true
      · rw [if_pos h2, if_pos h2]; rfl
      · rw [if_neg h2, if_neg h2]
        cases setParams ev (paramList [] ps) sc [] with
        | none => rfl
        | some r =>
          obtain ⟨sc', m⟩ := r
          dsimp only
          cases (translate dep m (lexTTs tt)).get <;> rfl
    · rw [if_neg h1, if_neg h1]; rfl
  have e1 : runModifier dep ev E sc body after = none := by
    unfold runModifier
    split
    · exact absurd ⟨_, _, rfl⟩ hA
    · exact absurd ⟨_, _, _, rfl⟩ hB
    · rfl
  have e2 : modifierOut dep ev E sc body = none := by
    unfold modifierOut
    split
    · exact absurd ⟨_, _, rfl⟩ hA
    · exact absurd ⟨_, _, _, rfl⟩ hB
    · rfl
  rw [e1, e2]; rfl

theorem modifierOut_congr {k : Nat} {E E' : Scope → List MTok → Option (List QTok)} (h : Agree (k + 1) E E') (sc : Scope) (body : List MTok)
    (hb : mtoksSize body ≤ k) : modifierOut dep ev E sc body = modifierOut dep ev E' sc body := by
  unfold modifierOut
  split
  · split
    · rfl
    · split
      · split
        · rename_i cs hcs
          rw [runCmds_congr ev (translate dep) h sc cs ScopeSt.init (fun c hc => Cmd.le_mono (by simp only [mtoksSize] at hb; omega) (cmdsOf_le _ _ cs (Nat.le_refl _) hcs c hc))]
        · rfl
      · rfl
  · rfl
  · rfl

theorem pound_congr {E E' : Scope → List MTok → Option (List QTok)} (sc : Scope) (rest : List MTok) (h : Agree (mtoksSize rest + 1) E E') :
    pound dep ev E sc rest = pound dep ev E' sc rest := by
  have hh : ∀ sc tt, mtoksSize tt ≤ mtoksSize rest → E sc tt = E' sc tt := fun sc tt ht => h sc tt (by omega)
  unfold pound
  split
  · rename_i inner after
    split
    · rename_i body
      have hs : mtoksSize body + mtoksSize after ≤ mtoksSize (.group .paren (.op ['@'] :: body) :: after) := by
        simp only [mtoksSize, MTok.size]; omega
      rw [runModifier_eq, runModifier_eq, modifierOut_congr dep ev h sc body (by omega)]
      cases modifierOut dep ev E' sc body with
      | none => rfl
      | some r => simp only [Option.bind_some, hh r.2 after (by omega)]
    · rename_i r
      split
      · rename_i form rest' hf
        have := formOf_le hf
        have hs : mtoksSize r + mtoksSize after ≤ mtoksSize (.group .paren (.op ['#'] :: r) :: after) := by
          simp only [mtoksSize, MTok.size]; omega
        rw [runForm_congr ev h sc form (Form.le_mono hs this.1), hh sc rest' (by omega)]
      · rfl
    · rw [hh sc after (by simp only [mtoksSize]; omega)]
  · rw [hh sc _ (by simp only [mtoksSize]; omega)]
  · rw [hh sc _ (by simp only [mtoksSize]; omega)]
  · rw [hh sc _ (by omega)]

/-- Above the number of tokens, the bound does not matter. -/
theorem expand_bound : ∀ (n m : Nat) (sc : Scope) (ts : List MTok), mtoksSize ts < n → mtoksSize ts < m → expand dep ev n sc ts = expand dep ev m sc ts
  | 0, _, _, _, hn, _ => by omega
  | _, 0, _, _, _, hm => by omega
  | n + 1, m + 1, sc, ts, hn, hm => by
    have ih : ∀ sc us, mtoksSize us < mtoksSize ts → expand dep ev n sc us = expand dep ev m sc us :=
      fun sc us hu => expand_bound n m sc us (by omega) (by omega)
    cases ts with
    | nil => rfl
    | cons t rest =>
      have hpos := t.size_pos
      have hr : ∀ sc, expand dep ev n sc rest = expand dep ev m sc rest := fun sc => ih sc rest (by simp only [mtoksSize]; omega)
      cases t with
      | op s =>
        by_cases hs : s = ['#']
        · subst hs
          rw [expand_pound, expand_pound]
          refine pound_congr dep ev sc rest ?_
          intro sc us hu
          exact ih sc us (by simp only [mtoksSize, MTok.size]; omega)
        · rw [expand_op dep ev n sc s hs, expand_op dep ev m sc s hs, hr]
      | group d tt => rw [expand_group, expand_group, hr, ih sc tt (by simp only [mtoksSize, MTok.size]; omega)]
      | ident s => rw [expand_ident, expand_ident, hr]
      | under => show catO _ _ = catO _ _; rw [hr]
      | lit s => show catO _ _ = catO _ _; rw [hr]
      | life s => show catO _ _ = catO _ _; rw [hr]

end RJ
