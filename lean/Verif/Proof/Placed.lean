import Verif.Spec.Placed
/- The commands of a scope that runs to its end are where they may be. -/
namespace RJ
open Spec

/-- The word of a command. -/
def cmdWord : Cmd → Word
  | .block _ => .text
  | .defineFn .. => .called "define".toList
  | .define .. => .called "define".toList
  | .flag _ => .called "define".toList
  | .include_ _ => .called "include".toList
  | .quote _ => .called "quote".toList
  | .execute _ => .called "execute".toList
  | .undef _ => .called "undef".toList
  | .ifdef _ => .called "ifdef".toList
  | .ifndef _ => .called "ifndef".toList
  | .if_ _ => .called "if".toList
  | .elif _ => .called "elif".toList
  | .else_ => .plain "else".toList
  | .endif => .plain "endif".toList
  | .foreach .. => .called "foreach".toList
  | .repeat_ _ => .called "foreach".toList
  | .endfor => .plain "endfor".toList
  | .end_ => .plain "end".toList

theorem cmdOf_plain {w : Str} {c : Cmd} (h : cmdOf w none = some c) : cmdWord c = .plain w := by
  simp only [cmdOf] at h
  repeat' split at h
  all_goals first | (cases h; simp_all [cmdWord]; done) | cases h

theorem cmdOf_called {w : Str} {ps : List MTok} {c : Cmd} (h : cmdOf w (some ps) = some c) : cmdWord c = .called w := by
  simp only [cmdOf] at h
  by_cases h1 : w = "define".toList
  · rw [if_pos h1] at h
    subst h1
    split at h
    · obtain ⟨a, _, rfl⟩ := Option.map_eq_some_iff.1 h; rfl
    · cases h; rfl
    · cases h; rfl
    · cases h
  rw [if_neg h1] at h
  by_cases h2 : w = "include".toList
  · rw [if_pos h2] at h; subst h2; cases h; rfl
  rw [if_neg h2] at h
  by_cases h3 : w = "quote".toList
  · rw [if_pos h3] at h; subst h3; cases h; rfl
  rw [if_neg h3] at h
  by_cases h10 : w = "execute".toList
  · rw [if_pos h10] at h; subst h10; cases h; rfl
  rw [if_neg h10] at h
  by_cases h4 : w = "undef".toList
  · rw [if_pos h4] at h; subst h4; split at h <;> cases h; rfl
  rw [if_neg h4] at h
  by_cases h5 : w = "ifdef".toList
  · rw [if_pos h5] at h; subst h5; split at h <;> cases h; rfl
  rw [if_neg h5] at h
  by_cases h6 : w = "ifndef".toList
  · rw [if_pos h6] at h; subst h6; split at h <;> cases h; rfl
  rw [if_neg h6] at h
  by_cases h7 : w = "if".toList
  · rw [if_pos h7] at h; subst h7; cases h; rfl
  rw [if_neg h7] at h
  by_cases h8 : w = "elif".toList
  · rw [if_pos h8] at h; subst h8; cases h; rfl
  rw [if_neg h8] at h
  by_cases h9 : w = "foreach".toList
  · rw [if_pos h9] at h; subst h9; split at h <;> cases h <;> rfl
  rw [if_neg h9] at h
  cases h

theorem words_cmds (ts : List MTok) : ∀ cs, cmdsOf ts = some cs → wordsOf ts = some (cs.map cmdWord) := by
  fun_induction cmdsOf ts with
  | case1 => intro cs h; cases h; rfl
  | case2 name ps rest ih =>
    intro cs h
    cases e : cmdOf name (some ps) with
    | none => rw [e] at h; cases h
    | some c =>
      rw [e] at h
      obtain ⟨l, h1, rfl⟩ := Option.map_eq_some_iff.1 h
      simp [wordsOf, ih l h1, cmdOf_called e]
  | case3 name rest hn ih =>
    intro cs h
    cases e : cmdOf name none with
    | none => rw [e] at h; cases h
    | some c =>
      rw [e] at h
      obtain ⟨l, h1, rfl⟩ := Option.map_eq_some_iff.1 h
      rw [wordsOf]
      · simp [ih l h1, cmdOf_plain e]
      · exact hn
  | case4 tt rest ih =>
    intro cs h
    obtain ⟨l, h1, rfl⟩ := Option.map_eq_some_iff.1 h
    simp [wordsOf, ih l h1, cmdWord]
  | case5 => intro cs h; cases h

/-- What the words so far tell about the state. -/
structure Tells (p : List Word) (st : ScopeSt) : Prop where
  live : .plain "end".toList ∈ p → st.ended = true
  opened : st.inIf = true → ∃ a o b, p = a ++ o :: b ∧ o.Opens ∧ .plain "endif".toList ∉ b
  looped : st.iter.isSome = true → ∃ a b, p = a ++ .called "foreach".toList :: b ∧ ∀ x ∈ b, x = .text
  within : ∀ a b, p = a ++ .called "foreach".toList :: b → .plain "endfor".toList ∉ b → st.iter.isSome = true

theorem snoc_split {α : Type} {p : List α} {w : α} {a : List α} {o : α} {b : List α} (h : p ++ [w] = a ++ o :: b) :
    (a = p ∧ o = w ∧ b = []) ∨ ∃ b', b = b' ++ [w] ∧ p = a ++ o :: b' := by
  rcases List.eq_nil_or_concat b with rfl | ⟨b', x, rfl⟩
  · have := List.append_inj' h rfl
    obtain ⟨rfl, h2⟩ := this
    cases h2
    exact .inl ⟨rfl, rfl, rfl⟩
  · have h' : p ++ [w] = (a ++ o :: b') ++ [x] := by simpa using h
    obtain ⟨rfl, h2⟩ := List.append_inj' h' rfl
    cases h2
    exact .inr ⟨b', by simp, rfl⟩

section
variable {p : List Word} {st st' : ScopeSt} {w : Word}

/-- A word that neither opens, closes nor loops. -/
theorem Tells.quiet (h : Tells p st) (h1 : st'.ended = st.ended) (h2 : st'.inIf = st.inIf) (h3 : st'.iter.isSome = st.iter.isSome)
    (n1 : w ≠ .plain "end".toList) (n2 : w ≠ .plain "endif".toList) (n3 : w = .text ∨ st.iter.isSome = false) (n4 : w ≠ .called "foreach".toList) (n5 : w ≠ .plain "endfor".toList) :
    Tells (p ++ [w]) st' where
  live := by
    intro hm
    rw [h1]
    refine h.live ?_
    rcases List.mem_append.1 hm with hm | hm
    · exact hm
    · exact absurd (List.mem_singleton.1 hm).symm n1
  opened := by
    intro ho
    rw [h2] at ho
    obtain ⟨a, o, b, rfl, h4, h5⟩ := h.opened ho
    refine ⟨a, o, b ++ [w], by simp, h4, ?_⟩
    intro hm
    rcases List.mem_append.1 hm with hm | hm
    · exact h5 hm
    · exact n2 (List.mem_singleton.1 hm).symm
  looped := by
    intro ho
    rw [h3] at ho
    rcases n3 with rfl | n3
    · obtain ⟨a, b, rfl, h4⟩ := h.looped ho
      refine ⟨a, b ++ [.text], by simp, ?_⟩
      intro x hx
      rcases List.mem_append.1 hx with hx | hx
      · exact h4 x hx
      · exact List.mem_singleton.1 hx
    · rw [n3] at ho; cases ho
  within := by
    intro a b e hb
    rw [h3]
    rcases snoc_split e with ⟨_, h4, _⟩ | ⟨b', rfl, e'⟩
    · exact absurd h4.symm n4
    · exact h.within a b' e' (fun hm => hb (List.mem_append.2 (.inl hm)))

/-- A loop not open. -/
theorem Tells.noloop (h : Tells p st) (hi : st.iter.isSome = false) {a b : List Word} (e : p = a ++ .called "foreach".toList :: b) : .plain "endfor".toList ∈ b := by
  by_cases hb : Word.plain "endfor".toList ∈ b
  · exact hb
  · rw [h.within a b e hb] at hi; cases hi

/-- An `#if`. -/
theorem Tells.opens (h : Tells p st) (h1 : st'.ended = st.ended) (hi : st.iter.isSome = false) (h3 : st'.iter = st.iter) (ho : w.Opens) : Tells (p ++ [w]) st' where
  live := by
    intro hm
    rw [h1]
    rcases List.mem_append.1 hm with hm | hm
    · exact h.live hm
    · rw [← List.mem_singleton.1 hm] at ho; exact ho.elim
  opened := fun _ => ⟨p, w, [], rfl, ho, by simp⟩
  looped := by intro h4; rw [h3, hi] at h4; cases h4
  within := by
    intro a b e hb
    rcases snoc_split e with ⟨_, h4, _⟩ | ⟨b', rfl, e'⟩
    · rw [← h4] at ho; revert ho; simp [Word.Opens]
    · exact absurd (h.noloop hi e') (fun hm => hb (List.mem_append.2 (.inl hm)))

/-- An `#endif`. -/
theorem Tells.closes (h : Tells p st) (h1 : st'.ended = st.ended) (h2 : st'.inIf = false) (hi : st.iter.isSome = false) (h3 : st'.iter = st.iter) : Tells (p ++ [.plain "endif".toList]) st' where
  live := by
    intro hm
    rw [h1]
    rcases List.mem_append.1 hm with hm | hm
    · exact h.live hm
    · exact absurd (List.mem_singleton.1 hm) (by simp)
  opened := by intro h4; rw [h2] at h4; cases h4
  looped := by intro h4; rw [h3, hi] at h4; cases h4
  within := by
    intro a b e hb
    rcases snoc_split e with ⟨_, h4, _⟩ | ⟨b', rfl, e'⟩
    · cases h4
    · exact absurd (h.noloop hi e') (fun hm => hb (List.mem_append.2 (.inl hm)))

/-- A `#foreach`. -/
theorem Tells.loops (h : Tells p st) (h1 : st'.ended = st.ended) (h2 : st'.inIf = st.inIf) (h3 : st'.iter.isSome = true) : Tells (p ++ [.called "foreach".toList]) st' where
  live := by
    intro hm
    rw [h1]
    rcases List.mem_append.1 hm with hm | hm
    · exact h.live hm
    · cases List.mem_singleton.1 hm
  opened := by
    intro ho
    rw [h2] at ho
    obtain ⟨a, o, b, rfl, h4, h5⟩ := h.opened ho
    refine ⟨a, o, b ++ [.called "foreach".toList], by simp, h4, ?_⟩
    intro hm
    rcases List.mem_append.1 hm with hm | hm
    · exact h5 hm
    · cases List.mem_singleton.1 hm
  looped := fun _ => ⟨p, [], rfl, by simp⟩
  within := fun _ _ _ _ => h3

/-- An `#endfor`. -/
theorem Tells.unloops (h : Tells p st) (h1 : st'.ended = st.ended) (h2 : st'.inIf = st.inIf) (h3 : st'.iter = none) : Tells (p ++ [.plain "endfor".toList]) st' where
  live := by
    intro hm
    rw [h1]
    rcases List.mem_append.1 hm with hm | hm
    · exact h.live hm
    · exact absurd (List.mem_singleton.1 hm) (by simp)
  opened := by
    intro ho
    rw [h2] at ho
    obtain ⟨a, o, b, rfl, h4, h5⟩ := h.opened ho
    refine ⟨a, o, b ++ [.plain "endfor".toList], by simp, h4, ?_⟩
    intro hm
    rcases List.mem_append.1 hm with hm | hm
    · exact h5 hm
    · exact absurd (List.mem_singleton.1 hm) (by simp)
  looped := by intro h4; rw [h3] at h4; cases h4
  within := by
    intro a b e hb
    rcases snoc_split e with ⟨_, h4, _⟩ | ⟨b', rfl, e'⟩
    · cases h4
    · exact absurd (List.mem_append.2 (.inr (List.mem_singleton.2 rfl))) hb

end

theorem runCmds_ended {ev : Ev} {ex : Scope → List MTok → Option (List QTok)} {tr : QMap → List QTok → QOut} {sc : Scope} {st : ScopeSt} {cs : List Cmd} {out : List QTok}
    (h : runCmds ev ex tr sc st cs = some out) (he : st.ended = true) : cs = [] := by
  cases cs with
  | nil => rfl
  | cons c cs => simp [runCmds, runCmd, he] at h

/-- One command that runs stands where it may. -/
theorem cmd_placed {ev : Ev} {ex : Scope → List MTok → Option (List QTok)} {tr : QMap → List QTok → QOut} {sc : Scope} {p : List Word} {st st' : ScopeSt} {c : Cmd} {out : List QTok}
    (ht : Tells p st) (h : runCmd ev ex tr sc st c = some (st', out)) : MayFollow p (cmdWord c) ∧ (st'.ended = true ∨ Tells (p ++ [cmdWord c]) st') := by
  have he : st.ended = false := by
    cases e : st.ended with
    | false => rfl
    | true => simp [runCmd, e] at h
  have hlive : Word.plain "end".toList ∉ p := fun hm => by rw [ht.live hm] at he; cases he
  have hknown : (cmdWord c).Known := by cases c <;> simp [cmdWord, Word.Known]
  have none_in : st.iter.isSome = false → ∀ a b, p = a ++ .called "foreach".toList :: b → .plain "endfor".toList ∉ b → cmdWord c = .text ∨ cmdWord c = .plain "endfor".toList ∨ cmdWord c = .plain "end".toList := by
    intro hi a b e hb
    exact absurd (ht.noloop hi e) hb
  unfold runCmd at h
  rw [if_neg (by rw [he]; decide)] at h
  cases c with
  | block tt =>
    obtain ⟨o, _, e⟩ := Option.map_eq_some_iff.1 h
    cases e
    exact ⟨⟨hknown, hlive, by simp [cmdWord, Word.Continues], by simp [cmdWord], fun _ _ _ _ => .inl rfl⟩,
      .inr (ht.quiet rfl rfl rfl (by simp [cmdWord]) (by simp [cmdWord]) (.inl rfl) (by simp [cmdWord]) (by simp [cmdWord]))⟩
  | end_ =>
    cases h
    exact ⟨⟨hknown, hlive, by simp [cmdWord, Word.Continues], by simp [cmdWord], fun _ _ _ _ => .inr (.inr rfl)⟩, .inl rfl⟩
  | endfor =>
    by_cases hn : st.iter.isNone
    · simp [hn] at h
    · simp only [hn] at h
      cases h
      have hs : st.iter.isSome = true := by cases e : st.iter <;> simp_all
      exact ⟨⟨hknown, hlive, by simp [cmdWord, Word.Continues], fun _ => ht.looped hs, fun _ _ _ _ => .inr (.inl rfl)⟩, .inr (ht.unloops rfl rfl rfl)⟩
  | endif =>
    by_cases hn : st.iter.isSome || !st.inIf
    · simp [hn] at h
    · simp only [hn] at h
      cases h
      simp only [Bool.or_eq_true, Bool.not_eq_true', not_or, Bool.not_eq_true, Bool.not_eq_false] at hn
      exact ⟨⟨hknown, hlive, fun _ => ht.opened hn.2, by simp [cmdWord], none_in hn.1⟩, .inr (ht.closes rfl rfl hn.1 rfl)⟩
  | else_ =>
    by_cases hn : st.iter.isSome || !st.inIf
    · simp [hn] at h
    · simp only [hn] at h
      cases h
      simp only [Bool.or_eq_true, Bool.not_eq_true', not_or, Bool.not_eq_true, Bool.not_eq_false] at hn
      exact ⟨⟨hknown, hlive, fun _ => ht.opened hn.2, by simp [cmdWord], none_in hn.1⟩,
        .inr (ht.quiet rfl rfl rfl (by simp [cmdWord]) (by simp [cmdWord]) (.inr hn.1) (by simp [cmdWord]) (by simp [cmdWord]))⟩
  | elif t =>
    by_cases hn : st.iter.isSome || !st.inIf
    · simp [hn] at h
    · dsimp only at h
      rw [if_neg hn] at h
      split at h
      · cases h
        simp only [Bool.or_eq_true, Bool.not_eq_true', not_or, Bool.not_eq_true, Bool.not_eq_false] at hn
        exact ⟨⟨hknown, hlive, fun _ => ht.opened hn.2, by simp [cmdWord], none_in hn.1⟩,
          .inr (ht.quiet rfl rfl rfl (by simp [cmdWord]) (by simp [cmdWord]) (.inr hn.1) (by simp [cmdWord]) (by simp [cmdWord]))⟩
      · cases h
  | foreach t x =>
    by_cases hi : st.iter.isSome = true
    · simp [hi] at h
    · simp only [hi] at h
      have hi' : st.iter.isSome = false := by simpa using hi
      rw [if_neg (by decide)] at h
      split at h
      · cases h
        exact ⟨⟨hknown, hlive, by simp [cmdWord, Word.Continues], by simp [cmdWord], none_in hi'⟩, .inr (ht.loops rfl rfl rfl)⟩
      · cases h
  | repeat_ t =>
    by_cases hi : st.iter.isSome = true
    · simp [hi] at h
    · simp only [hi] at h
      have hi' : st.iter.isSome = false := by simpa using hi
      rw [if_neg (by decide)] at h
      split at h
      · cases h
        exact ⟨⟨hknown, hlive, by simp [cmdWord, Word.Continues], by simp [cmdWord], none_in hi'⟩, .inr (ht.loops rfl rfl rfl)⟩
      · cases h
  | if_ t =>
    by_cases hi : st.iter.isSome = true
    · simp [hi] at h
    · simp only [hi] at h
      have hi' : st.iter.isSome = false := by simpa using hi
      rw [if_neg (by decide)] at h
      split at h
      · cases h
        exact ⟨⟨hknown, hlive, by simp [cmdWord, Word.Continues], by simp [cmdWord], none_in hi'⟩, .inr (ht.opens rfl hi' rfl (by simp [cmdWord, Word.Opens]))⟩
      · cases h
  | ifdef x =>
    by_cases hi : st.iter.isSome = true
    · simp [hi] at h
    · simp only [hi] at h
      have hi' : st.iter.isSome = false := by simpa using hi
      cases h
      exact ⟨⟨hknown, hlive, by simp [cmdWord, Word.Continues], by simp [cmdWord], none_in hi'⟩, .inr (ht.opens rfl hi' rfl (by simp [cmdWord, Word.Opens]))⟩
  | ifndef x =>
    by_cases hi : st.iter.isSome = true
    · simp [hi] at h
    · simp only [hi] at h
      have hi' : st.iter.isSome = false := by simpa using hi
      cases h
      exact ⟨⟨hknown, hlive, by simp [cmdWord, Word.Continues], by simp [cmdWord], none_in hi'⟩, .inr (ht.opens rfl hi' rfl (by simp [cmdWord, Word.Opens]))⟩
  | _ =>
    by_cases hi : st.iter.isSome = true
    · simp [hi] at h
    · simp only [hi] at h
      have hi' : st.iter.isSome = false := by simpa using hi
      rw [if_neg (by decide)] at h
      have same : st'.ended = st.ended ∧ st'.inIf = st.inIf ∧ st'.iter.isSome = st.iter.isSome := by
        split at h
        · first
            | (cases h; exact ⟨rfl, rfl, rfl⟩)
            | (obtain ⟨o, _, e⟩ := Option.map_eq_some_iff.1 h; cases e; exact ⟨rfl, rfl, rfl⟩)
            | (split at h
               · obtain ⟨o, _, e⟩ := Option.map_eq_some_iff.1 h; cases e; exact ⟨rfl, rfl, rfl⟩
               · cases h)
        · cases h; exact ⟨rfl, rfl, rfl⟩
      exact ⟨⟨hknown, hlive, by simp [cmdWord, Word.Continues], by simp [cmdWord], none_in hi'⟩,
        .inr (ht.quiet same.1 same.2.1 same.2.2 (by simp [cmdWord]) (by simp [cmdWord]) (.inr hi') (by simp [cmdWord]) (by simp [cmdWord]))⟩

theorem cmds_placed {ev : Ev} {ex : Scope → List MTok → Option (List QTok)} {tr : QMap → List QTok → QOut} {sc : Scope} : ∀ (cs : List Cmd) (p0 : List Word) (st : ScopeSt) (out : List QTok),
    Tells p0 st → runCmds ev ex tr sc st cs = some out → ∀ p w q, cs.map cmdWord = p ++ w :: q → MayFollow (p0 ++ p) w
  | [], _, _, _, _, _, p, w, q, e => by simp at e
  | c :: cs, p0, st, out, ht, h, p, w, q, e => by
    rw [runCmds] at h
    cases h1 : runCmd ev ex tr sc st c with
    | none => rw [h1] at h; cases h
    | some r =>
      obtain ⟨st', o⟩ := r
      rw [h1] at h
      simp only [Option.map_eq_some_iff] at h
      obtain ⟨o', h2, _⟩ := h
      obtain ⟨h3, h4⟩ := cmd_placed ht h1
      cases p with
      | nil => simp only [List.map_cons, List.nil_append, List.cons.injEq] at e; rw [← e.1, List.append_nil]; exact h3
      | cons x p =>
        simp only [List.map_cons, List.cons_append, List.cons.injEq] at e
        obtain ⟨rfl, e⟩ := e
        rcases h4 with h4 | h4
        · rw [runCmds_ended h2 h4] at e; simp at e
        · have := cmds_placed cs _ st' o' h4 h2 p w q e
          simpa using this

theorem tells_init : Tells [] ScopeSt.init where
  live := by simp
  opened := by simp [ScopeSt.init]
  looped := by simp [ScopeSt.init]
  within := by simp

end RJ
