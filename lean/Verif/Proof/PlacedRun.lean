import Verif.Proof.Placed
import Verif.Proof.MacroScope
/- Well-placed commands run. -/
namespace RJ
open Spec

/-! ### Texts without `#` -/

theorem hashFree_remain : ∀ ts : List QTok, HashFree ts → remain ts = false
  | [], _ => rfl
  | [_], _ => rfl
  | t :: u :: ts, h => by
    rw [remain.eq_def]
    dsimp only
    rw [hashFree_remain (u :: ts) h.2, Bool.or_false]
    have : t.isPunct '#' = false := by
      cases e : t.isPunct '#' with
      | false => rfl
      | true =>
        have h1 := (isPunct_hash t).1 e
        cases t with
        | punct c j => exact absurd h1 h.1
        | _ => exact h1.elim
    rw [this]; rfl

theorem hashFree_same : ∀ (ts : List QTok), HashFree ts → ∀ n m, depth ts < n → translate n m ts = .ok ts := by
  have pass : ∀ (ts : List QTok), HashFree ts → ∀ (tr : QMap → List QTok → QOut) m, (∀ d g, QTok.group d g ∈ ts → tr m g = .ok g) → translatePass tr m false ts = .ok ts := by
    intro ts
    induction ts with
    | nil => intro _ tr m _; rfl
    | cons t r ih =>
      intro h tr m hg
      have hr := ih h.2 tr m (fun d g hm => hg d g (by simp [hm]))
      cases t with
      | group d g =>
        rw [translatePass, hg d g (by simp)]
        simp only [QOut.bind, hr]
      | punct c j =>
        have hc : c ≠ '#' := h.1
        rw [translatePass.eq_def]
        split
        · rename_i e; cases e
        · rename_i e _; cases e
        · rename_i e
          cases e
          split
          · rename_i e; cases e; exact absurd rfl hc
          · rename_i e; cases e
          · simp only [QOut.bind, hr]
      | ident s => simp only [translatePass, QOut.bind, hr]
      | lit s => simp only [translatePass, QOut.bind, hr]
  have mem : ∀ (ts : List QTok), HashFree ts → ∀ d g, QTok.group d g ∈ ts → HashFree g := by
    intro ts
    induction ts with
    | nil => intro _ d g hm; cases hm
    | cons t r ih =>
      intro h d g hm
      rcases List.mem_cons.1 hm with e | hm
      · rw [← e] at h; exact h.1
      · exact ih h.2 d g hm
  intro ts h n
  induction n generalizing ts with
  | zero => intro m hd; omega
  | succ n ih =>
    intro m hd
    rw [translate, pass ts h (translate n) m (fun d g hm => ih g (mem ts h d g hm) m (by have := depth_mem ts d g hm; omega))]
    simp only [QOut.bind]
    rw [if_neg (by rw [hashFree_remain ts h]; decide)]

theorem each_same {ts : List QTok} (h : HashFree ts) {n : Nat} (hn : depth ts < n) (x : Str) : ∀ (vs : List (List QTok)) (m : QMap), ∃ out, eachTranslate (translate n) ts x m vs = .ok out
  | [], m => ⟨[], rfl⟩
  | v :: vs, m => by
    obtain ⟨o, ho⟩ := each_same h hn x vs (mapInsert x v m)
    refine ⟨ts ++ o, ?_⟩
    rw [eachTranslate, hashFree_same ts h n _ hn]
    simp only [QOut.bind, ho]

/-! ### Commands -/

/-- A command that can fail only by standing where it may not. -/
def Smooth (ev : Ev) (sc : Scope) (n : Nat) : Cmd → Prop
  | .block tt => HashFree (codeAll tt) ∧ depth (codeAll tt) < n
  | .if_ e => ∃ b, ev sc e = some (.bool b)
  | .elif e => ∃ b, ev sc e = some (.bool b)
  | .execute e => ∃ v, ev sc e = some v
  | .foreach e _ => ∃ vs, elements ev sc e = some vs
  | .repeat_ e => ∃ k, rounds ev sc e = some k
  | .defineFn .. => False
  | .define .. => False
  | .include_ _ => False
  | .quote _ => False
  | _ => True

theorem Smooth.mono {ev : Ev} {sc : Scope} {n k : Nat} (hk : n ≤ k) {c : Cmd} (h : Smooth ev sc n c) : Smooth ev sc k c := by
  cases c <;> first | exact h | exact ⟨h.1, Nat.lt_of_lt_of_le h.2 hk⟩

theorem called_good {ev : Ev} {sc : Scope} {w : Str} {ps : List MTok} (h : GoodCall ev sc w ps) : ∃ c, cmdOf w (some ps) = some c ∧ ∀ n, Smooth ev sc n c := by
  rcases h with ⟨hw, x, rfl⟩ | ⟨hw, hb⟩ | ⟨rfl, hv⟩ | ⟨rfl, h⟩
  · simp only [List.mem_cons, List.not_mem_nil, or_false] at hw
    rcases hw with rfl | rfl | rfl | rfl
    · exact ⟨.flag x, by simp [cmdOf], fun _ => trivial⟩
    · exact ⟨.undef x, by simp [cmdOf], fun _ => trivial⟩
    · exact ⟨.ifdef x, by simp [cmdOf], fun _ => trivial⟩
    · exact ⟨.ifndef x, by simp [cmdOf], fun _ => trivial⟩
  · simp only [List.mem_cons, List.not_mem_nil, or_false] at hw
    rcases hw with rfl | rfl
    · exact ⟨.if_ ps, by simp [cmdOf], fun _ => hb⟩
    · exact ⟨.elif ps, by simp [cmdOf], fun _ => hb⟩
  · exact ⟨.execute ps, by simp [cmdOf], fun _ => hv⟩
  · rcases h with ⟨e, x, vs, rfl, hv⟩ | ⟨hn, hk⟩
    · exact ⟨.foreach e x, by simp [cmdOf], fun _ => ⟨vs, hv⟩⟩
    · refine ⟨.repeat_ ps, ?_, fun _ => hk⟩
      simp only [cmdOf]
      rw [if_neg (by decide), if_neg (by decide), if_neg (by decide), if_neg (by decide), if_neg (by decide), if_neg (by decide), if_neg (by decide), if_neg (by decide), if_neg (by decide), if_pos trivial]
      split
      · rename_i x d e
        refine absurd ?_ (hn d.reverse x)
        have := congrArg List.reverse e
        simpa using this
      · rfl

theorem plain_good {ev : Ev} {sc : Scope} {w : Str} (h : (Word.plain w).Known) : ∃ c, cmdOf w none = some c ∧ ∀ n, Smooth ev sc n c := by
  simp only [Word.Known, List.mem_cons, List.not_mem_nil, or_false] at h
  rcases h with rfl | rfl | rfl | rfl
  · exact ⟨.else_, by simp [cmdOf], fun _ => trivial⟩
  · exact ⟨.endif, by simp [cmdOf], fun _ => trivial⟩
  · exact ⟨.endfor, by simp [cmdOf], fun _ => trivial⟩
  · exact ⟨.end_, by simp [cmdOf], fun _ => trivial⟩

theorem pieces_good {ev : Ev} {sc : Scope} (ts : List MTok) : GoodPieces ev sc ts → ∀ ws, wordsOf ts = some ws → (∀ w ∈ ws, w.Known) →
    ∃ cs n0, cmdsOf ts = some cs ∧ cs.map cmdWord = ws ∧ ∀ c ∈ cs, Smooth ev sc n0 c := by
  fun_induction GoodPieces ev sc ts with
  | case1 => intro _ ws h _; cases h; exact ⟨[], 0, rfl, rfl, by simp⟩
  | case2 w ps rest ih =>
    intro hg ws h hk
    simp only [wordsOf] at h
    obtain ⟨l, h1, rfl⟩ := Option.map_eq_some_iff.1 h
    obtain ⟨cs, n0, h2, h3, h4⟩ := ih hg.2 l h1 (fun x hx => hk x (by simp [hx]))
    obtain ⟨c, h5, h6⟩ := called_good hg.1
    refine ⟨c :: cs, n0, ?_, by rw [List.map_cons, h3, cmdOf_called h5], ?_⟩
    · simp [cmdsOf, h5, h2]
    · intro d hd
      rcases List.mem_cons.1 hd with rfl | hd
      · exact h6 n0
      · exact h4 d hd
  | case3 w rest hn ih =>
    intro hg ws h hk
    rw [wordsOf] at h
    · obtain ⟨l, h1, rfl⟩ := Option.map_eq_some_iff.1 h
      obtain ⟨cs, n0, h2, h3, h4⟩ := ih hg l h1 (fun x hx => hk x (by simp [hx]))
      obtain ⟨c, h5, h6⟩ := plain_good (ev := ev) (sc := sc) (hk (.plain w) (by simp))
      refine ⟨c :: cs, n0, ?_, by rw [List.map_cons, h3, cmdOf_plain h5], ?_⟩
      · rw [cmdsOf]
        · simp [h5, h2]
        · exact hn
      · intro d hd
        rcases List.mem_cons.1 hd with rfl | hd
        · exact h6 n0
        · exact h4 d hd
    · exact hn
  | case4 tt rest ih =>
    intro hg ws h hk
    simp only [wordsOf] at h
    obtain ⟨l, h1, rfl⟩ := Option.map_eq_some_iff.1 h
    obtain ⟨cs, n0, h2, h3, h4⟩ := ih hg.2 l h1 (fun x hx => hk x (by simp [hx]))
    refine ⟨.block tt :: cs, max n0 (depth (codeAll tt) + 1), by simp [cmdsOf, h2], by simp [h3, cmdWord], ?_⟩
    intro d hd
    rcases List.mem_cons.1 hd with rfl | hd
    · exact ⟨hg.1, by omega⟩
    · exact (h4 d hd).mono (by omega)
  | case5 => intro hg; exact hg.elim

/-- What the state tells about the words so far. -/
structure Shows (p : List Word) (st : ScopeSt) : Prop where
  live : st.ended = true → .plain "end".toList ∈ p
  opened : ∀ a o b, p = a ++ o :: b → o.Opens → .plain "endif".toList ∉ b → st.inIf = true
  looped : ∀ a b, p = a ++ .called "foreach".toList :: b → (∀ x ∈ b, x = .text) → st.iter.isSome = true
  within : st.iter.isSome = true → ∃ a b, p = a ++ .called "foreach".toList :: b ∧ .plain "endfor".toList ∉ b

theorem shows_init : Shows [] ScopeSt.init where
  live := by simp [ScopeSt.init]
  opened := by simp
  looped := by simp
  within := by simp [ScopeSt.init]

section
variable {p : List Word} {st st' : ScopeSt} {w : Word}

theorem Shows.next (h : Shows p st)
    (h1 : st'.ended = true → st.ended = true ∨ w = .plain "end".toList)
    (h2 : w.Opens ∨ (w ≠ .plain "endif".toList ∧ st.inIf = true) → st'.inIf = true)
    (h3 : w = .called "foreach".toList ∨ (w = .text ∧ st.iter.isSome = true) → st'.iter.isSome = true)
    (h4 : st'.iter.isSome = true → w = .called "foreach".toList ∨ (st.iter.isSome = true ∧ w ≠ .plain "endfor".toList)) : Shows (p ++ [w]) st' where
  live := by
    intro he
    rcases h1 he with h1 | h1
    · exact List.mem_append.2 (.inl (h.live h1))
    · exact List.mem_append.2 (.inr (by simp [h1]))
  opened := by
    intro a o b e ho hb
    rcases snoc_split e with ⟨_, h5, _⟩ | ⟨b', rfl, e'⟩
    · exact h2 (.inl (h5 ▸ ho))
    · refine h2 (.inr ⟨fun hw => hb (by rw [hw]; simp), h.opened a o b' e' ho (fun hm => hb (List.mem_append.2 (.inl hm)))⟩)
  looped := by
    intro a b e hb
    rcases snoc_split e with ⟨_, h5, _⟩ | ⟨b', rfl, e'⟩
    · exact h3 (.inl h5.symm)
    · exact h3 (.inr ⟨hb w (by simp), h.looped a b' e' (fun x hx => hb x (by simp [hx]))⟩)
  within := by
    intro hi
    rcases h4 hi with h5 | ⟨h5, h6⟩
    · exact ⟨p, [], by rw [h5], by simp⟩
    · obtain ⟨a, b, rfl, hb⟩ := h.within h5
      refine ⟨a, b ++ [w], by simp, ?_⟩
      intro hm
      rcases List.mem_append.1 hm with hm | hm
      · exact hb hm
      · exact h6 (List.mem_singleton.1 hm).symm
end

theorem cmd_runs {ev : Ev} {ex : Scope → List MTok → Option (List QTok)} {sc : Scope} {n : Nat} {p : List Word} {st : ScopeSt} {c : Cmd}
    (hs : Shows p st) (hc : Smooth ev sc n c) (hm : MayFollow p (cmdWord c)) : ∃ st' out, runCmd ev ex (translate n) sc st c = some (st', out) ∧ Shows (p ++ [cmdWord c]) st' := by
  have he : st.ended = false := by
    cases e : st.ended with
    | false => rfl
    | true => exact absurd (hs.live e) hm.live
  have hout : cmdWord c ≠ .text → cmdWord c ≠ .plain "endfor".toList → cmdWord c ≠ .plain "end".toList → st.iter.isSome = false := by
    intro h1 h2 h3
    cases e : st.iter.isSome with
    | false => rfl
    | true =>
      obtain ⟨a, b, h4, h5⟩ := hs.within e
      rcases hm.within a b h4 h5 with h6 | h6 | h6
      · exact absurd h6 h1
      · exact absurd h6 h2
      · exact absurd h6 h3
  have hopen : (cmdWord c).Continues → st.inIf = true := by
    intro h
    obtain ⟨a, o, b, h1, h2, h3⟩ := hm.opened h
    exact hs.opened a o b h1 h2 h3
  unfold runCmd
  rw [if_neg (by rw [he]; decide)]
  cases c with
  | block tt =>
    have : ∃ o, runBlock (translate n) st tt = .ok o := by
      unfold runBlock
      rw [lex_code.2]
      by_cases ho : st.on = true
      · rw [if_pos ho]
        split
        · exact each_same hc.1 hc.2 _ _ _
        · exact ⟨_, hashFree_same _ hc.1 n _ hc.2⟩
      · rw [if_neg ho]; exact ⟨[], rfl⟩
    obtain ⟨o, ho⟩ := this
    refine ⟨st, o, by simp [ho, QOut.get], hs.next .inl ?_ ?_ ?_⟩
    · exact fun h => h.elim (fun h => h.elim) (fun h => h.2)
    · exact fun h => h.elim (fun h => (nomatch h)) (fun h => h.2)
    · intro h; exact .inr ⟨h, by simp [cmdWord]⟩
  | defineFn f a tt => exact hc.elim
  | define x tt => exact hc.elim
  | include_ e => exact hc.elim
  | quote tt => exact hc.elim
  | flag x =>
    have hi := hout (by simp [cmdWord]) (by simp [cmdWord]) (by simp [cmdWord])
    dsimp only
    rw [if_neg (by rw [hi]; decide)]
    by_cases ho : st.on = true
    · rw [if_pos ho]
      refine ⟨_, _, rfl, hs.next .inl ?_ ?_ ?_⟩
      · exact fun h => h.elim (fun h => by simp [cmdWord, Word.Opens] at h) (fun h => h.2)
      · exact fun h => h.elim (fun h => by simp [cmdWord] at h) (fun h => h.2)
      · intro h; exact .inr ⟨h, by simp [cmdWord]⟩
    · rw [if_neg ho]
      refine ⟨_, _, rfl, hs.next .inl ?_ ?_ ?_⟩
      · exact fun h => h.elim (fun h => by simp [cmdWord, Word.Opens] at h) (fun h => h.2)
      · exact fun h => h.elim (fun h => by simp [cmdWord] at h) (fun h => h.2)
      · intro h; exact .inr ⟨h, by simp [cmdWord]⟩
  | execute stmt =>
    have hi := hout (by simp [cmdWord]) (by simp [cmdWord]) (by simp [cmdWord])
    dsimp only
    rw [if_neg (by rw [hi]; decide)]
    by_cases ho : st.on = true
    · obtain ⟨v, hv⟩ := hc
      rw [if_pos ho, hv]
      refine ⟨_, _, rfl, hs.next .inl ?_ ?_ ?_⟩
      · exact fun h => h.elim (fun h => by simp [cmdWord, Word.Opens] at h) (fun h => h.2)
      · exact fun h => h.elim (fun h => by simp [cmdWord] at h) (fun h => h.2)
      · intro h; exact .inr ⟨h, by simp [cmdWord]⟩
    · rw [if_neg ho]
      refine ⟨_, _, rfl, hs.next .inl ?_ ?_ ?_⟩
      · exact fun h => h.elim (fun h => by simp [cmdWord, Word.Opens] at h) (fun h => h.2)
      · exact fun h => h.elim (fun h => by simp [cmdWord] at h) (fun h => h.2)
      · intro h; exact .inr ⟨h, by simp [cmdWord]⟩
  | undef x =>
    have hi := hout (by simp [cmdWord]) (by simp [cmdWord]) (by simp [cmdWord])
    dsimp only
    rw [if_neg (by rw [hi]; decide)]
    by_cases ho : st.on = true
    · rw [if_pos ho]
      refine ⟨_, _, rfl, hs.next .inl ?_ ?_ ?_⟩
      · exact fun h => h.elim (fun h => by simp [cmdWord, Word.Opens] at h) (fun h => h.2)
      · exact fun h => h.elim (fun h => by simp [cmdWord] at h) (fun h => h.2)
      · intro h; exact .inr ⟨h, by simp [cmdWord]⟩
    · rw [if_neg ho]
      refine ⟨_, _, rfl, hs.next .inl ?_ ?_ ?_⟩
      · exact fun h => h.elim (fun h => by simp [cmdWord, Word.Opens] at h) (fun h => h.2)
      · exact fun h => h.elim (fun h => by simp [cmdWord] at h) (fun h => h.2)
      · intro h; exact .inr ⟨h, by simp [cmdWord]⟩
  | ifdef x =>
    have hi := hout (by simp [cmdWord]) (by simp [cmdWord]) (by simp [cmdWord])
    dsimp only
    rw [if_neg (by rw [hi]; decide)]
    refine ⟨_, _, rfl, hs.next .inl (fun _ => rfl) ?_ ?_⟩
    · exact fun h => h.elim (fun h => by simp [cmdWord] at h) (fun h => h.2)
    · intro h; exact .inr ⟨h, by simp [cmdWord]⟩
  | ifndef x =>
    have hi := hout (by simp [cmdWord]) (by simp [cmdWord]) (by simp [cmdWord])
    dsimp only
    rw [if_neg (by rw [hi]; decide)]
    refine ⟨_, _, rfl, hs.next .inl (fun _ => rfl) ?_ ?_⟩
    · exact fun h => h.elim (fun h => by simp [cmdWord] at h) (fun h => h.2)
    · intro h; exact .inr ⟨h, by simp [cmdWord]⟩
  | if_ e =>
    have hi := hout (by simp [cmdWord]) (by simp [cmdWord]) (by simp [cmdWord])
    dsimp only
    rw [if_neg (by rw [hi]; decide)]
    obtain ⟨b, hb⟩ := hc
    rw [hb]
    refine ⟨_, _, rfl, hs.next .inl (fun _ => rfl) ?_ ?_⟩
    · exact fun h => h.elim (fun h => by simp [cmdWord] at h) (fun h => h.2)
    · intro h; exact .inr ⟨h, by simp [cmdWord]⟩
  | elif e =>
    have hi := hout (by simp [cmdWord]) (by simp [cmdWord]) (by simp [cmdWord])
    have hf := hopen rfl
    dsimp only
    rw [if_neg (by rw [hi, hf]; decide)]
    obtain ⟨b, hb⟩ := hc
    rw [hb]
    refine ⟨_, _, rfl, hs.next .inl (fun _ => hf) ?_ ?_⟩
    · exact fun h => h.elim (fun h => by simp [cmdWord] at h) (fun h => h.2)
    · intro h; exact .inr ⟨h, by simp [cmdWord]⟩
  | else_ =>
    have hi := hout (by simp [cmdWord]) (by simp [cmdWord]) (by simp [cmdWord])
    have hf := hopen (.inl rfl)
    dsimp only
    rw [if_neg (by rw [hi, hf]; decide)]
    refine ⟨_, _, rfl, hs.next .inl (fun _ => hf) ?_ ?_⟩
    · exact fun h => h.elim (fun h => (nomatch h)) (fun h => h.2)
    · intro h; exact .inr ⟨h, by simp [cmdWord]⟩
  | endif =>
    have hi := hout (by simp [cmdWord]) (by simp [cmdWord]) (by simp [cmdWord])
    have hf := hopen (.inr rfl)
    dsimp only
    rw [if_neg (by rw [hi, hf]; decide)]
    refine ⟨_, _, rfl, hs.next .inl ?_ ?_ ?_⟩
    · exact fun h => h.elim (fun h => h.elim) (fun h => absurd rfl h.1)
    · exact fun h => h.elim (fun h => (nomatch h)) (fun h => h.2)
    · intro h; exact .inr ⟨h, by simp [cmdWord]⟩
  | foreach e x =>
    have hi := hout (by simp [cmdWord]) (by simp [cmdWord]) (by simp [cmdWord])
    dsimp only
    rw [if_neg (by rw [hi]; decide)]
    obtain ⟨vs, hv⟩ := hc
    rw [elements_eq, hv]
    refine ⟨_, _, rfl, hs.next .inl ?_ (fun _ => rfl) (fun _ => .inl rfl)⟩
    exact fun h => h.elim (fun h => by simp [cmdWord, Word.Opens] at h) (fun h => h.2)
  | repeat_ e =>
    have hi := hout (by simp [cmdWord]) (by simp [cmdWord]) (by simp [cmdWord])
    dsimp only
    rw [if_neg (by rw [hi]; decide)]
    obtain ⟨k, hk⟩ := hc
    unfold rounds at hk
    obtain ⟨vs, hv, _⟩ := Option.map_eq_some_iff.1 hk
    rw [hv]
    refine ⟨_, _, rfl, hs.next .inl ?_ (fun _ => rfl) (fun _ => .inl rfl)⟩
    exact fun h => h.elim (fun h => by simp [cmdWord, Word.Opens] at h) (fun h => h.2)
  | endfor =>
    obtain ⟨a, b, h1, h2⟩ := hm.looped rfl
    have hi := hs.looped a b h1 h2
    have hn : st.iter.isNone = false := by cases e : st.iter <;> simp_all
    dsimp only
    rw [if_neg (by rw [hn]; decide)]
    refine ⟨_, _, rfl, hs.next .inl ?_ ?_ ?_⟩
    · exact fun h => h.elim (fun h => h.elim) (fun h => h.2)
    · exact fun h => h.elim (fun h => (nomatch h)) (fun h => (nomatch h.1))
    · intro h; cases h
  | end_ =>
    refine ⟨_, _, rfl, hs.next (fun _ => .inr rfl) ?_ ?_ ?_⟩
    · exact fun h => h.elim (fun h => h.elim) (fun h => h.2)
    · exact fun h => h.elim (fun h => (nomatch h)) (fun h => (nomatch h.1))
    · intro h; exact .inr ⟨h, by simp [cmdWord]⟩

theorem cmds_run {ev : Ev} {ex : Scope → List MTok → Option (List QTok)} {sc : Scope} {n : Nat} : ∀ (cs : List Cmd) (p0 : List Word) (st : ScopeSt), Shows p0 st → (∀ c ∈ cs, Smooth ev sc n c) →
    (∀ p w q, cs.map cmdWord = p ++ w :: q → MayFollow (p0 ++ p) w) → ∃ out, runCmds ev ex (translate n) sc st cs = some out
  | [], _, _, _, _, _ => ⟨[], rfl⟩
  | c :: cs, p0, st, hs, hc, hm => by
    obtain ⟨st', o, h1, h2⟩ := cmd_runs (ex := ex) hs (hc c (by simp)) (by have := hm [] (cmdWord c) _ rfl; simpa using this)
    obtain ⟨o', h3⟩ := cmds_run (ex := ex) cs _ st' h2 (fun d hd => hc d (by simp [hd])) (by
      intro p w q e
      have := hm (cmdWord c :: p) w q (by rw [List.map_cons, e]; rfl)
      simpa using this)
    refine ⟨o ++ o', ?_⟩
    rw [runCmds, h1]
    simp [h3]

end RJ
