import Verif.Proof.Malformed
import Verif.Proof.StrFuel
import Verif.Spec.Framing
/-
  What happens to an accepted text when more is put after it, and when its end is cut off.
-/
set_option linter.unusedSectionVars false
namespace RJ
open Spec
variable {F : Type} [FloatOps F]

theorem skipTrail_more {k : ErrorKind} {a : Str} (b : Str) (h : WsStr a) : skipTrail k (a ++ b) = skipTrail k b := by
  induction a with
  | nil => rfl
  | cons c a ih =>
    rw [List.cons_append, skipTrail, if_pos ((isWs_iff c).mpr (h c (by simp)))]
    exact ih (fun d hd => h d (by simp [hd]))

theorem skipTrail_char {k : ErrorKind} {w : Str} {c : Char} (r : Str) (h : WsStr w) (hc : ¬ IsWs c) : skipTrail k (w ++ c :: r) = .error ⟨k, trailing c⟩ := by
  rw [skipTrail_more _ h, skipTrail, if_neg (fun e => hc ((isWs_iff c).mp e))]
  rfl

theorem arr_more (rec : Str → Res (Json F)) (b : Str) (e : Error) (hb : skipTrail .ParseArrayError b = .error e) : ∀ (n : Nat) (s : Str) (i j : Int) (inner : Str) (arr : List (Json F)) (r : Json F),
    s.length ≤ n → arrLoop rec s i j inner arr = .ok r → arrLoop rec (s ++ b) i j inner arr = .error e := by
  intro n
  induction n with
  | zero =>
    intro s i j inner arr r hn h
    cases s with
    | nil => rw [arrLoop] at h; cases h
    | cons c t => simp at hn
  | succ n ih =>
    intro s i j inner arr r hn h
    match s, hn, h with
    | [], _, h => rw [arrLoop] at h; cases h
    | c :: iter, hn, h =>
      simp only [List.length_cons] at hn
      rw [arrLoop_cons] at h
      rw [List.cons_append, arrLoop_cons]
      by_cases g1 : c = ']' ∧ i = 0 ∧ j = 0
      · rw [if_pos g1] at h ⊢
        cases hr : rec inner with
        | error e => rw [hr] at h; cases h
        | ok v =>
          rw [hr] at h
          simp only at h ⊢
          cases hs : skipTrail .ParseArrayError iter with
          | error e => rw [hs] at h; cases h
          | ok u =>
            rw [hs] at h
            rw [skipTrail_more _ ((skipTrail_ok _ _).mp hs), hb]
      rw [if_neg g1] at h ⊢
      by_cases g2 : c = ',' ∧ i = 0 ∧ j = 0
      · rw [if_pos g2] at h ⊢
        by_cases e1 : inner = []
        · rw [if_pos e1] at h; cases h
        rw [if_neg e1] at h ⊢
        by_cases e2 : iter.head? = some ']'
        · rw [if_pos e2] at h; cases h
        rw [if_neg e2] at h
        cases iter with
        | nil =>
          cases hr : rec inner with
          | error e => rw [hr] at h; cases h
          | ok v => rw [hr] at h; simp only [arrLoop] at h; cases h
        | cons d iter =>
          rw [if_neg (by simpa using e2)]
          cases hr : rec inner with
          | error e => rw [hr] at h; cases h
          | ok v =>
            rw [hr] at h
            exact ih _ _ _ _ _ _ (by omega) h
      rw [if_neg g2] at h ⊢
      by_cases c1 : c = '"'
      · rw [if_pos c1] at h ⊢; exact ih _ _ _ _ _ _ (by omega) h
      rw [if_neg c1] at h ⊢
      by_cases c2 : c = '['
      · rw [if_pos c2] at h ⊢; exact ih _ _ _ _ _ _ (by omega) h
      rw [if_neg c2] at h ⊢
      by_cases c3 : c = ']'
      · rw [if_pos c3] at h ⊢; exact ih _ _ _ _ _ _ (by omega) h
      rw [if_neg c3] at h ⊢
      by_cases c4 : c = '{'
      · rw [if_pos c4] at h ⊢; exact ih _ _ _ _ _ _ (by omega) h
      rw [if_neg c4] at h ⊢
      by_cases c5 : c = '}'
      · rw [if_pos c5] at h ⊢; exact ih _ _ _ _ _ _ (by omega) h
      rw [if_neg c5] at h ⊢
      by_cases c6 : c = '\\'
      · rw [if_pos c6] at h ⊢
        cases iter with
        | nil => cases h
        | cons ch t =>
          simp only [List.length_cons] at hn
          exact ih _ _ _ _ _ _ (by omega) h
      rw [if_neg c6] at h ⊢
      by_cases c7 : i = 0 ∧ j = 0 ∧ isWs c = true
      · rw [if_pos c7] at h ⊢; exact ih _ _ _ _ _ _ (by omega) h
      rw [if_neg c7] at h ⊢
      exact ih _ _ _ _ _ _ (by omega) h

theorem obj_more (rec : Str → Res (Json F)) (b : Str) (e : Error) (hb : skipTrail .ParseObjectError b = .error e) : ∀ (n : Nat) (s : Str) (i j : Int) (kv : Str × Str) (onKey : Bool) (obj : Obj F) (r : Json F),
    s.length ≤ n → objLoop rec s i j kv onKey obj = .ok r → objLoop rec (s ++ b) i j kv onKey obj = .error e := by
  intro n
  induction n with
  | zero =>
    intro s i j kv onKey obj r hn h
    cases s with
    | nil => rw [objLoop] at h; cases h
    | cons c t => simp at hn
  | succ n ih =>
    intro s i j kv onKey obj r hn h
    match s, hn, h with
    | [], _, h => rw [objLoop] at h; cases h
    | c :: iter, hn, h =>
      simp only [List.length_cons] at hn
      rw [objLoop_cons] at h
      rw [List.cons_append, objLoop_cons]
      by_cases g1 : c = '}' ∧ i = 0 ∧ j = 0 ∧ onKey = false
      · rw [if_pos g1] at h ⊢
        split at h
        · rename_i key hk
          cases hr : rec kv.2 with
          | error e => rw [hr] at h; cases h
          | ok v =>
            rw [hr] at h
            simp only at h ⊢
            cases hs : skipTrail .ParseObjectError iter with
            | error e => rw [hs] at h; cases h
            | ok u =>
              rw [hs] at h
              rw [skipTrail_more _ ((skipTrail_ok _ _).mp hs), hb]
        · cases h
      rw [if_neg g1] at h ⊢
      by_cases g2 : c = ',' ∧ i = 0 ∧ j = 0 ∧ onKey = false
      · rw [if_pos g2] at h ⊢
        by_cases e1 : kv.1 = [] ∨ kv.2 = []
        · rw [if_pos e1] at h; cases h
        rw [if_neg e1] at h ⊢
        by_cases e2 : iter.head? = some '}'
        · rw [if_pos e2] at h; cases h
        rw [if_neg e2] at h
        split at h
        · rename_i key hk
          cases hr : rec kv.2 with
          | error e => rw [hr] at h; cases h
          | ok v =>
            rw [hr] at h
            cases iter with
            | nil => simp only [objLoop] at h; cases h
            | cons d iter =>
              rw [if_neg (by simpa using e2)]
              simp only
              exact ih _ _ _ _ _ _ _ (by omega) h
        · cases h
      rw [if_neg g2] at h ⊢
      by_cases g3 : c = ':' ∧ i = 0 ∧ j = 0
      · rw [if_pos g3] at h ⊢; exact ih _ _ _ _ _ _ _ (by omega) h
      rw [if_neg g3] at h ⊢
      by_cases c1 : c = '"'
      · rw [if_pos c1] at h ⊢; exact ih _ _ _ _ _ _ _ (by omega) h
      rw [if_neg c1] at h ⊢
      by_cases c2 : c = '['
      · rw [if_pos c2] at h ⊢; exact ih _ _ _ _ _ _ _ (by omega) h
      rw [if_neg c2] at h ⊢
      by_cases c3 : c = ']'
      · rw [if_pos c3] at h ⊢; exact ih _ _ _ _ _ _ _ (by omega) h
      rw [if_neg c3] at h ⊢
      by_cases c4 : c = '{'
      · rw [if_pos c4] at h ⊢; exact ih _ _ _ _ _ _ _ (by omega) h
      rw [if_neg c4] at h ⊢
      by_cases c5 : c = '}'
      · rw [if_pos c5] at h ⊢; exact ih _ _ _ _ _ _ _ (by omega) h
      rw [if_neg c5] at h ⊢
      by_cases c6 : c = '\\'
      · rw [if_pos c6] at h ⊢
        cases iter with
        | nil => cases h
        | cons ch t =>
          simp only [List.length_cons] at hn
          exact ih _ _ _ _ _ _ _ (by omega) h
      rw [if_neg c6] at h ⊢
      by_cases c7 : i = 0 ∧ j = 0 ∧ isWs c = true
      · rw [if_pos c7] at h ⊢; exact ih _ _ _ _ _ _ _ (by omega) h
      rw [if_neg c7] at h ⊢
      exact ih _ _ _ _ _ _ _ (by omega) h

theorem arr_cut (rec : Str → Res (Json F)) (b : Str) : ∀ (n : Nat) (s : Str) (i j : Int) (inner : Str) (arr : List (Json F)) (r : Json F),
    s.length ≤ n → arrLoop rec (s ++ b) i j inner arr = .ok r →
    (arrLoop rec s i j inner arr = .ok r ∧ WsStr b) ∨ arrLoop rec s i j inner arr = fail .ParseArrayError "missing ]." ∨
      arrLoop rec s i j inner arr = fail .ParseArrayError "missing escaped character." := by
  intro n
  induction n with
  | zero =>
    intro s i j inner arr r hn h
    cases s with
    | nil => exact .inr (.inl (by rw [arrLoop]))
    | cons c t => simp at hn
  | succ n ih =>
    intro s i j inner arr r hn h
    match s, hn, h with
    | [], _, h => exact .inr (.inl (by rw [arrLoop]))
    | c :: iter, hn, h =>
      simp only [List.length_cons] at hn
      rw [List.cons_append, arrLoop_cons] at h
      rw [arrLoop_cons]
      by_cases g1 : c = ']' ∧ i = 0 ∧ j = 0
      · rw [if_pos g1] at h ⊢
        cases hr : rec inner with
        | error e => rw [hr] at h; cases h
        | ok v =>
          rw [hr] at h
          simp only at h ⊢
          cases hs : skipTrail .ParseArrayError (iter ++ b) with
          | error e => rw [hs] at h; cases h
          | ok u =>
            rw [hs] at h
            have hw := (skipTrail_ok _ _).mp hs
            rw [(skipTrail_ok .ParseArrayError iter).mpr (fun c hc => hw c (List.mem_append_left _ hc))]
            exact .inl ⟨h, fun c hc => hw c (List.mem_append_right _ hc)⟩
      rw [if_neg g1] at h ⊢
      by_cases g2 : c = ',' ∧ i = 0 ∧ j = 0
      · rw [if_pos g2] at h ⊢
        by_cases e1 : inner = []
        · rw [if_pos e1] at h; cases h
        rw [if_neg e1] at h ⊢
        by_cases e2 : (iter ++ b).head? = some ']'
        · rw [if_pos e2] at h; cases h
        rw [if_neg e2] at h
        rw [if_neg (fun e => e2 (by cases iter with | nil => cases e | cons d l => exact e))]
        cases hr : rec inner with
        | error e => rw [hr] at h; cases h
        | ok v =>
          rw [hr] at h
          exact ih _ _ _ _ _ _ (by omega) h
      rw [if_neg g2] at h ⊢
      by_cases c1 : c = '"'
      · rw [if_pos c1] at h ⊢; exact ih _ _ _ _ _ _ (by omega) h
      rw [if_neg c1] at h ⊢
      by_cases c2 : c = '['
      · rw [if_pos c2] at h ⊢; exact ih _ _ _ _ _ _ (by omega) h
      rw [if_neg c2] at h ⊢
      by_cases c3 : c = ']'
      · rw [if_pos c3] at h ⊢; exact ih _ _ _ _ _ _ (by omega) h
      rw [if_neg c3] at h ⊢
      by_cases c4 : c = '{'
      · rw [if_pos c4] at h ⊢; exact ih _ _ _ _ _ _ (by omega) h
      rw [if_neg c4] at h ⊢
      by_cases c5 : c = '}'
      · rw [if_pos c5] at h ⊢; exact ih _ _ _ _ _ _ (by omega) h
      rw [if_neg c5] at h ⊢
      by_cases c6 : c = '\\'
      · rw [if_pos c6] at h ⊢
        cases iter with
        | nil => exact .inr (.inr rfl)
        | cons ch t =>
          simp only [List.length_cons] at hn
          exact ih _ _ _ _ _ _ (by omega) h
      rw [if_neg c6] at h ⊢
      by_cases c7 : i = 0 ∧ j = 0 ∧ isWs c = true
      · rw [if_pos c7] at h ⊢; exact ih _ _ _ _ _ _ (by omega) h
      rw [if_neg c7] at h ⊢
      exact ih _ _ _ _ _ _ (by omega) h

theorem obj_cut (rec : Str → Res (Json F)) (b : Str) : ∀ (n : Nat) (s : Str) (i j : Int) (kv : Str × Str) (onKey : Bool) (obj : Obj F) (r : Json F),
    s.length ≤ n → objLoop rec (s ++ b) i j kv onKey obj = .ok r →
    (objLoop rec s i j kv onKey obj = .ok r ∧ WsStr b) ∨ objLoop rec s i j kv onKey obj = fail .ParseObjectError "missing }." ∨
      objLoop rec s i j kv onKey obj = fail .ParseObjectError "missing escaped character." := by
  intro n
  induction n with
  | zero =>
    intro s i j kv onKey obj r hn h
    cases s with
    | nil => exact .inr (.inl (by rw [objLoop]))
    | cons c t => simp at hn
  | succ n ih =>
    intro s i j kv onKey obj r hn h
    match s, hn, h with
    | [], _, h => exact .inr (.inl (by rw [objLoop]))
    | c :: iter, hn, h =>
      simp only [List.length_cons] at hn
      rw [List.cons_append, objLoop_cons] at h
      rw [objLoop_cons]
      by_cases g1 : c = '}' ∧ i = 0 ∧ j = 0 ∧ onKey = false
      · rw [if_pos g1] at h ⊢
        split at h
        · rename_i key hk
          cases hr : rec kv.2 with
          | error e => rw [hr] at h; cases h
          | ok v =>
            rw [hr] at h
            simp only at h ⊢
            cases hs : skipTrail .ParseObjectError (iter ++ b) with
            | error e => rw [hs] at h; cases h
            | ok u =>
              rw [hs] at h
              have hw := (skipTrail_ok _ _).mp hs
              rw [(skipTrail_ok .ParseObjectError iter).mpr (fun c hc => hw c (List.mem_append_left _ hc))]
              exact .inl ⟨h, fun c hc => hw c (List.mem_append_right _ hc)⟩
        · cases h
      rw [if_neg g1] at h ⊢
      by_cases g2 : c = ',' ∧ i = 0 ∧ j = 0 ∧ onKey = false
      · rw [if_pos g2] at h ⊢
        by_cases e1 : kv.1 = [] ∨ kv.2 = []
        · rw [if_pos e1] at h; cases h
        rw [if_neg e1] at h ⊢
        by_cases e2 : (iter ++ b).head? = some '}'
        · rw [if_pos e2] at h; cases h
        rw [if_neg e2] at h
        rw [if_neg (fun e => e2 (by cases iter with | nil => cases e | cons d l => exact e))]
        split at h
        · rename_i key hk
          cases hr : rec kv.2 with
          | error e => rw [hr] at h; cases h
          | ok v =>
            rw [hr] at h
            simp only
            exact ih _ _ _ _ _ _ _ (by omega) h
        · cases h
      rw [if_neg g2] at h ⊢
      by_cases g3 : c = ':' ∧ i = 0 ∧ j = 0
      · rw [if_pos g3] at h ⊢; exact ih _ _ _ _ _ _ _ (by omega) h
      rw [if_neg g3] at h ⊢
      by_cases c1 : c = '"'
      · rw [if_pos c1] at h ⊢; exact ih _ _ _ _ _ _ _ (by omega) h
      rw [if_neg c1] at h ⊢
      by_cases c2 : c = '['
      · rw [if_pos c2] at h ⊢; exact ih _ _ _ _ _ _ _ (by omega) h
      rw [if_neg c2] at h ⊢
      by_cases c3 : c = ']'
      · rw [if_pos c3] at h ⊢; exact ih _ _ _ _ _ _ _ (by omega) h
      rw [if_neg c3] at h ⊢
      by_cases c4 : c = '{'
      · rw [if_pos c4] at h ⊢; exact ih _ _ _ _ _ _ _ (by omega) h
      rw [if_neg c4] at h ⊢
      by_cases c5 : c = '}'
      · rw [if_pos c5] at h ⊢; exact ih _ _ _ _ _ _ _ (by omega) h
      rw [if_neg c5] at h ⊢
      by_cases c6 : c = '\\'
      · rw [if_pos c6] at h ⊢
        cases iter with
        | nil => exact .inr (.inr rfl)
        | cons ch t =>
          simp only [List.length_cons] at hn
          exact ih _ _ _ _ _ _ _ (by omega) h
      rw [if_neg c6] at h ⊢
      by_cases c7 : i = 0 ∧ j = 0 ∧ isWs c = true
      · rw [if_pos c7] at h ⊢; exact ih _ _ _ _ _ _ _ (by omega) h
      rw [if_neg c7] at h ⊢
      exact ih _ _ _ _ _ _ _ (by omega) h

/-! ### Strings -/

theorem hex_cut (b : Str) : ∀ (n u : Nat) (s : Str) (v : Nat) (r : Str), hexRounds n u (s ++ b) = .ok (v, r) →
    (∃ s', hexRounds n u s = .ok (v, s') ∧ r = s' ++ b) ∨ hexRounds n u s = fail .ParseStringError "parse unicode error: missing hex digit." := by
  intro n
  induction n with
  | zero =>
    intro u s v r h
    rw [hexRounds] at h
    cases h
    exact .inl ⟨s, by rw [hexRounds], rfl⟩
  | succ n ih =>
    intro u s v r h
    cases s with
    | nil => exact .inr (by rw [hexRounds.eq_def])
    | cons c s =>
      rw [hexRounds.eq_def] at h ⊢
      simp only [List.cons_append] at h ⊢
      cases hp : parseHexDigit c with
      | error e => rw [hp] at h; cases h
      | ok d =>
        rw [hp] at h
        exact ih _ _ _ _ h

theorem uni_cut (b : Str) (s t r : Str) (h : unicodeEscape (s ++ b) = .ok (t, r)) :
    (∃ s', unicodeEscape s = .ok (t, s') ∧ r = s' ++ b) ∨ unicodeEscape s = fail .ParseStringError "parse unicode error: missing hex digit." ∨
      unicodeEscape s = fail .ParseStringError "missing low surrogate." := by
  unfold unicodeEscape at h ⊢
  simp only at h ⊢
  cases h1 : hexRounds 4 0 (s ++ b) with
  | error e => rw [h1] at h; cases h
  | ok p =>
    obtain ⟨u, r1⟩ := p
    rw [h1] at h
    simp only at h
    rcases hex_cut b _ _ _ _ _ h1 with ⟨s1, h2, rfl⟩ | h2
    · rw [h2]
      simp only
      by_cases hu : u ≥ 0xD800 ∧ u ≤ 0xDBFF
      · rw [if_pos hu] at h ⊢
        match s1, h with
        | [], h => exact .inr (.inr rfl)
        | [x], h => exact .inr (.inr rfl)
        | x :: y :: s2, h =>
          simp only [List.cons_append] at h ⊢
          by_cases hxy : x = '\\' ∧ y = 'u'
          · rw [if_pos hxy] at h ⊢
            cases h3 : hexRounds 4 0 (s2 ++ b) with
            | error e => rw [h3] at h; cases h
            | ok p =>
              obtain ⟨u2, r2⟩ := p
              rw [h3] at h
              simp only at h
              rcases hex_cut b _ _ _ _ _ h3 with ⟨s3, h4, rfl⟩ | h4
              · rw [h4]
                simp only
                by_cases hl : u2 < 0xDC00 ∨ u2 > 0xDFFF
                · rw [if_pos hl] at h; cases h
                · rw [if_neg hl] at h ⊢
                  split at h
                  · cases h
                    exact .inl ⟨s3, rfl, rfl⟩
                  · cases h
              · rw [h4]
                exact .inr (.inl rfl)
          · rw [if_neg hxy] at h; cases h
      · rw [if_neg hu] at h ⊢
        split at h
        · cases h
          exact .inl ⟨s1, rfl, rfl⟩
        · cases h
    · rw [h2]
      exact .inr (.inl rfl)

theorem str_cut (b : Str) : ∀ (n m : Nat) (s acc r : Str), s.length < m → strLoop n (s ++ b) acc = .ok r →
    (strLoop m s acc = .ok r ∧ WsStr b) ∨ strLoop m s acc = fail .ParseStringError "missing \"." ∨ strLoop m s acc = fail .ParseStringError "missing escaped character." ∨
      strLoop m s acc = fail .ParseStringError "parse unicode error: missing hex digit." ∨ strLoop m s acc = fail .ParseStringError "missing low surrogate." := by
  intro n
  induction n with
  | zero => intro m s acc r _ h; rw [strLoop] at h; cases h
  | succ n ih =>
    intro m s acc r hm h
    cases m with
    | zero => omega
    | succ m =>
      cases s with
      | nil => exact .inr (.inl (by rw [strLoop.eq_def]))
      | cons c iter =>
        rw [strLoop.eq_def] at h ⊢
        simp only [List.cons_append, List.length_cons] at h hm ⊢
        by_cases h1 : c = '"'
        · rw [if_pos h1] at h ⊢
          cases hs : skipTrail .ParseStringError (iter ++ b) with
          | error e => rw [hs] at h; cases h
          | ok u =>
            rw [hs] at h
            have hw := (skipTrail_ok _ _).mp hs
            rw [(skipTrail_ok .ParseStringError iter).mpr (fun c hc => hw c (List.mem_append_left _ hc))]
            exact .inl ⟨h, fun c hc => hw c (List.mem_append_right _ hc)⟩
        rw [if_neg h1] at h ⊢
        by_cases h2 : c = '\\'
        · rw [if_pos h2] at h ⊢
          cases iter with
          | nil => exact .inr (.inr (.inl rfl))
          | cons e iter =>
            simp only [List.cons_append, List.length_cons] at h hm ⊢
            cases he : simpleEscape e with
            | some ch =>
              rw [he] at h
              exact ih m _ _ _ (by omega) h
            | none =>
              rw [he] at h
              simp only at h ⊢
              by_cases h3 : e = 'u'
              · rw [if_pos h3] at h ⊢
                cases hu : unicodeEscape (iter ++ b) with
                | error e => rw [hu] at h; cases h
                | ok p =>
                  obtain ⟨t, rest⟩ := p
                  rw [hu] at h
                  simp only at h
                  rcases uni_cut b _ _ _ hu with ⟨s', h4, rfl⟩ | h4 | h4
                  · have := unicodeEscape_shorter h4
                    rw [h4]
                    exact ih m _ _ _ (by omega) h
                  · rw [h4]; exact .inr (.inr (.inr (.inl rfl)))
                  · rw [h4]; exact .inr (.inr (.inr (.inr rfl)))
              · rw [if_neg h3] at h; cases h
        rw [if_neg h2] at h ⊢
        by_cases h3 : c.toNat ≤ 0x1F
        · rw [if_pos h3] at h; cases h
        rw [if_neg h3] at h ⊢
        exact ih m _ _ _ (by omega) h

end RJ
