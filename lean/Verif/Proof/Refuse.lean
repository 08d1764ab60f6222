import Verif.Spec.Refuse
import Verif.Proof.Accept
import Verif.Proof.StrFuel
/-
  The parser's loops against `Spec.Fails`.
-/
set_option linter.unusedSectionVars false
namespace RJ
open Spec

theorem skipTrail_err (k : ErrorKind) (s : Str) (e : Error) :
    skipTrail k s = .error e ↔ ∃ w c r, s = w ++ c :: r ∧ WsStr w ∧ ¬ IsWs c ∧ e = ⟨k, trailing c⟩ := by
  constructor
  · intro h
    induction s with
    | nil => cases h
    | cons c s ih =>
      rw [skipTrail] at h
      by_cases hc : isWs c = true
      · rw [if_pos hc] at h
        obtain ⟨w, d, r, rfl, hw, hd, rfl⟩ := ih h
        refine ⟨c :: w, d, r, rfl, ?_, hd, rfl⟩
        intro x hx
        rcases List.mem_cons.1 hx with rfl | hx
        · exact (isWs_iff _).1 hc
        · exact hw x hx
      · rw [if_neg hc] at h
        cases h
        exact ⟨[], c, s, rfl, by simp [WsStr], fun h => hc ((isWs_iff c).2 h), rfl⟩
  · rintro ⟨w, c, r, rfl, hw, hc, rfl⟩
    induction w with
    | nil => rw [List.nil_append, skipTrail, if_neg (fun h => hc ((isWs_iff c).1 h))]; rfl
    | cons d w ih =>
      rw [List.cons_append, skipTrail, if_pos ((isWs_iff d).2 (hw d (by simp)))]
      exact ih (fun x hx => hw x (by simp [hx]))

/-! ### Strings -/

theorem parseHexDigit_none {c : Char} (h : hexVal c = none) :
    parseHexDigit c = .error ⟨.ParseStringError, "parse unicode error: invalid hex digit ".toList ++ c :: ".".toList⟩ := by
  rcases parseHexDigit_cases c with ⟨d, hd, _⟩ | ⟨_, e, he⟩
  · rw [h] at hd; cases hd
  · have he' := he
    unfold parseHexDigit at he'
    simp only at he'
    split at he'
    · cases he'
    · split at he'
      · cases he'
      · split at he'
        · cases he'
        · rw [he, ← he']; rfl

theorem hexRounds_short : ∀ (hs : Str) (n u : Nat), hs.length < n → (∀ h ∈ hs, (hexVal h).isSome) →
    hexRounds n u hs = .error ⟨.ParseStringError, "parse unicode error: missing hex digit.".toList⟩
  | _, 0, _, h, _ => by simp at h
  | [], n + 1, u, _, _ => rfl
  | c :: hs, n + 1, u, h, hh => by
    obtain ⟨d, hd⟩ := Option.isSome_iff_exists.1 (hh c (by simp))
    rw [hexRounds_step _ _ _ _ _ hd]
    exact hexRounds_short hs n _ (by simpa using h) (fun x hx => hh x (by simp [hx]))

theorem hexRounds_digit (c : Char) (r : Str) (hc : hexVal c = none) : ∀ (hs : Str) (n u : Nat), hs.length < n → (∀ h ∈ hs, (hexVal h).isSome) →
    hexRounds n u (hs ++ c :: r) = .error ⟨.ParseStringError, "parse unicode error: invalid hex digit ".toList ++ c :: ".".toList⟩
  | _, 0, _, h, _ => by simp at h
  | [], n + 1, u, _, _ => by rw [List.nil_append, hexRounds, parseHexDigit_none hc]
  | d :: hs, n + 1, u, h, hh => by
    obtain ⟨v, hd⟩ := Option.isSome_iff_exists.1 (hh d (by simp))
    rw [List.cons_append, hexRounds_step _ _ _ _ _ hd]
    exact hexRounds_digit c r hc hs n _ (by simpa using h) (fun x hx => hh x (by simp [hx]))

theorem hexRounds_err : ∀ (n u : Nat) (s : Str) (e : Error), hexRounds n u s = .error e →
    ∃ m, e = ⟨.ParseStringError, m⟩ ∧ ∃ hs : Str, hs.length < n ∧ (∀ h ∈ hs, (hexVal h).isSome) ∧
      ((s = hs ∧ m = "parse unicode error: missing hex digit.".toList) ∨
       ∃ c r, s = hs ++ c :: r ∧ hexVal c = none ∧ m = "parse unicode error: invalid hex digit ".toList ++ c :: ".".toList)
  | 0, _, _, _, h => by cases h
  | n + 1, u, [], e, h => by
    cases h
    exact ⟨_, rfl, [], by simp, by simp, .inl ⟨rfl, rfl⟩⟩
  | n + 1, u, c :: s, e, h => by
    cases hc : hexVal c with
    | none =>
      rw [hexRounds, parseHexDigit_none hc] at h
      cases h
      exact ⟨_, rfl, [], by simp, by simp, .inr ⟨c, s, rfl, hc, rfl⟩⟩
    | some d =>
      rw [hexRounds_step _ _ _ _ _ hc] at h
      obtain ⟨m, rfl, hs, h1, h2, h3⟩ := hexRounds_err n _ s e h
      refine ⟨m, rfl, c :: hs, by simpa using h1, ?_, ?_⟩
      · intro x hx
        rcases List.mem_cons.1 hx with rfl | hx
        · simp [hc]
        · exact h2 x hx
      · rcases h3 with ⟨rfl, h4⟩ | ⟨c', r, rfl, h4⟩
        · exact .inl ⟨rfl, h4⟩
        · exact .inr ⟨c', r, rfl, h4⟩

theorem hexRounds_bad (s m : Str) : hexRounds 4 0 s = .error ⟨.ParseStringError, m⟩ ↔ BadHex s m := by
  constructor
  · intro h
    obtain ⟨m', e, hs, h1, h2, ⟨rfl, rfl⟩ | ⟨c, r, rfl, h3, rfl⟩⟩ := hexRounds_err _ _ _ _ h
    · cases e; exact .short _ h1 h2
    · cases e; exact .digit _ c r h1 h2 h3
  · rintro (⟨h1, h2⟩ | ⟨hs, c, r, h1, h2, h3⟩)
    · exact hexRounds_short _ _ _ ‹_› ‹_›
    · exact hexRounds_digit c r h3 hs 4 0 h1 h2

/-- What follows `\u`. -/
theorem unicodeEscape_bad (s m : Str) : unicodeEscape s = .error ⟨.ParseStringError, m⟩ ↔ BadItem ('\\' :: 'u' :: s) m := by
  constructor
  · intro h
    unfold unicodeEscape at h
    cases hr : hexRounds 4 0 s with
    | error e =>
      rw [hr] at h
      simp only [Except.error.injEq] at h
      subst h
      exact .hex s m ((hexRounds_bad s m).1 hr)
    | ok r =>
      obtain ⟨u, s1⟩ := r
      rw [hr] at h
      obtain ⟨a, b, c, d, rfl, hu⟩ := hexRounds_four.mp hr
      have hlt := unitVal_lt hu
      simp only at h
      by_cases hhi : u ≥ 0xD800 ∧ u ≤ 0xDBFF
      · rw [if_pos hhi] at h
        by_cases hx : ∃ r', s1 = '\\' :: 'u' :: r'
        · obtain ⟨s2, rfl⟩ := hx
          simp only [and_self, if_true] at h
          cases hr2 : hexRounds 4 0 s2 with
          | error e =>
            rw [hr2] at h
            simp only [Except.error.injEq] at h
            subst h
            exact .lowHex a b c d u s2 m hu hhi ((hexRounds_bad s2 m).1 hr2)
          | ok r2 =>
            obtain ⟨l, s3⟩ := r2
            rw [hr2] at h
            obtain ⟨a', b', c', d', rfl, hl⟩ := hexRounds_four.mp hr2
            simp only at h
            by_cases hlo : l < 0xDC00 ∨ l > 0xDFFF
            · rw [if_pos hlo] at h
              cases h
              exact .badLow a b c d a' b' c' d' u l s3 hu hhi hl (by omega)
            · rw [if_neg hlo, pair_eq u l hhi.1 (by omega) (by omega), fromUtf8_encodeUtf8 _ (by omega), if_neg (by omega)] at h
              cases h
        · have e : (fail .ParseStringError "missing low surrogate." : Res (Str × Str)) = .error ⟨.ParseStringError, m⟩ := by
            rw [← h]
            match s1, hx with
            | [], _ => rfl
            | [_], _ => rfl
            | x :: y :: s2, hx =>
              simp only
              rw [if_neg]
              rintro ⟨rfl, rfl⟩
              exact hx ⟨s2, rfl⟩
          cases e
          exact .noLow a b c d u s1 hu hhi (fun r' hr => hx ⟨r', hr⟩)
      · rw [if_neg hhi, fromUtf8_encodeUtf8 u (by omega)] at h
        by_cases hs : 0xD800 ≤ u ∧ u ≤ 0xDFFF
        · rw [if_pos hs] at h
          cases h
          exact .loneLow a b c d u s1 hu (by omega)
        · rw [if_neg hs] at h; cases h
  · intro h
    cases h with
    | control _ _ hc => simp at hc
    | escape _ _ _ hu => exact absurd rfl hu
    | hex r m hr =>
      unfold unicodeEscape
      rw [(hexRounds_bad s m).2 hr]
    | noLow a b c d u r hu hi hr =>
      unfold unicodeEscape
      rw [hexRounds_four.mpr ⟨a, b, c, d, rfl, hu⟩]
      simp only
      rw [if_pos hi]
      match r, hr with
      | [], _ => rfl
      | [_], _ => rfl
      | x :: y :: s2, hr =>
        simp only
        rw [if_neg]
        · rfl
        · rintro ⟨rfl, rfl⟩
          exact hr s2 rfl
    | lowHex a b c d u r m hu hi hr =>
      unfold unicodeEscape
      rw [hexRounds_four.mpr ⟨a, b, c, d, rfl, hu⟩]
      simp only
      rw [if_pos hi]
      simp only [and_self, if_true]
      rw [(hexRounds_bad r m).2 hr]
    | badLow a b c d a' b' c' d' u l r hu hi hl hlo =>
      unfold unicodeEscape
      rw [hexRounds_four.mpr ⟨a, b, c, d, rfl, hu⟩]
      simp only
      rw [if_pos hi]
      simp only [and_self, if_true]
      rw [hexRounds_four.mpr ⟨a', b', c', d', rfl, hl⟩]
      simp only
      rw [if_pos (by omega)]
      rfl
    | loneLow a b c d u r hu hi =>
      unfold unicodeEscape
      rw [hexRounds_four.mpr ⟨a, b, c, d, rfl, hu⟩]
      have := unitVal_lt hu
      simp only
      rw [if_neg (by omega), fromUtf8_encodeUtf8 u (by omega), if_pos (by omega)]
      rfl

theorem strLoop_prefix (rest : Str) : ∀ (n : Nat) (items : List StrItem) (s acc : Str), strVal items = some s → (bodyText items ++ rest).length < n →
    strLoop n (bodyText items ++ rest) acc = strLoop (rest.length + 1) rest (acc ++ s) := by
  intro n
  induction n with
  | zero => intro items s acc _ h; omega
  | succ n ih =>
    intro items s acc hv hn
    match items, hv, hn with
    | [], hv, hn =>
      simp only [strVal, Option.some.injEq] at hv
      subst hv
      simp only [bodyText, List.nil_append, List.append_nil] at hn ⊢
      exact strLoop_fuel _ _ _ _ hn (by omega)
    | .plain c :: t, hv, hn =>
      rw [strVal] at hv
      split at hv
      · rename_i hc
        cases ht : strVal t with
        | none => rw [ht] at hv; simp at hv
        | some s' =>
          rw [ht] at hv
          simp only [Option.map_some, Option.some.injEq] at hv
          subst hv
          simp only [bodyText, StrItem.text, List.cons_append, List.nil_append, List.length_cons] at hn ⊢
          rw [strLoop.eq_def]
          simp only [hc.2.1, hc.2.2, if_false]
          rw [if_neg (by omega), ih t s' _ ht (by omega)]
          simp
      · simp at hv
    | .esc e :: t, hv, hn =>
      rw [strVal] at hv
      cases he : escVal e with
      | none => rw [he] at hv; simp at hv
      | some c =>
        rw [he] at hv
        cases ht : strVal t with
        | none => rw [ht] at hv; simp at hv
        | some s' =>
          rw [ht] at hv
          simp only [Option.map_some, Option.some.injEq] at hv
          subst hv
          simp only [bodyText, StrItem.text, List.cons_append, List.nil_append, List.length_cons] at hn ⊢
          rw [strLoop]
          simp only [Char.reduceEq, if_false, if_true, simpleEscape_eq, he]
          rw [ih t s' _ ht (by omega)]
          simp
    | .uni a b c d :: t, hv, hn =>
      rw [strVal.eq_4] at hv
      cases hu : unitVal a b c d with
      | none => rw [hu] at hv; simp at hv
      | some u =>
        rw [hu] at hv
        simp only at hv
        by_cases hhi : 0xD800 ≤ u ∧ u ≤ 0xDBFF
        · rw [if_pos hhi] at hv
          match t, hv, hn with
          | [], hv, hn => simp at hv
          | .plain _ :: _, hv, hn => simp at hv
          | .esc _ :: _, hv, hn => simp at hv
          | .uni a' b' c' d' :: t', hv, hn =>
            simp only at hv
            cases hl : unitVal a' b' c' d' with
            | none => rw [hl] at hv; simp at hv
            | some l =>
              rw [hl] at hv
              simp only at hv
              by_cases hlo : 0xDC00 ≤ l ∧ l ≤ 0xDFFF
              · rw [if_pos hlo] at hv
                cases ht : strVal t' with
                | none => rw [ht] at hv; simp at hv
                | some s' =>
                  rw [ht] at hv
                  simp only [Option.map_some, Option.some.injEq] at hv
                  subst hv
                  simp only [bodyText, StrItem.text, List.cons_append, List.nil_append, List.length_cons] at hn ⊢
                  rw [strLoop]
                  simp only [Char.reduceEq, if_false, if_true]
                  have : simpleEscape 'u' = none := by decide
                  rw [this]
                  simp only
                  rw [unicodeEscape_pair _ hu hl hhi hlo]
                  simp only
                  rw [ih t' s' _ ht (by omega)]
                  simp
              · rw [if_neg hlo] at hv; simp at hv
        · rw [if_neg hhi] at hv
          by_cases hlo : 0xDC00 ≤ u ∧ u ≤ 0xDFFF
          · rw [if_pos hlo] at hv; simp at hv
          · rw [if_neg hlo] at hv
            cases ht : strVal t with
            | none => rw [ht] at hv; simp at hv
            | some s' =>
              rw [ht] at hv
              simp only [Option.map_some, Option.some.injEq] at hv
              subst hv
              simp only [bodyText, StrItem.text, List.cons_append, List.nil_append, List.length_cons] at hn ⊢
              rw [strLoop]
              simp only [Char.reduceEq, if_false, if_true]
              have : simpleEscape 'u' = none := by decide
              rw [this]
              simp only
              rw [unicodeEscape_single _ hu (by omega)]
              simp only
              rw [ih t s' _ ht (by omega)]
              simp

theorem uni_step {n : Nat} {r m acc : Str} (h : BadItem ('\\' :: 'u' :: r) m) : strLoop (n + 1) ('\\' :: 'u' :: r) acc = .error ⟨.ParseStringError, m⟩ := by
  rw [strLoop]
  simp only [Char.reduceEq, if_false, if_true]
  have : simpleEscape 'u' = none := by decide
  rw [this]
  simp only
  rw [(unicodeEscape_bad r m).2 h]

theorem badItem_step {r m : Str} (h : BadItem r m) (acc : Str) : strLoop (r.length + 1) r acc = .error ⟨.ParseStringError, m⟩ := by
  cases h with
  | unclosed => rfl
  | control c r hc =>
    rw [strLoop.eq_def]
    have h1 : c ≠ '"' := by rintro rfl; simp at hc
    have h2 : c ≠ '\\' := by rintro rfl; simp at hc
    simp only [h1, h2, if_false]
    rw [if_pos (by omega)]; rfl
  | hanging => rfl
  | escape e r he hu =>
    rw [strLoop]
    simp only [Char.reduceEq, if_false, if_true, simpleEscape_eq, he, hu]
    rfl
  | hex r m hr => exact uni_step (.hex r m hr)
  | noLow a b c d u r hu hi hr => exact uni_step (.noLow a b c d u r hu hi hr)
  | lowHex a b c d u r m hu hi hr => exact uni_step (.lowHex a b c d u r m hu hi hr)
  | badLow a b c d a' b' c' d' u l r hu hi hl hlo => exact uni_step (.badLow a b c d a' b' c' d' u l r hu hi hl hlo)
  | loneLow a b c d u r hu hi => exact uni_step (.loneLow a b c d u r hu hi)
  | trail w c r hw hc =>
    rw [strLoop.eq_def]
    simp only [if_true]
    rw [(skipTrail_err _ _ _).2 ⟨w, c, r, rfl, hw, hc, rfl⟩]

theorem strLoop_err : ∀ (n : Nat) (iter acc : Str) (e : Error), iter.length < n → strLoop n iter acc = .error e →
    ∃ items s r m, iter = bodyText items ++ r ∧ strVal items = some s ∧ BadItem r m ∧ e = ⟨.ParseStringError, m⟩ := by
  intro n
  induction n with
  | zero => intro iter acc e hn h; omega
  | succ n ih =>
    intro iter acc e hn h
    rw [strLoop.eq_def] at h
    simp only at h
    match iter, hn, h with
    | [], _, h =>
      cases h
      exact ⟨[], [], [], _, rfl, rfl, .unclosed, rfl⟩
    | c :: iter, hn, h =>
      simp only at h
      simp only [List.length_cons] at hn
      by_cases hq : c = '"'
      · rw [if_pos hq] at h
        subst hq
        cases hs : skipTrail .ParseStringError iter with
        | ok u => rw [hs] at h; cases h
        | error e' =>
          rw [hs] at h
          cases h
          obtain ⟨w, c, r, rfl, hw, hc, rfl⟩ := (skipTrail_err _ _ _).1 hs
          exact ⟨[], [], _, _, rfl, rfl, .trail w c r hw hc, rfl⟩
      · rw [if_neg hq] at h
        by_cases hb : c = '\\'
        · rw [if_pos hb] at h
          subst hb
          match iter, hn, h with
          | [], _, h =>
            cases h
            exact ⟨[], [], _, _, rfl, rfl, .hanging, rfl⟩
          | x :: iter, hn, h =>
            simp only at h
            simp only [List.length_cons] at hn
            cases he : simpleEscape x with
            | some ch =>
              rw [he] at h
              simp only at h
              obtain ⟨items, s, r, m, rfl, hv, hr, rfl⟩ := ih _ _ _ (by omega) h
              rw [simpleEscape_eq] at he
              exact ⟨.esc x :: items, ch :: s, r, m, by simp [bodyText, StrItem.text], by simp [strVal, he, hv], hr, rfl⟩
            | none =>
              rw [he] at h
              rw [simpleEscape_eq] at he
              simp only at h
              by_cases hue : x = 'u'
              · rw [if_pos hue] at h
                subst hue
                cases hun : unicodeEscape iter with
                | error e' =>
                  rw [hun] at h
                  cases h
                  have hk := unicodeEscape_kind hun
                  obtain ⟨k, m⟩ := e
                  cases hk
                  exact ⟨[], [], _, m, rfl, rfl, (unicodeEscape_bad iter m).1 hun, rfl⟩
                | ok p =>
                  obtain ⟨t, s'⟩ := p
                  rw [hun] at h
                  simp only at h
                  have := unicodeEscape_shorter hun
                  obtain ⟨items, s, r, m, rfl, hv, hr, rfl⟩ := ih _ _ _ (by omega) h
                  rcases unicodeEscape_inv hun with ⟨a, b, c, d, u, rfl, hu, hns, rfl⟩ |
                    ⟨a, b, c, d, u, a', b', c', d', l, rfl, hu, hl, hhi, hlo, rfl⟩
                  · refine ⟨.uni a b c d :: items, Char.ofNat u :: s, r, m, by simp [bodyText, StrItem.text], ?_, hr, rfl⟩
                    rw [strVal.eq_4, hu]
                    simp only
                    rw [if_neg (by omega), if_neg (by omega), hv]; rfl
                  · refine ⟨.uni a b c d :: .uni a' b' c' d' :: items, Char.ofNat (0x10000 + (u - 0xD800) * 0x400 + (l - 0xDC00)) :: s, r, m,
                      by simp [bodyText, StrItem.text], ?_, hr, rfl⟩
                    rw [strVal.eq_4, hu]
                    simp only
                    rw [if_pos hhi, hl]
                    simp only
                    rw [if_pos hlo, hv]; rfl
              · rw [if_neg hue] at h
                cases h
                exact ⟨[], [], _, _, rfl, rfl, .escape x iter he hue, rfl⟩
        · rw [if_neg hb] at h
          by_cases hc : c.toNat ≤ 0x1F
          · rw [if_pos hc] at h
            cases h
            exact ⟨[], [], _, _, rfl, rfl, .control c iter (by omega), rfl⟩
          · rw [if_neg hc] at h
            obtain ⟨items, s, r, m, rfl, hv, hr, rfl⟩ := ih _ _ _ (by omega) h
            refine ⟨.plain c :: items, c :: s, r, m, by simp [bodyText, StrItem.text], ?_, hr, rfl⟩
            rw [strVal, if_pos ⟨by omega, hq, hb⟩, hv]; rfl

theorem parseStringRaw_err (t : Str) (e : Error) : parseStringRaw ('"' :: t) = .error e ↔
    ∃ items s r m, t = bodyText items ++ r ∧ strVal items = some s ∧ BadItem r m ∧ e = ⟨.ParseStringError, m⟩ := by
  unfold parseStringRaw
  simp only [List.drop_succ_cons, List.drop_zero]
  constructor
  · exact strLoop_err _ _ _ _ (by simp; omega)
  · rintro ⟨items, s, r, m, rfl, hs, hr, rfl⟩
    rw [strLoop_prefix r _ items s [] hs (by simp; omega)]
    exact badItem_step hr _

/-! ### Numbers -/

theorem vnFrac_iff (s : Str) : vnFrac s = true ↔ ∀ r, s = '.' :: r → ∃ d r', r = d :: r' ∧ IsDigit d := by
  unfold vnFrac
  match s with
  | [] => simp [vnExp_true]
  | c :: s =>
    dsimp only
    by_cases hc : c = '.'
    · subst hc
      rw [if_pos rfl]
      match s with
      | [] => simp
      | d :: s =>
        dsimp only
        by_cases hd : isDigit d = true
        · rw [if_pos hd]
          simp only [vnExp_true, true_iff]
          rintro r e
          cases e
          exact ⟨d, s, rfl, (isDigit_iff d).1 hd⟩
        · rw [if_neg hd]
          simp only [Bool.false_eq_true, false_iff]
          intro h
          obtain ⟨d', r', e, hd'⟩ := h _ rfl
          cases e
          exact hd ((isDigit_iff d).2 hd')
    · rw [if_neg hc, vnExp_true]
      simp only [true_iff]
      rintro r e
      cases e
      exact absurd rfl hc

theorem skipDigits_split (s : Str) : ∃ ds, Digits ds ∧ s = ds ++ skipDigits s ∧ ∀ c r, skipDigits s = c :: r → ¬ IsDigit c := by
  induction s with
  | nil => exact ⟨[], by simp [Digits], rfl, by simp [skipDigits]⟩
  | cons c s ih =>
    rw [skipDigits]
    by_cases hc : isDigit c = true
    · rw [if_pos hc]
      obtain ⟨ds, h1, h2, h3⟩ := ih
      refine ⟨c :: ds, ?_, by rw [List.cons_append, ← h2], h3⟩
      intro x hx
      rcases List.mem_cons.1 hx with rfl | hx
      · exact (isDigit_iff _).1 hc
      · exact h1 x hx
    · rw [if_neg hc]
      refine ⟨[], by simp [Digits], rfl, ?_⟩
      rintro d r e
      cases e
      exact fun h => hc ((isDigit_iff c).2 h)

theorem skipDigits_none {s : Str} (h : ∀ c r, s = c :: r → ¬ IsDigit c) : skipDigits s = s := by
  cases s with
  | nil => rfl
  | cons c s => rw [skipDigits, if_neg (fun hc => h c s rfl ((isDigit_iff c).1 hc))]

theorem vnInt_iff (s : Str) : vnInt s = true ↔ ∃ int rest, s = int ++ rest ∧
    (int = ['0'] ∨ (int ≠ [] ∧ Digits int ∧ int.head? ≠ some '0' ∧ ∀ c r, rest = c :: r → ¬ IsDigit c)) ∧
    ∀ r, rest = '.' :: r → ∃ d r', r = d :: r' ∧ IsDigit d := by
  constructor
  · intro h
    unfold vnInt at h
    match s, h with
    | [], h => cases h
    | c :: s, h =>
      dsimp only at h
      by_cases h0 : c = '0'
      · rw [if_pos h0] at h
        subst h0
        exact ⟨['0'], s, rfl, .inl rfl, (vnFrac_iff s).1 h⟩
      · rw [if_neg h0] at h
        by_cases hc : isDigit c = true
        · rw [if_pos hc, skipDigits, if_pos hc] at h
          obtain ⟨ds, h1, h2, h3⟩ := skipDigits_split s
          refine ⟨c :: ds, skipDigits s, by rw [List.cons_append, ← h2], .inr ⟨by simp, ?_, by simpa using h0, h3⟩, (vnFrac_iff _).1 h⟩
          intro x hx
          rcases List.mem_cons.1 hx with rfl | hx
          · exact (isDigit_iff _).1 hc
          · exact h1 x hx
        · rw [if_neg hc] at h; cases h
  · rintro ⟨int, rest, rfl, hi, hf⟩
    have hf := (vnFrac_iff rest).2 hf
    rcases hi with rfl | ⟨hne, hd, h0, hr⟩
    · exact hf
    · cases int with
      | nil => exact absurd rfl hne
      | cons c ds =>
        have hc : isDigit c = true := (isDigit_iff c).2 (hd c (by simp))
        unfold vnInt
        rw [List.cons_append]
        dsimp only
        rw [if_neg (by simpa using h0), if_pos hc, ← List.cons_append, skipDigits_append _ _ hd, skipDigits_none hr]
        exact hf

theorem validNumber_iff (t : Str) : validNumber t = true ↔ NumberStart t := by
  unfold validNumber NumberStart
  constructor
  · intro h
    match t, h with
    | [], h => cases h
    | c :: s, h =>
      dsimp only at h
      by_cases hc : c = '-'
      · rw [if_pos hc] at h
        subst hc
        obtain ⟨int, rest, rfl, h'⟩ := (vnInt_iff s).1 h
        exact ⟨true, int, rest, by simp, h'⟩
      · rw [if_neg hc] at h
        obtain ⟨int, rest, e, h⟩ := (vnInt_iff _).1 h
        exact ⟨false, int, rest, by simpa using e, h⟩
  · rintro ⟨neg, int, rest, rfl, h⟩
    cases neg with
    | true =>
      simp only [if_true, List.cons_append, List.nil_append]
      exact (vnInt_iff _).2 ⟨int, rest, rfl, h⟩
    | false =>
      simp only [Bool.false_eq_true, if_false, List.nil_append]
      have hv := (vnInt_iff _).2 ⟨int, rest, rfl, h⟩
      match hi : int ++ rest with
      | [] => rw [hi] at hv; exact hv
      | c :: s =>
        dsimp only
        rw [if_neg, ← hi]
        · exact hv
        · rintro rfl
          rcases h.1 with rfl | ⟨hne, hd, _⟩
          · cases hi
          · cases int with
            | nil => exact hne rfl
            | cons d ds =>
              cases hi
              have := hd '-' (by simp)
              simp [IsDigit] at this

section
variable {F : Type}

/-! ### Arrays -/

/-- As `Spec.FailsElems`, with the pieces given to `rec`. -/
inductive FailElemsR (rec : Str → Res (Json F)) : Str → Error → Prop
  | unclosed (gs : List Glyph) (hs : NoStop ElemStop gs) : FailElemsR rec (glyphs gs) ⟨.ParseArrayError, "missing ].".toList⟩
  | hanging (gs : List Glyph) (hs : NoStop ElemStop gs) : FailElemsR rec (glyphs gs ++ ['\\']) ⟨.ParseArrayError, "missing escaped character.".toList⟩
  | empty (gs : List Glyph) (r : Str) (hs : Segment ElemStop gs) (he : squeeze IsWs gs = []) :
      FailElemsR rec (glyphs gs ++ ',' :: r) ⟨.ParseArrayError, "invalid empty element.".toList⟩
  | comma (gs : List Glyph) (r : Str) (hs : Segment ElemStop gs) (he : squeeze IsWs gs ≠ []) :
      FailElemsR rec (glyphs gs ++ ',' :: ']' :: r) ⟨.ParseArrayError, "invalid trailing comma.".toList⟩
  | elem (gs : List Glyph) (t : Str) (e : Error) (hs : Segment ElemStop gs) (he : ElemEnd (squeeze IsWs gs) t) (h : rec (squeeze IsWs gs) = .error e) :
      FailElemsR rec (glyphs gs ++ t) e
  | trail (gs : List Glyph) (v : Json F) (w : Str) (c : Char) (r : Str) (hs : Segment ElemStop gs) (hv : rec (squeeze IsWs gs) = .ok v) (hw : WsStr w) (hc : ¬ IsWs c) :
      FailElemsR rec (glyphs gs ++ ']' :: (w ++ c :: r)) ⟨.ParseArrayError, trailing c⟩
  | next (gs : List Glyph) (v : Json F) (r : Str) (e : Error) (hs : Segment ElemStop gs) (hv : rec (squeeze IsWs gs) = .ok v)
      (he : ElemEnd (squeeze IsWs gs) (',' :: r)) (h : FailElemsR rec r e) : FailElemsR rec (glyphs gs ++ ',' :: r) e

theorem head_ne_of {r : Str} {c : Char} (h : ∀ r', r ≠ c :: r') : r.head? ≠ some c := by
  cases r with
  | nil => simp
  | cons d r => intro e; cases e; exact h r rfl

theorem of_head_ne {r : Str} {c : Char} (h : r.head? ≠ some c) : ∀ r', r ≠ c :: r' := by
  rintro r' rfl; exact h rfl

theorem arr_err_complete (rec : Str → Res (Json F)) {s : Str} {e : Error} (h : FailElemsR rec s e) : ∀ arr, arrLoop rec s 0 0 [] arr = .error e := by
  induction h with
  | unclosed gs hs =>
    intro arr
    have := arr_glyphs rec [] arr gs [] hs
    rw [List.append_nil, List.nil_append] at this
    refine Eq.trans this ?_
    rw [arrLoop]; rfl
  | hanging gs hs =>
    intro arr
    have := arr_glyphs rec ['\\'] arr gs [] hs
    rw [List.nil_append] at this
    refine Eq.trans this ?_
    rw [arrLoop_cons]; simp [fail]
  | empty gs r hs he =>
    intro arr
    rw [segment_start rec hs, arrLoop_cons, if_neg (by simp), if_pos ⟨rfl, rfl, rfl⟩, if_pos he]; rfl
  | comma gs r hs he =>
    intro arr
    rw [segment_start rec hs, arrLoop_cons, if_neg (by simp), if_pos ⟨rfl, rfl, rfl⟩, if_neg he]; rfl
  | elem gs t e hs he h =>
    intro arr
    rw [segment_start rec hs]
    cases he with
    | close r => rw [arrLoop_cons, if_pos ⟨rfl, rfl, rfl⟩, h]
    | comma r h1 h2 => rw [arrLoop_cons, if_neg (by simp), if_pos ⟨rfl, rfl, rfl⟩, if_neg h1, if_neg (head_ne_of h2), h]
  | trail gs v w c r hs hv hw hc =>
    intro arr
    rw [segment_start rec hs, arrLoop_cons, if_pos ⟨rfl, rfl, rfl⟩, hv]
    dsimp only
    rw [(skipTrail_err _ _ _).2 ⟨w, c, r, rfl, hw, hc, rfl⟩]
  | next gs v r e hs hv he h ih =>
    intro arr
    rw [segment_start rec hs]
    cases he with
    | comma r h1 h2 =>
      rw [arrLoop_cons, if_neg (by simp), if_pos ⟨rfl, rfl, rfl⟩, if_neg h1, if_neg (head_ne_of h2), hv]
      exact ih _

theorem arr_err_sound (rec : Str → Res (Json F)) (e : Error) : ∀ (n : Nat) (s : Str) (a : List Glyph) (arr : List (Json F)), s.length ≤ n → NoStop ElemStop a →
    arrLoop rec s (openCount a) (qp a) (squeeze IsWs a) arr = .error e → FailElemsR rec (glyphs a ++ s) e
  | _, [], a, _, _, ha, h => by
    rw [arrLoop] at h; cases h
    rw [List.append_nil]; exact .unclosed a ha
  | 0, _ :: _, _, _, hn, _, _ => by simp at hn
  | n + 1, c :: s, a, arr, hn, ha, h => by
    have hn' : s.length ≤ n := by simpa using hn
    have ho := outside_iff a
    by_cases hstop : Outside a ∧ ElemStop c
    · obtain ⟨hout, hst⟩ := hstop
      have hseg : Segment ElemStop a := segment_iff.2 ⟨ha, hout⟩
      rw [(ho.1 hout).1, (ho.1 hout).2, arrLoop_cons] at h
      rcases hst with rfl | rfl
      · rw [if_neg (by simp), if_pos ⟨rfl, rfl, rfl⟩] at h
        by_cases e1 : squeeze IsWs a = []
        · rw [if_pos e1] at h; cases h; exact .empty a s hseg e1
        rw [if_neg e1] at h
        by_cases e2 : s.head? = some ']'
        · rw [if_pos e2] at h
          cases h
          cases s with
          | nil => cases e2
          | cons d s =>
            cases e2
            exact .comma a s hseg e1
        rw [if_neg e2] at h
        have hend : ElemEnd (squeeze IsWs a) (',' :: s) := .comma s e1 (of_head_ne e2)
        cases e3 : rec (squeeze IsWs a) with
        | error e' => rw [e3] at h; cases h; exact .elem a _ _ hseg hend e3
        | ok v =>
          rw [e3] at h
          exact .next a v s e hseg e3 hend (arr_err_sound rec e n s [] _ hn' (NoStop.nil _) h)
      · rw [if_pos ⟨rfl, rfl, rfl⟩] at h
        cases e3 : rec (squeeze IsWs a) with
        | error e' => rw [e3] at h; cases h; exact .elem a _ _ hseg (.close s) e3
        | ok v =>
          rw [e3] at h
          dsimp only at h
          cases e4 : skipTrail .ParseArrayError s with
          | ok u => rw [e4] at h; cases h
          | error e' =>
            rw [e4] at h
            cases h
            obtain ⟨w, c, r, rfl, hw, hc, rfl⟩ := (skipTrail_err _ _ _).1 e4
            exact .trail a v w c r hseg e3 hw hc
    · by_cases hc : c = '\\'
      · subst hc
        cases s with
        | nil =>
          rw [arrLoop_cons] at h
          simp only [Char.reduceEq, false_and, if_false, if_true] at h
          cases h
          exact .hanging a ha
        | cons d s =>
          have hstep := arr_glyph rec a (.esc d) (by simp) (fun _ c e => by cases e) s (squeeze IsWs a) arr
          simp only [Glyph.text, List.cons_append, List.nil_append] at hstep
          rw [hstep, ← squeeze_snoc] at h
          have hr := arr_err_sound rec e n s _ arr (by simp at hn'; omega) (ha.snoc (by simp) (fun _ c e => by cases e)) h
          rw [glyphs_snoc] at hr
          simpa [Glyph.text] using hr
      · have hg : Glyph.ch c ≠ .ch '\\' := by simpa using hc
        have hs : Outside a → ∀ d, Glyph.ch c = .ch d → ¬ ElemStop d := by
          intro ho d e hst
          cases e
          exact hstop ⟨ho, hst⟩
        have hstep := arr_glyph rec a (.ch c) hg hs s (squeeze IsWs a) arr
        simp only [Glyph.text, List.cons_append, List.nil_append] at hstep
        rw [hstep, ← squeeze_snoc] at h
        have hr := arr_err_sound rec e n s _ arr hn' (ha.snoc hg hs) h
        rw [glyphs_snoc] at hr
        simpa [Glyph.text] using hr

/-! ### Objects -/

/-- As `Spec.FailsMembers`, with the pieces given to `rec`. -/
inductive FailMembersR (rec : Str → Res (Json F)) : Str → Error → Prop
  | noColon (kg : List Glyph) (hk : NoStop KeyStop kg) : FailMembersR rec (glyphs kg) ⟨.ParseObjectError, "missing }.".toList⟩
  | hangingKey (kg : List Glyph) (hk : NoStop KeyStop kg) : FailMembersR rec (glyphs kg ++ ['\\']) ⟨.ParseObjectError, "missing escaped character.".toList⟩
  | unclosed (kg vg : List Glyph) (hk : Segment KeyStop kg) (hs : NoStop ValueStop vg) :
      FailMembersR rec (glyphs kg ++ ':' :: glyphs vg) ⟨.ParseObjectError, "missing }.".toList⟩
  | hanging (kg vg : List Glyph) (hk : Segment KeyStop kg) (hs : NoStop ValueStop vg) :
      FailMembersR rec (glyphs kg ++ ':' :: (glyphs vg ++ ['\\'])) ⟨.ParseObjectError, "missing escaped character.".toList⟩
  | empty (kg vg : List Glyph) (r : Str) (hk : Segment KeyStop kg) (hs : Segment ValueStop vg) (he : squeeze IsWs kg = [] ∨ squeeze ValueDrop vg = []) :
      FailMembersR rec (glyphs kg ++ ':' :: (glyphs vg ++ ',' :: r)) ⟨.ParseObjectError, "invalid empty member.".toList⟩
  | comma (kg vg : List Glyph) (r : Str) (hk : Segment KeyStop kg) (hs : Segment ValueStop vg) (hke : squeeze IsWs kg ≠ []) (hve : squeeze ValueDrop vg ≠ []) :
      FailMembersR rec (glyphs kg ++ ':' :: (glyphs vg ++ ',' :: '}' :: r)) ⟨.ParseObjectError, "invalid trailing comma.".toList⟩
  | key (kg vg : List Glyph) (t : Str) (hk : Segment KeyStop kg) (hs : Segment ValueStop vg) (he : MemberEnd (squeeze IsWs kg) (squeeze ValueDrop vg) t)
      (h : ∀ s, rec (squeeze IsWs kg) ≠ .ok (.string s)) : FailMembersR rec (glyphs kg ++ ':' :: (glyphs vg ++ t)) ⟨.ParseObjectError, "error parsing key string.".toList⟩
  | value (kg vg : List Glyph) (s t : Str) (e : Error) (hk : Segment KeyStop kg) (hs : Segment ValueStop vg)
      (he : MemberEnd (squeeze IsWs kg) (squeeze ValueDrop vg) t) (hkv : rec (squeeze IsWs kg) = .ok (.string s)) (h : rec (squeeze ValueDrop vg) = .error e) :
      FailMembersR rec (glyphs kg ++ ':' :: (glyphs vg ++ t)) e
  | trail (kg vg : List Glyph) (s : Str) (v : Json F) (w : Str) (c : Char) (r : Str) (hk : Segment KeyStop kg) (hs : Segment ValueStop vg)
      (hkv : rec (squeeze IsWs kg) = .ok (.string s)) (hv : rec (squeeze ValueDrop vg) = .ok v) (hw : WsStr w) (hc : ¬ IsWs c) :
      FailMembersR rec (glyphs kg ++ ':' :: (glyphs vg ++ '}' :: (w ++ c :: r))) ⟨.ParseObjectError, trailing c⟩
  | next (kg vg : List Glyph) (s : Str) (v : Json F) (r : Str) (e : Error) (hk : Segment KeyStop kg) (hs : Segment ValueStop vg)
      (hkv : rec (squeeze IsWs kg) = .ok (.string s)) (hv : rec (squeeze ValueDrop vg) = .ok v) (he : MemberEnd (squeeze IsWs kg) (squeeze ValueDrop vg) (',' :: r))
      (h : FailMembersR rec r e) : FailMembersR rec (glyphs kg ++ ':' :: (glyphs vg ++ ',' :: r)) e

/-- The key cut off, the value begun. -/
theorem key_start (rec : Str → Res (Json F)) {kg vg : List Glyph} (h : Segment KeyStop kg) (h' : NoStop ValueStop vg) (rest : Str) (obj : Obj F) :
    objLoop rec (glyphs kg ++ ':' :: (glyphs vg ++ rest)) 0 0 ([], []) true obj =
      objLoop rec rest (openCount vg) (qp vg) (squeeze IsWs kg, squeeze ValueDrop vg) false obj := by
  have h1 := obj_key_glyphs rec (':' :: (glyphs vg ++ rest)) [] obj kg [] (by simpa using (segment_iff.1 h).1)
  have ho := (outside_iff kg).1 h.2.1
  rw [List.nil_append, ho.1, ho.2] at h1
  have h2 := obj_val_glyphs rec rest (squeeze IsWs kg) obj vg [] (by simpa using h')
  rw [List.nil_append] at h2
  refine Eq.trans h1 (Eq.trans ?_ h2)
  rw [objLoop_cons, if_neg (by simp), if_neg (by simp), if_pos ⟨rfl, rfl, rfl⟩]
  rfl

/-- What the loop does with a key that is not a string. -/
theorem key_bad (rec : Str → Res (Json F)) {k : Str} (h : ∀ s, rec k ≠ .ok (.string s)) (f : Str → Res (Json F)) :
    (match rec k with
      | .ok (.string key) => f key
      | _ => fail .ParseObjectError "error parsing key string.") = .error ⟨.ParseObjectError, "error parsing key string.".toList⟩ := by
  split
  · rename_i key e; exact absurd e (h key)
  · rfl

theorem obj_err_complete (rec : Str → Res (Json F)) {s : Str} {e : Error} (h : FailMembersR rec s e) :
    ∀ obj, objLoop rec s 0 0 ([], []) true obj = .error e := by
  induction h with
  | noColon kg hk =>
    intro obj
    have := obj_key_glyphs rec [] [] obj kg [] hk
    rw [List.append_nil, List.nil_append] at this
    refine Eq.trans this ?_
    rw [objLoop]; rfl
  | hangingKey kg hk =>
    intro obj
    have := obj_key_glyphs rec ['\\'] [] obj kg [] hk
    rw [List.nil_append] at this
    refine Eq.trans this ?_
    rw [objLoop_cons]; simp [fail]
  | unclosed kg vg hk hs =>
    intro obj
    have := key_start rec hk hs [] obj
    rw [List.append_nil] at this
    rw [this, objLoop]; rfl
  | hanging kg vg hk hs =>
    intro obj
    rw [key_start rec hk hs ['\\'] obj, objLoop_cons]
    simp [fail]
  | empty kg vg r hk hs he =>
    intro obj
    rw [member_start rec hk hs, objLoop_cons, if_neg (by simp), if_pos ⟨rfl, rfl, rfl, rfl⟩, if_pos he]; rfl
  | comma kg vg r hk hs hke hve =>
    intro obj
    rw [member_start rec hk hs, objLoop_cons, if_neg (by simp), if_pos ⟨rfl, rfl, rfl, rfl⟩, if_neg (by simp [hke, hve])]; rfl
  | key kg vg t hk hs he h =>
    intro obj
    rw [member_start rec hk hs]
    cases he with
    | close r =>
      rw [objLoop_cons, if_pos ⟨rfl, rfl, rfl, rfl⟩]
      dsimp only
      exact key_bad rec h _
    | comma r h1 h2 h3 =>
      rw [objLoop_cons, if_neg (by simp), if_pos ⟨rfl, rfl, rfl, rfl⟩, if_neg (by simp [h1, h2]), if_neg (head_ne_of h3)]
      dsimp only
      exact key_bad rec h _
  | value kg vg s t e hk hs he hkv h =>
    intro obj
    rw [member_start rec hk hs]
    cases he with
    | close r =>
      rw [objLoop_cons, if_pos ⟨rfl, rfl, rfl, rfl⟩]
      simp only [hkv, h]
    | comma r h1 h2 h3 =>
      rw [objLoop_cons, if_neg (by simp), if_pos ⟨rfl, rfl, rfl, rfl⟩, if_neg (by simp [h1, h2]), if_neg (head_ne_of h3)]
      simp only [hkv, h]
  | trail kg vg s v w c r hk hs hkv hv hw hc =>
    intro obj
    rw [member_start rec hk hs, objLoop_cons, if_pos ⟨rfl, rfl, rfl, rfl⟩]
    simp only [hkv, hv]
    rw [(skipTrail_err _ _ _).2 ⟨w, c, r, rfl, hw, hc, rfl⟩]
  | next kg vg s v r e hk hs hkv hv he h ih =>
    intro obj
    rw [member_start rec hk hs]
    cases he with
    | comma r h1 h2 h3 =>
      rw [objLoop_cons, if_neg (by simp), if_pos ⟨rfl, rfl, rfl, rfl⟩, if_neg (by simp [h1, h2]), if_neg (head_ne_of h3)]
      simp only [hkv, hv]
      exact ih _

mutual
theorem obj_err_key (rec : Str → Res (Json F)) (e : Error) : ∀ (n : Nat) (s : Str) (a : List Glyph) (obj : Obj F), s.length ≤ n → NoStop KeyStop a →
    objLoop rec s (openCount a) (qp a) (squeeze IsWs a, []) true obj = .error e → FailMembersR rec (glyphs a ++ s) e
  | _, [], a, _, _, ha, h => by
    rw [objLoop] at h; cases h
    rw [List.append_nil]; exact .noColon a ha
  | 0, _ :: _, _, _, hn, _, _ => by simp at hn
  | n + 1, c :: s, a, obj, hn, ha, h => by
    have hn' : s.length ≤ n := by simpa using hn
    have ho := outside_iff a
    by_cases hstop : Outside a ∧ KeyStop c
    · obtain ⟨hout, rfl⟩ := hstop
      have hseg : Segment KeyStop a := segment_iff.2 ⟨ha, hout⟩
      rw [(ho.1 hout).1, (ho.1 hout).2, objLoop_cons, if_neg (by simp), if_neg (by simp), if_pos ⟨rfl, rfl, rfl⟩] at h
      have hr := obj_err_val rec e n s a [] obj hn' hseg (NoStop.nil _) h
      simpa [glyphs] using hr
    · by_cases hc : c = '\\'
      · subst hc
        cases s with
        | nil =>
          rw [objLoop_cons] at h
          simp only [Char.reduceEq, false_and, if_false, if_true] at h
          cases h
          exact .hangingKey a ha
        | cons d s =>
          have hstep := obj_key_glyph rec a (.esc d) (by simp) (fun _ c e => by cases e) s (squeeze IsWs a, []) obj
          simp only [Glyph.text, List.cons_append, List.nil_append] at hstep
          rw [hstep, ← squeeze_snoc] at h
          have hr := obj_err_key rec e n s _ obj (by simp at hn'; omega) (ha.snoc (by simp) (fun _ c e => by cases e)) h
          rw [glyphs_snoc] at hr
          simpa [Glyph.text] using hr
      · have hg : Glyph.ch c ≠ .ch '\\' := by simpa using hc
        have hs : Outside a → ∀ d, Glyph.ch c = .ch d → ¬ KeyStop d := by
          intro ho d e hst
          cases e
          exact hstop ⟨ho, hst⟩
        have hstep := obj_key_glyph rec a (.ch c) hg hs s (squeeze IsWs a, []) obj
        simp only [Glyph.text, List.cons_append, List.nil_append] at hstep
        rw [hstep, ← squeeze_snoc] at h
        have hr := obj_err_key rec e n s _ obj hn' (ha.snoc hg hs) h
        rw [glyphs_snoc] at hr
        simpa [Glyph.text] using hr
theorem obj_err_val (rec : Str → Res (Json F)) (e : Error) : ∀ (n : Nat) (s : Str) (kg a : List Glyph) (obj : Obj F), s.length ≤ n → Segment KeyStop kg →
    NoStop ValueStop a → objLoop rec s (openCount a) (qp a) (squeeze IsWs kg, squeeze ValueDrop a) false obj = .error e →
    FailMembersR rec (glyphs kg ++ ':' :: (glyphs a ++ s)) e
  | _, [], kg, a, _, _, hk, ha, h => by
    rw [objLoop] at h; cases h
    rw [List.append_nil]; exact .unclosed kg a hk ha
  | 0, _ :: _, _, _, _, hn, _, _, _ => by simp at hn
  | n + 1, c :: s, kg, a, obj, hn, hk, ha, h => by
    have hn' : s.length ≤ n := by simpa using hn
    have ho := outside_iff a
    by_cases hstop : Outside a ∧ ValueStop c
    · obtain ⟨hout, hst⟩ := hstop
      have hseg : Segment ValueStop a := segment_iff.2 ⟨ha, hout⟩
      rw [(ho.1 hout).1, (ho.1 hout).2, objLoop_cons] at h
      rcases hst with rfl | rfl
      · rw [if_neg (by simp), if_pos ⟨rfl, rfl, rfl, rfl⟩] at h
        dsimp only at h
        by_cases e1 : squeeze IsWs kg = [] ∨ squeeze ValueDrop a = []
        · rw [if_pos e1] at h; cases h; exact .empty kg a s hk hseg e1
        rw [if_neg e1] at h
        have e1' := not_or.1 e1
        by_cases e2 : s.head? = some '}'
        · rw [if_pos e2] at h
          cases h
          cases s with
          | nil => cases e2
          | cons d s =>
            cases e2
            exact .comma kg a s hk hseg e1'.1 e1'.2
        rw [if_neg e2] at h
        have hend : MemberEnd (squeeze IsWs kg) (squeeze ValueDrop a) (',' :: s) := .comma s e1'.1 e1'.2 (of_head_ne e2)
        by_cases hkey : ∃ k, rec (squeeze IsWs kg) = .ok (.string k)
        · obtain ⟨k, e3⟩ := hkey
          rw [e3] at h
          dsimp only at h
          cases e4 : rec (squeeze ValueDrop a) with
          | error e' => rw [e4] at h; cases h; exact .value kg a k _ _ hk hseg hend e3 e4
          | ok v =>
            rw [e4] at h
            exact .next kg a k v s e hk hseg e3 e4 hend (obj_err_key rec e n s [] _ hn' (NoStop.nil _) h)
        · have hkey : ∀ k, rec (squeeze IsWs kg) ≠ .ok (.string k) := fun k hk => hkey ⟨k, hk⟩
          have h := (key_bad rec hkey _).symm.trans h
          cases h
          exact .key kg a _ hk hseg hend hkey
      · rw [if_pos ⟨rfl, rfl, rfl, rfl⟩] at h
        dsimp only at h
        by_cases hkey : ∃ k, rec (squeeze IsWs kg) = .ok (.string k)
        · obtain ⟨k, e3⟩ := hkey
          rw [e3] at h
          dsimp only at h
          cases e4 : rec (squeeze ValueDrop a) with
          | error e' => rw [e4] at h; cases h; exact .value kg a k _ _ hk hseg (.close s) e3 e4
          | ok v =>
            rw [e4] at h
            dsimp only at h
            cases e5 : skipTrail .ParseObjectError s with
            | ok u => rw [e5] at h; cases h
            | error e' =>
              rw [e5] at h
              cases h
              obtain ⟨w, c, r, rfl, hw, hc, rfl⟩ := (skipTrail_err _ _ _).1 e5
              exact .trail kg a k v w c r hk hseg e3 e4 hw hc
        · have hkey : ∀ k, rec (squeeze IsWs kg) ≠ .ok (.string k) := fun k hk => hkey ⟨k, hk⟩
          have h := (key_bad rec hkey _).symm.trans h
          cases h
          exact .key kg a _ hk hseg (.close s) hkey
    · by_cases hc : c = '\\'
      · subst hc
        cases s with
        | nil =>
          rw [objLoop_cons] at h
          simp only [Char.reduceEq, false_and, if_false, if_true] at h
          cases h
          exact .hanging kg a hk ha
        | cons d s =>
          have hstep := obj_val_glyph rec a (.esc d) (by simp) (fun _ c e => by cases e) s (squeeze IsWs kg, squeeze ValueDrop a) obj
          simp only [Glyph.text, List.cons_append, List.nil_append] at hstep
          rw [hstep, ← squeeze_snoc] at h
          have hr := obj_err_val rec e n s kg _ obj (by simp at hn'; omega) hk (ha.snoc (by simp) (fun _ c e => by cases e)) h
          rw [glyphs_snoc] at hr
          simpa [Glyph.text] using hr
      · have hg : Glyph.ch c ≠ .ch '\\' := by simpa using hc
        have hs : Outside a → ∀ d, Glyph.ch c = .ch d → ¬ ValueStop d := by
          intro ho d e hst
          cases e
          exact hstop ⟨ho, hst⟩
        have hstep := obj_val_glyph rec a (.ch c) hg hs s (squeeze IsWs kg, squeeze ValueDrop a) obj
        simp only [Glyph.text, List.cons_append, List.nil_append] at hstep
        rw [hstep, ← squeeze_snoc] at h
        have hr := obj_err_val rec e n s kg _ obj hn' hk (ha.snoc hg hs) h
        rw [glyphs_snoc] at hr
        simpa [Glyph.text] using hr
end

end

end RJ
