import Verif.Proof.Utf8
/-
  `parse_string` against the RFC 8259 string grammar.
-/
namespace RJ
open Spec

theorem isWs_iff (c : Char) : isWs c = true ↔ IsWs c := by
  have h : ∀ d : Char, c = d ↔ c.toNat = d.toNat :=
    fun d => ⟨fun h => h ▸ rfl, fun h => Char.toNat_inj.mp h⟩
  simp only [isWs, IsWs, Bool.or_eq_true, decide_eq_true_eq, h]
  simp only [Char.reduceToNat]
  omega

theorem parseHexDigit_ok (c : Char) (d : Nat) : parseHexDigit c = .ok d ↔ hexVal c = some d := by
  unfold parseHexDigit hexVal
  simp only [ge_iff_le]
  by_cases h1 : 48 ≤ c.toNat ∧ c.toNat ≤ 57
  · simp [h1]
  by_cases h2 : 65 ≤ c.toNat ∧ c.toNat ≤ 70
  · simp only [if_neg h1, if_pos h2, Except.ok.injEq, Option.some.injEq]; omega
  by_cases h3 : 97 ≤ c.toNat ∧ c.toNat ≤ 102
  · simp only [if_neg h1, if_neg h2, if_pos h3, Except.ok.injEq, Option.some.injEq]; omega
  simp [h1, h2, h3, failS]

theorem hexVal_lt {c : Char} {d : Nat} (h : hexVal c = some d) : d < 16 := by
  unfold hexVal at h
  simp only at h
  split at h
  · simp at h; omega
  · split at h
    · simp at h; omega
    · split at h
      · simp at h; omega
      · simp at h

theorem parseHexDigit_cases (c : Char) :
    (∃ d, hexVal c = some d ∧ parseHexDigit c = .ok d) ∨
    (hexVal c = none ∧ ∃ e, parseHexDigit c = .error e) := by
  cases h : hexVal c with
  | some d => exact .inl ⟨d, rfl, (parseHexDigit_ok c d).mpr h⟩
  | none =>
    refine .inr ⟨rfl, ?_⟩
    cases h' : parseHexDigit c with
    | error e => exact ⟨e, rfl⟩
    | ok d => rw [parseHexDigit_ok, h] at h'; cases h'

theorem shl_or (u d : Nat) (h : d < 16) : (u <<< 4) ||| d = u * 16 + d := by
  rw [Nat.shiftLeft_eq, Nat.mul_comm]
  have := or_add u d 4 (by omega)
  rw [this]

theorem hexRounds_step (n u : Nat) (ch : Char) (s : Str) (d : Nat) (h : hexVal ch = some d) :
    hexRounds (n + 1) u (ch :: s) = hexRounds n (u * 16 + d) s := by
  rw [hexRounds, (parseHexDigit_ok ch d).mpr h]
  simp only
  rw [shl_or u d (hexVal_lt h)]

theorem hexRounds_inv {n u : Nat} {s : Str} {r : Nat × Str} (h : hexRounds (n + 1) u s = .ok r) :
    ∃ ch s' d, s = ch :: s' ∧ hexVal ch = some d ∧ hexRounds n (u * 16 + d) s' = .ok r := by
  rw [hexRounds.eq_def] at h
  simp only at h
  cases s with
  | nil => simp [fail] at h
  | cons ch s' =>
    rcases parseHexDigit_cases ch with ⟨d, hd, hp⟩ | ⟨_, e, hp⟩
    · refine ⟨ch, s', d, rfl, hd, ?_⟩
      simp only [hp] at h
      rwa [shl_or u d (hexVal_lt hd)] at h
    · simp [hp] at h

theorem hexRounds_four {s : Str} {u : Nat} {s' : Str} :
    hexRounds 4 0 s = .ok (u, s') ↔
      ∃ a b c d, s = a :: b :: c :: d :: s' ∧ unitVal a b c d = some u := by
  constructor
  · intro h
    obtain ⟨a, s1, da, rfl, ha, h⟩ := hexRounds_inv h
    obtain ⟨b, s2, db, rfl, hb, h⟩ := hexRounds_inv h
    obtain ⟨c, s3, dc, rfl, hc, h⟩ := hexRounds_inv h
    obtain ⟨d, s4, dd, rfl, hd, h⟩ := hexRounds_inv h
    simp only [hexRounds, Except.ok.injEq, Prod.mk.injEq] at h
    obtain ⟨h1, rfl⟩ := h
    refine ⟨a, b, c, d, rfl, ?_⟩
    simp only [unitVal, ha, hb, hc, hd, Option.some.injEq]
    omega
  · rintro ⟨a, b, c, d, rfl, h⟩
    unfold unitVal at h
    split at h
    · rename_i da db dc dd ha hb hc hd
      rw [hexRounds_step _ _ _ _ _ ha, hexRounds_step _ _ _ _ _ hb, hexRounds_step _ _ _ _ _ hc,
        hexRounds_step _ _ _ _ _ hd, hexRounds]
      simp only [Option.some.injEq] at h
      simp only [Except.ok.injEq, Prod.mk.injEq, and_true]
      omega
    · simp at h

theorem unitVal_lt {a b c d : Char} {u : Nat} (h : unitVal a b c d = some u) : u < 65536 := by
  unfold unitVal at h
  split at h
  · rename_i da db dc dd ha hb hc hd
    have := hexVal_lt ha; have := hexVal_lt hb; have := hexVal_lt hc; have := hexVal_lt hd
    simp at h; omega
  · simp at h

/-- The code point the code computes for a surrogate pair. -/
theorem pair_eq (u l : Nat) (_h1 : 0xD800 ≤ u) (h3 : 0xDC00 ≤ l) (h4 : l ≤ 0xDFFF) :
    (((u - 0xD800) <<< 10) ||| (l - 0xDC00)) + 0x10000 = 0x10000 + (u - 0xD800) * 0x400 + (l - 0xDC00) := by
  rw [Nat.shiftLeft_eq, Nat.mul_comm]
  rw [or_add (u - 0xD800) (l - 0xDC00) 10 (by omega)]
  omega

theorem unicodeEscape_single {a b c d : Char} {u : Nat} (s : Str) (h : unitVal a b c d = some u)
    (hs : ¬ (0xD800 ≤ u ∧ u ≤ 0xDFFF)) :
    unicodeEscape (a :: b :: c :: d :: s) = .ok ([Char.ofNat u], s) := by
  unfold unicodeEscape
  rw [hexRounds_four.mpr ⟨a, b, c, d, rfl, h⟩]
  have := unitVal_lt h
  simp only
  rw [if_neg (by omega), fromUtf8_encodeUtf8 u (by omega), if_neg hs]

theorem unicodeEscape_pair {a b c d a' b' c' d' : Char} {u l : Nat} (s : Str) (h : unitVal a b c d = some u)
    (h' : unitVal a' b' c' d' = some l) (hu : 0xD800 ≤ u ∧ u ≤ 0xDBFF) (hl : 0xDC00 ≤ l ∧ l ≤ 0xDFFF) :
    unicodeEscape (a :: b :: c :: d :: '\\' :: 'u' :: a' :: b' :: c' :: d' :: s) =
      .ok ([Char.ofNat (0x10000 + (u - 0xD800) * 0x400 + (l - 0xDC00))], s) := by
  unfold unicodeEscape
  rw [hexRounds_four.mpr ⟨a, b, c, d, rfl, h⟩]
  simp only
  rw [if_pos (by omega)]
  simp only [and_self, if_true]
  rw [hexRounds_four.mpr ⟨a', b', c', d', rfl, h'⟩]
  simp only
  rw [if_neg (by omega), pair_eq u l hu.1 hl.1 hl.2, fromUtf8_encodeUtf8 _ (by omega), if_neg (by omega)]

theorem unicodeEscape_inv {s : Str} {t s' : Str} (h : unicodeEscape s = .ok (t, s')) :
    (∃ a b c d u, s = a :: b :: c :: d :: s' ∧ unitVal a b c d = some u ∧
      ¬ (0xD800 ≤ u ∧ u ≤ 0xDFFF) ∧ t = [Char.ofNat u]) ∨
    (∃ a b c d u a' b' c' d' l, s = a :: b :: c :: d :: '\\' :: 'u' :: a' :: b' :: c' :: d' :: s' ∧
      unitVal a b c d = some u ∧ unitVal a' b' c' d' = some l ∧
      (0xD800 ≤ u ∧ u ≤ 0xDBFF) ∧ (0xDC00 ≤ l ∧ l ≤ 0xDFFF) ∧
      t = [Char.ofNat (0x10000 + (u - 0xD800) * 0x400 + (l - 0xDC00))]) := by
  unfold unicodeEscape at h
  cases hr : hexRounds 4 0 s with
  | error e => rw [hr] at h; simp at h
  | ok r =>
    obtain ⟨u, s1⟩ := r
    rw [hr] at h
    obtain ⟨a, b, c, d, rfl, hu⟩ := hexRounds_four.mp hr
    have hlt := unitVal_lt hu
    simp only at h
    by_cases hhi : u ≥ 0xD800 ∧ u ≤ 0xDBFF
    · rw [if_pos hhi] at h
      match s1, h with
      | [], h => simp [fail] at h
      | [_], h => simp [fail] at h
      | x :: y :: s2, h =>
        simp only at h
        by_cases hxy : x = '\\' ∧ y = 'u'
        · rw [if_pos hxy] at h
          obtain ⟨rfl, rfl⟩ := hxy
          cases hr2 : hexRounds 4 0 s2 with
          | error e => rw [hr2] at h; simp at h
          | ok r2 =>
            obtain ⟨l, s3⟩ := r2
            rw [hr2] at h
            obtain ⟨a', b', c', d', rfl, hl⟩ := hexRounds_four.mp hr2
            simp only at h
            by_cases hlo : l < 0xDC00 ∨ l > 0xDFFF
            · rw [if_pos hlo] at h; simp [fail] at h
            · rw [if_neg hlo, pair_eq u l hhi.1 (by omega) (by omega),
                fromUtf8_encodeUtf8 _ (by omega), if_neg (by omega)] at h
              simp only [Except.ok.injEq, Prod.mk.injEq] at h
              obtain ⟨rfl, rfl⟩ := h
              exact .inr ⟨a, b, c, d, u, a', b', c', d', l, rfl, hu, hl, hhi, by omega, rfl⟩
        · rw [if_neg hxy] at h; simp [fail] at h
    · rw [if_neg hhi, fromUtf8_encodeUtf8 u (by omega)] at h
      by_cases hs : 0xD800 ≤ u ∧ u ≤ 0xDFFF
      · rw [if_pos hs] at h; simp [fail] at h
      · rw [if_neg hs] at h
        simp only [Except.ok.injEq, Prod.mk.injEq] at h
        obtain ⟨rfl, rfl⟩ := h
        exact .inl ⟨a, b, c, d, u, rfl, hu, hs, rfl⟩

theorem skipTrail_ok (k : ErrorKind) (s : Str) : skipTrail k s = .ok () ↔ WsStr s := by
  induction s with
  | nil => simp [skipTrail, WsStr]
  | cons c s ih =>
    rw [skipTrail]
    by_cases h : isWs c = true
    · rw [if_pos h, ih]
      simp only [WsStr, List.mem_cons, forall_eq_or_imp, (isWs_iff c).mp h, true_and]
    · rw [if_neg h]
      simp only [failS, reduceCtorEq, false_iff]
      intro hw
      exact h ((isWs_iff c).mpr (hw c (by simp)))

theorem simpleEscape_eq (c : Char) : simpleEscape c = escVal c := by
  unfold simpleEscape escVal
  rfl

theorem escVal_ne_u {c x : Char} (h : escVal c = some x) : c ≠ 'u' := by
  rintro rfl; revert h; simp [escVal]

/-- Completeness of the string loop, for any sufficient number of rounds. -/
theorem strLoop_complete (ws : Str) (hws : WsStr ws) :
    ∀ (n : Nat) (items : List StrItem) (s : Str) (acc : Str),
      strVal items = some s → (bodyText items).length < n →
      strLoop n (bodyText items ++ '"' :: ws) acc = .ok (acc ++ s) := by
  intro n
  induction n with
  | zero => intro items s acc _ h; omega
  | succ n ih =>
    intro items s acc hv hn
    match items, hv, hn with
    | [], hv, hn =>
      simp only [strVal, Option.some.injEq] at hv
      subst hv
      simp only [bodyText, List.nil_append, strLoop, if_true, (skipTrail_ok .ParseStringError ws).mpr hws,
        List.append_nil]
    | .plain c :: t, hv, hn =>
      rw [strVal] at hv
      split at hv
      · rename_i hc
        cases ht : strVal t with
        | none => rw [ht] at hv; simp at hv
        | some s' =>
          rw [ht] at hv
          simp only [Option.map_some, Option.some.injEq] at hv
          subst hv
          simp only [bodyText, StrItem.text, List.cons_append, List.nil_append, List.length_cons] at hn ⊢
          rw [strLoop.eq_def]
          simp only [hc.2.1, hc.2.2, if_false]
          rw [if_neg (by omega), ih t s' _ ht (by omega)]
          simp
      · simp at hv
    | .esc e :: t, hv, hn =>
      rw [strVal] at hv
      cases he : escVal e with
      | none => rw [he] at hv; simp at hv
      | some c =>
        rw [he] at hv
        cases ht : strVal t with
        | none => rw [ht] at hv; simp at hv
        | some s' =>
          rw [ht] at hv
          simp only [Option.map_some, Option.some.injEq] at hv
          subst hv
          simp only [bodyText, StrItem.text, List.cons_append, List.nil_append, List.length_cons] at hn ⊢
          rw [strLoop]
          simp only [Char.reduceEq, if_false, if_true, simpleEscape_eq, he]
          rw [ih t s' _ ht (by omega)]
          simp
    | .uni a b c d :: t, hv, hn =>
      rw [strVal.eq_4] at hv
      cases hu : unitVal a b c d with
      | none => rw [hu] at hv; simp at hv
      | some u =>
        rw [hu] at hv
        simp only at hv
        by_cases hhi : 0xD800 ≤ u ∧ u ≤ 0xDBFF
        · rw [if_pos hhi] at hv
          match t, hv, hn with
          | [], hv, hn => simp at hv
          | .plain _ :: _, hv, hn => simp at hv
          | .esc _ :: _, hv, hn => simp at hv
          | .uni a' b' c' d' :: t', hv, hn =>
            simp only at hv
            cases hl : unitVal a' b' c' d' with
            | none => rw [hl] at hv; simp at hv
            | some l =>
              rw [hl] at hv
              simp only at hv
              by_cases hlo : 0xDC00 ≤ l ∧ l ≤ 0xDFFF
              · rw [if_pos hlo] at hv
                cases ht : strVal t' with
                | none => rw [ht] at hv; simp at hv
                | some s' =>
                  rw [ht] at hv
                  simp only [Option.map_some, Option.some.injEq] at hv
                  subst hv
                  simp only [bodyText, StrItem.text, List.cons_append, List.nil_append, List.length_cons] at hn ⊢
                  rw [strLoop]
                  simp only [Char.reduceEq, if_false, if_true]
                  have : simpleEscape 'u' = none := by decide
                  rw [this]
                  simp only
                  rw [unicodeEscape_pair _ hu hl hhi hlo]
                  simp only
                  rw [ih t' s' _ ht (by omega)]
                  simp
              · rw [if_neg hlo] at hv; simp at hv
        · rw [if_neg hhi] at hv
          by_cases hlo : 0xDC00 ≤ u ∧ u ≤ 0xDFFF
          · rw [if_pos hlo] at hv; simp at hv
          · rw [if_neg hlo] at hv
            cases ht : strVal t with
            | none => rw [ht] at hv; simp at hv
            | some s' =>
              rw [ht] at hv
              simp only [Option.map_some, Option.some.injEq] at hv
              subst hv
              simp only [bodyText, StrItem.text, List.cons_append, List.nil_append, List.length_cons] at hn ⊢
              rw [strLoop]
              simp only [Char.reduceEq, if_false, if_true]
              have : simpleEscape 'u' = none := by decide
              rw [this]
              simp only
              rw [unicodeEscape_single _ hu (by omega)]
              simp only
              rw [ih t s' _ ht (by omega)]
              simp

/-- Soundness of the string loop. -/
theorem strLoop_sound :
    ∀ (n : Nat) (iter acc r : Str), strLoop n iter acc = .ok r →
      ∃ items ws s, iter = bodyText items ++ '"' :: ws ∧ WsStr ws ∧ strVal items = some s ∧ r = acc ++ s := by
  intro n
  induction n with
  | zero => intro iter acc r h; simp [strLoop, fail] at h
  | succ n ih =>
    intro iter acc r h
    rw [strLoop.eq_def] at h
    simp only at h
    match iter, h with
    | [], h => simp [fail] at h
    | c :: iter, h =>
      simp only at h
      by_cases hq : c = '"'
      · rw [if_pos hq] at h
        subst hq
        cases hs : skipTrail .ParseStringError iter with
        | error e => rw [hs] at h; simp at h
        | ok u =>
          rw [hs] at h
          simp only [Except.ok.injEq] at h
          subst h
          exact ⟨[], iter, [], by simp [bodyText], (skipTrail_ok .ParseStringError iter).mp hs, rfl, by simp⟩
      · rw [if_neg hq] at h
        by_cases hb : c = '\\'
        · rw [if_pos hb] at h
          subst hb
          match iter, h with
          | [], h => simp [fail] at h
          | e :: iter, h =>
            simp only at h
            cases he : simpleEscape e with
            | some ch =>
              rw [he] at h
              simp only at h
              obtain ⟨items, ws, s, rfl, hw, hv, rfl⟩ := ih _ _ _ h
              rw [simpleEscape_eq] at he
              refine ⟨.esc e :: items, ws, ch :: s, by simp [bodyText, StrItem.text], hw, ?_, by simp⟩
              simp [strVal, he, hv]
            | none =>
              rw [he] at h
              simp only at h
              by_cases hue : e = 'u'
              · rw [if_pos hue] at h
                subst hue
                cases hun : unicodeEscape iter with
                | error e => rw [hun] at h; simp at h
                | ok p =>
                  obtain ⟨t, s'⟩ := p
                  rw [hun] at h
                  simp only at h
                  obtain ⟨items, ws, s, rfl, hw, hv, rfl⟩ := ih _ _ _ h
                  rcases unicodeEscape_inv hun with ⟨a, b, c, d, u, rfl, hu, hns, rfl⟩ |
                    ⟨a, b, c, d, u, a', b', c', d', l, rfl, hu, hl, hhi, hlo, rfl⟩
                  · refine ⟨.uni a b c d :: items, ws, Char.ofNat u :: s, by simp [bodyText, StrItem.text], hw, ?_,
                      by simp⟩
                    rw [strVal.eq_4, hu]
                    simp only
                    rw [if_neg (by omega), if_neg (by omega), hv]; rfl
                  · refine ⟨.uni a b c d :: .uni a' b' c' d' :: items, ws, _ :: s,
                      by simp [bodyText, StrItem.text], hw, ?_, by simp; rfl⟩
                    rw [strVal.eq_4, hu]
                    simp only
                    rw [if_pos hhi, hl]
                    simp only
                    rw [if_pos hlo, hv]; rfl
              · rw [if_neg hue] at h; simp [fail] at h
        · rw [if_neg hb] at h
          by_cases hc : c.toNat ≤ 0x1F
          · rw [if_pos hc] at h; simp [fail] at h
          · rw [if_neg hc] at h
            obtain ⟨items, ws, s, rfl, hw, hv, rfl⟩ := ih _ _ _ h
            refine ⟨.plain c :: items, ws, c :: s, by simp [bodyText, StrItem.text], hw, ?_, by simp⟩
            rw [strVal, if_pos ⟨by omega, hq, hb⟩, hv]; rfl

/-- `parse_string` accepts exactly the RFC literals with paired surrogates, followed by whitespace, and returns the string they
denote. -/
theorem parseStringRaw_iff (t s : Str) :
    parseStringRaw ('"' :: t) = .ok s ↔
      ∃ items ws, '"' :: t = strText items ++ ws ∧ WsStr ws ∧ strVal items = some s := by
  unfold parseStringRaw
  simp only [List.drop_succ_cons, List.drop_zero]
  constructor
  · intro h
    obtain ⟨items, ws, s', rfl, hw, hv, rfl⟩ := strLoop_sound _ _ _ _ h
    exact ⟨items, ws, by simp [strText], hw, by simpa using hv⟩
  · rintro ⟨items, ws, ht, hw, hv⟩
    simp only [strText, List.append_assoc, List.cons_append, List.nil_append, List.cons.injEq, true_and] at ht
    subst ht
    have := strLoop_complete ws hw (('"' :: (bodyText items ++ '"' :: ws)).length + 1) items s [] hv
      (by simp; omega)
    simpa using this

theorem strVal_valid : ∀ {items : List StrItem} {s : Str}, strVal items = some s → ∀ i ∈ items, i.Valid := by
  intro items
  induction items using strVal.induct with
  | case1 => intro s _ i hi; cases hi
  | case2 c t hc ih =>
    intro s h i hi
    rw [strVal, if_pos hc] at h
    cases ht : strVal t with
    | none => rw [ht] at h; simp at h
    | some s' =>
      cases hi with
      | head => exact hc
      | tail _ hi => exact ih ht i hi
  | case3 c t hc => intro s h; rw [strVal, if_neg hc] at h; cases h
  | case4 e t c he ih =>
    intro s h i hi
    rw [strVal, he] at h
    cases ht : strVal t with
    | none => rw [ht] at h; simp at h
    | some s' =>
      cases hi with
      | head => simp [StrItem.Valid, he]
      | tail _ hi => exact ih ht i hi
  | case5 e t he => intro s h; rw [strVal, he] at h; cases h
  | case6 => intro s h; simp_all [strVal]
  | case7 a b c d u hu hhi a' b' c' d' t' l hl hlo ih =>
    intro s h i hi
    rw [strVal.eq_4, hu] at h
    simp only [if_pos hhi, hl, if_pos hlo] at h
    cases ht : strVal t' with
    | none => rw [ht] at h; simp at h
    | some s' =>
      rcases List.mem_cons.mp hi with rfl | hi
      · simp [StrItem.Valid, hu]
      · rcases List.mem_cons.mp hi with rfl | hi
        · simp [StrItem.Valid, hl]
        · exact ih ht i hi
  | case8 a b c d u hu hhi a' b' c' d' t' l hl hlo =>
    intro s h
    rw [strVal.eq_4, hu] at h
    simp only [if_pos hhi, hl, if_neg hlo] at h
    cases h
  | case9 => intro s h; rw [strVal.eq_4] at h; simp_all
  | case10 => intro s h; rw [strVal.eq_4] at h; simp_all
  | case11 a b c d t u hu h1 h2 => intro s h; rw [strVal.eq_4, hu] at h; simp only [if_neg h1, if_pos h2] at h; cases h
  | case12 a b c d t u hu h1 h2 ih =>
    intro s h i hi
    rw [strVal.eq_4, hu] at h
    simp only [if_neg h1, if_neg h2] at h
    cases ht : strVal t with
    | none => rw [ht] at h; simp at h
    | some s' =>
      rcases List.mem_cons.mp hi with rfl | hi
      · simp [StrItem.Valid, hu]
      · exact ih ht i hi

end RJ
