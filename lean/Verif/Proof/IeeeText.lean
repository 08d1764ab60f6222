import Verif.Proof.Ieee
/-
  `from_str` and `to_string` of the IEEE-754 model.
-/
set_option linter.unusedSectionVars false
namespace RJ
open Spec

theorem all_digits_iff (s : Str) : s.all isDigit = true ↔ Digits s := by
  rw [List.all_eq_true]
  exact ⟨fun h c hc => (isDigit_iff c).mp (h c hc), fun h c hc => (isDigit_iff c).mpr (h c hc)⟩

theorem digits_takeWhile (s : Str) : Digits (s.takeWhile isDigit) := by
  induction s with
  | nil => intro c hc; cases hc
  | cons d s ih =>
    intro c hc
    by_cases hd : isDigit d = true
    · rw [List.takeWhile_cons_of_pos hd] at hc
      rcases List.mem_cons.mp hc with rfl | hc
      · exact (isDigit_iff c).mp hd
      · exact ih c hc
    · rw [List.takeWhile_cons_of_neg hd] at hc; cases hc

/-- A digit run is what `takeWhile` takes. -/
theorem takeWhile_run (ds r : Str) (hd : Digits ds) (hr : ∀ c t, r = c :: t → ¬ IsDigit c) :
    (ds ++ r).takeWhile isDigit = ds ∧ (ds ++ r).dropWhile isDigit = r := by
  induction ds with
  | nil =>
    cases r with
    | nil => simp
    | cons c t =>
      have : isDigit c = false := by
        have := hr c t rfl
        rw [← isDigit_iff] at this; simpa using this
      simp [this]
  | cons c ds ih =>
    have hc : isDigit c = true := (isDigit_iff c).mpr (hd c (by simp))
    have := ih (fun x hx => hd x (by simp [hx]))
    simp [hc, this.1, this.2]

theorem not_digit_e {e : Char} (h : e = 'e' ∨ e = 'E') : ¬ IsDigit e := by
  rcases h with rfl | rfl <;> simp [IsDigit]

theorem parseExp_isSome (s : Str) : (parseExp s).isSome = true ↔ ExpText s := by
  unfold parseExp ExpText
  cases s with
  | nil => simp
  | cons c r =>
    simp only [List.cons_ne_nil, false_or]
    by_cases hc : c = 'e' ∨ c = 'E'
    · rw [if_pos hc]
      cases r with
      | nil =>
        constructor
        · intro h; cases h
        · rintro ⟨e, sg, ds, h, _, _, hne, _⟩
          simp only [List.cons.injEq] at h
          have := congrArg List.length h.2
          simp at this
          exact absurd (List.length_eq_zero_iff.mp (by omega)) hne
      | cons d r' =>
        simp only
        by_cases h1 : d = '-'
        · subst h1
          rw [if_pos rfl]
          constructor
          · intro h
            split at h
            · rename_i hh
              exact ⟨c, ['-'], r', rfl, hc, by simp, hh.1, (all_digits_iff _).mp hh.2⟩
            · cases h
          · rintro ⟨e, sg, ds, h, _, hsg, hne, hd⟩
            simp only [List.cons.injEq] at h
            rcases hsg with rfl | rfl | rfl
            · simp only [List.nil_append] at h
              have := hd '-' (by rw [← h.2]; simp)
              simp [IsDigit] at this
            · simp at h
            · simp only [List.cons_append, List.nil_append, List.cons.injEq, true_and] at h
              rw [h.2, if_pos ⟨hne, (all_digits_iff _).mpr hd⟩]; rfl
        · rw [if_neg h1]
          by_cases h2 : d = '+'
          · subst h2
            rw [if_pos rfl]
            constructor
            · intro h
              split at h
              · rename_i hh
                exact ⟨c, ['+'], r', rfl, hc, by simp, hh.1, (all_digits_iff _).mp hh.2⟩
              · cases h
            · rintro ⟨e, sg, ds, h, _, hsg, hne, hd⟩
              simp only [List.cons.injEq] at h
              rcases hsg with rfl | rfl | rfl
              · simp only [List.nil_append] at h
                have := hd '+' (by rw [← h.2]; simp)
                simp [IsDigit] at this
              · simp only [List.cons_append, List.nil_append, List.cons.injEq, true_and] at h
                rw [h.2, if_pos ⟨hne, (all_digits_iff _).mpr hd⟩]; rfl
              · simp at h
          · rw [if_neg h2]
            constructor
            · intro h
              split at h
              · rename_i hh
                exact ⟨c, [], d :: r', rfl, hc, by simp, by simp, (all_digits_iff _).mp hh⟩
              · cases h
            · rintro ⟨e, sg, ds, h, _, hsg, hne, hd⟩
              simp only [List.cons.injEq] at h
              rcases hsg with rfl | rfl | rfl
              · simp only [List.nil_append] at h
                rw [h.2, if_pos ((all_digits_iff _).mpr hd)]; rfl
              · simp [h2] at h
              · simp [h1] at h
    · rw [if_neg hc]
      constructor
      · intro h; cases h
      · rintro ⟨e, sg, ds, h, he, _⟩
        simp only [List.cons.injEq] at h
        exact absurd (h.1 ▸ he) hc

theorem expText_start {ex : Str} (h : ExpText ex) : ∀ c t, ex = c :: t → c = 'e' ∨ c = 'E' := by
  rintro c t rfl
  rcases h with h | ⟨e, sg, ds, h, he, _⟩
  · cases h
  · simp only [List.cons.injEq] at h; rw [h.1]; exact he

/-- A number without point. -/
theorem splitNum_int (int ex : Str) (h0 : int ≠ []) (hi : Digits int) (hx : ExpText ex) :
    splitNum (int ++ ex) = (parseExp ex).map (fun e => (int, [], e)) := by
  have hs := expText_start hx
  obtain ⟨h1, h2⟩ := takeWhile_run int ex hi (fun c t h => not_digit_e (hs c t h))
  unfold splitNum
  rw [h1, h2]
  cases ex with
  | nil => simp [h0, parseExp]
  | cons c t =>
    have : ¬ c = '.' := by rcases hs c t rfl with rfl | rfl <;> decide
    simp only [this, if_false, h0, false_and]
    cases parseExp (c :: t) <;> rfl

/-- A number with point. -/
theorem splitNum_frac (int frac ex : Str) (h0 : ¬ (int = [] ∧ frac = [])) (hi : Digits int) (hf : Digits frac) (hx : ExpText ex) :
    splitNum (int ++ '.' :: frac ++ ex) = (parseExp ex).map (fun e => (int, frac, e)) := by
  have hs := expText_start hx
  obtain ⟨h1, h2⟩ := takeWhile_run int ('.' :: (frac ++ ex)) hi (by
    intro c t h
    simp only [List.cons.injEq] at h
    rw [← h.1]; simp [IsDigit])
  obtain ⟨h3, h4⟩ := takeWhile_run frac ex hf (fun c t h => not_digit_e (hs c t h))
  unfold splitNum
  rw [show int ++ '.' :: frac ++ ex = int ++ '.' :: (frac ++ ex) by simp, h1, h2]
  simp only [if_true, h3, h4, h0, if_false]
  cases parseExp ex <;> rfl

theorem splitNum_isSome (r : Str) : (splitNum r).isSome = true ↔
    (∃ int ex, r = int ++ ex ∧ int ≠ [] ∧ Digits int ∧ ExpText ex) ∨
    (∃ int frac ex, r = int ++ '.' :: frac ++ ex ∧ ¬ (int = [] ∧ frac = []) ∧ Digits int ∧ Digits frac ∧ ExpText ex) := by
  constructor
  · intro h
    have hsp : r = r.takeWhile isDigit ++ r.dropWhile isDigit := (List.takeWhile_append_dropWhile).symm
    have hd := digits_takeWhile r
    unfold splitNum at h
    generalize r.takeWhile isDigit = int at *
    generalize r.dropWhile isDigit = rest at *
    subst hsp
    cases rest with
    | nil =>
      left
      simp only [and_true] at h
      split at h
      · cases h
      · rename_i h0
        exact ⟨int, [], by simp, h0, hd, .inl rfl⟩
    | cons c t =>
      simp only at h
      by_cases hc : c = '.'
      · right
        subst hc
        simp only [if_true] at h
        split at h
        · cases h
        · rename_i h0
          refine ⟨int, t.takeWhile isDigit, t.dropWhile isDigit, ?_, h0, hd, digits_takeWhile t, ?_⟩
          · simp [List.takeWhile_append_dropWhile]
          · rw [← parseExp_isSome]
            split at h
            · rename_i h'; rw [h']; rfl
            · cases h
      · left
        simp only [hc, if_false, and_true] at h
        split at h
        · cases h
        · rename_i h0
          refine ⟨int, c :: t, rfl, h0, hd, ?_⟩
          rw [← parseExp_isSome]
          split at h
          · rename_i h'; rw [h']; rfl
          · cases h
  · rintro (⟨int, ex, rfl, h0, hi, hx⟩ | ⟨int, frac, ex, rfl, h0, hi, hf, hx⟩)
    · rw [splitNum_int int ex h0 hi hx]
      simpa using (parseExp_isSome ex).mpr hx
    · rw [splitNum_frac int frac ex h0 hi hf hx]
      simpa using (parseExp_isSome ex).mpr hx

/-- What may follow the sign. -/
def MagText (rest : Str) : Prop :=
  (rest.map asciiLower = "inf".toList ∨ rest.map asciiLower = "infinity".toList ∨ rest.map asciiLower = "nan".toList) ∨
  (∃ int ex, rest = int ++ ex ∧ int ≠ [] ∧ Digits int ∧ ExpText ex) ∨
  (∃ int frac ex, rest = int ++ '.' :: frac ++ ex ∧ ¬ (int = [] ∧ frac = []) ∧ Digits int ∧ Digits frac ∧ ExpText ex)

theorem parseMag_isSome (q : Fmt) (neg : Bool) (r : Str) : (parseMag q neg r).isSome = true ↔ MagText r := by
  have hl : lowerAscii = asciiLower := rfl
  unfold parseMag MagText
  rw [← splitNum_isSome]
  simp only [hl]
  by_cases h1 : r.map asciiLower = "inf".toList ∨ r.map asciiLower = "infinity".toList
  · rw [if_pos h1]
    simp only [Option.isSome_some, true_iff]
    rcases h1 with h1 | h1
    · exact .inl (.inl h1)
    · exact .inl (.inr (.inl h1))
  · rw [if_neg h1]
    rw [not_or] at h1
    by_cases h2 : r.map asciiLower = "nan".toList
    · rw [if_pos h2]
      simp only [Option.isSome_some, true_iff]
      exact .inl (.inr (.inr h2))
    · rw [if_neg h2]
      simp only [h1.1, h1.2, h2, false_or]
      cases splitNum r <;> simp

theorem magText_start {r : Str} (h : MagText r) : ∃ c t, r = c :: t ∧ c ≠ '-' ∧ c ≠ '+' := by
  have low : ∀ w : Str, (∃ c t, w = c :: t ∧ c ≠ '-' ∧ c ≠ '+') → ∀ r : Str, r.map asciiLower = w →
      ∃ c t, r = c :: t ∧ c ≠ '-' ∧ c ≠ '+' := by
    rintro w ⟨c, t, rfl, h1, h2⟩ r hr
    obtain ⟨c', t', rfl, h3, _⟩ := List.map_eq_cons_iff.mp hr
    refine ⟨c', t', rfl, ?_, ?_⟩
    · rintro rfl; exact h1 (by rw [← h3]; decide)
    · rintro rfl; exact h2 (by rw [← h3]; decide)
  have dig : ∀ c, IsDigit c → c ≠ '-' ∧ c ≠ '+' := by
    intro c hc
    constructor <;> (rintro rfl; simp [IsDigit] at hc)
  rcases h with (h | h | h) | ⟨int, ex, rfl, h0, hi, _⟩ | ⟨int, frac, ex, rfl, _, hi, _⟩
  · exact low _ ⟨'i', _, rfl, by decide, by decide⟩ r h
  · exact low _ ⟨'i', _, rfl, by decide, by decide⟩ r h
  · exact low _ ⟨'n', _, rfl, by decide, by decide⟩ r h
  · cases int with
    | nil => exact absurd rfl h0
    | cons c t => exact ⟨c, _, rfl, dig c (hi c (by simp))⟩
  · cases int with
    | nil => exact ⟨'.', _, rfl, by decide, by decide⟩
    | cons c t => exact ⟨c, _, rfl, dig c (hi c (by simp))⟩

theorem rustFloat_iff (s : Str) : RustFloat s ↔ ∃ sg r, s = sg ++ r ∧ (sg = [] ∨ sg = ['+'] ∨ sg = ['-']) ∧ MagText r := Iff.rfl

theorem parseFl_isSome (q : Fmt) (s : Str) : (parseFl q s).isSome = true ↔ RustFloat s := by
  rw [rustFloat_iff]
  unfold parseFl
  cases s with
  | nil =>
    constructor
    · intro h; cases h
    · rintro ⟨sg, r, h, _, hm⟩
      obtain ⟨c, t, rfl, _⟩ := magText_start hm
      simp at h
  | cons c r =>
    simp only
    by_cases h1 : c = '-'
    · subst h1
      rw [if_pos rfl, parseMag_isSome]
      constructor
      · exact fun h => ⟨['-'], r, rfl, by simp, h⟩
      · rintro ⟨sg, r', h, hsg, hm⟩
        obtain ⟨c, t, rfl, h3, _⟩ := magText_start hm
        rcases hsg with rfl | rfl | rfl
        · simp only [List.nil_append, List.cons.injEq] at h; exact absurd h.1.symm h3
        · simp at h
        · simp only [List.cons_append, List.nil_append, List.cons.injEq, true_and] at h; rw [h]; exact hm
    · rw [if_neg h1]
      by_cases h2 : c = '+'
      · subst h2
        rw [if_pos rfl, parseMag_isSome]
        constructor
        · exact fun h => ⟨['+'], r, rfl, by simp, h⟩
        · rintro ⟨sg, r', h, hsg, hm⟩
          obtain ⟨c, t, rfl, _, h3⟩ := magText_start hm
          rcases hsg with rfl | rfl | rfl
          · simp only [List.nil_append, List.cons.injEq] at h; exact absurd h.1.symm h3
          · simp only [List.cons_append, List.nil_append, List.cons.injEq, true_and] at h; rw [h]; exact hm
          · simp at h
      · rw [if_neg h2, parseMag_isSome]
        constructor
        · exact fun h => ⟨[], c :: r, rfl, by simp, h⟩
        · rintro ⟨sg, r', h, hsg, hm⟩
          rcases hsg with rfl | rfl | rfl
          · rw [h]; exact hm
          · simp [h2] at h
          · simp [h1] at h

/-! ### Digits -/

theorem digitChar_toNat (n : Nat) : (digitChar n).toNat = 48 + n % 10 := by
  have : n % 10 < 10 := Nat.mod_lt _ (by omega)
  unfold digitChar
  generalize n % 10 = k at this
  have : k = 0 ∨ k = 1 ∨ k = 2 ∨ k = 3 ∨ k = 4 ∨ k = 5 ∨ k = 6 ∨ k = 7 ∨ k = 8 ∨ k = 9 := by omega
  rcases this with rfl | rfl | rfl | rfl | rfl | rfl | rfl | rfl | rfl | rfl <;> rfl

theorem digitChar_digit (n : Nat) : IsDigit (digitChar n) := by
  have : n % 10 < 10 := Nat.mod_lt _ (by omega)
  unfold IsDigit
  rw [digitChar_toNat]; omega

theorem decVal_append (a b : Str) (n : Nat) : decVal (a ++ b) n = decVal b (decVal a n) := by
  induction a generalizing n with
  | nil => rfl
  | cons c a ih => exact ih _

theorem decDigits_spec (n : Nat) : decDigits n ≠ [] ∧ Digits (decDigits n) ∧ decVal (decDigits n) 0 = n ∧
    ((decDigits n).head? = some '0' → n = 0) := by
  induction n using Nat.strongRecOn with
  | ind n ih =>
    rw [decDigits.eq_def]
    by_cases h : n < 10
    · rw [if_pos h]
      refine ⟨by simp, ?_, ?_, ?_⟩
      · intro c hc
        rw [List.mem_singleton] at hc; subst hc; exact digitChar_digit n
      · simp only [decVal, digitChar_toNat]; omega
      · intro h0
        simp only [List.head?_cons, Option.some.injEq] at h0
        have := digitChar_toNat n
        rw [h0] at this
        simp at this; omega
    · rw [if_neg h]
      obtain ⟨h1, h2, h3, h4⟩ := ih (n / 10) (by omega)
      refine ⟨by simp, ?_, ?_, ?_⟩
      · intro c hc
        rcases List.mem_append.mp hc with hc | hc
        · exact h2 c hc
        · rw [List.mem_singleton] at hc; subst hc; exact digitChar_digit n
      · rw [decVal_append, h3]; simp only [decVal, digitChar_toNat]; omega
      · intro h0
        obtain ⟨c, t, hct⟩ := List.exists_cons_of_ne_nil h1
        rw [hct] at h0 h4
        have := h4 h0
        omega

theorem decDigits_zero (n : Nat) (h : (decDigits n).head? = some '0') : decDigits n = ['0'] := by
  have := (decDigits_spec n).2.2.2 h
  subst this
  rw [decDigits.eq_def]; rfl

theorem fracDigits_spec (j n : Nat) : (fracDigits j n).length = j ∧ Digits (fracDigits j n) ∧
    ∀ a, decVal (fracDigits j n) a = a * 10 ^ j + n % 10 ^ j := by
  induction j generalizing n with
  | zero => exact ⟨rfl, (fun _ h => by cases h), fun a => by simp [fracDigits, decVal, Nat.mod_one]⟩
  | succ j ih =>
    obtain ⟨h1, h2, h3⟩ := ih (n / 10)
    rw [fracDigits]
    refine ⟨by simp [h1], ?_, ?_⟩
    · intro c hc
      rcases List.mem_append.mp hc with hc | hc
      · exact h2 c hc
      · rw [List.mem_singleton] at hc; subst hc; exact digitChar_digit n
    · intro a
      rw [decVal_append, h3]
      simp only [decVal, digitChar_toNat]
      have e : n % 10 ^ (j + 1) = (n / 10 % 10 ^ j) * 10 + n % 10 := by
        rw [Nat.pow_succ, Nat.mul_comm (10 ^ j) 10, Nat.mod_mul, Nat.mul_comm 10, Nat.add_comm]
      rw [e, Nat.pow_succ]
      have : 48 + n % 10 - 48 = n % 10 := by omega
      rw [this]; ring

/-! ### Reading a number literal without exponent -/

/-- Number literal with the given parts. -/
def decLit (neg : Bool) (d : Nat) (e : Int) : NumLit :=
  match e with
  | .ofNat k => ⟨neg, decDigits (d * 10 ^ k), none, none⟩
  | .negSucc k => ⟨neg, decDigits (d / 10 ^ (k + 1)), some (fracDigits (k + 1) d), none⟩

theorem decLit_text (neg : Bool) (d : Nat) (e : Int) : (decLit neg d e).text = (if neg then ['-'] else []) ++ decText d e := by
  cases e <;> cases neg <;> simp [decLit, NumLit.text, decText]

theorem decLit_valid (neg : Bool) (d : Nat) (e : Int) : (decLit neg d e).Valid ∧ (decLit neg d e).exp = none := by
  cases e with
  | ofNat k =>
    have h := decDigits_spec (d * 10 ^ k)
    refine ⟨⟨⟨⟨h.1, h.2.1⟩, ?_, ?_⟩, decDigits_zero _⟩, rfl⟩
    · intro f hf; cases hf
    · intro _ _ _ hf; cases hf
  | negSucc k =>
    have h := decDigits_spec (d / 10 ^ (k + 1))
    have h' := fracDigits_spec (k + 1) d
    refine ⟨⟨⟨⟨h.1, h.2.1⟩, ?_, ?_⟩, decDigits_zero _⟩, rfl⟩
    · intro f hf
      simp only [decLit, Option.some.injEq] at hf
      subst hf
      exact ⟨fun h0 => by rw [h0] at h'; simp at h', h'.2.1⟩
    · intro _ _ _ hf; cases hf

theorem not_word (r : Str) (c : Char) (t : Str) (h : r = c :: t) (hc : IsDigit c) :
    ¬ (r.map lowerAscii = "inf".toList ∨ r.map lowerAscii = "infinity".toList) ∧ ¬ r.map lowerAscii = "nan".toList := by
  have : lowerAscii c = c := by
    unfold lowerAscii
    rw [if_neg]
    unfold IsDigit at hc; omega
  subst h
  simp only [List.map_cons, this]
  refine ⟨?_, ?_⟩
  · rintro (h | h)
    · have h1 : c = 'i' := Option.some.inj (congrArg List.head? h)
      rw [h1] at hc; simp [IsDigit] at hc
    · have h1 : c = 'i' := Option.some.inj (congrArg List.head? h)
      rw [h1] at hc; simp [IsDigit] at hc
  · intro h
    have h1 : c = 'n' := Option.some.inj (congrArg List.head? h)
    rw [h1] at hc; simp [IsDigit] at hc

theorem parseMag_decText (q : Fmt) (neg : Bool) (d : Nat) (e : Int) : parseMag q neg (decText d e) = some (ofDecimal q neg d e) := by
  cases e with
  | ofNat k =>
    obtain ⟨h1, h2, h3, _⟩ := decDigits_spec (d * 10 ^ k)
    have hs := splitNum_int (decDigits (d * 10 ^ k)) [] h1 h2 (.inl rfl)
    rw [List.append_nil] at hs
    obtain ⟨c, t, hct⟩ := List.exists_cons_of_ne_nil h1
    have hw := not_word _ c t hct (h2 c (by rw [hct]; simp))
    unfold parseMag decText
    simp only [hw.1, hw.2, if_false]
    rw [hs]
    simp only [parseExp, Option.map_some, List.append_nil, h3, List.length_nil]
    unfold ofDecimal decNum
    simp
  | negSucc k =>
    obtain ⟨h1, h2, h3, _⟩ := decDigits_spec (d / 10 ^ (k + 1))
    obtain ⟨f1, f2, f3⟩ := fracDigits_spec (k + 1) d
    have hs := splitNum_frac (decDigits (d / 10 ^ (k + 1))) (fracDigits (k + 1) d) [] (fun h => h1 h.1) h2 f2 (.inl rfl)
    rw [List.append_nil] at hs
    obtain ⟨c, t, hct⟩ := List.exists_cons_of_ne_nil h1
    have hw := not_word (decText d (.negSucc k)) c (t ++ ['.'] ++ fracDigits (k + 1) d) (by simp [decText, hct]) (h2 c (by rw [hct]; simp))
    unfold parseMag
    simp only [hw.1, hw.2, if_false]
    rw [show decText d (.negSucc k) = decDigits (d / 10 ^ (k + 1)) ++ '.' :: fracDigits (k + 1) d by simp [decText], hs]
    simp only [parseExp, Option.map_some, f1]
    rw [decVal_append, h3, f3]
    have e1 : d / 10 ^ (k + 1) * 10 ^ (k + 1) + d % 10 ^ (k + 1) = d := by
      rw [Nat.mul_comm]; exact Nat.div_add_mod _ _
    have e2 : (0 : Int) - ((k + 1 : Nat) : Int) = Int.negSucc k := by omega
    rw [e1, e2]

theorem decText_start (d : Nat) (e : Int) : ∃ c t, decText d e = c :: t ∧ IsDigit c := by
  cases e with
  | ofNat k =>
    obtain ⟨h1, h2, _⟩ := decDigits_spec (d * 10 ^ k)
    obtain ⟨c, t, hct⟩ := List.exists_cons_of_ne_nil h1
    exact ⟨c, t, hct, h2 c (by rw [hct]; simp)⟩
  | negSucc k =>
    obtain ⟨h1, h2, _⟩ := decDigits_spec (d / 10 ^ (k + 1))
    obtain ⟨c, t, hct⟩ := List.exists_cons_of_ne_nil h1
    exact ⟨c, t ++ ['.'] ++ fracDigits (k + 1) d, by simp [decText, hct], h2 c (by rw [hct]; simp)⟩

theorem parseFl_sign (q : Fmt) (neg : Bool) (r : Str) (c : Char) (t : Str) (h : r = c :: t) (hc : IsDigit c) :
    parseFl q ((if neg then ['-'] else []) ++ r) = parseMag q neg r := by
  have : c ≠ '-' ∧ c ≠ '+' := by
    constructor <;> (rintro rfl; simp [IsDigit] at hc)
  subst h
  cases neg with
  | true => simp [parseFl]
  | false => simp [parseFl, this.1, this.2]

/-! ### The shortest decimal reads back -/

theorem candidate_ok (q : Fmt) (b : Nat) (e : Int) (d : Nat) (h : candidate q b e = some d) : roundsTo q b d e = true := by
  unfold candidate at h
  generalize (scaled q (magVal q.p b) e).1 = n at h
  generalize (scaled q (magVal q.p b) e).2 = m at h
  simp only at h
  cases h1 : roundsTo q b (n / m) e <;> cases h2 : roundsTo q b (n / m + 1) e <;> rw [h1, h2] at h
  · simp at h
  · simp at h; subst h; exact h2
  · simp at h; subst h; exact h1
  · simp at h
    split at h
    · cases h; exact h2
    · cases h; exact h1

theorem exact_ok (q : Fmt) (hp : 1 ≤ q.p) (b : Nat) : roundsTo q b (magVal q.p b * 5 ^ q.u) (-q.u) = true := by
  unfold roundsTo
  rw [beq_iff_eq]
  cases hu : q.u with
  | zero =>
    simp only [Nat.pow_zero, Nat.mul_one]
    show nearest q.p (decNum q (magVal q.p b) (.ofNat 0)).1 (decNum q (magVal q.p b) (.ofNat 0)).2 = b
    simp only [decNum, hu]
    exact nearest_exact _ _ _ b hp (by omega) (by simp)
  | succ u =>
    show nearest q.p (decNum q (magVal q.p b * 5 ^ (u + 1)) (.negSucc u)).1 (decNum q (magVal q.p b * 5 ^ (u + 1)) (.negSucc u)).2 = b
    simp only [decNum, hu]
    refine nearest_exact _ _ _ b hp (by positivity) ?_
    rw [show (10 : Nat) = 5 * 2 by rfl, Nat.mul_pow, Nat.mul_assoc]

theorem shortest_ok (q : Fmt) (hp : 1 ≤ q.p) (b n : Nat) (e : Int) :
    roundsTo q b (shortest q b n e).1 (shortest q b n e).2 = true := by
  induction n generalizing e with
  | zero => exact exact_ok q hp b
  | succ n ih =>
    rw [shortest]
    cases h : candidate q b e with
    | some d => exact candidate_ok q b e d h
    | none => exact ih _

theorem printFl_fin (q : Fmt) (hp : 1 ≤ q.p) (neg : Bool) (b : Nat) (h : b < q.infBits) :
    ∃ d e, printFl q (.fin neg b h) = (decLit neg d e).text ∧ roundsTo q b d e = true := by
  by_cases h0 : b = 0
  · subst h0
    refine ⟨0, .ofNat 0, ?_, ?_⟩
    · rw [decLit_text]
      have : decText 0 (.ofNat 0) = ['0'] := by
        simp only [decText]
        rw [decDigits.eq_def]; rfl
      rw [this]; rfl
    · unfold roundsTo
      rw [beq_iff_eq]
      exact nearest_exact _ _ _ 0 hp (by simp [decNum]) (by simp [decNum, magVal_zero])
  · refine ⟨(shortest q b (2 * q.u) (startExp q b)).1, (shortest q b (2 * q.u) (startExp q b)).2, ?_, shortest_ok q hp b _ _⟩
    rw [decLit_text]
    simp only [printFl, if_neg h0]

theorem parse_printFl (q : Fmt) (hp : 1 ≤ q.p) (f : Fl q) (hf : f.isFinite = true) : parseFl q (printFl q f) = some f := by
  cases f with
  | inf => cases hf
  | nan => cases hf
  | fin neg b h =>
    obtain ⟨d, e, h1, h2⟩ := printFl_fin q hp neg b h
    obtain ⟨c, t, hct, hc⟩ := decText_start d e
    rw [h1, decLit_text, parseFl_sign q neg _ c t hct hc, parseMag_decText]
    unfold ofDecimal
    rw [show nearest q.p (decNum q d e).1 (decNum q d e).2 = b from by simpa [roundsTo] using h2, Fl.mk, dif_pos h]

/-- The IEEE-754 model satisfies the laws assumed of `f64` conversions. -/
instance : LawfulFloat F64 where
  parse_isSome s := parseFl_isSome b64 s
  print_shape f hf := by
    cases f with
    | inf => cases hf
    | nan => cases hf
    | fin neg b h =>
      obtain ⟨d, e, h1, _⟩ := printFl_fin b64 (by decide) neg b h
      exact ⟨decLit neg d e, (decLit_valid neg d e).1, (decLit_valid neg d e).2, h1⟩
  parse_print f hf := parse_printFl b64 (by decide) f hf

end RJ
