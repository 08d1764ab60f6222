import Verif.Proof.Complete
/-
  The bound on the number of rounds of the string loop is never reached; the errors of strings.
-/
namespace RJ
open Spec

theorem unicodeEscape_shorter {s t s' : Str} (h : unicodeEscape s = .ok (t, s')) : s'.length < s.length := by
  rcases unicodeEscape_inv h with ⟨a, b, c, d, u, rfl, _⟩ | ⟨a, b, c, d, u, a', b', c', d', l, rfl, _⟩
  · simp; omega
  · simp; omega

/-- Any two bounds larger than the text give the same result. -/
theorem strLoop_fuel : ∀ (n m : Nat) (iter s : Str), iter.length < n → iter.length < m →
    strLoop n iter s = strLoop m iter s := by
  intro n
  induction n with
  | zero => intro m iter s h; omega
  | succ n ih =>
    intro m iter s hn hm
    cases m with
    | zero => omega
    | succ m =>
      rw [strLoop.eq_def, strLoop.eq_def (m + 1)]
      simp only
      cases iter with
      | nil => rfl
      | cons c iter =>
        simp only [List.length_cons] at hn hm
        simp only
        by_cases h1 : c = '"'
        · rw [if_pos h1, if_pos h1]
        rw [if_neg h1, if_neg h1]
        by_cases h2 : c = '\\'
        · rw [if_pos h2, if_pos h2]
          cases iter with
          | nil => rfl
          | cons e iter =>
            simp only [List.length_cons] at hn hm
            simp only
            cases simpleEscape e with
            | some ch => exact ih m _ _ (by omega) (by omega)
            | none =>
              simp only
              by_cases h3 : e = 'u'
              · rw [if_pos h3, if_pos h3]
                cases hu : unicodeEscape iter with
                | error e => rfl
                | ok p =>
                  obtain ⟨t, s'⟩ := p
                  have := unicodeEscape_shorter hu
                  exact ih m _ _ (by omega) (by omega)
              · rw [if_neg h3, if_neg h3]
        rw [if_neg h2, if_neg h2]
        by_cases h3 : c.toNat ≤ 0x1F
        · rw [if_pos h3, if_pos h3]
        rw [if_neg h3, if_neg h3]
        exact ih m _ _ (by omega) (by omega)

theorem skipTrail_kind {k : ErrorKind} {s : Str} {e : Error} (h : skipTrail k s = .error e) : e.kind = k := by
  induction s with
  | nil => cases h
  | cons c s ih =>
    rw [skipTrail] at h
    split at h
    · exact ih h
    · cases h; rfl

theorem parseHexDigit_kind {c : Char} {e : Error} (h : parseHexDigit c = .error e) : e.kind = .ParseStringError := by
  unfold parseHexDigit at h
  simp only at h
  split at h
  · cases h
  split at h
  · cases h
  split at h
  · cases h
  · cases h; rfl

theorem hexRounds_kind {n u : Nat} {s : Str} {e : Error} (h : hexRounds n u s = .error e) : e.kind = .ParseStringError := by
  induction n generalizing u s with
  | zero => cases h
  | succ n ih =>
    rw [hexRounds.eq_def] at h
    simp only at h
    cases s with
    | nil => cases h; rfl
    | cons c s =>
      simp only at h
      cases hp : parseHexDigit c with
      | error e' => rw [hp] at h; cases h; exact parseHexDigit_kind hp
      | ok d => rw [hp] at h; exact ih h

theorem unicodeEscape_kind {s : Str} {e : Error} (h : unicodeEscape s = .error e) : e.kind = .ParseStringError := by
  unfold unicodeEscape at h
  simp only at h
  split at h
  · rename_i e' he; cases h; exact hexRounds_kind he
  · split at h
    · split at h
      · split at h
        · split at h
          · rename_i e' he; cases h; exact hexRounds_kind he
          · split at h
            · cases h; rfl
            · split at h
              · cases h
              · cases h; rfl
        · cases h; rfl
      · cases h; rfl
    · split at h
      · cases h
      · cases h; rfl

theorem strLoop_kind : ∀ (n : Nat) (iter s : Str) (e : Error), strLoop n iter s = .error e → e.kind = .ParseStringError := by
  intro n
  induction n with
  | zero => intro iter s e h; cases h; rfl
  | succ n ih =>
    intro iter s e h
    rw [strLoop.eq_def] at h
    simp only at h
    cases iter with
    | nil => cases h; rfl
    | cons c iter =>
      simp only at h
      by_cases h1 : c = '"'
      · rw [if_pos h1] at h
        cases hs : skipTrail .ParseStringError iter with
        | ok u => rw [hs] at h; cases h
        | error e' => rw [hs] at h; cases h; exact skipTrail_kind hs
      rw [if_neg h1] at h
      by_cases h2 : c = '\\'
      · rw [if_pos h2] at h
        cases iter with
        | nil => cases h; rfl
        | cons e' iter =>
          simp only at h
          cases hs : simpleEscape e' with
          | some ch => rw [hs] at h; exact ih _ _ _ h
          | none =>
            rw [hs] at h
            simp only at h
            by_cases h3 : e' = 'u'
            · rw [if_pos h3] at h
              cases hu : unicodeEscape iter with
              | error e => rw [hu] at h; cases h; exact unicodeEscape_kind hu
              | ok p => rw [hu] at h; exact ih _ _ _ h
            · rw [if_neg h3] at h; cases h; rfl
      rw [if_neg h2] at h
      by_cases h3 : c.toNat ≤ 0x1F
      · rw [if_pos h3] at h; cases h; rfl
      rw [if_neg h3] at h
      exact ih _ _ _ h

end RJ
