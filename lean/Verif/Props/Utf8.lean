import Verif.Proof.Utf8
/-
  The model of `str::from_utf8` decodes exactly the UTF-8 encodings (against the encoder of Lean's library) (C07).
-/
namespace RJ

/-- The UTF-8 encoding of a text, as bytes (the encoder is that of Lean's library). -/
def utf8Bytes (s : Str) : List Nat := s.flatMap (fun c => (String.utf8EncodeChar c).map UInt8.toNat)

theorem utf8Bytes_char (c : Char) : (String.utf8EncodeChar c).map UInt8.toNat = encodeUtf8 c.toNat := by
  have hv : c.val.toNat ≤ 0x10FFFF := by
    rcases c.valid with h | h
    · exact Nat.le_trans (Nat.le_of_lt h) (by decide)
    · exact Nat.le_of_lt_succ h.2
  show _ = encodeUtf8 c.val.toNat
  rw [encodeUtf8_eq _ hv]
  simp only [String.utf8EncodeChar, show c.toNat = c.val.toNat from rfl]
  generalize c.val.toNat = v at hv
  split
  · simp; omega
  · split
    · simp; omega
    · split
      · simp; omega
      · simp; omega

theorem char_back (u : Nat) (h : u < 0xD800 ∨ 0xDFFF < u ∧ u ≤ 0x10FFFF) : (Char.ofNat u).toNat = u := by
  have hv : u.isValidChar := by
    rcases h with h | h
    · exact .inl h
    · exact .inr ⟨h.1, by omega⟩
  simp only [Char.ofNat, dif_pos hv]
  rfl

theorem char_range (c : Char) : c.toNat < 0xD800 ∨ 0xDFFF < c.toNat ∧ c.toNat ≤ 0x10FFFF := by
  rcases c.valid with h | h
  · exact .inl h
  · exact .inr ⟨h.1, Nat.le_of_lt_succ h.2⟩

theorem fromUtf8_more (u : Nat) (h : u < 0xD800 ∨ 0xDFFF < u ∧ u ≤ 0x10FFFF) (t : List Nat) : fromUtf8 (encodeUtf8 u ++ t) = (fromUtf8 t).map (Char.ofNat u :: ·) := by
  rw [encodeUtf8_eq u (by omega)]
  by_cases h1 : u ≤ 0x7F
  · simp only [h1, if_true, List.cons_append, List.nil_append]
    rw [fromUtf8.eq_def]
    simp only [h1, if_true]
  simp only [h1, if_false]
  by_cases h2 : u ≤ 0x7FF
  · simp only [h2, if_true, List.cons_append, List.nil_append, fromUtf8]
    rw [if_neg (c := _ ≤ 0x7F) (by omega), if_pos (by omega)]
    rw [if_pos (by simp only [isCont_iff]; omega)]
    exact congrArg (fun n => (fromUtf8 t).map (Char.ofNat n :: ·)) (by omega)
  simp only [h2, if_false]
  by_cases h3 : u ≤ 0xFFFF
  · simp only [h3, if_true, List.cons_append, List.nil_append, fromUtf8]
    rw [if_neg (by omega), if_neg (by omega), if_pos (by omega)]
    rw [if_pos (by simp only [isCont_iff]; omega)]
    exact congrArg (fun n => (fromUtf8 t).map (Char.ofNat n :: ·)) (by omega)
  · simp only [h3, if_false, List.cons_append, List.nil_append, fromUtf8]
    rw [if_neg (c := _ ≤ 0x7F) (by omega), if_neg (by omega), if_neg (by omega), if_pos (by omega)]
    rw [if_pos (by simp only [isCont_iff]; omega)]
    exact congrArg (fun n => (fromUtf8 t).map (Char.ofNat n :: ·)) (by omega)

theorem fromUtf8_front (bs : List Nat) (s : Str) (h : fromUtf8 bs = some s) (hne : bs ≠ []) :
    ∃ u t s', (u < 0xD800 ∨ 0xDFFF < u ∧ u ≤ 0x10FFFF) ∧ bs = encodeUtf8 u ++ t ∧ s = Char.ofNat u :: s' ∧ fromUtf8 t = some s' := by
  have fin : ∀ {u : Nat} {t : List Nat}, (u < 0xD800 ∨ 0xDFFF < u ∧ u ≤ 0x10FFFF) → (fromUtf8 t).map (Char.ofNat u :: ·) = some s → bs = encodeUtf8 u ++ t →
      ∃ u t s', (u < 0xD800 ∨ 0xDFFF < u ∧ u ≤ 0x10FFFF) ∧ bs = encodeUtf8 u ++ t ∧ s = Char.ofNat u :: s' ∧ fromUtf8 t = some s' := by
    intro u t hu h he
    obtain ⟨s', h1, h2⟩ := Option.map_eq_some_iff.1 h
    exact ⟨u, t, s', hu, he, h2.symm, h1⟩
  cases bs with
  | nil => exact (hne rfl).elim
  | cons b0 t =>
    rw [fromUtf8.eq_def] at h
    simp only at h
    split at h
    · rename_i h0
      exact fin (by omega) h (by rw [encodeUtf8_eq _ (by omega), if_pos h0]; rfl)
    · split at h
      · rename_i h0 h1
        split at h
        · rename_i b1 t
          split at h
          · rename_i h2
            rw [isCont_iff] at h2
            refine fin (by omega) h ?_
            rw [encodeUtf8_eq _ (by omega), if_neg (by omega), if_pos (by omega)]
            simp only [List.cons_append, List.nil_append, List.cons.injEq, and_true]
            omega
          · cases h
        · cases h
      · split at h
        · rename_i h0 h1
          split at h
          · rename_i b1 b2 t
            split at h
            · rename_i h2
              simp only [isCont_iff] at h2
              refine fin (by omega) h ?_
              rw [encodeUtf8_eq _ (by omega), if_neg (by omega), if_neg (by omega), if_pos (by omega)]
              simp only [List.cons_append, List.nil_append, List.cons.injEq, and_true]
              omega
            · cases h
          · cases h
        · split at h
          · rename_i h0 h1
            split at h
            · rename_i b1 b2 b3 t
              split at h
              · rename_i h2
                simp only [isCont_iff] at h2
                refine fin (by omega) h ?_
                rw [encodeUtf8_eq _ (by omega), if_neg (by omega), if_neg (by omega), if_neg (by omega)]
                simp only [List.cons_append, List.nil_append, List.cons.injEq, and_true]
                omega
              · cases h
            · cases h
          · cases h

/-- **C07.** The decoder used by the model for `str::from_utf8` accepts exactly the UTF-8 encodings of texts, and gives the text: overlong forms, surrogates, values above `10FFFF`, stray and missing continuation bytes are
all refused. -/
theorem C07_from_utf8 (bs : List Nat) (s : Str) : fromUtf8 bs = some s ↔ bs = utf8Bytes s := by
  constructor
  · intro h
    induction hn : bs.length using Nat.strongRecOn generalizing bs s with
    | ind n ih =>
      by_cases hne : bs = []
      · subst hne
        rw [fromUtf8] at h
        cases h
        rfl
      · obtain ⟨u, t, s', hu, rfl, rfl, ht⟩ := fromUtf8_front bs s h hne
        have hlen : 0 < (encodeUtf8 u).length := by
          rw [encodeUtf8_eq u (by omega)]; repeat' split
          all_goals simp
        rw [ih t.length (by rw [← hn, List.length_append]; omega) t s' ht rfl]
        show _ = (String.utf8EncodeChar (Char.ofNat u)).map UInt8.toNat ++ utf8Bytes s'
        rw [utf8Bytes_char, char_back u hu]
  · rintro rfl
    induction s with
    | nil => rfl
    | cons c s ih =>
      show fromUtf8 ((String.utf8EncodeChar c).map UInt8.toNat ++ utf8Bytes s) = _
      rw [utf8Bytes_char, fromUtf8_more _ (char_range c), ih]
      show some (Char.ofNat c.toNat :: s) = _
      rw [Char.ofNat_toNat]

/-- The bytes of `€𝄞` are decoded; an overlong `/`, a surrogate, a value above the last one and a missing byte are not. -/
example : fromUtf8 [0xE2, 0x82, 0xAC, 0xF0, 0x9D, 0x84, 0x9E] = some ['€', '𝄞'] ∧ fromUtf8 [0xC0, 0xAF] = none ∧ fromUtf8 [0xED, 0xA0, 0x80] = none ∧ fromUtf8 [0xF4, 0x90, 0x80, 0x80] = none ∧
    fromUtf8 [0xE2, 0x82] = none := by decide +kernel

end RJ
