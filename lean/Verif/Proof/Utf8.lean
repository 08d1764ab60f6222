import Verif.Model.Parse
import Verif.Spec.Rfc
/-
  `encode_utf8` / `str::from_utf8` (used for C06, C07).
-/
namespace RJ
open Spec

/-- Unicode scalar value. -/
def IsScalar (u : Nat) : Prop := u < 0xD800 ∨ (0xDFFF < u ∧ u ≤ 0x10FFFF)

theorem or_add (a b i : Nat) (h : b < 2 ^ i) : (2 ^ i * a) ||| b = 2 ^ i * a + b :=
  (Nat.two_pow_add_eq_or_of_lt h a).symm

theorem encodeUtf8_eq (u : Nat) (h : u ≤ 0x10FFFF) :
    encodeUtf8 u =
      if u ≤ 0x7F then [u]
      else if u ≤ 0x7FF then [0xC0 + u / 64, 0x80 + u % 64]
      else if u ≤ 0xFFFF then [0xE0 + u / 4096, 0x80 + u / 64 % 64, 0x80 + u % 64]
      else [0xF0 + u / 262144, 0x80 + u / 4096 % 64, 0x80 + u / 64 % 64, 0x80 + u % 64] := by
  have hm : ∀ x : Nat, x &&& 0x3F = x % 64 := fun x => Nat.and_two_pow_sub_one_eq_mod x 6
  have h80 : ∀ x, 0x80 ||| (x % 64) = 0x80 + x % 64 := fun x => or_add 2 (x % 64) 6 (by omega)
  unfold encodeUtf8
  simp only [hm, Nat.shiftRight_eq_div_pow, Nat.reducePow, h80]
  split
  · rw [Nat.mod_eq_of_lt (by omega)]
  · split
    · have : 0xC0 ||| (u / 64) = 0xC0 + u / 64 := or_add 6 (u / 64) 5 (by omega)
      rw [this]; simp only [List.cons.injEq, and_true]; omega
    · split
      · have : 0xE0 ||| (u / 4096) = 0xE0 + u / 4096 := or_add 14 (u / 4096) 4 (by omega)
        rw [this]; simp only [List.cons.injEq, and_true]; omega
      · have : 0xF0 ||| (u / 262144) = 0xF0 + u / 262144 := or_add 30 (u / 262144) 3 (by omega)
        rw [this]; simp only [List.cons.injEq, and_true]; omega

theorem isCont_iff (b : Nat) : isCont b = true ↔ 0x80 ≤ b ∧ b ≤ 0xBF := by simp [isCont]

theorem fromUtf8_encodeUtf8 (u : Nat) (h : u ≤ 0x10FFFF) :
    fromUtf8 (encodeUtf8 u) =
      if 0xD800 ≤ u ∧ u ≤ 0xDFFF then none else some [Char.ofNat u] := by
  rw [encodeUtf8_eq u h]
  by_cases h1 : u ≤ 0x7F
  · simp only [h1, if_true, fromUtf8]
    rw [if_neg (by omega)]; rfl
  simp only [h1, if_false]
  by_cases h2 : u ≤ 0x7FF
  · simp only [h2, if_true, fromUtf8]
    rw [if_neg (c := _ ≤ _ ∧ u ≤ _) (by omega), if_neg (by omega), if_pos (by omega)]
    rw [if_pos (by simp only [isCont_iff]; omega)]
    exact congrArg (fun n => some [Char.ofNat n]) (by omega)
  simp only [h2, if_false]
  by_cases h3 : u ≤ 0xFFFF
  · simp only [h3, if_true, fromUtf8]
    rw [if_neg (by omega), if_neg (by omega), if_pos (by omega)]
    by_cases hs : 0xD800 ≤ u ∧ u ≤ 0xDFFF
    · rw [if_pos hs, if_neg (by simp only [isCont_iff]; omega)]
    · rw [if_neg hs, if_pos (by simp only [isCont_iff]; omega)]
      exact congrArg (fun n => some [Char.ofNat n]) (by omega)
  · simp only [h3, if_false, fromUtf8]
    rw [if_neg (c := _ ≤ _ ∧ u ≤ _) (by omega), if_neg (by omega), if_neg (by omega), if_neg (by omega), if_pos (by omega)]
    rw [if_pos (by simp only [isCont_iff]; omega)]
    exact congrArg (fun n => some [Char.ofNat n]) (by omega)

end RJ
