import Verif.Model.Ieee
import Verif.Proof.Num
import Mathlib.Tactic.Ring
import Mathlib.Tactic.Linarith
/-
  Arithmetic of the IEEE-754 model: order, rounding, printing.
-/
set_option linter.unusedSectionVars false
namespace RJ
open Spec

/-! ### Magnitudes -/

theorem magVal_eq (p s m : Nat) (h : s = 0 ∨ 2 ^ (p - 1) ≤ m) (hm : m ≤ 2 * 2 ^ (p - 1)) :
    magVal p (s * 2 ^ (p - 1) + m) = m * 2 ^ s := by
  have hP : 0 < 2 ^ (p - 1) := Nat.two_pow_pos _
  unfold magVal
  generalize 2 ^ (p - 1) = P at *
  have hd : (s * P + m) / P = s + m / P := by
    rw [Nat.add_comm, Nat.add_mul_div_right _ _ hP, Nat.add_comm]
  rw [hd]
  rcases Nat.lt_or_ge m P with h1 | h1
  · have h0 : s = 0 := by rcases h with h | h <;> omega
    subst h0
    rw [Nat.div_eq_of_lt h1]; simp
  · rcases Nat.lt_or_ge m (2 * P) with h2 | h2
    · have : m / P = 1 := by
        apply Nat.div_eq_of_lt_le <;> omega
      rw [this]
      simp
    · have hm2 : m = 2 * P := by omega
      have : m / P = 2 := by rw [hm2]; exact Nat.mul_div_cancel _ hP
      rw [this]
      have e1 : s + 2 - 1 = s + 1 := by omega
      rw [e1, hm2, Nat.add_mul, Nat.pow_succ]
      have : s * P + 2 * P - (s * P + 1 * P) = P := by omega
      rw [this]; ring

theorem mag_split (p b : Nat) : ∃ s m, b = s * 2 ^ (p - 1) + m ∧ (s = 0 ∨ 2 ^ (p - 1) ≤ m) ∧ m < 2 * 2 ^ (p - 1) := by
  have hP : 0 < 2 ^ (p - 1) := Nat.two_pow_pos _
  generalize 2 ^ (p - 1) = P at *
  have h1 := Nat.div_add_mod b P
  have h2 := Nat.mod_lt b hP
  rcases Nat.eq_zero_or_pos (b / P) with h0 | h0
  · exact ⟨0, b, by simp, .inl rfl, by rw [h0] at h1; omega⟩
  · refine ⟨b / P - 1, P + b % P, ?_, .inr (by omega), by omega⟩
    obtain ⟨q, hq⟩ : ∃ q, b / P = q + 1 := ⟨b / P - 1, by omega⟩
    rw [hq] at h1 ⊢
    simp only [Nat.add_sub_cancel]
    have e : P * (q + 1) = q * P + P := by ring
    omega

theorem magVal_succ (p b : Nat) : magVal p b < magVal p (b + 1) := by
  obtain ⟨s, m, rfl, h1, h2⟩ := mag_split p b
  rw [magVal_eq p s m h1 (by omega), Nat.add_assoc, magVal_eq p s (m + 1) (by omega) (by omega)]
  have : 0 < 2 ^ s := Nat.two_pow_pos _
  nlinarith

theorem magVal_mono (p : Nat) {a b : Nat} (h : a ≤ b) : magVal p a ≤ magVal p b := by
  induction h with
  | refl => exact Nat.le_refl _
  | step _ ih => exact Nat.le_trans ih (Nat.le_of_lt (magVal_succ p _))

theorem magVal_lt_iff (p a b : Nat) : magVal p a < magVal p b ↔ a < b := by
  constructor
  · intro h
    apply Classical.byContradiction
    intro hn
    have := magVal_mono p (Nat.le_of_not_lt hn)
    omega
  · intro h
    exact Nat.lt_of_lt_of_le (magVal_succ p a) (magVal_mono p h)

theorem magVal_inj (p a b : Nat) (h : magVal p a = magVal p b) : a = b := by
  rcases Nat.lt_trichotomy a b with h1 | h1 | h1
  · have := (magVal_lt_iff p a b).mpr h1; omega
  · exact h1
  · have := (magVal_lt_iff p b a).mpr h1; omega

theorem magVal_zero (p : Nat) : magVal p 0 = 0 := by simp [magVal]

theorem floorMag_spec (p k : Nat) (hp : 1 ≤ p) :
    magVal p (floorMag p k) ≤ k ∧ k < magVal p (floorMag p k + 1) ∧
    magVal p (floorMag p k) = k / 2 ^ (k.log2 + 1 - p) * 2 ^ (k.log2 + 1 - p) := by
  unfold floorMag
  generalize hs : k.log2 + 1 - p = s
  have hlt : k < 2 ^ (k.log2 + 1) := Nat.lt_log2_self
  have h2p : 2 * 2 ^ (p - 1) = 2 ^ p := by
    rw [Nat.mul_comm, ← Nat.pow_succ]; congr 1; omega
  have hs2 : 0 < 2 ^ s := Nat.two_pow_pos _
  have hm : k / 2 ^ s < 2 * 2 ^ (p - 1) := by
    rw [h2p, Nat.div_lt_iff_lt_mul hs2, ← Nat.pow_add]
    exact Nat.lt_of_lt_of_le hlt (Nat.pow_le_pow_right (by omega) (by omega))
  have hm' : s = 0 ∨ 2 ^ (p - 1) ≤ k / 2 ^ s := by
    rcases Nat.eq_zero_or_pos s with h | h
    · exact .inl h
    · right
      have hk : k ≠ 0 := by
        rintro rfl
        simp at hs; omega
      rw [Nat.le_div_iff_mul_le hs2, ← Nat.pow_add]
      refine Nat.le_trans (Nat.pow_le_pow_right (by omega) ?_) (Nat.log2_self_le hk)
      omega
  rw [magVal_eq p s _ hm' (by omega), Nat.add_assoc, magVal_eq p s _ (by omega) (by omega)]
  refine ⟨Nat.div_mul_le_self _ _, ?_, rfl⟩
  exact Nat.lt_mul_of_div_lt (Nat.lt_succ_self _) hs2

theorem floorMag_val (p b : Nat) (hp : 1 ≤ p) : floorMag p (magVal p b) = b := by
  obtain ⟨h1, h2, _⟩ := floorMag_spec p (magVal p b) hp
  have h3 := (magVal_lt_iff p _ _).mp h2
  have h4 : ¬ b < floorMag p (magVal p b) := fun h => by
    have := (magVal_lt_iff p _ _).mpr h; omega
  omega

/-- `m * 2^t` with `m < 2^p` is representable. -/
theorem floorMag_exact (p m t : Nat) (hp : 1 ≤ p) (hm : m < 2 ^ p) : magVal p (floorMag p (m * 2 ^ t)) = m * 2 ^ t := by
  rcases Nat.eq_zero_or_pos m with rfl | h0
  · have := (floorMag_spec p (0 * 2 ^ t) hp).1
    simp at this ⊢; omega
  rw [(floorMag_spec p _ hp).2.2]
  have hlog : (m * 2 ^ t).log2 = m.log2 + t := by
    induction t with
    | zero => simp
    | succ t ih =>
      rw [Nat.pow_succ, ← Nat.mul_assoc, Nat.mul_comm _ 2, Nat.log2_two_mul (by positivity), ih]; omega
  rw [hlog]
  have : m.log2 < p := (Nat.log2_lt (by omega)).mpr hm
  obtain ⟨r, hr⟩ : ∃ r, t = (m.log2 + t + 1 - p) + r := ⟨t - (m.log2 + t + 1 - p), by omega⟩
  generalize m.log2 + t + 1 - p = s at *
  subst hr
  rw [Nat.pow_add, show m * (2 ^ s * 2 ^ r) = (m * 2 ^ r) * 2 ^ s by ring, Nat.mul_div_cancel _ (Nat.two_pow_pos _)]

/-! ### Rounding -/

theorem nearest_exact (p n d b : Nat) (hp : 1 ≤ p) (hd : 0 < d) (h : n = magVal p b * d) : nearest p n d = b := by
  subst h
  unfold nearest
  simp only [Nat.mul_div_cancel _ hd, floorMag_val p b hp]
  have := magVal_succ p b
  rw [if_pos]
  nlinarith

theorem nearest_scale (p n d c : Nat) (hc : 0 < c) : nearest p (n * c) (d * c) = nearest p n d := by
  unfold nearest
  simp only [Nat.mul_div_mul_right _ _ hc]
  generalize magVal p (floorMag p (n / d)) + magVal p (floorMag p (n / d) + 1) = a
  have e1 : 2 * (n * c) < a * (d * c) ↔ 2 * n < a * d := by
    rw [← Nat.mul_assoc, ← Nat.mul_assoc]; exact Nat.mul_lt_mul_right hc
  have e2 : a * (d * c) < 2 * (n * c) ↔ a * d < 2 * n := by
    rw [← Nat.mul_assoc, ← Nat.mul_assoc]; exact Nat.mul_lt_mul_right hc
  simp only [e1, e2]

/-- The two neighbours of `n/d`. -/
theorem nearest_cases (p n d : Nat) (hp : 1 ≤ p) (hd : 0 < d) :
    ∃ b, magVal p b * d ≤ n ∧ n < magVal p (b + 1) * d ∧
      nearest p n d = (if 2 * n < (magVal p b + magVal p (b + 1)) * d then b
        else if (magVal p b + magVal p (b + 1)) * d < 2 * n then b + 1 else if b % 2 = 0 then b else b + 1) := by
  refine ⟨floorMag p (n / d), ?_, ?_, rfl⟩
  · exact (Nat.le_div_iff_mul_le hd).mp (floorMag_spec p (n / d) hp).1
  · exact (Nat.div_lt_iff_lt_mul hd).mp (floorMag_spec p (n / d) hp).2.1

/-- Distance of naturals. -/
def dist (a b : Nat) : Nat := (a - b) + (b - a)

/-- No magnitude is nearer. -/
theorem nearest_is_nearest (p n d : Nat) (hp : 1 ≤ p) (hd : 0 < d) (c : Nat) :
    dist (magVal p (nearest p n d) * d) n ≤ dist (magVal p c * d) n := by
  obtain ⟨b, h1, h2, h3⟩ := nearest_cases p n d hp hd
  have hlow : ∀ c, c ≤ b → magVal p c * d ≤ magVal p b * d := fun c hc => Nat.mul_le_mul_right d (magVal_mono p hc)
  have hhigh : ∀ c, b + 1 ≤ c → magVal p (b + 1) * d ≤ magVal p c * d := fun c hc => Nat.mul_le_mul_right d (magVal_mono p hc)
  have hc : magVal p c * d ≤ magVal p b * d ∨ magVal p (b + 1) * d ≤ magVal p c * d := by
    rcases Nat.lt_or_ge b c with h | h
    · exact .inr (hhigh c h)
    · exact .inl (hlow c h)
  rw [Nat.add_mul] at h3
  unfold dist
  by_cases e1 : 2 * n < magVal p b * d + magVal p (b + 1) * d
  · rw [if_pos e1] at h3; rw [h3]; omega
  · rw [if_neg e1] at h3
    by_cases e2 : magVal p b * d + magVal p (b + 1) * d < 2 * n
    · rw [if_pos e2] at h3; rw [h3]; omega
    · rw [if_neg e2] at h3
      by_cases e3 : b % 2 = 0
      · rw [if_pos e3] at h3; rw [h3]; omega
      · rw [if_neg e3] at h3; rw [h3]; omega

/-- If another magnitude is as near, the result is even. -/
theorem nearest_tie_even (p n d : Nat) (hp : 1 ≤ p) (hd : 0 < d) (c : Nat) (hne : c ≠ nearest p n d)
    (h : dist (magVal p c * d) n = dist (magVal p (nearest p n d) * d) n) : nearest p n d % 2 = 0 := by
  obtain ⟨b, h1, h2, h3⟩ := nearest_cases p n d hp hd
  have hlow : ∀ c, c < b → magVal p c * d < magVal p b * d := fun c hc => Nat.mul_lt_mul_of_pos_right ((magVal_lt_iff p _ _).mpr hc) hd
  have hhigh : ∀ c, b + 1 < c → magVal p (b + 1) * d < magVal p c * d := fun c hc => Nat.mul_lt_mul_of_pos_right ((magVal_lt_iff p _ _).mpr hc) hd
  have hc : c = b ∨ c = b + 1 ∨ magVal p c * d < magVal p b * d ∨ magVal p (b + 1) * d < magVal p c * d := by
    rcases Nat.lt_trichotomy c b with h | h | h
    · exact .inr (.inr (.inl (hlow c h)))
    · exact .inl h
    · rcases Nat.lt_or_ge (b + 1) c with h' | h'
      · exact .inr (.inr (.inr (hhigh c h')))
      · exact .inr (.inl (by omega))
  rw [Nat.add_mul] at h3
  unfold dist at h
  by_cases e1 : 2 * n < magVal p b * d + magVal p (b + 1) * d
  · rw [if_pos e1] at h3; rw [h3] at h hne; exfalso
    rcases hc with hc | hc | hc | hc
    · exact hne hc
    · subst hc; omega
    · omega
    · omega
  · rw [if_neg e1] at h3
    by_cases e2 : magVal p b * d + magVal p (b + 1) * d < 2 * n
    · rw [if_pos e2] at h3; rw [h3] at h hne; exfalso
      rcases hc with hc | hc | hc | hc
      · subst hc; omega
      · exact hne hc
      · omega
      · omega
    · rw [if_neg e2] at h3
      by_cases e3 : b % 2 = 0
      · rw [if_pos e3] at h3; rw [h3]; exact e3
      · rw [if_neg e3] at h3; rw [h3]; omega

end RJ
