import Verif.Proof.Width
/-
  Decimals with few digits are told apart by `f64`: at most one of them rounds to a given number.
-/
set_option linter.unusedSectionVars false
namespace RJ
open Spec

/-- The distance to the neighbours is at most one unit, or the number divided by `2^(p-1)`. -/
theorem gap_above (p b : Nat) (hb : 0 < b) : ∃ g : Nat, magVal p (b + 1) = magVal p b + g ∧ magVal p b ≤ magVal p (b - 1) + g ∧
    (g = 1 ∨ g * 2 ^ (p - 1) ≤ magVal p b) := by
  have hP0 : 0 < 2 ^ (p - 1) := Nat.two_pow_pos _
  obtain ⟨s, m, h1, h2, h3⟩ := mag_split p b
  have hs0 : 0 < 2 ^ s := Nat.two_pow_pos _
  have hv : magVal p b = m * 2 ^ s := by rw [h1, magVal_eq p s m h2 (by omega)]
  refine ⟨2 ^ s, ?_, ?_, ?_⟩
  · rw [h1, Nat.add_assoc, magVal_eq p s (m + 1) (by omega) (by omega), ← h1, hv, Nat.succ_mul]
  · rcases h2 with rfl | h2
    · have hm : 0 < m := by omega
      have hv' : magVal p (b - 1) = m - 1 := by
        have : b - 1 = 0 * 2 ^ (p - 1) + (m - 1) := by omega
        rw [this, magVal_eq p 0 (m - 1) (.inl rfl) (by omega)]; simp
      rw [hv, hv']; simp; omega
    · rcases Nat.lt_or_ge (2 ^ (p - 1)) m with hlt | hge
      · have hv' : magVal p (b - 1) = (m - 1) * 2 ^ s := by
          have : b - 1 = s * 2 ^ (p - 1) + (m - 1) := by omega
          rw [this, magVal_eq p s (m - 1) (.inr (by omega)) (by omega)]
        obtain ⟨r, rfl⟩ : ∃ r, m = r + 1 := ⟨m - 1, by omega⟩
        rw [hv, hv', Nat.add_sub_cancel, Nat.succ_mul]
      · have hm : m = 2 ^ (p - 1) := by omega
        cases s with
        | zero =>
          have hv' : magVal p (b - 1) = m - 1 := by
            have : b - 1 = 0 * 2 ^ (p - 1) + (m - 1) := by omega
            rw [this, magVal_eq p 0 (m - 1) (.inl rfl) (by omega)]; simp
          rw [hv, hv']; simp; omega
        | succ s =>
          have hv' : magVal p (b - 1) = (2 * 2 ^ (p - 1) - 1) * 2 ^ s := by
            have : b - 1 = s * 2 ^ (p - 1) + (2 * 2 ^ (p - 1) - 1) := by
              rw [h1, hm, Nat.succ_mul]; omega
            rw [this, magVal_eq p s _ (.inr (by omega)) (by omega)]
          rw [hv, hv', hm]
          generalize 2 ^ (p - 1) = P at *
          obtain ⟨r, hr⟩ : ∃ r, 2 * P = r + 1 := ⟨2 * P - 1, by omega⟩
          rw [hr, Nat.add_sub_cancel, Nat.pow_succ]
          have : P * (2 ^ s * 2) = (r + 1) * 2 ^ s := by rw [← hr]; ring
          rw [this]
          have := Nat.two_pow_pos s
          nlinarith
  · rcases h2 with rfl | h2
    · exact .inl rfl
    · right
      rw [hv, Nat.mul_comm]
      exact Nat.mul_le_mul_right _ h2

/-- What rounds to `b` lies between the midpoints around `b`. -/
theorem near_mid (q : Fmt) (hp : 1 ≤ q.p) (b : Nat) (hb : 0 < b) (d : Nat) (e : Int) (h : near q d e = b) :
    2 * dq d e ≤ mval q b + mval q (b + 1) ∧ mval q (b - 1) + mval q b ≤ 2 * dq d e := by
  obtain ⟨hd, hr⟩ := decNum_rat q d e
  have hu : (0 : ℚ) < 2 ^ q.u := by positivity
  have hdq : (0 : ℚ) < (decNum q d e).2 := by exact_mod_cast hd
  have hN : dq d e = ((decNum q d e).1 : ℚ) / ((decNum q d e).2 * 2 ^ q.u) := by rw [hr]; rfl
  unfold near at h
  generalize (decNum q d e).1 = N at *
  generalize (decNum q d e).2 = D at *
  have h1 : 2 * N ≤ (magVal q.p b + magVal q.p (b + 1)) * D := by
    by_contra hc
    have := (nearest_ge_iff q.p N D b hp hd).mpr (.inl (by omega))
    omega
  have h2 : (magVal q.p (b - 1) + magVal q.p b) * D ≤ 2 * N := by
    have := (nearest_ge_iff q.p N D (b - 1) hp hd).mp (by omega)
    rw [Nat.sub_add_cancel hb] at this
    rcases this with h | h <;> omega
  have h1' : (2 * N : ℚ) ≤ (magVal q.p b + magVal q.p (b + 1)) * D := by exact_mod_cast h1
  have h2' : ((magVal q.p (b - 1) : ℚ) + magVal q.p b) * D ≤ 2 * N := by exact_mod_cast h2
  rw [hN]
  unfold mval
  constructor
  · rw [← mul_div_assoc, ← add_div, div_le_div_iff₀ (by positivity) hu]
    nlinarith
  · rw [← mul_div_assoc, ← add_div, div_le_div_iff₀ hu (by positivity)]
    nlinarith

/-- A decimal with at most 15 digits, none finer than `10^-323`, is closer to any coarser decimal that rounds to the same number than one unit of its last digit. -/
theorem near_close (b : Nat) (hb : 0 < b) (d c : Nat) (e' e : Int) (hd : d < 10 ^ 15) (he' : -323 ≤ e') (h : near b64 d e' = b) (hc : near b64 c e = b) :
    |dq c e - dq d e'| < 10 ^ e' := by
  obtain ⟨g, g1, g2, g3⟩ := gap_above b64.p b hb
  obtain ⟨u1, l1⟩ := near_mid b64 (by decide) b hb d e' h
  obtain ⟨u2, l2⟩ := near_mid b64 (by decide) b hb c e hc
  have hu : (0 : ℚ) < 2 ^ b64.u := by positivity
  have m1 : mval b64 (b + 1) = mval b64 b + g / 2 ^ b64.u := by
    unfold mval; rw [g1]; push_cast; rw [add_div]
  have m2 : mval b64 b ≤ mval b64 (b - 1) + g / 2 ^ b64.u := by
    unfold mval
    rw [← add_div, div_le_div_iff_of_pos_right hu]
    exact_mod_cast g2
  have hw : |dq c e - dq d e'| ≤ g / 2 ^ b64.u := abs_le.mpr ⟨by linarith, by linarith⟩
  refine lt_of_le_of_lt hw ?_
  have h10 : (0 : ℚ) < 10 ^ e' := zpow_pos (by norm_num) e'
  rcases g3 with rfl | g3
  · have : (1 : ℚ) / 2 ^ 1074 < 10 ^ (-323 : Int) := by
      rw [show (-323 : Int) = -((323 : Nat) : Int) by norm_num, zpow_neg, zpow_natCast, ← one_div]
      have : 10 ^ 323 < 2 ^ 1074 := by decide +kernel
      exact one_div_lt_one_div_of_lt (by positivity) (by exact_mod_cast this)
    calc ((1 : Nat) : ℚ) / 2 ^ b64.u = 1 / 2 ^ 1074 := by rw [Nat.cast_one]; rfl
      _ < 10 ^ (-323 : Int) := this
      _ ≤ 10 ^ e' := zpow_le_zpow_right₀ (by norm_num) he'
  · have hg : (g / 2 ^ b64.u : ℚ) * 2 ^ 52 ≤ mval b64 b := by
      unfold mval
      rw [div_mul_eq_mul_div, div_le_div_iff_of_pos_right hu]
      exact_mod_cast g3
    generalize (g / 2 ^ b64.u : ℚ) = G at *
    have hdd : dq d e' < 10 ^ 15 * 10 ^ e' := by
      unfold dq
      have : (d : ℚ) < 10 ^ 15 := by exact_mod_cast hd
      exact mul_lt_mul_of_pos_right this h10
    have : (2 : ℚ) ^ 52 = 4503599627370496 := by norm_num
    rw [this] at hg
    have : (10 : ℚ) ^ 15 = 1000000000000000 := by norm_num
    rw [this] at hdd
    linarith

/-- Multiples of `10^e'` are equal if they are closer than that. -/
theorem dq_eq_of_close (c d : Nat) (e e' : Int) (he : e' ≤ e) (h : |dq c e - dq d e'| < 10 ^ e') : dq c e = dq d e' := by
  obtain ⟨k, rfl⟩ : ∃ k : Nat, e = e' + k := ⟨(e - e').toNat, by omega⟩
  rw [← dq_shift] at h ⊢
  have h10 : (0 : ℚ) < 10 ^ e' := zpow_pos (by norm_num) e'
  generalize c * 10 ^ k = n at *
  have h1 : |((n : Int) - (d : Int) : Int)| < 1 := by
    have : dq n e' - dq d e' = (((n : Int) - (d : Int) : Int) : ℚ) * 10 ^ e' := by unfold dq; push_cast; ring
    rw [this, abs_mul, abs_of_pos h10] at h
    have h2 : |(((n : Int) - (d : Int) : Int) : ℚ)| < 1 := by
      by_contra hc
      have := mul_le_mul_of_nonneg_right (not_lt.mp hc) h10.le
      linarith
    exact_mod_cast h2
  have : n = d := by rw [Int.abs_lt_one_iff] at h1; omega
  rw [this]

/-- The decimal that is printed for a number is the one it was read from. -/
theorem short_same (b : Nat) (hb : 0 < b) (c : Nat) (e : Int) (hc : candidate b64 b e = some c) (hmax : ∀ e' > e, ∀ d, near b64 d e' ≠ b)
    (d : Nat) (e' : Int) (hd : d < 10 ^ 15) (he' : -323 ≤ e') (h : near b64 d e' = b) : dq c e = dq d e' :=
  have hp : 1 ≤ b64.p := by decide
  dq_eq_of_close c d e e' (short_exp_le b64 hp b c hb e hc hmax d e' h)
    (near_close b hb d c e' e hd he' h (short_rounds b64 hp b c hb e hc hmax))

/-- A decimal that is a multiple of `10^-323` is not rounded to zero. -/
theorem near_pos (d : Nat) (e : Int) (hd : 0 < d) (he : -323 ≤ e) : 0 < near b64 d e := by
  refine val_le_dq b64 (by decide) d 1 e ?_
  have h1 : mval b64 1 = 1 / 2 ^ 1074 := by
    have : magVal 53 1 = 1 := by decide
    unfold mval
    rw [show b64.p = 53 from rfl, this, show b64.u = 1074 from rfl, Nat.cast_one]
  rw [h1]
  have h2 : (1 : ℚ) / 2 ^ 1074 ≤ 10 ^ (-323 : Int) := by
    rw [show (-323 : Int) = -((323 : Nat) : Int) by norm_num, zpow_neg, zpow_natCast, ← one_div]
    have : 10 ^ 323 ≤ 2 ^ 1074 := by decide +kernel
    exact one_div_le_one_div_of_le (by positivity) (by exact_mod_cast this)
  have h3 : dq 1 (-323) ≤ dq d e := dq_mono _ _ _ _ hd he
  have h4 : dq 1 (-323) = 10 ^ (-323 : Int) := by unfold dq; rw [Nat.cast_one, one_mul]
  rw [h4] at h3
  linarith

/-- If `d * 10^e` is a multiple of `10^-323` and `d` of ten is not, `e` is at least -323. -/
theorem exp_of_multiple (d : Nat) (e : Int) (hd : ¬ 10 ∣ d) (k : Int) (h : dq d e = k * 10 ^ (-323 : Int)) : -323 ≤ e := by
  by_contra hc
  obtain ⟨r, hr⟩ : ∃ r : Nat, (-323 : Int) = e + (r + 1 : Nat) := ⟨(-323 - e - 1).toNat, by push_cast; omega⟩
  rw [hr, zpow_add₀ (by norm_num), zpow_natCast] at h
  unfold dq at h
  have h10 : (10 : ℚ) ^ e ≠ 0 := (zpow_pos (by norm_num) e).ne'
  have h1 : (d : ℚ) = k * 10 ^ (r + 1) := by
    have : (d : ℚ) * 10 ^ e = (k * 10 ^ (r + 1)) * 10 ^ e := by rw [h]; ring
    exact mul_right_cancel₀ h10 this
  have h2 : (d : Int) = k * 10 ^ (r + 1) := by exact_mod_cast h1
  have : (10 : Int) ∣ d := ⟨k * 10 ^ r, by rw [h2, pow_succ]; ring⟩
  exact hd (by exact_mod_cast this)

end RJ
