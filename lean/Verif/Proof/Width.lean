import Verif.Proof.ShortestText
import Mathlib.Algebra.Order.Archimedean.Basic
/-
  How long the text of a number can get: at most 17 significant digits, no digit finer than 10^-324.
-/
set_option linter.unusedSectionVars false
namespace RJ
open Spec

/-- A decimal strictly between the midpoints around `b` rounds to `b`. -/
theorem near_between (q : Fmt) (hp : 1 ≤ q.p) (b d : Nat) (e : Int) (hb : 0 < b) (h1 : mval q (b - 1) + mval q b < 2 * dq d e)
    (h2 : 2 * dq d e < mval q b + mval q (b + 1)) : near q d e = b := by
  obtain ⟨hd, hr⟩ := decNum_rat q d e
  have hu : (0 : ℚ) < 2 ^ q.u := by positivity
  have hdq : (0 : ℚ) < (decNum q d e).2 := by exact_mod_cast hd
  have hN : dq d e = ((decNum q d e).1 : ℚ) / ((decNum q d e).2 * 2 ^ q.u) := by rw [hr]; rfl
  unfold near
  generalize (decNum q d e).1 = N at *
  generalize (decNum q d e).2 = D at *
  rw [hN] at h1 h2
  unfold mval at h1 h2
  have a1 : ((magVal q.p (b - 1) : ℚ) + magVal q.p b) * D < 2 * N := by
    rw [← add_div, ← mul_div_assoc, div_lt_div_iff₀ hu (by positivity)] at h1
    have : (((magVal q.p (b - 1) : ℚ) + magVal q.p b) * D) * 2 ^ q.u < (2 * N) * 2 ^ q.u := by linarith
    exact lt_of_mul_lt_mul_right this hu.le
  have a2 : (2 * N : ℚ) < ((magVal q.p b : ℚ) + magVal q.p (b + 1)) * D := by
    rw [← add_div, ← mul_div_assoc, div_lt_div_iff₀ (by positivity) hu] at h2
    have : (2 * N : ℚ) * 2 ^ q.u < (((magVal q.p b : ℚ) + magVal q.p (b + 1)) * D) * 2 ^ q.u := by linarith
    exact lt_of_mul_lt_mul_right this hu.le
  have b1 : (magVal q.p (b - 1) + magVal q.p b) * D < 2 * N := by exact_mod_cast a1
  have b2 : 2 * N < (magVal q.p b + magVal q.p (b + 1)) * D := by exact_mod_cast a2
  have c1 := (nearest_ge_iff q.p N D (b - 1) hp hd).mpr (.inl (by rw [Nat.sub_add_cancel hb]; exact b1))
  have c2 : ¬ b + 1 ≤ nearest q.p N D := fun h => by
    rcases (nearest_ge_iff q.p N D b hp hd).mp h with h | h <;> omega
  omega

/-- The distance to the neighbours is at least the number divided by `2^p`, and at least one unit. -/
theorem gaps (p b : Nat) (hp : 1 ≤ p) (hb : 0 < b) :
    magVal p b + 2 ^ p * magVal p b ≤ 2 ^ p * magVal p (b + 1) ∧ magVal p b + 2 ^ p * magVal p (b - 1) ≤ 2 ^ p * magVal p b := by
  have hP : 2 ^ p = 2 * 2 ^ (p - 1) := by
    obtain ⟨r, rfl⟩ : ∃ r, p = r + 1 := ⟨p - 1, by omega⟩
    rw [Nat.pow_succ, Nat.add_sub_cancel, Nat.mul_comm]
  have hP0 : 0 < 2 ^ (p - 1) := Nat.two_pow_pos _
  obtain ⟨s, m, h1, h2, h3⟩ := mag_split p b
  have hs0 : 0 < 2 ^ s := Nat.two_pow_pos _
  have hv : magVal p b = m * 2 ^ s := by rw [h1, magVal_eq p s m h2 (by omega)]
  constructor
  · have hv' : magVal p (b + 1) = (m + 1) * 2 ^ s := by
      rw [h1, Nat.add_assoc, magVal_eq p s (m + 1) (by omega) (by omega)]
    rw [hv, hv', hP]
    have : m * 2 ^ s ≤ 2 * 2 ^ (p - 1) * 2 ^ s := Nat.mul_le_mul_right _ (by omega)
    nlinarith
  · rcases h2 with rfl | h2
    · have hm : 0 < m := by omega
      have hv' : magVal p (b - 1) = m - 1 := by
        have : b - 1 = 0 * 2 ^ (p - 1) + (m - 1) := by omega
        rw [this, magVal_eq p 0 (m - 1) (.inl rfl) (by omega)]; simp
      rw [hv, hv', hP]
      obtain ⟨r, rfl⟩ : ∃ r, m = r + 1 := ⟨m - 1, by omega⟩
      simp only [Nat.add_sub_cancel, Nat.pow_zero, Nat.mul_one]
      nlinarith
    · rcases Nat.lt_or_ge (2 ^ (p - 1)) m with hlt | hge
      · have hv' : magVal p (b - 1) = (m - 1) * 2 ^ s := by
          have : b - 1 = s * 2 ^ (p - 1) + (m - 1) := by omega
          rw [this, magVal_eq p s (m - 1) (.inr (by omega)) (by omega)]
        rw [hv, hv', hP]
        obtain ⟨r, rfl⟩ : ∃ r, m = r + 1 := ⟨m - 1, by omega⟩
        simp only [Nat.add_sub_cancel]
        have : (r + 1) * 2 ^ s ≤ 2 * 2 ^ (p - 1) * 2 ^ s := Nat.mul_le_mul_right _ (by omega)
        nlinarith
      · have hm : m = 2 ^ (p - 1) := by omega
        cases s with
        | zero =>
          have hv' : magVal p (b - 1) = m - 1 := by
            have : b - 1 = 0 * 2 ^ (p - 1) + (m - 1) := by omega
            rw [this, magVal_eq p 0 (m - 1) (.inl rfl) (by omega)]; simp
          rw [hv, hv', hP]
          obtain ⟨r, hr⟩ : ∃ r, m = r + 1 := ⟨m - 1, by omega⟩
          rw [hr]
          simp only [Nat.add_sub_cancel, Nat.pow_zero, Nat.mul_one]
          nlinarith
        | succ s =>
          have hv' : magVal p (b - 1) = (2 * 2 ^ (p - 1) - 1) * 2 ^ s := by
            have : b - 1 = s * 2 ^ (p - 1) + (2 * 2 ^ (p - 1) - 1) := by
              rw [h1, hm, Nat.succ_mul]; omega
            rw [this, magVal_eq p s _ (.inr (by omega)) (by omega)]
          rw [hv, hv', hP, hm]
          generalize 2 ^ (p - 1) = P at *
          obtain ⟨r, hr⟩ : ∃ r, 2 * P = r + 1 := ⟨2 * P - 1, by omega⟩
          rw [hr, Nat.add_sub_cancel, Nat.pow_succ]
          have : P * (2 ^ s * 2) = (r + 1) * 2 ^ s := by rw [← hr]; ring
          rw [this]
          nlinarith

theorem gaps_q (q : Fmt) (hp : 1 ≤ q.p) (b : Nat) (hb : 0 < b) :
    mval q b / 2 ^ q.p ≤ mval q (b + 1) - mval q b ∧ mval q b / 2 ^ q.p ≤ mval q b - mval q (b - 1) := by
  obtain ⟨h1, h2⟩ := gaps q.p b hp hb
  have hP : (0 : ℚ) < 2 ^ q.p := by positivity
  have hu : (0 : ℚ) < 2 ^ q.u := by positivity
  unfold mval
  have g1 : (magVal q.p b : ℚ) + 2 ^ q.p * magVal q.p b ≤ 2 ^ q.p * magVal q.p (b + 1) := by exact_mod_cast h1
  have g2 : (magVal q.p b : ℚ) + 2 ^ q.p * magVal q.p (b - 1) ≤ 2 ^ q.p * magVal q.p b := by exact_mod_cast h2
  constructor
  · rw [div_le_iff₀ hP, ← sub_div, div_mul_eq_mul_div, div_le_div_iff_of_pos_right hu]; linarith
  · rw [div_le_iff₀ hP, ← sub_div, div_mul_eq_mul_div, div_le_div_iff_of_pos_right hu]; linarith

theorem unit_gaps (q : Fmt) (b : Nat) (hb : 0 < b) :
    1 / 2 ^ q.u ≤ mval q (b + 1) - mval q b ∧ 1 / 2 ^ q.u ≤ mval q b - mval q (b - 1) := by
  have hu : (0 : ℚ) < 2 ^ q.u := by positivity
  have h1 := magVal_succ q.p b
  have h2 := magVal_succ q.p (b - 1)
  rw [Nat.sub_add_cancel hb] at h2
  have g1 : (magVal q.p b : ℚ) + 1 ≤ magVal q.p (b + 1) := by exact_mod_cast h1
  have g2 : (magVal q.p (b - 1) : ℚ) + 1 ≤ magVal q.p b := by exact_mod_cast h2
  unfold mval
  constructor
  · rw [← sub_div, div_le_div_iff_of_pos_right hu]; linarith
  · rw [← sub_div, div_le_div_iff_of_pos_right hu]; linarith

/-- A multiple of `10^e` that is nearest to `x`. -/
theorem round_to (x : ℚ) (hx : 0 ≤ x) (e : Int) : ∃ d : Nat, |dq d e - x| ≤ 10 ^ e / 2 ∧ ∀ n : Nat, x ≤ dq n e → d ≤ n := by
  have h10 : (0 : ℚ) < 10 ^ e := zpow_pos (by norm_num) e
  generalize hy : x / 10 ^ e = y
  have hy0 : 0 ≤ y := by rw [← hy]; positivity
  have hxy : x = y * 10 ^ e := by rw [← hy]; field_simp
  refine ⟨⌊y + 1 / 2⌋₊, ?_, ?_⟩
  · have f1 := Nat.floor_le (show 0 ≤ y + 1 / 2 by linarith)
    have f2 := Nat.lt_floor_add_one (y + 1 / 2)
    have : dq ⌊y + 1 / 2⌋₊ e - x = ((⌊y + 1 / 2⌋₊ : ℚ) - y) * 10 ^ e := by rw [hxy]; unfold dq; ring
    rw [this, abs_mul, abs_of_pos h10]
    have hh : |(⌊y + 1 / 2⌋₊ : ℚ) - y| ≤ 1 / 2 := abs_le.mpr ⟨by linarith, by linarith⟩
    calc _ ≤ 1 / 2 * 10 ^ e := mul_le_mul_of_nonneg_right hh h10.le
      _ = 10 ^ e / 2 := by ring
  · intro n hn
    have : y ≤ n := by
      rw [hxy] at hn
      exact le_of_mul_le_mul_right hn h10
    have : ⌊y + 1 / 2⌋₊ < n + 1 := (Nat.floor_lt (by linarith)).mpr (by push_cast; linarith)
    omega

theorem mval_pos (q : Fmt) (b : Nat) (hb : 0 < b) : 0 < mval q b := by
  have := (magVal_lt_iff q.p 0 b).mpr hb
  rw [magVal_zero] at this
  unfold mval
  have : (0 : ℚ) < magVal q.p b := by exact_mod_cast this
  positivity

/-- Seventeen digits suffice. -/
theorem seventeen (b : Nat) (hb : 0 < b) : ∃ (d : Nat) (e : Int), d ≤ 10 ^ 17 ∧ near b64 d e = b := by
  have hv := mval_pos b64 b hb
  obtain ⟨k, hk1, hk2⟩ := exists_mem_Ico_zpow hv (show (1 : ℚ) < 10 by norm_num)
  obtain ⟨d, hd1, hd2⟩ := round_to (mval b64 b) hv.le (k - 16)
  refine ⟨d, k - 16, hd2 _ ?_, ?_⟩
  · have : dq (10 ^ 17) (k - 16) = 10 ^ (k + 1) := by
      have := dq_shift 1 17 (k - 16)
      rw [Nat.one_mul] at this
      rw [this]
      unfold dq
      rw [Nat.cast_one, one_mul]
      congr 1; push_cast; ring
    rw [this]; exact hk2.le
  · have h10 : (10 : ℚ) ^ (k - 16) = 10 ^ k / 10 ^ 16 := by
      rw [zpow_sub₀ (by norm_num)]; norm_cast
    obtain ⟨g1, g2⟩ := gaps_q b64 (by decide) b hb
    have hp : b64.p = 53 := rfl
    rw [hp] at g1 g2
    obtain ⟨a1, a2⟩ := abs_le.mp hd1
    rw [h10] at a1 a2
    have hlt : (10 : ℚ) ^ k / 10 ^ 16 < mval b64 b / 2 ^ 53 := by
      rw [div_lt_div_iff₀ (by norm_num) (by norm_num)]
      have h0 : (0 : ℚ) < 10 ^ k := zpow_pos (by norm_num) k
      nlinarith
    exact near_between b64 (by decide) b d _ hb (by linarith) (by linarith)

/-- Multiples of `10^-324` suffice. -/
theorem finest (b : Nat) (hb : 0 < b) : ∃ d : Nat, near b64 d (-324) = b := by
  have hv := mval_pos b64 b hb
  obtain ⟨d, hd1, -⟩ := round_to (mval b64 b) hv.le (-324)
  obtain ⟨g1, g2⟩ := unit_gaps b64 b hb
  have hu : b64.u = 1074 := rfl
  rw [hu] at g1 g2
  obtain ⟨a1, a2⟩ := abs_le.mp hd1
  have hlt : (10 : ℚ) ^ (-324 : Int) < 1 / 2 ^ 1074 := by
    rw [show (-324 : Int) = -((324 : Nat) : Int) by norm_num, zpow_neg, zpow_natCast, ← one_div]
    have : 2 ^ 1074 < 10 ^ 324 := by decide +kernel
    exact one_div_lt_one_div_of_lt (by positivity) (by exact_mod_cast this)
  exact ⟨d, near_between b64 (by decide) b d _ hb (by linarith) (by linarith)⟩

/-- Finite numbers are below `10^309`. -/
theorem below (b d : Nat) (e : Int) (hinf : b < b64.infBits) (h : near b64 d e = b) : dq d e < 10 ^ 309 := by
  by_contra hc
  have hc := not_lt.mp hc
  have h1 : mval b64 b64.infBits ≤ dq d e := by
    refine le_trans ?_ hc
    unfold mval
    rw [show b64.p = 53 from rfl, magVal_infBits, show b64.u = 1074 from rfl, Nat.pow_add]
    push_cast
    rw [mul_div_assoc, div_self (by positivity), mul_one]
    have : 2 ^ 1024 ≤ 10 ^ 309 := by decide +kernel
    exact_mod_cast this
  have := val_le_dq b64 (by decide) d _ e h1
  omega

theorem decDigits_len (n k : Nat) (hk : 0 < k) (h : n < 10 ^ k) : (decDigits n).length ≤ k := by
  induction n using Nat.strongRecOn generalizing k with
  | ind n ih =>
    rw [decDigits.eq_def]
    by_cases h10 : n < 10
    · rw [if_pos h10]; exact hk
    · rw [if_neg h10, List.length_append, List.length_singleton]
      obtain ⟨r, rfl⟩ : ∃ r, k = r + 1 := ⟨k - 1, by omega⟩
      rw [Nat.pow_succ] at h
      have hr : 0 < r := by
        rcases Nat.eq_zero_or_pos r with rfl | h0
        · simp at h; omega
        · exact h0
      have := ih (n / 10) (by omega) r hr (by omega)
      omega

/-- The decimal that is printed. -/
theorem short_bounds (b : Nat) (hb : 0 < b) (hinf : b < b64.infBits) (c : Nat) (e : Int) (hc : candidate b64 b e = some c)
    (hmax : ∀ e' > e, ∀ d, near b64 d e' ≠ b) : c < 10 ^ 17 ∧ -324 ≤ e ∧ dq c e < 10 ^ 309 := by
  have hp : 1 ≤ b64.p := by decide
  refine ⟨?_, ?_, below b c e hinf (short_rounds b64 hp b c hb e hc hmax)⟩
  · by_contra h
    have h : 10 ^ 17 ≤ c := by omega
    obtain ⟨d, e', hd, hn⟩ := seventeen b hb
    have hd' := short_fewest b64 hp b c hb e hc hmax 17 h d e' hn
    have : d = 1 * 10 ^ 17 := by omega
    rw [this, near_eq_of_dq b64 hp _ _ _ _ (dq_shift 1 17 e')] at hn
    have := short_fewest b64 hp b c hb e hc hmax 17 h 1 _ hn
    omega
  · obtain ⟨d, hn⟩ := finest b hb
    exact short_exp_le b64 hp b c hb e hc hmax d _ hn

theorem decText_len (c : Nat) (e : Int) (h1 : c < 10 ^ 17) (h2 : -324 ≤ e) (h3 : dq c e < 10 ^ 309) : (decText c e).length ≤ 326 := by
  cases e with
  | ofNat k =>
    have h : c * 10 ^ k < 10 ^ 309 := by
      unfold dq at h3
      rw [show (Int.ofNat k) = (k : Int) from rfl, zpow_natCast] at h3
      exact_mod_cast h3
    have := decDigits_len (c * 10 ^ k) 309 (by omega) h
    show (decDigits (c * 10 ^ k)).length ≤ 326
    omega
  | negSucc k =>
    have hk : k + 1 ≤ 324 := by omega
    simp only [decText, List.length_append, List.length_singleton, (fracDigits_spec (k + 1) c).1]
    by_cases hlt : c < 10 ^ (k + 1)
    · have : c / 10 ^ (k + 1) = 0 := Nat.div_eq_of_lt hlt
      rw [this, decDigits.eq_def]
      simp only [Nat.ofNat_pos, if_true, List.length_singleton]
      omega
    · have hk17 : k + 1 < 17 := by
        have : 10 ^ (k + 1) < 10 ^ 17 := by omega
        exact (Nat.pow_lt_pow_iff_right (by omega)).mp this
      have := decDigits_len (c / 10 ^ (k + 1)) 17 (by omega) (Nat.lt_of_le_of_lt (Nat.div_le_self _ _) h1)
      omega

/-! ### A number read from a short literal -/

/-- Two decimals that round to the same number differ at most by a factor of three. -/
theorem near_ratio (q : Fmt) (hp : 1 ≤ q.p) (b : Nat) (hb : 0 < b) (d d' : Nat) (e e' : Int) (h : near q d e = b) (h' : near q d' e' = b) :
    dq d e ≤ 3 * dq d' e' := by
  have up : ∀ d e, near q d e = b → 2 * dq d e ≤ 3 * mval q b := by
    intro d e h
    obtain ⟨hd, hr⟩ := decNum_rat q d e
    have hu : (0 : ℚ) < 2 ^ q.u := by positivity
    have hdq : (0 : ℚ) < (decNum q d e).2 := by exact_mod_cast hd
    have hN : dq d e = ((decNum q d e).1 : ℚ) / ((decNum q d e).2 * 2 ^ q.u) := by rw [hr]; rfl
    unfold near at h
    generalize (decNum q d e).1 = N at *
    generalize (decNum q d e).2 = D at *
    have h1 : 2 * N ≤ (magVal q.p b + magVal q.p (b + 1)) * D := by
      by_contra hc
      have := (nearest_ge_iff q.p N D b hp hd).mpr (.inl (by omega))
      omega
    have h2 : 2 * N ≤ 3 * magVal q.p b * D := h1.trans (Nat.mul_le_mul_right _ (by have := magVal_double q.p b hb; omega))
    have h3 : (2 * N : ℚ) ≤ 3 * magVal q.p b * D := by exact_mod_cast h2
    rw [hN]
    unfold mval
    rw [← mul_div_assoc, ← mul_div_assoc, div_le_div_iff₀ (by positivity) hu]
    nlinarith
  have down : ∀ d e, near q d e = b → mval q b ≤ 2 * dq d e := by
    intro d e h
    obtain ⟨hd, hr⟩ := decNum_rat q d e
    have hu : (0 : ℚ) < 2 ^ q.u := by positivity
    have hdq : (0 : ℚ) < (decNum q d e).2 := by exact_mod_cast hd
    have hN : dq d e = ((decNum q d e).1 : ℚ) / ((decNum q d e).2 * 2 ^ q.u) := by rw [hr]; rfl
    unfold near at h
    generalize (decNum q d e).1 = N at *
    generalize (decNum q d e).2 = D at *
    have h1 := (nearest_ge_iff q.p N D (b - 1) hp hd).mp (by omega)
    rw [Nat.sub_add_cancel hb] at h1
    have h2 : magVal q.p b * D ≤ 2 * N := by
      have : magVal q.p b * D ≤ (magVal q.p (b - 1) + magVal q.p b) * D := Nat.mul_le_mul_right _ (by omega)
      omega
    have h3 : (magVal q.p b : ℚ) * D ≤ 2 * N := by exact_mod_cast h2
    rw [hN]
    unfold mval
    rw [← mul_div_assoc, div_le_div_iff₀ hu (by positivity)]
    nlinarith
  have := up d e h
  have := down d' e' h'
  linarith

theorem decText_len_of (c : Nat) (e : Int) (K : Nat) (hK : 0 < K) (h2 : -(K : Int) ≤ e) (h3 : dq c e < 10 ^ K) (h1 : c < 10 ^ 17) : (decText c e).length ≤ max (K + 2) 18 := by
  cases e with
  | ofNat k =>
    have h : c * 10 ^ k < 10 ^ K := by
      unfold dq at h3
      rw [show (Int.ofNat k) = (k : Int) from rfl, zpow_natCast] at h3
      exact_mod_cast h3
    have := decDigits_len (c * 10 ^ k) K hK h
    show (decDigits (c * 10 ^ k)).length ≤ _
    omega
  | negSucc k =>
    have hk : k + 1 ≤ K := by omega
    simp only [decText, List.length_append, List.length_singleton, (fracDigits_spec (k + 1) c).1]
    by_cases hlt : c < 10 ^ (k + 1)
    · have : c / 10 ^ (k + 1) = 0 := Nat.div_eq_of_lt hlt
      rw [this, decDigits.eq_def]
      simp only [Nat.ofNat_pos, if_true, List.length_singleton]
      omega
    · have hl : ∀ j n : Nat, n < 10 ^ (17 - j) * 10 ^ j → j < 17 → (decDigits (n / 10 ^ j)).length ≤ 17 - j := by
        intro j n hn hj
        exact decDigits_len _ _ (by omega) ((Nat.div_lt_iff_lt_mul (Nat.pow_pos (by omega))).mpr hn)
      have hk17 : k + 1 < 17 := by
        have : 10 ^ (k + 1) < 10 ^ 17 := by omega
        exact (Nat.pow_lt_pow_iff_right (by omega)).mp this
      have := hl (k + 1) c (by rw [← Nat.pow_add, Nat.sub_add_cancel hk17.le]; exact h1) hk17
      omega

theorem natOf_lt (ds : Str) (h : Digits ds) : natOf ds < 10 ^ ds.length := by
  rw [← decVal_natOf]; exact decVal_lt ds h

/-- Length of the fraction. -/
def fracLen : Option Str → Nat
  | some f => f.length + 1
  | none => 0

/-- Length of the exponent. -/
def expLen : Option (Char × Str × Str) → Nat
  | some (_, sg, ds) => sg.length + ds.length + 1
  | none => 0

theorem lit_length (n : NumLit) : n.text.length = (if n.neg then 1 else 0) + n.int.length + fracLen n.frac + expLen n.exp := by
  obtain ⟨neg, int, frac, exp⟩ := n
  unfold NumLit.text
  cases neg <;> cases frac <;> cases exp <;> simp [fracLen, expLen] <;> omega

/-- What a literal of at most five characters can say. -/
theorem short_lit (n : NumLit) (hn : n.Accepted) (h5 : n.text.length ≤ 5) :
    -102 ≤ litExp n - (litFrac n).length ∧ (n.text.length ≤ 4 → litExp n ≤ 99 ∧ decVal (n.int ++ litFrac n) 0 < 10 ^ 4) ∧
    (n.text.length ≤ 1 → litExp n = 0 ∧ litFrac n = [] ∧ decVal (n.int ++ litFrac n) 0 < 10) := by
  obtain ⟨⟨hi, hid⟩, hf, hx⟩ := hn
  have hil : 1 ≤ n.int.length := List.length_pos_of_ne_nil hi
  have hdig : Digits (n.int ++ litFrac n) := by
    intro c hc
    rcases List.mem_append.mp hc with hc | hc
    · exact hid c hc
    · unfold litFrac at hc
      cases hfr : n.frac with
      | none => rw [hfr] at hc; cases hc
      | some f => rw [hfr] at hc; exact (hf f hfr).1 c hc
  have hval := decVal_lt _ hdig
  have htext := lit_length n
  have hfl : (litFrac n).length ≤ fracLen n.frac := by
    unfold litFrac
    cases n.frac <;> simp [fracLen]
  rw [List.length_append] at hval
  have hpow : ∀ k, n.int.length + (litFrac n).length ≤ k → decVal (n.int ++ litFrac n) 0 < 10 ^ k := fun k hk =>
    Nat.lt_of_lt_of_le hval (Nat.pow_le_pow_right (by omega) hk)
  generalize n.text.length = L at *
  cases hxe : n.exp with
  | none =>
    have : litExp n = 0 := by unfold litExp; rw [hxe]; rfl
    rw [this]
    refine ⟨by omega, fun h => ⟨by omega, hpow 4 (by omega)⟩, fun h => ⟨rfl, ?_, by simpa using hpow 1 (by omega)⟩⟩
    exact List.eq_nil_of_length_eq_zero (by omega)
  | some x =>
    obtain ⟨ec, sg, ds⟩ := x
    obtain ⟨-, hsg, hds, hdd⟩ := hx ec sg ds hxe
    have hdl : 1 ≤ ds.length := List.length_pos_of_ne_nil hds
    have hnat := natOf_lt ds hdd
    have hp2 : ∀ k, ds.length ≤ k → natOf ds < 10 ^ k := fun k hk => Nat.lt_of_lt_of_le hnat (Nat.pow_le_pow_right (by omega) hk)
    have hle : litExp n = if sg = ['-'] then -(natOf ds : Int) else natOf ds := by unfold litExp; rw [hxe]; rfl
    rw [hxe] at htext
    simp only [expLen] at htext
    rw [hle]
    refine ⟨?_, ?_, ?_⟩
    · by_cases hs : sg = ['-']
      · rw [if_pos hs]
        have : sg.length = 1 := by rw [hs]; rfl
        have := hp2 2 (by omega)
        omega
      · rw [if_neg hs]; omega
    · intro h
      refine ⟨?_, hpow 4 (by omega)⟩
      have := hp2 2 (by omega)
      split <;> omega
    · intro h; omega

/-- The text printed for a number that was read from a literal is at most 62 times as long. -/
theorem decText_lit (n : NumLit) (hn : n.Accepted) (b : Nat) (hb : 0 < b) (hinf : b < b64.infBits) (c : Nat) (e : Int) (hc : candidate b64 b e = some c)
    (hmax : ∀ e' > e, ∀ d, near b64 d e' ≠ b) (hnear : near b64 (decVal (n.int ++ litFrac n) 0) (litExp n - (litFrac n).length) = b) :
    (if n.neg then 1 else 0) + (decText c e).length ≤ 62 * n.text.length := by
  have hp : 1 ≤ b64.p := by decide
  obtain ⟨h17, h324, h309⟩ := short_bounds b hb hinf c e hc hmax
  have hlen := decText_len c e h17 h324 h309
  have hneg : (if n.neg then 1 else 0) ≤ 1 := by cases n.neg <;> simp
  have hpos : (if n.neg then 1 else 0) + 1 ≤ n.text.length := by
    rw [lit_length n]
    have : 1 ≤ n.int.length := List.length_pos_of_ne_nil hn.1.1
    omega
  by_cases h6 : 6 ≤ n.text.length
  · omega
  obtain ⟨s1, s2, s3⟩ := short_lit n hn (by omega)
  have hexp := short_exp_le b64 hp b c hb e hc hmax _ _ hnear
  have hr := near_ratio b64 hp b hb _ _ _ _ (short_rounds b64 hp b c hb e hc hmax) hnear
  rcases Nat.lt_or_ge n.text.length 5 with h4 | h5
  · obtain ⟨t1, t2⟩ := s2 (by omega)
    have hsmall : dq c e < 10 ^ 104 := by
      refine lt_of_le_of_lt hr ?_
      have h1 : dq (decVal (n.int ++ litFrac n) 0) (litExp n - (litFrac n).length) ≤ dq (10 ^ 4) 99 := dq_mono _ _ _ _ (by omega) (by omega)
      have h2 : dq (10 ^ 4) 99 = 10 ^ 103 := by unfold dq; norm_num
      rw [h2] at h1
      calc _ ≤ 3 * (10 : ℚ) ^ 103 := by linarith
        _ < 10 ^ 104 := by norm_num
    rcases Nat.lt_or_ge n.text.length 2 with h1 | h2
    · obtain ⟨u1, u2, u3⟩ := s3 (by omega)
      rw [u1, u2] at hexp hr
      simp only [List.length_nil, List.append_nil] at hexp hr
      have he : 0 ≤ e := by simpa using hexp
      rw [u2, List.append_nil] at u3
      have hs2 : dq c e < 10 ^ 2 := by
        refine lt_of_le_of_lt hr ?_
        unfold dq
        have : ((decVal n.int 0 : Nat) : ℚ) ≤ 9 := by exact_mod_cast (show decVal n.int 0 ≤ 9 by omega)
        simp
        linarith
      have := decText_len_of c e 2 (by omega) (by push_cast; omega) hs2 h17
      omega
    · have := decText_len_of c e 104 (by omega) (by push_cast; omega) hsmall h17
      omega
  · by_cases he : 0 ≤ e
    · obtain ⟨k, rfl⟩ := Int.eq_ofNat_of_zero_le he
      have h : c * 10 ^ k < 10 ^ 309 := by
        unfold dq at h309
        rw [zpow_natCast] at h309
        exact_mod_cast h309
      have := decDigits_len (c * 10 ^ k) 309 (by omega) h
      have : (decText c (k : Int)).length ≤ 309 := this
      omega
    · obtain ⟨k, rfl⟩ : ∃ k, e = Int.negSucc k := Int.eq_negSucc_of_lt_zero (by omega)
      have hk : k + 1 ≤ 102 := by omega
      simp only [decText, List.length_append, List.length_singleton, (fracDigits_spec (k + 1) c).1]
      have := decDigits_len (c / 10 ^ (k + 1)) 17 (by omega) (Nat.lt_of_le_of_lt (Nat.div_le_self _ _) h17)
      omega

end RJ
