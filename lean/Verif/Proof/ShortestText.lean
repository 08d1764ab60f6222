import Verif.Proof.Shortest
import Verif.Spec.Shortest
/-
  Fewest significant digits, in terms of literals.
-/
set_option linter.unusedSectionVars false
namespace RJ
open Spec

theorem near_eq_of_dq (q : Fmt) (hp : 1 ≤ q.p) (d d' : Nat) (e e' : Int) (h : dq d e = dq d' e') : near q d e = near q d' e' :=
  Nat.le_antisymm (dq_le q hp _ _ _ _ h.le) (dq_le q hp _ _ _ _ h.ge)

theorem dq_shift (d : Nat) (t : Nat) (e : Int) : dq (d * 10 ^ t) e = dq d (e + t) := by
  unfold dq
  push_cast
  rw [zpow_add₀ (by norm_num), zpow_natCast]; ring

theorem dq_mono (d d' : Nat) (e e' : Int) (hd : d ≤ d') (he : e ≤ e') : dq d e ≤ dq d' e' := by
  unfold dq
  have h1 : (10 : ℚ) ^ e ≤ 10 ^ e' := zpow_le_zpow_right₀ (by norm_num) he
  have h2 : (d : ℚ) ≤ d' := by exact_mod_cast hd
  have h3 : (0 : ℚ) < 10 ^ e := zpow_pos (by norm_num) e
  exact mul_le_mul h2 h1 h3.le (by positivity)

section
variable (q : Fmt) (hp : 1 ≤ q.p) (b c : Nat) (hb : 0 < b) (e : Int) (hc : candidate q b e = some c) (hmax : ∀ e' > e, ∀ d, near q d e' ≠ b)
include hp hb hc hmax

theorem short_rounds : near q c e = b := (roundsTo_iff q b c e).mp (candidate_ok q b e c hc)

theorem short_pos : 0 < c := by
  have := short_rounds q hp b c hb e hc hmax
  rcases Nat.eq_zero_or_pos c with rfl | h
  · rw [near_zero q hp] at this; omega
  · exact h

/-- The coefficient is not divisible by ten. -/
theorem short_coprime : ¬ 10 ∣ c := by
  rintro ⟨d, hd⟩
  have := short_rounds q hp b c hb e hc hmax
  refine hmax (e + 1) (by omega) d ?_
  rw [← this, hd]
  refine near_eq_of_dq q hp _ _ _ _ ?_
  have := dq_shift d 1 e
  rw [pow_one, Nat.mul_comm] at this
  rw [this]; rfl

/-- If a decimal below a power of ten and one above both round to `b`, the coefficient has one digit. -/
theorem short_cross (k : Nat) (d : Nat) (e' : Int) (hd : near q d e' = b) (h1 : dq d e' ≤ dq 1 (e + k)) (h2 : 10 ^ k ≤ c) : k = 0 := by
  have hr := short_rounds q hp b c hb e hc hmax
  have hle : dq 1 (e + k) ≤ dq c e := by
    rw [← dq_shift 1 k e, Nat.one_mul]
    exact dq_mono _ _ _ _ h2 (le_refl _)
  have a1 := dq_le q hp _ _ _ _ h1
  have a2 := dq_le q hp _ _ _ _ hle
  by_contra hk
  exact hmax (e + k) (by omega) 1 (by omega)

theorem short_exp_le (d : Nat) (e' : Int) (hd : near q d e' = b) : e' ≤ e := by
  by_contra h
  exact hmax e' (by omega) d hd

/-- No decimal with fewer digits rounds to `b`. -/
theorem short_fewest (k : Nat) (hk : 10 ^ k ≤ c) (d : Nat) (e' : Int) (hd : near q d e' = b) : 10 ^ k ≤ d := by
  by_contra hlt
  have hlt : d < 10 ^ k := by omega
  have he := short_exp_le q hp b c hb e hc hmax d e' hd
  have h1 : dq d e' ≤ dq 1 (e + k) := by
    rw [← dq_shift 1 k e, Nat.one_mul]
    exact dq_mono _ _ _ _ hlt.le he
  have := short_cross q hp b c hb e hc hmax k d e' hd h1 hk
  subst this
  have : d = 0 := by simpa using hlt
  subst this
  rw [near_zero q hp] at hd; omega

/-- Decimals with as many digits and the same exponent are not nearer. -/
theorem short_nearest_same (d : Nat) (hd : near q d e = b) : |dq c e - mval q b| ≤ |dq d e - mval q b| := by
  obtain ⟨c', h1, h2⟩ := candidate_complete q hp b d e hd
  rw [hc] at h1; cases h1
  exact h2

end

/-- Only tiny numbers have a relative rounding interval of more than 5%. -/
theorem mval_near_power (b : Nat) (hb : 10 ≤ b) (e : Int) (h : near b64 1 e = b) : (19 / 20 : ℚ) * dq 1 e ≤ mval b64 b := by
  -- `10^e` is at most half way to the next magnitude
  have hle : nearest b64.p (decNum b64 1 e).1 (decNum b64 1 e).2 = b := h
  obtain ⟨h1, h2⟩ := decNum_rat b64 1 e
  have hn : ¬ (b + 1 ≤ nearest b64.p (decNum b64 1 e).1 (decNum b64 1 e).2) := by omega
  rw [nearest_ge_iff _ _ _ _ (by decide) h1] at hn
  have hn' : 2 * (decNum b64 1 e).1 ≤ (magVal b64.p b + magVal b64.p (b + 1)) * (decNum b64 1 e).2 := by omega
  have hv : 10 * magVal b64.p (b + 1) ≤ 11 * magVal b64.p b := by
    obtain ⟨s, m, e1, e2, e3⟩ := mag_split b64.p b
    have hm : 10 ≤ m := by
      rcases e2 with rfl | e2
      · omega
      · exact Nat.le_trans (by decide) e2
    rw [e1, Nat.add_assoc, magVal_eq _ s (m + 1) (by omega) (by omega), magVal_eq _ s m e2 (by omega)]
    nlinarith [Nat.two_pow_pos s]
  have hq : dq 1 e = ((decNum b64 1 e).1 : ℚ) / ((decNum b64 1 e).2 * 2 ^ b64.u) := h2.symm
  rw [hq]
  unfold mval
  generalize magVal b64.p (b + 1) = M' at *
  generalize magVal b64.p b = M at *
  generalize (decNum b64 1 e).1 = n at *
  generalize (decNum b64 1 e).2 = d at *
  have hU : (0 : ℚ) < 2 ^ b64.u := by positivity
  generalize (2 : ℚ) ^ b64.u = U at *
  have hd : (0 : ℚ) < d := by exact_mod_cast h1
  rw [← mul_div_assoc, div_le_div_iff₀ (by positivity) hU]
  have a1 : (2 * n : ℚ) ≤ (M + M') * d := by exact_mod_cast hn'
  have a2 : (10 * M' : ℚ) ≤ 11 * M := by exact_mod_cast hv
  have a3 : (19 / 20 : ℚ) * n ≤ M * d := by
    have : (10 * M' : ℚ) * d ≤ 11 * M * d := mul_le_mul_of_nonneg_right a2 hd.le
    nlinarith
  nlinarith

/-- The printed decimal is the nearest among those with as few digits. -/
theorem short_nearest64 (b : Nat) (hb : 0 < b) (hinf : b < b64.infBits) (k d : Nat) (e' : Int)
    (hd : near b64 d e' = b) (hk : (shortest b64 b (2 * b64.u) (startExp b64 b)).1 < 10 ^ k → d < 10 ^ k)
    (hk2 : (shortest b64 b (2 * b64.u) (startExp b64 b)).1 < 10 ^ k) (hk3 : 10 ^ (k - 1) ≤ (shortest b64 b (2 * b64.u) (startExp b64 b)).1) :
    |dq (shortest b64 b (2 * b64.u) (startExp b64 b)).1 (shortest b64 b (2 * b64.u) (startExp b64 b)).2 - mval b64 b| ≤ |dq d e' - mval b64 b| := by
  obtain ⟨hc, hmax⟩ := shortest64 b hb hinf
  have hsmall : b < 10 → (19 / 20 : ℚ) * dq 1 (shortest b64 b (2 * b64.u) (startExp b64 b)).2 ≤ mval b64 b := by
    clear hc hmax hk hk2 hk3 hd
    intro h10
    have : ∀ b, b < 10 → 0 < b → 19 * (decNum b64 1 (shortest b64 b (2 * b64.u) (startExp b64 b)).2).1 ≤
        20 * (magVal b64.p b * (decNum b64 1 (shortest b64 b (2 * b64.u) (startExp b64 b)).2).2) := by
      decide +kernel
    have h19 := this b h10 hb
    obtain ⟨h1, h2⟩ := decNum_rat b64 1 (shortest b64 b (2 * b64.u) (startExp b64 b)).2
    have hq : dq 1 (shortest b64 b (2 * b64.u) (startExp b64 b)).2 = _ := h2.symm
    rw [hq]
    unfold mval
    generalize magVal b64.p b = M at *
    generalize (decNum b64 1 (shortest b64 b (2 * b64.u) (startExp b64 b)).2).1 = n at *
    generalize (decNum b64 1 (shortest b64 b (2 * b64.u) (startExp b64 b)).2).2 = d at *
    have hU : (0 : ℚ) < 2 ^ b64.u := by positivity
    generalize (2 : ℚ) ^ b64.u = U at *
    have hd : (0 : ℚ) < d := by exact_mod_cast h1
    rw [← mul_div_assoc, div_le_div_iff₀ (by positivity) hU]
    have a3 : (19 : ℚ) * n ≤ 20 * (M * d) := by exact_mod_cast h19
    nlinarith
  generalize (shortest b64 b (2 * b64.u) (startExp b64 b)).1 = c at *
  generalize (shortest b64 b (2 * b64.u) (startExp b64 b)).2 = e at *
  have hp : 1 ≤ b64.p := by decide
  have he := short_exp_le b64 hp b c hb e hc hmax d e' hd
  rcases eq_or_lt_of_le he with rfl | he
  · exact short_nearest_same b64 hp b c hb e' hc hmax d hd
  have hdk := hk hk2
  have hk0 : k ≠ 0 := by
    rintro rfl
    have := short_pos b64 hp b c hb e hc hmax
    simp at hk2; omega
  obtain ⟨j, rfl⟩ : ∃ j, k = j + 1 := ⟨k - 1, by omega⟩
  simp only [Nat.add_sub_cancel] at hk3
  have hle : dq d e' ≤ dq 1 (e + j) := by
    have h1 : dq d e' ≤ dq (10 ^ (j + 1)) (e - 1) := dq_mono _ _ _ _ hdk.le (by omega)
    have h2 := dq_shift 1 (j + 1) (e - 1)
    rw [Nat.one_mul] at h2
    rw [h2] at h1
    rwa [show e - 1 + ((j + 1 : Nat) : Int) = e + j by push_cast; ring] at h1
  have hj := short_cross b64 hp b c hb e hc hmax j d e' hd hle hk3
  subst hj
  simp only [Nat.cast_zero, add_zero] at hle
  have h1e : near b64 1 e = b := by
    have hr := short_rounds b64 hp b c hb e hc hmax
    have a1 := dq_le b64 hp _ _ _ _ hle
    have a2 := dq_le b64 hp _ _ _ _ (dq_mono 1 c e e (short_pos b64 hp b c hb e hc hmax) (le_refl _))
    omega
  have hmv : (19 / 20 : ℚ) * dq 1 e ≤ mval b64 b := by
    rcases Nat.lt_or_ge b 10 with h | h
    · exact hsmall h
    · exact mval_near_power b h e h1e
  refine (short_nearest_same b64 hp b c hb e hc hmax 1 h1e).trans ?_
  have hd9 : dq d e' ≤ (9 / 10 : ℚ) * dq 1 e := by
    have : dq d e' ≤ dq 9 (e - 1) := dq_mono _ _ _ _ (by simp at hdk; omega) (by omega)
    refine this.trans ?_
    unfold dq
    rw [zpow_sub_one₀ (by norm_num)]
    push_cast
    ring_nf; exact le_refl _
  have hpos : (0 : ℚ) < dq 1 e := by
    unfold dq
    have : (0 : ℚ) < 10 ^ e := zpow_pos (by norm_num) e
    simpa using this
  rw [abs_of_nonpos (a := dq d e' - _) (by linarith)]
  rw [abs_le]
  constructor <;> linarith

/-! ### Significant digits -/

theorem decVal_lt (s : Str) (h : Digits s) : decVal s 0 < 10 ^ s.length := by
  induction s using List.reverseRecOn with
  | nil => simp [decVal]
  | append_singleton s c ih =>
    rw [decVal_append, List.length_append, List.length_singleton, Nat.pow_succ]
    simp only [decVal]
    have h1 := ih (fun x hx => h x (by simp [hx]))
    have h2 := h c (by simp)
    unfold IsDigit at h2
    omega

theorem decVal_ge (c : Char) (s : Str) (h : IsDigit c) (hc : c ≠ '0') : 10 ^ s.length ≤ decVal (c :: s) 0 := by
  rw [decVal, decVal_shift]
  unfold IsDigit at h
  have : c.toNat ≠ 48 := fun hh => hc (Char.ext (UInt32.toNat_inj.mp hh))
  have : 1 ≤ 0 * 10 + (c.toNat - 48) := by omega
  nlinarith [Nat.pow_pos (n := s.length) (show 0 < 10 by omega)]

theorem decVal_zeros (z s : Str) (h : ∀ c ∈ z, c = '0') : decVal (z ++ s) 0 = decVal s 0 := by
  induction z with
  | nil => rfl
  | cons c z ih =>
    have := h c (by simp)
    subst this
    exact ih (fun c hc => h c (by simp [hc]))

theorem decVal_zeros_right (z : Str) (a : Nat) (h : ∀ c ∈ z, c = '0') : decVal z a = a * 10 ^ z.length := by
  induction z generalizing a with
  | nil => simp [decVal]
  | cons c z ih =>
    have := h c (by simp)
    subst this
    rw [decVal, ih _ (fun c hc => h c (by simp [hc])), List.length_cons, Nat.pow_succ]
    simp only [Char.reduceToNat]
    ring

theorem takeWhile_zeros (s : Str) : ∀ c ∈ s.takeWhile (· = '0'), c = '0' := by
  induction s with
  | nil => intro c hc; cases hc
  | cons x s ih =>
    intro c hc
    by_cases hx : x = '0'
    · rw [List.takeWhile_cons_of_pos (by simpa using hx)] at hc
      rcases List.mem_cons.mp hc with h | h
      · rw [h, hx]
      · exact ih c h
    · rw [List.takeWhile_cons_of_neg (by simpa using hx)] at hc
      cases hc

/-- The significant digits of a digit string. -/
def sig (s : Str) : Str := ((s.dropWhile (· = '0')).reverse.dropWhile (· = '0')).reverse

theorem sig_split (s : Str) : ∃ z z', (∀ c ∈ z, c = '0') ∧ (∀ c ∈ z', c = '0') ∧ s = z ++ sig s ++ z' := by
  refine ⟨s.takeWhile (· = '0'), (((s.dropWhile (· = '0')).reverse).takeWhile (· = '0')).reverse, takeWhile_zeros s, ?_, ?_⟩
  · intro c hc
    rw [List.mem_reverse] at hc
    exact takeWhile_zeros _ c hc
  · unfold sig
    rw [List.append_assoc, ← List.reverse_append, List.takeWhile_append_dropWhile, List.reverse_reverse, List.takeWhile_append_dropWhile]

theorem dropWhile_head (s : Str) : ∀ c t, s.dropWhile (· = '0') = c :: t → c ≠ '0' := by
  intro c t h
  induction s with
  | nil => cases h
  | cons x s ih =>
    by_cases hx : x = '0'
    · rw [List.dropWhile_cons_of_pos (by simpa using hx)] at h; exact ih h
    · rw [List.dropWhile_cons_of_neg (by simpa using hx)] at h
      cases h; exact hx

theorem sig_last (s t : Str) (c : Char) (h : sig s = t ++ [c]) : c ≠ '0' := by
  unfold sig at h
  have : (s.dropWhile (· = '0')).reverse.dropWhile (· = '0') = c :: t.reverse := by
    have := congrArg List.reverse h
    simpa using this
  exact dropWhile_head _ _ _ this

theorem sig_head (s t : Str) (c : Char) (h : sig s = c :: t) : c ≠ '0' := by
  unfold sig at h
  have hp : sig s <+: s.dropWhile (· = '0') := by
    unfold sig
    conv_rhs => rw [← List.reverse_reverse (s.dropWhile (· = '0'))]
    exact List.reverse_prefix.mpr (List.dropWhile_suffix _)
  unfold sig at hp
  rw [h] at hp
  obtain ⟨r, hr⟩ := hp
  exact dropWhile_head s c (t ++ r) (by rw [← hr]; rfl)

theorem sig_val (s : Str) : ∃ t, decVal s 0 = decVal (sig s) 0 * 10 ^ t := by
  obtain ⟨z, z', h1, h2, h3⟩ := sig_split s
  refine ⟨z'.length, ?_⟩
  conv_lhs => rw [h3]
  rw [List.append_assoc, decVal_zeros _ _ h1, decVal_append, decVal_zeros_right _ _ h2]

theorem sig_digits (s : Str) (h : Digits s) : Digits (sig s) := by
  obtain ⟨z, z', h1, h2, h3⟩ := sig_split s
  intro c hc
  exact h c (by rw [h3]; simp [hc])

/-- The number of significant digits of a digit string bounds its coefficient. -/
theorem sig_bounds (s : Str) (h : Digits s) (h0 : sig s ≠ []) :
    10 ^ ((sig s).length - 1) ≤ decVal (sig s) 0 ∧ decVal (sig s) 0 < 10 ^ (sig s).length ∧ ¬ 10 ∣ decVal (sig s) 0 := by
  have hd := sig_digits s h
  refine ⟨?_, decVal_lt _ hd, ?_⟩
  · obtain ⟨c, t, hct⟩ := List.exists_cons_of_ne_nil h0
    rw [hct]
    exact decVal_ge c t (hd c (by rw [hct]; simp)) (sig_head s t c hct)
  · have e := (List.dropLast_concat_getLast h0).symm
    have hl := sig_last s _ _ e
    have hdl := hd _ (List.getLast_mem h0)
    rw [e, decVal_append]
    simp only [decVal]
    unfold IsDigit at hdl
    have : ((sig s).getLast h0).toNat ≠ 48 := fun hh => hl (Char.ext (UInt32.toNat_inj.mp hh))
    omega

theorem sig_nil (s : Str) (h : sig s = []) : decVal s 0 = 0 := by
  obtain ⟨t, ht⟩ := sig_val s
  rw [ht, h]; simp [decVal]

end RJ
