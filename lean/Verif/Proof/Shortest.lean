import Verif.Proof.IeeeLit
/-
  The decimal found by `shortest` has the fewest digits of all decimals that round to the number, and is the nearest of those.
-/
set_option linter.unusedSectionVars false
namespace RJ
open Spec

/-! ### Rounding is monotone -/

theorem nearest_ge_iff (p n d b : Nat) (hp : 1 ≤ p) (hd : 0 < d) :
    b + 1 ≤ nearest p n d ↔ (magVal p b + magVal p (b + 1)) * d < 2 * n ∨ ((magVal p b + magVal p (b + 1)) * d = 2 * n ∧ b % 2 = 1) := by
  obtain ⟨f, h1, h2, h3⟩ := nearest_cases p n d hp hd
  have hmul : ∀ x y, x ≤ y → magVal p x * d ≤ magVal p y * d := fun x y h => Nat.mul_le_mul_right d (magVal_mono p h)
  have hlt : ∀ x, magVal p x * d < magVal p (x + 1) * d := fun x => Nat.mul_lt_mul_of_pos_right (magVal_succ p x) hd
  have hfb := hlt b
  rw [Nat.add_mul] at h3 ⊢
  have hb : f ≤ nearest p n d ∧ nearest p n d ≤ f + 1 := by
    rw [h3]; split
    · omega
    · split
      · omega
      · split <;> omega
  rcases Nat.lt_trichotomy b f with h | h | h
  · have := hmul (b + 1) f h
    omega
  · subst h
    rw [h3]
    split
    · omega
    · split
      · omega
      · split <;> omega
  · have := hmul (f + 1) b h
    omega

theorem nearest_mono (p n d n' d' : Nat) (hp : 1 ≤ p) (hd : 0 < d) (hd' : 0 < d') (h : n * d' ≤ n' * d) : nearest p n d ≤ nearest p n' d' := by
  cases hb : nearest p n d with
  | zero => omega
  | succ b =>
    have h1 := (nearest_ge_iff p n d b hp hd).mp (by omega)
    refine (nearest_ge_iff p n' d' b hp hd').mpr ?_
    generalize magVal p b + magVal p (b + 1) = M at *
    rcases h1 with h1 | ⟨h1, h2⟩
    · left
      by_contra hc
      have hc : 2 * n' ≤ M * d' := by omega
      have a1 := Nat.mul_le_mul_right d hc
      have a2 := Nat.mul_lt_mul_of_pos_right h1 hd'
      nlinarith
    · rcases Nat.lt_or_ge (M * d') (2 * n') with h' | h'
      · exact .inl h'
      · refine .inr ⟨?_, h2⟩
        apply Nat.le_antisymm _ h'
        by_contra hc
        have hc : 2 * n' < M * d' := by omega
        have a1 := Nat.mul_lt_mul_of_pos_right hc hd
        have : M * d * d' = 2 * n * d' := by rw [h1]
        nlinarith

/-! ### Decimals as rationals -/

/-- `d * 10^e`. -/
def dq (d : Nat) (e : Int) : ℚ := d * 10 ^ e

/-- The magnitude `d * 10^e` rounds to. -/
def near (q : Fmt) (d : Nat) (e : Int) : Nat := nearest q.p (decNum q d e).1 (decNum q d e).2

theorem roundsTo_iff (q : Fmt) (b d : Nat) (e : Int) : roundsTo q b d e = true ↔ near q d e = b := by
  unfold roundsTo near; exact beq_iff_eq

/-- The value of a magnitude. -/
def mval (q : Fmt) (b : Nat) : ℚ := (magVal q.p b : ℚ) / 2 ^ q.u

theorem dq_le (q : Fmt) (hp : 1 ≤ q.p) (d d' : Nat) (e e' : Int) (h : dq d e ≤ dq d' e') : near q d e ≤ near q d' e' := by
  obtain ⟨h1, h2⟩ := decNum_rat q d e
  obtain ⟨h1', h2'⟩ := decNum_rat q d' e'
  unfold dq at h
  rw [← h2, ← h2'] at h
  refine nearest_mono _ _ _ _ _ hp h1 h1' ?_
  have hu : (0 : ℚ) < 2 ^ q.u := by positivity
  have a1 : (0 : ℚ) < (decNum q d e).2 := by exact_mod_cast h1
  have a2 : (0 : ℚ) < (decNum q d' e').2 := by exact_mod_cast h1'
  rw [div_le_div_iff₀ (by positivity) (by positivity)] at h
  have : ((decNum q d e).1 : ℚ) * (decNum q d' e').2 ≤ (decNum q d' e').1 * (decNum q d e).2 := by
    have := le_of_mul_le_mul_right (a := 2 ^ q.u) (b := ((decNum q d e).1 : ℚ) * (decNum q d' e').2) (c := (decNum q d' e').1 * (decNum q d e).2) (by linarith) hu
    exact this
  exact_mod_cast this

theorem dq_le_val (q : Fmt) (hp : 1 ≤ q.p) (d b : Nat) (e : Int) (h : dq d e ≤ mval q b) : near q d e ≤ b := by
  obtain ⟨h1, h2⟩ := decNum_rat q d e
  unfold dq at h
  rw [← h2] at h
  have hb := nearest_exact q.p (magVal q.p b) 1 b hp (by omega) (by simp)
  rw [← hb]
  refine nearest_mono _ _ _ _ _ hp h1 (by omega) ?_
  have hu : (0 : ℚ) < 2 ^ q.u := by positivity
  have a1 : (0 : ℚ) < (decNum q d e).2 := by exact_mod_cast h1
  unfold mval at h
  rw [div_le_div_iff₀ (by positivity) (by positivity)] at h
  have : ((decNum q d e).1 : ℚ) ≤ magVal q.p b * (decNum q d e).2 := by
    exact le_of_mul_le_mul_right (by linarith) hu
  rw [Nat.mul_one]
  exact_mod_cast this

theorem val_le_dq (q : Fmt) (hp : 1 ≤ q.p) (d b : Nat) (e : Int) (h : mval q b ≤ dq d e) : b ≤ near q d e := by
  obtain ⟨h1, h2⟩ := decNum_rat q d e
  unfold dq at h
  rw [← h2] at h
  have hb := nearest_exact q.p (magVal q.p b) 1 b hp (by omega) (by simp)
  rw [show (b ≤ near q d e) = (nearest q.p (magVal q.p b) 1 ≤ near q d e) by rw [hb]]
  refine nearest_mono _ _ _ _ _ hp (by omega) h1 ?_
  have hu : (0 : ℚ) < 2 ^ q.u := by positivity
  have a1 : (0 : ℚ) < (decNum q d e).2 := by exact_mod_cast h1
  unfold mval at h
  rw [div_le_div_iff₀ (by positivity) (by positivity)] at h
  have : (magVal q.p b : ℚ) * (decNum q d e).2 ≤ (decNum q d e).1 := by
    exact le_of_mul_le_mul_right (by linarith) hu
  rw [Nat.mul_one]
  exact_mod_cast this

theorem near_zero (q : Fmt) (hp : 1 ≤ q.p) (e : Int) : near q 0 e = 0 := by
  have := dq_le_val q hp 0 0 e (by simp only [dq, mval, magVal_zero]; simp)
  omega

/-! ### The candidate -/

theorem scaled_rat (q : Fmt) (x : Nat) (e : Int) :
    0 < (scaled q x e).2 ∧ ((scaled q x e).1 : ℚ) / (scaled q x e).2 * 10 ^ e = (x : ℚ) / 2 ^ q.u := by
  have h2 : (2 : ℚ) ^ q.u ≠ 0 := by positivity
  cases e with
  | ofNat k =>
    refine ⟨by simp only [scaled]; positivity, ?_⟩
    simp only [scaled]
    push_cast
    rw [show (Int.ofNat k) = (k : Int) from rfl, zpow_natCast]
    field_simp
  | negSucc k =>
    refine ⟨by simp only [scaled]; positivity, ?_⟩
    simp only [scaled]
    push_cast
    rw [zpow_negSucc]
    field_simp

/-- If some multiple of `10^e` rounds to `b`, the candidate is at least as near. -/
theorem candidate_complete (q : Fmt) (hp : 1 ≤ q.p) (b d : Nat) (e : Int) (h : near q d e = b) :
    ∃ c, candidate q b e = some c ∧ |dq c e - mval q b| ≤ |dq d e - mval q b| := by
  obtain ⟨hm, hs⟩ := scaled_rat q (magVal q.p b) e
  unfold candidate
  generalize (scaled q (magVal q.p b) e).1 = n at *
  generalize (scaled q (magVal q.p b) e).2 = m at *
  simp only
  have h10 : (0 : ℚ) < 10 ^ e := zpow_pos (by norm_num) e
  have hmq : (0 : ℚ) < m := by exact_mod_cast hm
  have hx : mval q b = (n : ℚ) / m * 10 ^ e := hs.symm
  generalize hD : n / m = D
  have hlo : (D : ℚ) ≤ (n : ℚ) / m := by
    rw [le_div_iff₀ hmq, ← hD]
    exact_mod_cast Nat.div_mul_le_self n m
  have hhi : (n : ℚ) / m < D + 1 := by
    rw [div_lt_iff₀ hmq, ← hD]
    have := Nat.lt_mul_of_div_lt (Nat.lt_succ_self (n / m)) hm
    exact_mod_cast this
  have hloX : dq D e ≤ mval q b := by
    rw [hx]; exact mul_le_mul_of_nonneg_right hlo h10.le
  have hhiX : mval q b ≤ dq (D + 1) e := by
    rw [hx]; unfold dq; push_cast; exact mul_le_mul_of_nonneg_right hhi.le h10.le
  have key : (d ≤ D ∧ roundsTo q b D e = true ∧ |dq D e - mval q b| ≤ |dq d e - mval q b|) ∨
      (D + 1 ≤ d ∧ roundsTo q b (D + 1) e = true ∧ |dq (D + 1) e - mval q b| ≤ |dq d e - mval q b|) := by
    rcases Nat.lt_or_ge D d with hd | hd
    · right
      have hle : dq (D + 1) e ≤ dq d e := by
        unfold dq
        exact mul_le_mul_of_nonneg_right (by exact_mod_cast hd) h10.le
      refine ⟨hd, ?_, ?_⟩
      · rw [roundsTo_iff]
        have := dq_le q hp _ _ _ _ hle
        have := val_le_dq q hp _ b e hhiX
        omega
      · rw [abs_of_nonneg (by linarith), abs_of_nonneg (by linarith)]; linarith
    · left
      have hle : dq d e ≤ dq D e := by
        unfold dq
        exact mul_le_mul_of_nonneg_right (by exact_mod_cast hd) h10.le
      refine ⟨hd, ?_, ?_⟩
      · rw [roundsTo_iff]
        have := dq_le q hp _ _ _ _ hle
        have := dq_le_val q hp _ b e hloX
        omega
      · rw [abs_of_nonpos (by linarith), abs_of_nonpos (by linarith)]; linarith
  have htie : (2 * D + 1) * m ≤ 2 * n ↔ |dq (D + 1) e - mval q b| ≤ |dq D e - mval q b| := by
    rw [abs_of_nonneg (by linarith), abs_of_nonpos (by linarith), hx]
    unfold dq
    push_cast
    have e1 : ((D : ℚ) + 1) * 10 ^ e - (n : ℚ) / m * 10 ^ e ≤ -((D : ℚ) * 10 ^ e - (n : ℚ) / m * 10 ^ e) ↔ (2 * (D : ℚ) + 1) ≤ 2 * ((n : ℚ) / m) := by
      constructor
      · intro h
        have : (2 * (D : ℚ) + 1) * 10 ^ e ≤ (2 * ((n : ℚ) / m)) * 10 ^ e := by linarith
        exact le_of_mul_le_mul_right this h10
      · intro h
        have := mul_le_mul_of_nonneg_right h h10.le
        linarith
    rw [e1, ← mul_div_assoc, le_div_iff₀ hmq]
    exact ⟨fun h => by exact_mod_cast h, fun h => by exact_mod_cast h⟩
  cases hl : roundsTo q b D e <;> cases hh : roundsTo q b (D + 1) e
  · simp [hl, hh] at key
  · simp only [hl, hh] at key
    rcases key with k | k
    · simp at k
    · exact ⟨D + 1, by simp, k.2.2⟩
  · simp only [hl, hh] at key
    rcases key with k | k
    · exact ⟨D, by simp, k.2.2⟩
    · simp at k
  · by_cases ht : (2 * D + 1) * m ≤ 2 * n
    · refine ⟨D + 1, by simp [ht], ?_⟩
      rcases key with k | k
      · exact (htie.mp ht).trans k.2.2
      · exact k.2.2
    · refine ⟨D, by simp [ht], ?_⟩
      rcases key with k | k
      · exact k.2.2
      · exact (le_of_lt (not_le.mp (fun h => ht (htie.mpr h)))).trans k.2.2

/-! ### The search -/

theorem shortest_spec (q : Fmt) (hp : 1 ≤ q.p) (b n : Nat) (s : Int) (hs : -(q.u : Int) ≤ s) (hn : s < n - (q.u : Int))
    (hbig : ∀ e' > s, ∀ d, near q d e' ≠ b) :
    candidate q b (shortest q b n s).2 = some (shortest q b n s).1 ∧ ∀ e' > (shortest q b n s).2, ∀ d, near q d e' ≠ b := by
  induction n generalizing s with
  | zero => omega
  | succ n ih =>
    rw [shortest]
    cases h : candidate q b s with
    | some d => exact ⟨h, hbig⟩
    | none =>
      have hno : ∀ d, near q d s ≠ b := fun d hd => by
        obtain ⟨c, hc, _⟩ := candidate_complete q hp b d s hd
        rw [h] at hc; cases hc
      have hne : s ≠ -(q.u : Int) := fun hs' => by
        have := (roundsTo_iff q b _ _).mp (exact_ok q hp b)
        rw [← hs'] at this
        exact hno _ this
      refine ih (s - 1) (by omega) (by push_cast at hn ⊢; omega) ?_
      intro e' he'
      rcases lt_or_eq_of_le (show s ≤ e' by omega) with h' | h'
      · exact hbig e' h'
      · rw [← h']; exact hno

theorem magVal_double (p b : Nat) (hb : 0 < b) : magVal p (b + 1) ≤ 2 * magVal p b := by
  obtain ⟨s, m, h1, h2, h3⟩ := mag_split p b
  have hm : 1 ≤ m := by
    rcases h2 with rfl | h2
    · omega
    · exact Nat.le_trans (Nat.one_le_two_pow) h2
  rw [h1, Nat.add_assoc, magVal_eq p s (m + 1) (by omega) (by omega), magVal_eq p s m h2 (by omega)]
  nlinarith [Nat.two_pow_pos s]

/-- Nothing coarser than the starting power of ten rounds to the number. -/
theorem startExp_big (q : Fmt) (hp : 1 ≤ q.p) (b : Nat) (hb : 0 < b) (e' : Int) (he : startExp q b < e') (d : Nat) : near q d e' ≠ b := by
  intro h
  rcases Nat.eq_zero_or_pos d with rfl | hd
  · rw [near_zero q hp] at h; omega
  have hle : mval q (b + 1) ≤ dq d e' := by
    have hpow : (2 : ℚ) ^ (((magVal q.p b).log2 : Int) - q.u + 2) ≤ 10 ^ e' := by
      unfold startExp at he
      generalize hl : ((magVal q.p b).log2 : Int) - q.u = l at *
      simp only at he
      by_cases h0 : 0 ≤ l
      · rw [if_pos h0] at he
        have a1 : (2 : ℚ) ^ (l + 2) ≤ 2 ^ (3 * e') := zpow_le_zpow_right₀ (by norm_num) (by omega)
        have a2 : (2 : ℚ) ^ (3 * e') ≤ 10 ^ e' := by
          rw [zpow_mul]
          have h0e : 0 ≤ e' := by omega
          obtain ⟨k, rfl⟩ := Int.eq_ofNat_of_zero_le h0e
          rw [zpow_natCast, zpow_natCast]
          exact pow_le_pow_left₀ (by norm_num) (by norm_num) k
        exact a1.trans a2
      · rw [if_neg h0] at he
        have hpos : (0 : ℚ) < 10 ^ e' := zpow_pos (by norm_num) e'
        refine le_of_pow_le_pow_left₀ (n := 10) (by norm_num) hpos.le ?_
        rw [← zpow_natCast, ← zpow_natCast, ← zpow_mul, ← zpow_mul]
        have a1 : (10 : ℚ) ^ (3 * l + 21) ≤ 10 ^ (e' * ((10 : Nat) : Int)) := zpow_le_zpow_right₀ (by norm_num) (by push_cast; omega)
        refine le_trans ?_ a1
        obtain ⟨k, hk⟩ := Int.eq_ofNat_of_zero_le (show 0 ≤ -l by omega)
        have hlk : l = -(k : Int) := by omega
        rw [hlk, zpow_add₀ (by norm_num : (10 : ℚ) ≠ 0), show (-(k : Int) + 2) * ((10 : Nat) : Int) = 10 * (-(k : Int)) + 20 by push_cast; ring,
          zpow_add₀ (by norm_num : (2 : ℚ) ≠ 0), zpow_mul, zpow_mul, zpow_neg, zpow_neg, zpow_natCast, zpow_natCast]
        have a2 : (((2 : ℚ) ^ (10 : Int)) ^ k)⁻¹ ≤ (((10 : ℚ) ^ (3 : Int)) ^ k)⁻¹ := by
          refine inv_anti₀ (by positivity) ?_
          exact pow_le_pow_left₀ (by positivity) (by norm_num) k
        exact mul_le_mul a2 (by norm_num) (by positivity) (by positivity)
    have hmv : mval q (b + 1) ≤ (2 : ℚ) ^ (((magVal q.p b).log2 : Int) - q.u + 2) := by
      unfold mval
      rw [show (((magVal q.p b).log2 : Int) - q.u + 2) = (((magVal q.p b).log2 + 2 : Nat) : Int) - (q.u : Int) by push_cast; ring,
        zpow_sub₀ (by norm_num), zpow_natCast, zpow_natCast]
      refine div_le_div_of_nonneg_right ?_ (by positivity)
      have h1 := magVal_double q.p b hb
      have h2 : magVal q.p b < 2 ^ ((magVal q.p b).log2 + 1) := Nat.lt_log2_self
      have h3 : magVal q.p (b + 1) ≤ 2 ^ ((magVal q.p b).log2 + 2) := by
        rw [show (magVal q.p b).log2 + 2 = ((magVal q.p b).log2 + 1) + 1 by omega, Nat.pow_succ]
        omega
      exact_mod_cast h3
    refine hmv.trans (hpow.trans ?_)
    unfold dq
    have : (1 : ℚ) ≤ d := by exact_mod_cast hd
    nlinarith [show (0 : ℚ) < 10 ^ e' from zpow_pos (by norm_num) e']
  have := val_le_dq q hp d (b + 1) e' hle
  omega

/-- The decimal printed for a non-zero `f64`: the coarsest power of ten, and the nearest multiple of it. -/
theorem shortest64 (b : Nat) (hb : 0 < b) (hinf : b < b64.infBits) :
    candidate b64 b (shortest b64 b (2 * b64.u) (startExp b64 b)).2 = some (shortest b64 b (2 * b64.u) (startExp b64 b)).1 ∧
    ∀ e' > (shortest b64 b (2 * b64.u) (startExp b64 b)).2, ∀ d, near b64 d e' ≠ b := by
  have hlog : (magVal 53 b).log2 < 1024 + 1074 := by
    have h1 := (magVal_lt_iff 53 _ _).mpr hinf
    rw [magVal_infBits] at h1
    have h0 : magVal 53 b ≠ 0 := by
      have := (magVal_lt_iff 53 0 b).mpr hb
      omega
    exact (Nat.log2_lt h0).mpr h1
  have hu : b64.u = 1074 := rfl
  have hp : b64.p = 53 := rfl
  have hs : -(1074 : Int) ≤ startExp b64 b ∧ startExp b64 b < 1074 := by
    unfold startExp
    simp only [hu, hp]
    split <;> constructor <;> push_cast <;> omega
  refine shortest_spec b64 (by decide) b _ _ ?_ ?_ (startExp_big b64 (by decide) b hb)
  · rw [hu]; exact_mod_cast hs.1
  · rw [hu]; push_cast; omega

end RJ
