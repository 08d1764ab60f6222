import Verif.Spec.Ieee
import Verif.Spec.Convert
import Verif.Proof.IeeeText
import Mathlib.Tactic.FieldSimp
import Mathlib.Tactic.NormNum
import Mathlib.Tactic.Positivity
/-
  Rational values of the IEEE-754 model; casts.
-/
set_option linter.unusedSectionVars false
namespace RJ
open Spec

theorem magVal_ieee (p u : Nat) (bias : Int) (hp : 1 ≤ p) (hu : (u : Int) = bias + p - 2) (b : Nat) :
    (magVal p b : ℚ) / 2 ^ u = ieeeValue p bias b := by
  have hP : 0 < 2 ^ (p - 1) := Nat.two_pow_pos _
  have hPq : (2 : ℚ) ^ (p - 1) ≠ 0 := by positivity
  have h1 := Nat.div_add_mod b (2 ^ (p - 1))
  have h2 := Nat.mod_lt b hP
  have hz : (2 : ℚ) ^ u = (2 : ℚ) ^ (p - 1) * 2 ^ (bias - 1) := by
    rw [← zpow_natCast, ← zpow_natCast, ← zpow_add₀ (by norm_num : (2 : ℚ) ≠ 0)]
    congr 1; omega
  unfold ieeeValue
  by_cases h0 : b / 2 ^ (p - 1) = 0
  · rw [if_pos h0]
    clear hu
    have hb : b % 2 ^ (p - 1) = b := by rw [h0] at h1; simpa using h1
    have hm : magVal p b = b := by unfold magVal; rw [h0]; simp
    rw [hb, hm, hz, show (1 : Int) - bias = -(bias - 1) by ring, zpow_neg, ← div_div, div_eq_mul_inv (_ / _) (_ ^ _)]
  · rw [if_neg h0]
    obtain ⟨e, he⟩ : ∃ e, b / 2 ^ (p - 1) = e + 1 := ⟨b / 2 ^ (p - 1) - 1, (Nat.succ_pred_eq_of_pos (Nat.pos_of_ne_zero h0)).symm⟩
    have hm : magVal p b = (2 ^ (p - 1) + b % 2 ^ (p - 1)) * 2 ^ e := by
      unfold magVal
      rw [he]
      simp only [Nat.add_sub_cancel]
      congr 1
      rw [he] at h1
      have : 2 ^ (p - 1) * (e + 1) = e * 2 ^ (p - 1) + 2 ^ (p - 1) := by ring
      omega
    rw [hm, he, hz]
    push_cast
    rw [show ((e : Int) + 1 - bias) = (e : Int) + -(bias - 1) by ring, zpow_add₀ (by norm_num : (2 : ℚ) ≠ 0), zpow_natCast, zpow_neg]
    have : (2 : ℚ) ^ (bias - 1) ≠ 0 := zpow_ne_zero _ (by norm_num)
    field_simp

theorem ieee64 (b : Nat) : ieeeValue 53 1023 b = (magVal 53 b : ℚ) / 2 ^ 1074 := (magVal_ieee 53 1074 1023 (by omega) (by norm_num) b).symm

theorem ieee32 (b : Nat) : ieeeValue 24 127 b = (magVal 24 b : ℚ) / 2 ^ 149 := (magVal_ieee 24 149 127 (by omega) (by norm_num) b).symm

/-! ### Integers -/

theorem magVal_infBits : magVal 53 b64.infBits = 2 ^ (1024 + 1074) := by
  have : b64.infBits = 2046 * 2 ^ (53 - 1) + 2 ^ (53 - 1) := by decide
  rw [this, magVal_eq 53 2046 (2 ^ (53 - 1)) (by simp) (by omega), ← Nat.pow_add]

theorem magVal_infBits32 : magVal 24 b32.infBits = 2 ^ (128 + 149) := by
  have : b32.infBits = 254 * 2 ^ (24 - 1) + 2 ^ (24 - 1) := by decide
  rw [this, magVal_eq 24 254 (2 ^ (24 - 1)) (by simp) (by omega), ← Nat.pow_add]

theorem exact_nat (p m t : Nat) (hp : 1 ≤ p) (hm : m ≤ 2 ^ p) : ∃ b, magVal p b = m * 2 ^ t := by
  rcases Nat.lt_or_ge m (2 ^ p) with h | h
  · exact ⟨_, floorMag_exact p m t hp h⟩
  · have : m = 2 ^ (p - 1) * 2 := by rw [← Nat.pow_succ, show (p - 1).succ = p by omega]; omega
    refine ⟨floorMag p (2 ^ (p - 1) * 2 ^ (t + 1)), ?_⟩
    rw [floorMag_exact p _ _ hp (Nat.pow_lt_pow_right (by omega) (by omega)), this, Nat.pow_succ]; ring

theorem ofInt_small (n : Int) (h : n.natAbs ≤ 2 ^ 53) :
    ∃ b, ∃ hb : b < b64.infBits, ofIntFl b64 n = .fin (n < 0) b hb ∧ magVal 53 b = n.natAbs * 2 ^ 1074 := by
  obtain ⟨b, hb⟩ := exact_nat 53 n.natAbs 1074 (by omega) h
  have hlt : b < b64.infBits := by
    rw [← magVal_lt_iff 53, hb, magVal_infBits, Nat.pow_add]
    have : 2 ^ 53 < 2 ^ 1024 := Nat.pow_lt_pow_right (by omega) (by omega)
    have h2 : 0 < 2 ^ 1074 := Nat.two_pow_pos _
    generalize (2 : Nat) ^ 1074 = A at *
    generalize (2 : Nat) ^ 1024 = B at *
    nlinarith
  refine ⟨b, hlt, ?_, hb⟩
  unfold ofIntFl
  have : nearest b64.p (n.natAbs * 2 ^ b64.u) 1 = b := nearest_exact 53 _ 1 b (by omega) (by omega) (by rw [hb]; simp [b64])
  rw [this, Fl.mk, dif_pos hlt]

theorem toInt_ofInt64 (lo hi n : Int) (h1 : lo ≤ n) (h2 : n ≤ hi) (h : n.natAbs ≤ 2 ^ 53) : toIntFl lo hi (ofIntFl b64 n) = n := by
  obtain ⟨b, hb, e, hv⟩ := ofInt_small n h
  have hd : magVal b64.p b / 2 ^ b64.u = n.natAbs := by
    show magVal 53 b / 2 ^ 1074 = _
    rw [hv]; exact Nat.mul_div_cancel _ (Nat.two_pow_pos _)
  rw [e]
  simp only [toIntFl]
  have hd' : ((magVal b64.p b : Int) / 2 ^ b64.u) = (n.natAbs : Int) := by
    rw [← hd]; push_cast; rfl
  rw [hd']
  unfold clampI
  by_cases hn : n < 0
  · simp only [hn, decide_true, if_true]
    have : -(n.natAbs : Int) = n := by omega
    rw [this, if_neg (by omega), if_neg (by omega)]
  · simp only [hn, decide_false, Bool.false_eq_true, if_false]
    have : (n.natAbs : Int) = n := by omega
    rw [this, if_neg (by omega), if_neg (by omega)]

/-! ### f32 in f64 -/

theorem widen_fin (neg : Bool) (b : Nat) (h : b < b32.infBits) :
    ∃ b', ∃ hb : b' < b64.infBits, convFl b32 b64 (.fin neg b h) = .fin neg b' hb ∧ magVal 53 b' = magVal 24 b * 2 ^ 925 := by
  obtain ⟨s, m, rfl, h1, h2⟩ := mag_split 24 b
  have hv : magVal 24 (s * 2 ^ (24 - 1) + m) = m * 2 ^ s := magVal_eq 24 s m h1 (by omega)
  obtain ⟨b', hb'⟩ := exact_nat 53 m (s + 925) (by omega) (by
    refine Nat.le_trans (Nat.le_of_lt h2) ?_
    decide)
  have hlt : b' < b64.infBits := by
    have h3 := (magVal_lt_iff 24 _ _).mpr h
    rw [hv, magVal_infBits32] at h3
    rw [← magVal_lt_iff 53, hb', magVal_infBits, Nat.pow_add, ← Nat.mul_assoc]
    have : 2 ^ (1024 + 1074) = 2 ^ (128 + 149) * 2 ^ 1821 := by rw [← Nat.pow_add]
    rw [this]
    have h5 : 2 ^ 925 ≤ 2 ^ 1821 := Nat.pow_le_pow_right (by omega) (by omega)
    have h6 : 0 < 2 ^ 925 := Nat.two_pow_pos _
    generalize (2 : Nat) ^ 1821 = A at *
    generalize (2 : Nat) ^ 925 = B at *
    generalize (2 : Nat) ^ (128 + 149) = C at *
    calc m * 2 ^ s * B < C * B := Nat.mul_lt_mul_of_pos_right h3 h6
      _ ≤ C * A := Nat.mul_le_mul_left _ h5
  refine ⟨b', hlt, ?_, by rw [hb', hv, Nat.pow_add]; ring⟩
  show Fl.mk neg (nearest 53 (magVal 24 _ * 2 ^ 1074) (2 ^ 149)) = _
  have : nearest 53 (magVal 24 (s * 2 ^ (24 - 1) + m) * 2 ^ 1074) (2 ^ 149) = b' :=
    nearest_exact 53 _ _ b' (by omega) (Nat.two_pow_pos _) (by
      rw [hb', hv, show 1074 = 925 + 149 by rfl, Nat.pow_add, Nat.pow_add]; ring)
  rw [this, Fl.mk, dif_pos hlt]

theorem narrow_widen32 (f : F32) : convFl b64 b32 (convFl b32 b64 f) = f := by
  cases f with
  | inf => rfl
  | nan => rfl
  | fin neg b h =>
    obtain ⟨b', hb', e, hv⟩ := widen_fin neg b h
    rw [e]
    show Fl.mk neg (nearest 24 (magVal 53 b' * 2 ^ 149) (2 ^ 1074)) = _
    have : nearest 24 (magVal 53 b' * 2 ^ 149) (2 ^ 1074) = b :=
      nearest_exact 24 _ _ b (by omega) (Nat.two_pow_pos _) (by
        rw [hv, show 1074 = 925 + 149 by rfl, Nat.pow_add]; ring)
    rw [this, Fl.mk, dif_pos h]

instance : LawfulCast F64 where
  toInt_ofInt lo hi n h1 h2 h3 h4 := toInt_ofInt64 lo hi n h1 h2 (by omega)
  ofInt_finite n h3 h4 := by
    obtain ⟨b, hb, e, _⟩ := ofInt_small n (by omega)
    show (ofIntFl b64 n).isFinite = true
    rw [e]; rfl
  narrow_widen := narrow_widen32

instance : LawfulEq F64 where
  symm f g h := by
    show Fl.beq g f = true
    have h : Fl.beq f g = true := h
    cases f <;> cases g <;> simp_all [Fl.beq]
    rcases h with h | h
    · exact .inl ⟨h.1.symm, h.2.symm⟩
    · exact .inr ⟨h.2, h.1⟩
  trans f g k h1 h2 := by
    show Fl.beq f k = true
    have h1 : Fl.beq f g = true := h1
    have h2 : Fl.beq g k = true := h2
    cases f <;> cases g <;> cases k <;> simp_all [Fl.beq]
    rcases h1 with ⟨rfl, rfl⟩ | ⟨rfl, rfl⟩
    · exact h2
    · exact .inr (by rcases h2 with h | h <;> simp_all)

end RJ
