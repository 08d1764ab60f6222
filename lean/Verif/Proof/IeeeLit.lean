import Verif.Proof.IeeeVal
/-
  The value of a number literal and its rounding.
-/
set_option linter.unusedSectionVars false
namespace RJ
open Spec

theorem decVal_natOf (s : Str) : decVal s 0 = natOf s := by
  have : ∀ (s : Str) (a : Nat), decVal s a = s.foldl (fun n c => 10 * n + (c.toNat - '0'.toNat)) a := by
    intro s
    induction s with
    | nil => intro a; rfl
    | cons c s ih =>
      intro a
      rw [decVal, List.foldl_cons, ih]
      congr 1
      rw [Nat.mul_comm]; rfl
  exact this s 0

theorem decVal_shift (s : Str) (a : Nat) : decVal s a = a * 10 ^ s.length + decVal s 0 := by
  induction s generalizing a with
  | nil => simp [decVal]
  | cons c s ih =>
    rw [decVal, decVal, ih, ih (0 * 10 + (c.toNat - 48)), List.length_cons, Nat.pow_succ]
    ring

/-- The exponent of a literal. -/
def expVal : Option (Char × Str × Str) → Int
  | some (_, sg, ds) => if sg = ['-'] then -(natOf ds : Int) else natOf ds
  | none => 0

/-- The exponent of a literal. -/
def litExp (n : NumLit) : Int := expVal n.exp

/-- The digits after the point. -/
def litFrac (n : NumLit) : Str := n.frac.getD []

theorem parseExp_lit (x : Option (Char × Str × Str)) (h : ExpOk x) :
    parseExp (expText x) = some (expVal x) := by
  match x, h with
  | none, _ => rfl
  | some (e, sg, ds), h =>
    obtain ⟨he, hsg, hne, hd⟩ := h e sg ds rfl
    have hall := (all_digits_iff ds).mpr hd
    simp only [expText, parseExp, he, if_true, expVal]
    rcases hsg with rfl | rfl | rfl
    · cases ds with
      | nil => exact absurd rfl hne
      | cons d r =>
        have hdd := hd d (by simp)
        have h1 : ¬ d = '-' := by rintro rfl; simp [IsDigit] at hdd
        have h2 : ¬ d = '+' := by rintro rfl; simp [IsDigit] at hdd
        simp only [List.nil_append, h1, h2, if_false, hall, if_true]
        rw [decVal_natOf]; simp
    · simp [hne, hall, decVal_natOf]
    · simp [hne, hall, decVal_natOf]

theorem parse_lit (q : Fmt) (n : NumLit) (hi : n.int ≠ [] ∧ Digits n.int) (hf : ∀ f, n.frac = some f → Digits f) (hx : ExpOk n.exp) :
    parseFl q n.text = some (ofDecimal q n.neg (decVal (n.int ++ litFrac n) 0) (litExp n - (litFrac n).length)) := by
  obtain ⟨c, t, hct⟩ := List.exists_cons_of_ne_nil hi.1
  have hc : IsDigit c := hi.2 c (by rw [hct]; simp)
  have hxt : ExpText (expText n.exp) := by
    rw [← parseExp_isSome, parseExp_lit _ hx]; rfl
  have hpe := parseExp_lit _ hx
  have htext : n.text = (if n.neg then ['-'] else []) ++ (n.int ++ fracText n.frac ++ expText n.exp) := by
    rw [NumLit_text]; simp
  rw [htext, parseFl_sign q n.neg _ c (t ++ fracText n.frac ++ expText n.exp) (by rw [hct]; simp) hc]
  have hw := not_word (n.int ++ fracText n.frac ++ expText n.exp) c (t ++ fracText n.frac ++ expText n.exp) (by rw [hct]; simp) hc
  unfold parseMag
  simp only [hw.1, hw.2, if_false]
  unfold litFrac litExp
  cases hfr : n.frac with
  | none =>
    have := splitNum_int n.int (expText n.exp) hi.1 hi.2 hxt
    simp only [fracText, List.append_nil]
    rw [this, hpe]
    simp
  | some f =>
    have := splitNum_frac n.int f (expText n.exp) (fun h => hi.1 h.1) hi.2 (hf f hfr) hxt
    simp only [fracText]
    rw [this, hpe]
    simp

/-- `decNum` is the decimal. -/
theorem decNum_rat (q : Fmt) (d : Nat) (e : Int) :
    0 < (decNum q d e).2 ∧ ((decNum q d e).1 : ℚ) / ((decNum q d e).2 * 2 ^ q.u) = d * 10 ^ e := by
  have h2 : (2 : ℚ) ^ q.u ≠ 0 := by positivity
  cases e with
  | ofNat k =>
    refine ⟨by simp [decNum], ?_⟩
    simp only [decNum]
    push_cast
    rw [show (Int.ofNat k) = (k : Int) from rfl, zpow_natCast]
    field_simp
  | negSucc k =>
    refine ⟨by simp only [decNum]; positivity, ?_⟩
    simp only [decNum]
    push_cast
    rw [zpow_negSucc]
    field_simp

theorem rat_eq (n : NumLit) :
    n.rat = (if n.neg then -1 else 1) * ((decVal (n.int ++ litFrac n) 0 : ℚ) * 10 ^ (litExp n - (litFrac n).length)) := by
  have h10 : (10 : ℚ) ≠ 0 := by norm_num
  obtain ⟨neg, int, frac, exp⟩ := n
  have hexp : ∀ (s : ℚ), NumLit.rat ⟨neg, int, frac, exp⟩ = s → s = (NumLit.rat ⟨neg, int, frac, none⟩) * 10 ^ expVal exp := by
    rintro s rfl
    unfold NumLit.rat
    cases exp with
    | none => simp [expVal]
    | some x =>
      obtain ⟨e, sg, ds⟩ := x
      by_cases h : sg = ['-']
      · simp only [expVal, h, if_true, zpow_neg, zpow_natCast, one_div, mul_one]
      · simp only [expVal, h, if_false, zpow_natCast, mul_one]
  rw [hexp _ rfl, decVal_append, decVal_shift, decVal_natOf, decVal_natOf, zpow_sub₀ h10, zpow_natCast]
  unfold NumLit.rat litFrac litExp
  generalize (10 : ℚ) ^ expVal exp = e
  generalize ((if neg = true then -1 else 1 : ℚ)) = s
  cases frac with
  | none => simp [natOf]; ring
  | some f =>
    simp only [Option.getD_some]
    push_cast
    have : (10 : ℚ) ^ f.length ≠ 0 := by positivity
    field_simp

theorem dist_rat (a b : Nat) : ((dist a b : Nat) : ℚ) = |(a : ℚ) - b| := by
  unfold dist
  rcases Nat.le_total a b with h | h
  · rw [show a - b + (b - a) = b - a by omega, Nat.cast_sub h, abs_sub_comm, abs_of_nonneg]
    simpa using h
  · rw [show a - b + (b - a) = a - b by omega, Nat.cast_sub h, abs_of_nonneg]
    simpa using h

theorem nearest_lt_inf (n d : Nat) (hd : 0 < d) :
    nearest 53 n d < b64.infBits ↔ (n : ℚ) / (d * 2 ^ 1074) < overflow64 := by
  have hmax : magVal 53 (b64.infBits - 1) = (2 ^ 53 - 1) * 2 ^ 2045 := by
    have : b64.infBits - 1 = 2045 * 2 ^ (53 - 1) + (2 ^ 53 - 1) := by decide
    rw [this, magVal_eq 53 2045 (2 ^ 53 - 1) (by simp) (by simp)]
  have hinf := magVal_infBits
  have hodd : (b64.infBits - 1) % 2 = 1 := by decide
  have hpos : 0 < b64.infBits := by decide
  -- the threshold in units
  have hthr : (n : ℚ) / (d * 2 ^ 1074) < overflow64 ↔ 2 * n < (magVal 53 (b64.infBits - 1) + magVal 53 b64.infBits) * d := by
    rw [hmax, hinf]
    have hdq : (0 : ℚ) < d := by exact_mod_cast hd
    have h2 : (0 : ℚ) < (d : ℚ) * 2 ^ 1074 := by positivity
    rw [div_lt_iff₀ h2]
    have e : (((2 ^ 53 - 1) * 2 ^ 2045 + 2 ^ (1024 + 1074) : Nat) : ℚ) = 2 * (overflow64 * 2 ^ 1074) := by
      unfold overflow64
      clear hmax hinf
      rw [Nat.cast_add, Nat.cast_mul, Nat.cast_pow, Nat.cast_pow, Nat.cast_sub (by norm_num), Nat.cast_pow]
      have e1 : (2 : ℚ) ^ 2045 = 2 ^ 970 * 2 ^ 1074 * 2 := by rw [← pow_add, ← pow_succ]
      have e2 : (2 : ℚ) ^ (1024 + 1074) = 2 ^ 53 * (2 ^ 970 * 2 ^ 1074 * 2) := by rw [← pow_add, ← pow_succ, ← pow_add]
      have e3 : (2 : ℚ) ^ 1024 = 2 ^ 53 * 2 ^ 970 * 2 := by rw [← pow_add, ← pow_succ]
      push_cast
      rw [e1, e2, e3]
      generalize (2 : ℚ) ^ 970 = A
      generalize (2 : ℚ) ^ 1074 = B
      ring
    have key : (2 * n < ((2 ^ 53 - 1) * 2 ^ 2045 + 2 ^ (1024 + 1074)) * d) ↔
        ((2 * n : Nat) : ℚ) < ((((2 ^ 53 - 1) * 2 ^ 2045 + 2 ^ (1024 + 1074) : Nat) : ℚ)) * d := by
      rw [← Nat.cast_mul, Nat.cast_lt]
    rw [key, e]
    push_cast
    generalize overflow64 = O
    generalize (2 : ℚ) ^ 1074 = B
    clear * -
    rw [show 2 * (O * B) * (d : ℚ) = 2 * (O * (d * B)) by ring]
    constructor <;> intro h <;> linarith
  rw [hthr]
  obtain ⟨b, h1, h2, h3⟩ := nearest_cases 53 n d (by omega) hd
  have hle : ∀ a c, a ≤ c → magVal 53 a * d ≤ magVal 53 c * d := fun a c h => Nat.mul_le_mul_right d (magVal_mono 53 h)
  have hb2 : magVal 53 b * d < magVal 53 (b + 1) * d := by omega
  rw [Nat.add_mul] at h3 ⊢
  generalize b64.infBits = I at *
  obtain ⟨J, rfl⟩ : ∃ J, I = J + 1 := ⟨I - 1, by omega⟩
  simp only [Nat.add_sub_cancel] at *
  rcases Nat.lt_trichotomy b J with hb | hb | hb
  · -- below
    have hr : nearest 53 n d < J + 1 := by
      rw [h3]; split
      · omega
      · split
        · omega
        · split <;> omega
    have h4 := hle (b + 1) J hb
    have h5 := hle J (J + 1) (by omega)
    constructor
    · intro _; omega
    · exact fun _ => hr
  · subst hb
    constructor
    · intro hr
      apply Classical.byContradiction
      intro hn
      rw [if_neg hn] at h3
      split at h3
      · omega
      · rw [if_neg (by omega)] at h3; omega
    · intro hn
      rw [if_pos hn] at h3; omega
  · have h4 := hle (J + 1) b hb
    have h5 := hle J (J + 1) (by omega)
    constructor
    · intro hr
      exfalso
      rw [h3] at hr
      split at hr
      · omega
      · split at hr
        · omega
        · split at hr <;> omega
    · intro hn; omega

/-- Rounding the non-negative rational `n/d` (in units of 1/U). -/
theorem round_core (V : Nat → ℚ) (U : ℚ) (hU : 0 < U) (hV : ∀ c, V c = (magVal 53 c : ℚ) / U) (n d : Nat) (hd : 0 < d) (s : Bool) (c : Nat) :
    |V (nearest 53 n d) - n / (d * U)| ≤ |(if s then -V c else V c) - n / (d * U)| ∧
      (|(if s then -V c else V c) - n / (d * U)| = |V (nearest 53 n d) - n / (d * U)| →
        (if s then -V c else V c) = V (nearest 53 n d) ∨ nearest 53 n d % 2 = 0) := by
  have hdq : (0 : ℚ) < d := by exact_mod_cast hd
  have hdu : (0 : ℚ) < (d : ℚ) * U := by positivity
  have hx0 : (0 : ℚ) ≤ n / (d * U) := by positivity
  have dm : ∀ c, |V c - n / (d * U)| = (dist (magVal 53 c * d) n : ℚ) / (d * U) := by
    intro c
    rw [hV, dist_rat]
    push_cast
    rw [← abs_of_pos hdu, ← abs_div, abs_of_pos hdu]
    congr 1
    field_simp
  have near : ∀ c, |V (nearest 53 n d) - n / (d * U)| ≤ |V c - n / (d * U)| := by
    intro c
    rw [dm, dm]
    apply div_le_div_of_nonneg_right _ hdu.le
    exact_mod_cast nearest_is_nearest 53 n d (by omega) hd c
  have tie : ∀ c, |V c - n / (d * U)| = |V (nearest 53 n d) - n / (d * U)| → c = nearest 53 n d ∨ nearest 53 n d % 2 = 0 := by
    intro c hc
    by_cases e : c = nearest 53 n d
    · exact .inl e
    · right
      refine nearest_tie_even 53 n d (by omega) hd c e ?_
      rw [dm, dm, div_left_inj' hdu.ne'] at hc
      exact_mod_cast hc
  have nonneg : ∀ c, 0 ≤ V c := by
    intro c; rw [hV]; positivity
  have zero : V 0 = 0 := by rw [hV, magVal_zero]; simp
  generalize (n : ℚ) / (d * U) = x at *
  generalize nearest 53 n d = b at *
  cases s with
  | false =>
    refine ⟨near c, fun h => ?_⟩
    rcases tie c h with rfl | h
    · exact .inl rfl
    · exact .inr h
  | true =>
    simp only [if_true]
    have h0 := near 0
    rw [zero, zero_sub, abs_neg, abs_of_nonneg hx0] at h0
    have hc := nonneg c
    have e : |-V c - x| = V c + x := by
      rw [← abs_neg, abs_of_nonneg] <;> linarith
    rw [e]
    refine ⟨by linarith, fun h => ?_⟩
    have hc0 : V c = 0 := by linarith
    have ht : |V 0 - x| = |V b - x| := by
      rw [zero, zero_sub, abs_neg, abs_of_nonneg hx0, ← h, hc0, zero_add]
    rcases tie 0 ht with e0 | e0
    · left; rw [hc0, neg_zero, ← e0, zero]
    · exact .inr e0

theorem round_sign (V : Nat → ℚ) (b : Nat) (x : ℚ)
    (main : ∀ (s : Bool) (c : Nat), |V b - x| ≤ |(if s then -V c else V c) - x| ∧
      (|(if s then -V c else V c) - x| = |V b - x| → (if s then -V c else V c) = V b ∨ b % 2 = 0)) (neg s : Bool) (c : Nat) :
    |(if neg then -V b else V b) - (if neg then -1 else 1) * x| ≤ |(if s then -V c else V c) - (if neg then -1 else 1) * x| ∧
      (|(if s then -V c else V c) - (if neg then -1 else 1) * x| = |(if neg then -V b else V b) - (if neg then -1 else 1) * x| →
        (if s then -V c else V c) = (if neg then -V b else V b) ∨ b % 2 = 0) := by
  cases neg with
  | false => simpa using main s c
  | true =>
    have := main (!s) c
    have e : ∀ y : ℚ, |-y - -1 * x| = |y - x| := by
      intro y; rw [← abs_neg]; congr 1; ring
    have e2 : (if s = true then -V c else V c) = -(if (!s) = true then -V c else V c) := by
      cases s <;> simp
    simp only [if_true]
    rw [e2, e, e]
    refine ⟨this.1, fun h => ?_⟩
    rcases this.2 h with h | h
    · left; rw [h]
    · exact .inr h

theorem roundsTo_pos (U : ℚ) (hU : U = 2 ^ 1074) (n d : Nat) (hd : 0 < d) (neg : Bool) (h : nearest 53 n d < b64.infBits) :
    RoundsTo ((if neg then -1 else 1) * ((n : ℚ) / (d * U))) (.fin neg (nearest 53 n d) h) := by
  have hpos : 0 < U := by rw [hU]; positivity
  have hV : ∀ c, ieeeValue 53 1023 c = (magVal 53 c : ℚ) / U := by intro c; rw [ieee64, hU]
  clear hU
  refine ⟨_, rfl, ?_⟩
  intro g w hw
  match g, hw with
  | .fin s c hc, hw =>
    simp only [value64, Option.some.injEq] at hw
    subst hw
    simp only [Even64]
    exact round_sign _ _ _ (fun s c => round_core _ U hpos hV n d hd s c) neg s c

/-- Reading a number literal: rounding to nearest. -/
theorem parse_rounds (n : NumLit) (hi : n.int ≠ [] ∧ Digits n.int) (hf : ∀ f, n.frac = some f → Digits f) (hx : ExpOk n.exp) :
    ∃ f : F64, parseFl b64 n.text = some f ∧ signBit f = n.neg ∧ (f.isFinite = true ↔ |n.rat| < overflow64) ∧
      (f.isFinite = true → RoundsTo n.rat f) := by
  refine ⟨_, parse_lit b64 n hi hf hx, ?_⟩
  set d := decVal (n.int ++ litFrac n) 0 with hd
  set e := litExp n - (litFrac n).length with he
  obtain ⟨hpos, hval⟩ := decNum_rat b64 d e
  have hr := rat_eq n
  rw [← hd, ← he, ← hval] at hr
  have hiff : nearest b64.p (decNum b64 d e).1 (decNum b64 d e).2 < b64.infBits ↔ _ / ((_ : ℚ) * 2 ^ b64.u) < overflow64 := nearest_lt_inf (decNum b64 d e).1 (decNum b64 d e).2 hpos
  have habs : |n.rat| = ((decNum b64 d e).1 : ℚ) / ((decNum b64 d e).2 * 2 ^ b64.u) := by
    rw [hr, abs_mul, abs_of_nonneg (a := (_ : ℚ) / _) (by positivity)]
    cases n.neg <;> simp
  rw [habs]
  unfold ofDecimal Fl.mk
  by_cases h : nearest b64.p (decNum b64 d e).1 (decNum b64 d e).2 < b64.infBits
  · rw [dif_pos h]
    refine ⟨rfl, ⟨fun _ => hiff.mp h, fun _ => rfl⟩, fun _ => ?_⟩
    rw [hr]
    exact roundsTo_pos _ rfl _ _ hpos n.neg h
  · rw [dif_neg h]
    refine ⟨rfl, ⟨fun h' => (by cases h'), fun h' => absurd (hiff.mpr h') h⟩, fun h' => (by cases h')⟩

/-- Rounding to nearest even determines the value. -/
theorem roundsTo_unique (x : ℚ) (f g : F64) (v w : ℚ) (hf : RoundsTo x f) (hg : RoundsTo x g) (hv : value64 f = some v) (hw : value64 g = some w) :
    v = w := by
  obtain ⟨v', hv', h1⟩ := hf
  obtain ⟨w', hw', h2⟩ := hg
  rw [hv] at hv'; rw [hw] at hw'
  cases hv'; cases hw'
  obtain ⟨a1, a2⟩ := h1 g w hw
  obtain ⟨b1, b2⟩ := h2 f v hv
  have heq : |w - x| = |v - x| := le_antisymm b1 a1
  rcases a2 heq with h | ef
  · exact h.symm
  rcases b2 heq.symm with h | eg
  · exact h
  by_contra hne
  -- the midpoint argument: any number strictly between is nearer
  have between : ∀ (k : F64) (u : ℚ), value64 k = some u → ¬ ((v < u ∧ u < w) ∨ (w < u ∧ u < v)) := by
    intro k u hu hb
    have c1 := (h1 k u hu).1
    have c2 := (h2 k u hu).1
    rcases abs_eq_abs.mp heq with h | h
    · exact hne (by linarith)
    · have hm : x = (v + w) / 2 := by linarith
      subst hm
      rcases hb with ⟨hb1, hb2⟩ | ⟨hb1, hb2⟩
      · rw [abs_of_nonpos (a := v - _) (by linarith)] at c1
        rw [abs_of_nonneg (a := w - _) (by linarith)] at c2
        rcases abs_cases (u - (v + w) / 2) with ⟨e, _⟩ | ⟨e, _⟩ <;> rw [e] at c1 c2 <;> linarith
      · rw [abs_of_nonneg (a := v - _) (by linarith)] at c1
        rw [abs_of_nonpos (a := w - _) (by linarith)] at c2
        rcases abs_cases (u - (v + w) / 2) with ⟨e, _⟩ | ⟨e, _⟩ <;> rw [e] at c1 c2 <;> linarith
  have lt : ∀ a c, a < c → ieeeValue 53 1023 a < ieeeValue 53 1023 c := by
    intro a c h
    rw [ieee64, ieee64]
    apply div_lt_div_of_pos_right _ (by positivity)
    exact_mod_cast (magVal_lt_iff 53 a c).mpr h
  have nonneg : ∀ c, 0 ≤ ieeeValue 53 1023 c := by
    intro c; rw [ieee64]; positivity
  have zero : ieeeValue 53 1023 0 = 0 := by rw [ieee64, magVal_zero]; simp
  have hz : 0 < b64.infBits := by decide
  match f, g, hv, hw, ef, eg with
  | .fin s a ha, .fin t c hc, hv, hw, ef, eg =>
    simp only [value64, Option.some.injEq] at hv hw
    simp only [Even64] at ef eg
    subst hv hw
    -- a number between, given by sign and bits
    have bt := fun (s : Bool) (k : Nat) (hk : k < b64.infBits) => between (.fin s k hk) _ rfl
    have pos : ∀ a, 0 < a → 0 < ieeeValue 53 1023 a := fun a h => by have := lt 0 a h; rwa [zero] at this
    have z0 : ∀ a, ieeeValue 53 1023 a = 0 ∨ 0 < ieeeValue 53 1023 a := fun a => by
      rcases (nonneg a).lt_or_eq with h | h
      · exact .inr h
      · exact .inl h.symm
    by_cases hst : s = t
    · subst hst
      have hac : a ≠ c := by rintro rfl; exact hne rfl
      rcases Nat.lt_or_gt_of_ne hac with h | h
      · have k1 := lt a (a + 1) (by omega)
        have k2 := lt (a + 1) c (by omega)
        refine bt s (a + 1) (by omega) ?_
        cases s
        · left; simp; exact ⟨k1, k2⟩
        · right; simp; exact ⟨k2, k1⟩
      · have k1 := lt c (c + 1) (by omega)
        have k2 := lt (c + 1) a (by omega)
        refine bt s (c + 1) (by omega) ?_
        cases s
        · right; simp; exact ⟨k1, k2⟩
        · left; simp; exact ⟨k2, k1⟩
    · -- opposite signs: zero is between, or one of them is zero and the other even and positive
      have hb0 := bt false 0 hz
      simp only [zero, Bool.false_eq_true, if_false] at hb0
      have half : ∀ (sg : Bool) (k : Nat), k % 2 = 0 → k < b64.infBits → ieeeValue 53 1023 k ≠ 0 →
          ∃ u, value64 (.fin sg 1 (by decide)) = some u ∧
            ((0 < u ∧ u < (if sg then -ieeeValue 53 1023 k else ieeeValue 53 1023 k)) ∨
             ((if sg then -ieeeValue 53 1023 k else ieeeValue 53 1023 k) < u ∧ u < 0)) := by
        intro sg k hk hkl hk0
        have hk2 : 1 < k := by
          rcases Nat.lt_or_ge 1 k with h | h
          · exact h
          · exfalso; have : k = 0 := by omega
            subst this; exact hk0 zero
        have k1 := lt 1 k hk2
        have k2 := pos 1 (by omega)
        refine ⟨_, rfl, ?_⟩
        cases sg
        · left; simp only [Bool.false_eq_true, if_false]; exact ⟨k2, k1⟩
        · right; simp only [if_true]; constructor <;> linarith
      rcases z0 a with ea | ea
      · rcases z0 c with ec | ec
        · exact hne (by rw [ea, ec]; simp)
        · obtain ⟨u, hu, hb⟩ := half t c eg hc ec.ne'
          refine between _ u hu ?_
          have : (if s = true then -ieeeValue 53 1023 a else ieeeValue 53 1023 a) = 0 := by rw [ea]; simp
          rw [this]; exact hb
      · rcases z0 c with ec | ec
        · obtain ⟨u, hu, hb⟩ := half s a ef ha ea.ne'
          refine between _ u hu ?_
          have : (if t = true then -ieeeValue 53 1023 c else ieeeValue 53 1023 c) = 0 := by rw [ec]; simp
          rw [this]; exact hb.symm
        · apply hb0
          cases s <;> cases t <;> simp at hst ⊢
          · right; exact ⟨ec, ea⟩
          · left; exact ⟨ea, ec⟩

/-! ### Casts -/

theorem ofInt_rounds (n : Int) (h : n.natAbs < 2 ^ 1000) : RoundsTo (n : ℚ) (ofIntFl b64 n) := by
  have hU : (0 : ℚ) < 2 ^ 1074 := by positivity
  have hlt : nearest 53 (n.natAbs * 2 ^ 1074) 1 < b64.infBits := by
    rw [nearest_lt_inf _ _ (by omega)]
    have e : ((n.natAbs * 2 ^ 1074 : Nat) : ℚ) / ((1 : Nat) * 2 ^ 1074) = n.natAbs := by
      rw [Nat.cast_mul, Nat.cast_pow, Nat.cast_one, one_mul, Nat.cast_ofNat]
      exact mul_div_cancel_right₀ _ hU.ne'
    rw [e]
    have h1 : (n.natAbs : ℚ) < 2 ^ 1000 := by exact_mod_cast h
    refine lt_trans h1 ?_
    unfold overflow64
    have e1 : (2 : ℚ) ^ 1024 = 2 ^ 970 * 2 ^ 54 := by rw [← pow_add]
    have e2 : (2 : ℚ) ^ 1000 = 2 ^ 970 * 2 ^ 30 := by rw [← pow_add]
    have hp : (0 : ℚ) < 2 ^ 970 := by positivity
    rw [e1, e2]
    generalize (2 : ℚ) ^ 970 = A at *
    clear * - hp
    norm_num
    linarith
  have := roundsTo_pos _ rfl (n.natAbs * 2 ^ 1074) 1 (by omega) (n < 0) hlt
  have e : (n : ℚ) = (if decide (n < 0) = true then -1 else 1) * (((n.natAbs * 2 ^ 1074 : Nat) : ℚ) / ((1 : Nat) * 2 ^ 1074)) := by
    rw [Nat.cast_mul, Nat.cast_pow, Nat.cast_one, one_mul, Nat.cast_ofNat, mul_div_cancel_right₀ _ hU.ne']
    by_cases hn : n < 0
    · have : n = -(n.natAbs : Int) := by omega
      simp only [hn, decide_true, if_true]
      have h2 := congrArg (Int.cast : Int → ℚ) this
      rw [Int.cast_neg, Int.cast_natCast] at h2
      rw [h2]; ring
    · have : n = (n.natAbs : Int) := by omega
      simp only [hn, decide_false, Bool.false_eq_true, if_false, one_mul]
      have h2 := congrArg (Int.cast : Int → ℚ) this
      rwa [Int.cast_natCast] at h2
  rw [e]
  have e2 : ofIntFl b64 n = .fin (n < 0) (nearest 53 (n.natAbs * 2 ^ 1074) 1) hlt := by
    unfold ofIntFl Fl.mk
    exact dif_pos hlt
  rw [e2]
  exact this

theorem floor_natDiv (a : Nat) (U : Nat) : ⌊(a : ℚ) / (U : ℚ)⌋ = ((a / U : Nat) : Int) := by
  rw [Rat.floor_natCast_div_natCast]; rfl

theorem clamp_eq (lo hi n : Int) (h : lo ≤ hi) : clampI lo hi n = max lo (min hi n) := by
  unfold clampI
  split
  · omega
  · split <;> omega

theorem toInt_trunc (lo hi : Int) (hl : lo ≤ hi) (f : F64) (v : ℚ) (hv : value64 f = some v) :
    toIntFl lo hi f = max lo (min hi (truncQ v)) := by
  match f, hv with
  | .fin neg b hb, hv =>
    simp only [value64, Option.some.injEq] at hv
    simp only [toIntFl]
    rw [clamp_eq _ _ _ hl]
    congr 2
    have hd : ((magVal b64.p b : Int) / 2 ^ b64.u) = ⌊ieeeValue 53 1023 b⌋ := by
      have := floor_natDiv (magVal 53 b) (2 ^ 1074)
      rw [Nat.cast_pow, Nat.cast_ofNat] at this
      rw [ieee64, this]
      push_cast; rfl
    rw [hd]
    have h0 : 0 ≤ ieeeValue 53 1023 b := by rw [ieee64]; positivity
    subst hv
    unfold truncQ
    generalize ieeeValue 53 1023 b = x at *
    cases neg with
    | false => simp [h0]
    | true =>
      simp only [if_true]
      by_cases hx : x = 0
      · subst hx; simp
      · have : ¬ 0 ≤ -x := by
          intro h
          exact hx (by linarith)
        rw [if_neg this, Int.ceil_neg]

theorem widen_value (f : F32) (v : ℚ) (hv : value32 f = some v) : value64 (convFl b32 b64 f) = some v := by
  match f, hv with
  | .fin neg b hb, hv =>
    obtain ⟨b', hb', e, hm⟩ := widen_fin neg b hb
    rw [e]
    simp only [value32, value64, Option.some.injEq] at hv ⊢
    have : ieeeValue 53 1023 b' = ieeeValue 24 127 b := by
      rw [ieee64, ieee32, hm, Nat.cast_mul, Nat.cast_pow, Nat.cast_ofNat]
      have e1 : (2 : ℚ) ^ 1074 = 2 ^ 149 * 2 ^ 925 := by rw [← pow_add]
      rw [e1]
      have h1 : (2 : ℚ) ^ 925 ≠ 0 := by positivity
      have h2 : (2 : ℚ) ^ 149 ≠ 0 := by positivity
      generalize (2 : ℚ) ^ 925 = A at *
      generalize (2 : ℚ) ^ 149 = B at *
      field_simp
    rw [this]; exact hv

end RJ
