import Verif.Proof.ShortestText
import Verif.Props.Float
/-
  C48: numbers are printed with as few digits as possible; integers in the usual decimal notation.
-/
set_option linter.unusedSectionVars false
namespace RJ
open Spec

theorem b64_p : b64.p = 53 := rfl
theorem b64_u : b64.u = 1074 := rfl

theorem mval64 (b : Nat) : ieeeValue 53 1023 b = mval b64 b := by
  rw [ieee64]; unfold mval; rw [b64_p, b64_u]

theorem printFl_short (q : Fmt) (neg : Bool) (b : Nat) (h : b < q.infBits) (h0 : b ≠ 0) : printFl q (.fin neg b h) =
    (decLit neg (shortest q b (2 * q.u) (startExp q b)).1 (shortest q b (2 * q.u) (startExp q b)).2).text := by
  rw [decLit_text]; simp only [printFl, if_neg h0]

theorem parse_number_text (m : NumLit) (hm : m.Accepted) (f : F64) (h : (Json.parse m.text : Res (Json F64)) = .ok (.number f)) :
    parseFl b64 m.text = some f := by
  obtain ⟨g, hp, hs, hfin, hr⟩ := parse_rounds m hm.1 (fun f hf => (hm.2.1 f hf).1) hm.2.2
  by_cases hf : g.isFinite = true
  · have : (Json.parse m.text : Res (Json F64)) = .ok (.number g) :=
      (C12_number_iff m.text g).mpr ⟨[], m, [], wsNil, wsNil, by simp, hm, by rw [value_f64 m g hp, if_pos hf]⟩
    rw [this] at h
    cases h
    exact hp
  · have hov : overflow64 ≤ |m.rat| := not_lt.mp (fun hlt => hf (hfin.mpr hlt))
    obtain ⟨e, he, _⟩ := (C46_nearest m hm).2 hov
    rw [he] at h; cases h

theorem decLit_digits (neg : Bool) (c : Nat) (e : Int) :
    ∃ j : Nat, decVal ((decLit neg c e).int ++ litFrac (decLit neg c e)) 0 = c * 10 ^ j ∧
      dq (c * 10 ^ j) (litExp (decLit neg c e) - (litFrac (decLit neg c e)).length) = dq c e ∧
      Digits ((decLit neg c e).int ++ litFrac (decLit neg c e)) := by
  cases e with
  | ofNat k =>
    obtain ⟨h1, h2, h3, _⟩ := decDigits_spec (c * 10 ^ k)
    refine ⟨k, ?_, ?_, ?_⟩
    · simp only [decLit, litFrac, Option.getD_none, List.append_nil]; exact h3
    · simp only [decLit, litFrac, Option.getD_none, litExp, expVal, List.length_nil]
      rw [dq_shift]; simp
    · simp only [decLit, litFrac, Option.getD_none, List.append_nil]; exact h2
  | negSucc k =>
    obtain ⟨h1, h2, h3, _⟩ := decDigits_spec (c / 10 ^ (k + 1))
    obtain ⟨f1, f2, f3⟩ := fracDigits_spec (k + 1) c
    refine ⟨0, ?_, ?_, ?_⟩
    · simp only [decLit, litFrac, Option.getD_some, Nat.pow_zero, Nat.mul_one]
      rw [decVal_append, h3, f3, Nat.mul_comm]
      exact Nat.div_add_mod _ _
    · simp only [decLit, litFrac, Option.getD_some, litExp, expVal, f1, Nat.pow_zero, Nat.mul_one]
      congr 1
    · simp only [decLit, litFrac, Option.getD_some]
      intro x hx
      rcases List.mem_append.mp hx with hx | hx
      · exact h2 x hx
      · exact f2 x hx

theorem coprime_unique (a b s t : Nat) (ha : ¬ 10 ∣ a) (hb : ¬ 10 ∣ b) (h : a * 10 ^ s = b * 10 ^ t) : a = b := by
  rcases Nat.lt_trichotomy s t with hlt | rfl | hlt
  · obtain ⟨r, rfl⟩ : ∃ r, t = s + (r + 1) := ⟨t - s - 1, by omega⟩
    rw [Nat.pow_add, ← Nat.mul_assoc, Nat.mul_right_comm] at h
    have := Nat.eq_of_mul_eq_mul_right (Nat.pow_pos (show 0 < 10 by omega)) h
    exact absurd ⟨b * 10 ^ r, by rw [this, Nat.pow_succ]; ring⟩ ha
  · exact Nat.eq_of_mul_eq_mul_right (Nat.pow_pos (show 0 < 10 by omega)) h
  · obtain ⟨r, rfl⟩ : ∃ r, s = t + (r + 1) := ⟨s - t - 1, by omega⟩
    rw [Nat.pow_add, ← Nat.mul_assoc, Nat.mul_right_comm] at h
    have := Nat.eq_of_mul_eq_mul_right (Nat.pow_pos (show 0 < 10 by omega)) h
    exact absurd ⟨a * 10 ^ r, by rw [← this, Nat.pow_succ]; ring⟩ hb

theorem mk_fin_inj {q : Fmt} (neg neg' : Bool) (b b' : Nat) (h : b < q.infBits) (he : Fl.mk neg' b' = (.fin neg b h : Fl q)) : neg' = neg ∧ b' = b := by
  unfold Fl.mk at he
  split at he
  · cases he; exact ⟨rfl, rfl⟩
  · cases he

/-- **C48.** Of all number literals that `parse` reads as the number `f`, the one printed for `f` has the fewest significant digits,
and among those with that many it is the nearest to `f`.  It is in positional notation, without superfluous zeros. -/
theorem C48_shortest (f : F64) (v : ℚ) (hv : value64 f = some v) :
    ∃ n : NumLit, (Json.number f : Json F64).toString = n.text ∧ n.Valid ∧ n.exp = none ∧ (∀ s, n.frac = some s → s.getLast? ≠ some '0') ∧
      ∀ m : NumLit, m.Accepted → (Json.parse m.text : Res (Json F64)) = .ok (.number f) →
        n.precision ≤ m.precision ∧ (m.precision = n.precision → |n.rat - v| ≤ |m.rat - v|) := by
  match f, hv with
  | .fin neg b hinf, hv =>
  have hprint : (Json.number (.fin neg b hinf) : Json F64).toString = printFl b64 (.fin neg b hinf) := by
    rw [Json.toString.eq_def]; rfl
  rcases Nat.eq_zero_or_pos b with rfl | hb
  · refine ⟨⟨neg, ['0'], none, none⟩, ?_, ?_, rfl, (fun s hs => by cases hs), ?_⟩
    · rw [hprint]; cases neg <;> rfl
    · refine ⟨⟨⟨by simp, fun c hc => ?_⟩, fun s hs => (by cases hs), fun _ _ _ hs => (by cases hs)⟩, fun _ => rfl⟩
      rw [List.mem_singleton] at hc; subst hc; simp [IsDigit]
    · intro m hm hpm
      refine ⟨Nat.zero_le _, fun _ => ?_⟩
      have hv0 : v = 0 := by
        simp only [value64, Option.some.injEq] at hv
        rw [← hv]
        have : ieeeValue 53 1023 0 = 0 := by rw [ieee64, magVal_zero]; simp
        rw [this]; simp
      have hr0 : NumLit.rat ⟨neg, ['0'], none, none⟩ = 0 := by
        simp [NumLit.rat, natOf]
      rw [hv0, hr0]; simp
  obtain ⟨hc, hmax⟩ := shortest64 b hb hinf
  have hnear := short_nearest64 b hb hinf
  have hprint' : printFl b64 (.fin neg b hinf) =
      (decLit neg (shortest b64 b (2 * b64.u) (startExp b64 b)).1 (shortest b64 b (2 * b64.u) (startExp b64 b)).2).text := by
    exact printFl_short b64 neg b hinf (by omega)
  generalize (shortest b64 b (2 * b64.u) (startExp b64 b)).1 = c at *
  generalize (shortest b64 b (2 * b64.u) (startExp b64 b)).2 = e at *
  have hp : 1 ≤ b64.p := by decide
  have hcop := short_coprime b64 hp b c hb e hc hmax
  have hfew := short_fewest b64 hp b c hb e hc hmax
  obtain ⟨hval, hexp⟩ := decLit_valid neg c e
  refine ⟨decLit neg c e, by rw [hprint, hprint'], hval, hexp, ?_, ?_⟩
  · intro s hs
    cases e with
    | ofNat k => cases hs
    | negSucc k =>
      simp only [decLit, Option.some.injEq] at hs
      subst hs
      rw [fracDigits, List.getLast?_append_of_ne_nil _ (by simp)]
      simp only [List.getLast?_singleton, ne_eq, Option.some.injEq]
      intro h0
      have := digitChar_toNat c
      rw [h0] at this
      simp at this
      omega
  · intro m hm hpm
    have hpf := parse_number_text m hm _ hpm
    rw [parse_lit b64 m hm.1 (fun f hf => (hm.2.1 f hf).1) hm.2.2, Option.some.injEq] at hpf
    obtain ⟨hneg, hD⟩ := mk_fin_inj neg m.neg b _ hinf hpf
    have hD : near b64 (decVal (m.int ++ litFrac m) 0) (litExp m - (litFrac m).length) = b := hD
    have hdm : Digits (m.int ++ litFrac m) := by
      intro x hx
      rcases List.mem_append.mp hx with hx | hx
      · exact hm.1.2 x hx
      · unfold litFrac at hx
        cases hfr : m.frac with
        | none => rw [hfr] at hx; cases hx
        | some s => rw [hfr] at hx; exact (hm.2.1 s hfr).1 x hx
    obtain ⟨t, ht⟩ := sig_val (m.int ++ litFrac m)
    have hsne : sig (m.int ++ litFrac m) ≠ [] := by
      intro h0
      rw [sig_nil _ h0, near_zero b64 hp] at hD; omega
    obtain ⟨_, m2, _⟩ := sig_bounds _ hdm hsne
    have hS := hD
    rw [ht, near_eq_of_dq b64 hp _ _ _ _ (dq_shift _ t _)] at hS
    have hmr := rat_eq m
    have hmrq : m.rat = (if m.neg then -1 else 1) * dq (decVal (sig (m.int ++ litFrac m)) 0) (litExp m - (litFrac m).length + t) := by
      rw [hmr, ← dq_shift, ← ht]; rfl
    have hml : m.precision = (sig (m.int ++ litFrac m)).length := rfl
    obtain ⟨j, j1, j2, j3⟩ := decLit_digits neg c e
    obtain ⟨t', ht'⟩ := sig_val ((decLit neg c e).int ++ litFrac (decLit neg c e))
    have hcpos := short_pos b64 hp b c hb e hc hmax
    have hsne' : sig ((decLit neg c e).int ++ litFrac (decLit neg c e)) ≠ [] := by
      intro h0
      have := sig_nil _ h0
      rw [j1] at this
      have : 0 < c * 10 ^ j := by positivity
      omega
    obtain ⟨n1, n2, n3⟩ := sig_bounds _ j3 hsne'
    have hSn : c = decVal (sig ((decLit neg c e).int ++ litFrac (decLit neg c e))) 0 :=
      coprime_unique _ _ j t' hcop n3 (by rw [← j1, ht'])
    have hnl : (decLit neg c e).precision = (sig ((decLit neg c e).int ++ litFrac (decLit neg c e))).length := rfl
    rw [← hSn, ← hnl] at n1 n2
    rw [← hml] at m2
    have hle : (decLit neg c e).precision ≤ m.precision := by
      have h1 := Nat.lt_of_le_of_lt (hfew _ n1 _ _ hS) m2
      have := (Nat.pow_lt_pow_iff_right (show 1 < 10 by omega)).mp h1
      omega
    refine ⟨hle, fun heq => ?_⟩
    rw [heq] at m2
    have hd := hnear (decLit neg c e).precision _ _ hS (fun _ => m2) n2 n1
    have hnr : (decLit neg c e).rat = (if neg then -1 else 1) * dq c e := by
      rw [rat_eq, j1, ← j2]
      have : (decLit neg c e).neg = neg := by cases e <;> rfl
      rw [this]; rfl
    have hvr : v = (if neg then -1 else 1) * mval b64 b := by
      simp only [value64, Option.some.injEq] at hv
      rw [← hv]
      have : ieeeValue 53 1023 b = mval b64 b := mval64 b
      rw [this]; cases neg <;> simp
    rw [hnr, hvr, hmrq, hneg, ← mul_sub, ← mul_sub, abs_mul, abs_mul]
    have : |(if neg then -1 else 1 : ℚ)| = 1 := by cases neg <;> simp
    rw [this, one_mul, one_mul]
    exact hd

/-! ### Integers -/

theorem near_nat (n : Nat) (h : n ≤ 2 ^ 53) : magVal 53 (near b64 n 0) = n * 2 ^ 1074 := by
  obtain ⟨b, hb⟩ := exact_nat 53 n 1074 (by omega) h
  have : near b64 n 0 = b := by
    refine nearest_exact 53 _ _ b (by omega) (by exact Nat.one_pos) ?_
    rw [hb]
    show n * 10 ^ 0 * 2 ^ 1074 = n * 2 ^ 1074 * 1
    rw [Nat.pow_zero, Nat.mul_one, Nat.mul_one]
  rw [this, hb]

/-- A natural number of at most 2^53 is printed in full. -/
theorem short_nat (n : Nat) (hn : 0 < n) (h : n ≤ 2 ^ 53) (b : Nat) (hb : magVal 53 b = n * 2 ^ 1074) (hinf : b < b64.infBits) :
    decText (shortest b64 b (2 * b64.u) (startExp b64 b)).1 (shortest b64 b (2 * b64.u) (startExp b64 b)).2 = decDigits n := by
  have hp : 1 ≤ b64.p := by decide
  have hnb : near b64 n 0 = b := magVal_inj 53 _ _ (by rw [near_nat n h, hb])
  have hpos : 0 < b := by
    rcases Nat.eq_zero_or_pos b with rfl | h0
    · rw [magVal_zero] at hb
      have : 0 < n * 2 ^ 1074 := Nat.mul_pos hn (Nat.two_pow_pos _)
      omega
    · exact h0
  obtain ⟨hc, hmax⟩ := shortest64 b hpos hinf
  generalize (shortest b64 b (2 * b64.u) (startExp b64 b)).1 = c at *
  generalize (shortest b64 b (2 * b64.u) (startExp b64 b)).2 = e at *
  have he := short_exp_le b64 hp b c hpos e hc hmax n 0 hnb
  obtain ⟨k, rfl⟩ := Int.eq_ofNat_of_zero_le he
  have hr := short_rounds b64 hp b c hpos _ hc hmax
  suffices c * 10 ^ k = n by
    show decDigits (c * 10 ^ k) = decDigits n
    rw [this]
  have hN : near b64 (c * 10 ^ k) 0 = b := by
    rw [near_eq_of_dq b64 hp _ _ _ _ (dq_shift c k 0), zero_add]; exact hr
  have h2 : 0 < 2 ^ 1074 := Nat.two_pow_pos _
  rcases Nat.lt_or_ge (2 ^ 53) (c * 10 ^ k) with hgt | hle
  · exfalso
    rcases Nat.lt_or_ge n (2 ^ 53) with hlt | hge
    · have h1 := dq_le b64 hp (2 ^ 53) (c * 10 ^ k) 0 0 (dq_mono _ _ _ _ hgt.le (le_refl _))
      have h3 := near_nat (2 ^ 53) (le_refl _)
      have h4 := near_nat n h
      have h5 := magVal_mono 53 h1
      rw [hN, h3, hb] at h5
      have := Nat.le_of_mul_le_mul_right h5 h2
      omega
    · have hn53 : n = 2 ^ 53 := by omega
      cases k with
      | zero =>
        have hcd := short_nearest_same b64 hp b c hpos _ hc hmax n (by simpa using hnb)
        have hmv : mval b64 b = n := by
          unfold mval
          rw [b64_p, b64_u, hb]
          push_cast
          rw [mul_div_assoc, div_self (by positivity), mul_one]
        rw [hmv] at hcd
        simp only [dq, zpow_zero, mul_one, Nat.cast_zero, sub_self, abs_zero] at hcd
        have := abs_nonpos_iff.mp hcd
        have hcn : (c : ℚ) = n := by linarith
        have : c = n := by exact_mod_cast hcn
        simp only [Nat.pow_zero, Nat.mul_one] at hgt
        omega
      | succ k =>
        have hge : 9007199254741000 ≤ c * 10 ^ (k + 1) := by
          have e10 : c * 10 ^ (k + 1) = c * 10 ^ k * 10 := by ring
          rw [e10] at hgt ⊢
          omega
        have h1 := dq_le b64 hp 9007199254741000 (c * 10 ^ (k + 1)) 0 0 (dq_mono _ _ _ _ hge (le_refl _))
        have h3 : near b64 9007199254741000 0 = near b64 (2 ^ 53) 0 + 4 := by decide +kernel
        rw [hn53] at hnb
        omega
  · have h3 := near_nat _ hle
    rw [hN, hb] at h3
    exact (Nat.eq_of_mul_eq_mul_right h2 h3).symm

/-- **C48.** Integers of magnitude at most 2^53 are encoded in the usual decimal notation: a minus sign for negative ones, then the
digits, without superfluous zeros. -/
theorem C48_integers (name : String) (lo hi n : Int) (h3 : -(2 ^ 53) ≤ n) (h4 : n ≤ 2 ^ 53) :
    ∃ ds : Str, encodeText (F := F64) (.int name lo hi) n = (if n < 0 then ['-'] else []) ++ ds ∧
      ds ≠ [] ∧ Digits ds ∧ natOf ds = n.natAbs ∧ (ds.head? = some '0' → ds = ['0']) := by
  obtain ⟨b, hb, he, hv⟩ := ofInt_small n (by omega)
  obtain ⟨h1, h2, hval, _⟩ := decDigits_spec n.natAbs
  refine ⟨decDigits n.natAbs, ?_, h1, h2, by rw [← decVal_natOf, hval], decDigits_zero _⟩
  have : encodeText (F := F64) (.int name lo hi) n = printFl b64 (ofIntFl b64 n) := by
    show (Json.number (ofIntFl b64 n) : Json F64).toString = _
    rw [Json.toString.eq_def]; rfl
  rw [this, he]
  rcases Nat.eq_zero_or_pos b with rfl | hpos
  · have hz : printFl b64 (.fin (decide (n < 0)) 0 hb) = (if decide (n < 0) = true then ['-'] else []) ++ ['0'] := by
      simp only [printFl, if_true]
    rw [hz]
    congr 1
    · by_cases hn : n < 0 <;> simp [hn]
    · rw [magVal_zero] at hv
      have h0 : n.natAbs = 0 := by
        have : 0 < 2 ^ 1074 := Nat.two_pow_pos _
        rcases Nat.mul_eq_zero.mp hv.symm with h | h
        · exact h
        · omega
      rw [h0, decDigits.eq_def]; rfl
  · rw [printFl_short b64 _ b hb (by omega), decLit_text]
    congr 1
    · by_cases hn : n < 0 <;> simp [hn]
    · have hn : 0 < n.natAbs := by
        rcases Nat.eq_zero_or_pos n.natAbs with h | h
        · rw [h, Nat.zero_mul] at hv
          have := (magVal_lt_iff 53 0 b).mpr hpos
          omega
        · exact h
      exact short_nat n.natAbs hn (by omega) b hv hb

/-- Concrete cases: 0.1 is printed as `0.1`. -/
example : (Json.number (.fin false 0x3FB999999999999A (by decide)) : Json F64).toString = "0.1".toList := by decide +kernel
/-- A longer literal of the same number, as the theorem compares with. -/
example : isNum (Json.parse "0.1000000000000000055511151231257827".toList) (.fin false 0x3FB999999999999A (by decide)) = true := by decide +kernel
/-- Leading and trailing zeros do not count. -/
example : NumLit.precision ⟨false, "0".toList, some "00500".toList, none⟩ = 1 := by decide
/-- Concrete case for the integers. -/
example : encodeText (F := F64) (.int "i64" (-2 ^ 63) (2 ^ 63 - 1)) (-9007199254740992 : Int) = "-9007199254740992".toList := by decide +kernel

end RJ
