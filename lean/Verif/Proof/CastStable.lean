import Verif.Spec.Reread
import Verif.Proof.IeeeVal
import Verif.Proof.ConvText
import Verif.Props.Float
/-
  Integers that were read from a number survive being written and read again.
-/
set_option linter.unusedSectionVars false
namespace RJ
open Spec

/-- The value of a large number is an integer (precision `p`, unit `2 ^ -u`). -/
theorem large_integer (p u b : Nat) (hp : 1 ≤ p) (h : 2 ^ p ≤ magVal p b / 2 ^ u) : magVal p b / 2 ^ u * 2 ^ u = magVal p b := by
  obtain ⟨s, m, rfl, h1, h2⟩ := mag_split p b
  rw [magVal_eq p s m h1 (Nat.le_of_lt h2)] at h ⊢
  have hm : m < 2 ^ p := by
    refine Nat.lt_of_lt_of_le h2 (Nat.le_of_eq ?_)
    rw [← Nat.pow_succ']
    exact congrArg _ (by omega)
  have hs : u ≤ s := by
    apply Classical.byContradiction
    intro hs
    have h3 : m * 2 ^ s / 2 ^ u < 2 ^ p := by
      rw [Nat.div_lt_iff_lt_mul (Nat.two_pow_pos _)]
      have h4 : 2 ^ s ≤ 2 ^ u := Nat.pow_le_pow_right (by omega) (by omega)
      calc m * 2 ^ s ≤ m * 2 ^ u := Nat.mul_le_mul_left _ h4
        _ < 2 ^ p * 2 ^ u := Nat.mul_lt_mul_of_pos_right hm (Nat.two_pow_pos _)
    omega
  obtain ⟨k, rfl⟩ : ∃ k, s = k + u := ⟨s - u, by omega⟩
  rw [Nat.pow_add, ← Nat.mul_assoc, Nat.mul_div_cancel _ (Nat.two_pow_pos _)]

theorem clamp_cases (lo hi n : Int) : clampI lo hi n = lo ∨ clampI lo hi n = hi ∨ (lo ≤ n ∧ n ≤ hi ∧ clampI lo hi n = n) := by
  unfold clampI
  split
  · exact .inl rfl
  · split
    · exact .inr (.inl rfl)
    · exact .inr (.inr ⟨by omega, by omega, rfl⟩)

/-- The bounds of Rust's integer types survive. -/
theorem bounds_stable {name : String} {lo hi : Int} (h : RustInt name lo hi) : toIntFl lo hi (ofIntFl b64 lo) = lo ∧ toIntFl lo hi (ofIntFl b64 hi) = hi := by
  rw [← C34_types] at h
  simp only [intTypes, List.mem_cons, Prod.mk.injEq, List.not_mem_nil, or_false] at h
  rcases h with ⟨rfl, rfl, rfl⟩ | ⟨rfl, rfl, rfl⟩ | ⟨rfl, rfl, rfl⟩ | ⟨rfl, rfl, rfl⟩ | ⟨rfl, rfl, rfl⟩ | ⟨rfl, rfl, rfl⟩ |
      ⟨rfl, rfl, rfl⟩ | ⟨rfl, rfl, rfl⟩ | ⟨rfl, rfl, rfl⟩ | ⟨rfl, rfl, rfl⟩ | ⟨rfl, rfl, rfl⟩ | ⟨rfl, rfl, rfl⟩
  all_goals constructor <;> decide +kernel

theorem zero_in {name : String} {lo hi : Int} (h : RustInt name lo hi) : lo ≤ 0 ∧ 0 ≤ hi ∧ lo.natAbs ≤ 2 ^ 128 ∧ hi.natAbs ≤ 2 ^ 128 := by
  rw [← C34_types] at h
  simp only [intTypes, List.mem_cons, Prod.mk.injEq, List.not_mem_nil, or_false] at h
  omega

/-- The cast of a finite number of any format, given that small integers and the bounds survive. -/
theorem cast_stable_fin (q : Fmt) (hq : 2 ≤ q.p) (lo hi : Int) (neg : Bool) (b : Nat) (hb : b < q.infBits)
    (hlo : toIntFl lo hi (ofIntFl q lo) = lo) (hhi : toIntFl lo hi (ofIntFl q hi) = hi)
    (small : ∀ n : Int, lo ≤ n → n ≤ hi → n.natAbs ≤ 2 ^ q.p → toIntFl lo hi (ofIntFl q n) = n) :
    toIntFl lo hi (ofIntFl q (toIntFl lo hi (.fin neg b hb : Fl q))) = toIntFl lo hi (.fin neg b hb : Fl q) := by
  have ht : ((magVal q.p b : Int) / 2 ^ q.u) = ((magVal q.p b / 2 ^ q.u : Nat) : Int) := by push_cast; rfl
  have hv : toIntFl lo hi (.fin neg b hb : Fl q) = clampI lo hi (if neg then -((magVal q.p b / 2 ^ q.u : Nat) : Int) else ((magVal q.p b / 2 ^ q.u : Nat) : Int)) := by
    simp only [toIntFl, ht]
  by_cases hs : magVal q.p b / 2 ^ q.u ≤ 2 ^ q.p
  · rw [hv]
    rcases clamp_cases lo hi (if neg then -((magVal q.p b / 2 ^ q.u : Nat) : Int) else ((magVal q.p b / 2 ^ q.u : Nat) : Int)) with e | e | ⟨h1, h2, e⟩
    · rw [e]; exact hlo
    · rw [e]; exact hhi
    · rw [e]
      refine small _ h1 h2 ?_
      generalize magVal q.p b / 2 ^ q.u = T at *
      cases neg
      · simpa using hs
      · simpa using hs
  · have hx := large_integer q.p q.u b (by omega) (by omega)
    have hpos : 0 < 2 ^ q.p := Nat.two_pow_pos _
    have hof : ofIntFl q (if neg then -((magVal q.p b / 2 ^ q.u : Nat) : Int) else ((magVal q.p b / 2 ^ q.u : Nat) : Int)) = .fin neg b hb := by
      generalize magVal q.p b / 2 ^ q.u = T at *
      unfold ofIntFl
      have e1 : (if neg then -(T : Int) else T).natAbs = T := by split <;> omega
      have e2 : nearest q.p (T * 2 ^ q.u) 1 = b := nearest_exact q.p _ 1 b (by omega) (by omega) (by rw [hx, Nat.mul_one])
      have e3 : (decide ((if neg then -(T : Int) else (T : Int)) < 0)) = neg := by
        cases neg with
        | true => simp only [if_true]; exact decide_eq_true (by omega)
        | false => simp only [Bool.false_eq_true, if_false]; exact decide_eq_false (by omega)
      rw [e1, e2, e3, Fl.mk, dif_pos hb]
    rcases clamp_cases lo hi (if neg then -((magVal q.p b / 2 ^ q.u : Nat) : Int) else ((magVal q.p b / 2 ^ q.u : Nat) : Int)) with e | e | ⟨h1, h2, e⟩
    · rw [hv, e]; exact hlo
    · rw [hv, e]; exact hhi
    · have hv' := hv
      rw [e] at hv
      rw [hv, hof, hv]

/-- An integer that was read from a number is read again after it has been written. -/
theorem cast_stable {name : String} {lo hi : Int} (h : RustInt name lo hi) (f : F64) : toIntFl lo hi (ofIntFl b64 (toIntFl lo hi f)) = toIntFl lo hi f := by
  obtain ⟨hlo, hhi⟩ := bounds_stable h
  obtain ⟨z1, z2, -, -⟩ := zero_in h
  match f with
  | .nan => exact toInt_ofInt64 lo hi 0 z1 z2 (by decide)
  | .inf true => exact hlo
  | .inf false => exact hhi
  | .fin neg b hb => exact cast_stable_fin b64 (by decide) lo hi neg b hb hlo hhi (fun n h1 h2 h3 => toInt_ofInt64 lo hi n h1 h2 h3)

theorem int_finite (n : Int) (h : n.natAbs ≤ 2 ^ 128) : (ofIntFl b64 n).isFinite = true := by
  obtain ⟨v, hv, _⟩ := ofInt_rounds n (Nat.lt_of_le_of_lt h (by decide +kernel))
  revert hv
  cases ofIntFl b64 n with
  | fin _ _ _ => intro _; rfl
  | inf _ => intro hv; cases hv
  | nan => intro hv; cases hv

theorem toInt_range {name : String} {lo hi : Int} (h : RustInt name lo hi) (f : F64) : lo ≤ toIntFl lo hi f ∧ toIntFl lo hi f ≤ hi := by
  obtain ⟨z1, z2, -, -⟩ := zero_in h
  match f with
  | .nan => exact ⟨z1, z2⟩
  | .inf true => exact ⟨Int.le_refl _, by show lo ≤ hi; omega⟩
  | .inf false => exact ⟨by show lo ≤ hi; omega, Int.le_refl _⟩
  | .fin neg b hb =>
    simp only [toIntFl]
    generalize (if neg then -((magVal b64.p b : Int) / 2 ^ b64.u) else (magVal b64.p b : Int) / 2 ^ b64.u) = n
    rcases clamp_cases lo hi n with e | e | ⟨h1, h2, e⟩ <;> rw [e] <;> omega


end RJ
