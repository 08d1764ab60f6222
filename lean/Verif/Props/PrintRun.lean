import Verif.Proof.PrintRun
import Verif.Proof.Trim
import Verif.Proof.IeeeText
import Verif.Spec.Run
/-
  C84: what printing costs.
-/
set_option linter.unusedSectionVars false
namespace RJ
open Spec

theorem print_ne_nil (f : F64) : (FloatOps.print f : Str) ≠ [] := by
  match f with
  | .nan => show printFl b64 .nan ≠ []; simp [printFl]
  | .inf neg => show printFl b64 (.inf neg) ≠ []; simp [printFl]
  | .fin neg b h =>
    have hf : Finite (Json.number (.fin neg b h : F64)) := rfl
    have := cst_ne_nil (cst_wordy _ (cstOf_valid _ hf))
    rwa [← cstOf_text _ hf, Json.toString.eq_def] at this

/-- **C84, same text.** The counted run gives the text of `to_string`. -/
theorem C84_text (j : Json F64) : j.printRun.text = j.toString := run_text j

/-- **C84, time.** `to_string` writes at most five characters for each character of its result and each level of nesting. -/
theorem C84_time (j : Json F64) : j.printRun.steps ≤ 5 * j.printRun.depth * j.toString.length := by
  rw [← C84_text]
  exact run_bound print_ne_nil j

/-- **C84, depth.** The calls of `to_string` nest one deeper than the deepest value stands: never deeper, and there is a value that deep. -/
theorem C84_depth (j : Json F64) : (∀ n v, Inside n v j → n + 1 ≤ j.printRun.depth) ∧ ∃ n v, Inside n v j ∧ n + 1 = j.printRun.depth := by
  refine ⟨fun n v h => inside_depth h, ?_⟩
  obtain ⟨v, hv⟩ := deepest j
  exact ⟨_, v, hv, Nat.sub_add_cancel (run_pos j)⟩

theorem nest_printed (k : Nat) : (nestVal k : Json F64).toString = nest k := by
  induction k with
  | zero => simp [nestVal, nest, Json.toString]
  | succ k ih =>
    rw [nestVal, Json.toString, printList, printList, ih, joinComma, nest, nest]
    rw [List.replicate_succ, List.replicate_succ' (a := ']')]
    simp

/-- **C84, tightness.** The factor for the nesting is needed, and there is no limit to the depth: `null` in `k` arrays, a text of 2k+4 characters, takes 2k²+9k+5 steps and k+1 calls
at a time. -/
theorem C84_quadratic (k : Nat) : (nestVal k : Json F64).toString.length = 2 * k + 4 ∧ (nestVal k : Json F64).printRun.steps = 2 * (k * k) + 9 * k + 5 ∧
    (nestVal k : Json F64).printRun.depth = k + 1 := by
  have hlen : ∀ k, (nestVal k : Json F64).toString.length = 2 * k + 4 := by
    intro k; rw [nest_printed]; simp [nest]; omega
  refine ⟨hlen k, ?_, ?_⟩
  · induction k with
    | zero => simp [nestVal, Json.printRun, leafPrint]
    | succ k ih =>
      have ht := C84_text (nestVal k)
      rw [nestVal, Json.printRun, listRun, listRun]
      simp only [List.map_cons, List.map_nil, List.sum_cons, List.sum_nil, joinComma, ht, ih, hlen k]
      have : (k + 1) * (k + 1) = k * k + 2 * k + 1 := by simp only [Nat.add_mul, Nat.mul_add]; omega
      omega
  · induction k with
    | zero => simp [nestVal, Json.printRun, leafPrint]
    | succ k ih =>
      rw [nestVal, Json.printRun, listRun, listRun]
      simp only [List.map_cons, List.map_nil, largest, ih]
      omega

/-- **C84, example.** An object with a duplicate. -/
theorem C84_example : let j : Json F64 := .object [("a".toList, (.array [.boolean true, .null], [.string "x".toList]))]
    j.toString = "{\"a\": \"x\", \"a\": [true, null]}".toList ∧ j.printRun.depth = 3 ∧ j.printRun.steps = 154 := by
  refine ⟨?_, ?_, ?_⟩ <;> decide +kernel

end RJ
