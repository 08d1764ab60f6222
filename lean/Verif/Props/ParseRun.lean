import Verif.Proof.ParseRun
import Verif.Props.Print
import Verif.Props.Run
import Verif.Props.PrintRun
/-
  C87: what parsing costs, level by level.
-/
set_option linter.unusedSectionVars false
namespace RJ
open Spec
variable {F : Type} [FloatOps F]

theorem trim_shorter (t : Str) : (trimWs t).length ≤ t.length := by
  obtain ⟨a, b, _, _, e⟩ := trimWs_split t
  have := congrArg List.length e
  simp only [List.length_append] at this; omega

/-- **C87, time.** `parse` takes at most two steps for each character of the text (and one more) and each level of its recursion, whether it accepts the text or refuses it. -/
theorem C87_time (add : Arith) (t : Str) (s d : Nat) (x : Res (Json F)) (h : Json.run add t = some (s, d, x)) : s ≤ 2 * d * (t.length + 1) :=
  Nat.le_trans (fuelRun_cost add _ (trimWs t) s d x h).1 (Nat.mul_le_mul_left _ (Nat.succ_le_succ (trim_shorter t)))

/-- **C87, depth.** On an accepted text the calls nest one deeper than the deepest value stands in the result: never deeper, and there is a value that deep. -/
theorem C87_depth (add : Arith) (t : Str) (s d : Nat) (j : Json F) (h : Json.run add t = some (s, d, .ok j)) :
    (∀ n v, Inside n v j → n + 1 ≤ d) ∧ ∃ n v, Inside n v j ∧ n + 1 = d := by
  have hd : d = deepOf j := (fuelRun_cost add _ (trimWs t) s d _ h).2 j rfl
  refine ⟨fun n v hv => by rw [hd]; exact inside_depth hv, ?_⟩
  obtain ⟨v, hv⟩ := deepest j
  exact ⟨_, v, hv, by rw [hd]; exact Nat.sub_add_cancel (run_pos j)⟩

/-- **C87, there and back.** Reading back what `to_string` has written (values as in C01, a text of fewer than 2^31 characters) goes as deep as writing it, and takes at most two steps for each
character (and one more) and level. -/
theorem C87_back [LawfulFloat F] (add : Arith) (ha : Exact32 add) (j : Json F) (hfin : AllNum (fun f => FloatOps.isFinite f = true) j) (hwf : WF j) (hb : NestedBalanced j)
    (hl : j.toString.length < 2 ^ 31) : ∃ s j', Json.run add j.toString = some (s, j.printRun.depth, .ok j') ∧ absJ j' = absJ j ∧
      s ≤ 2 * j.printRun.depth * (j.toString.length + 1) := by
  obtain ⟨j', h1, h2⟩ := C01_round_trip j hfin hwf hb
  obtain ⟨s, d, h3⟩ := C67_counters (F := F) add ha j.toString hl
  rw [h1] at h3
  have hd : d = deepOf j' := (fuelRun_cost add _ (trimWs j.toString) s d _ h3).2 j' rfl
  rw [deep_same hwf (C14_parse_well_formed _ _ h1).2 h2] at hd
  have hd : d = j.printRun.depth := hd
  subst hd
  exact ⟨s, j', h3, h2, C87_time add _ s _ _ h3⟩

/-- **C87, tightness.** Half of the bound of `C87_time` is reached for every depth (`null` in `k` arrays, C68), up to the constants of a level. -/
theorem C87_attained (add : Arith) (ha : Exact32 add) (k : Nat) (hk : k < 2 ^ 31) :
    ∃ s d x, Json.run (F := F) add (nest k) = some (s, d, x) ∧ d * (nest k).length ≤ 2 * s := by
  obtain ⟨h1, h2⟩ := C69_depth_attained (F := F) add ha k hk
  obtain ⟨h3, d, x, h4⟩ := C68_time_attained (F := F) add ha k hk
  obtain ⟨s, h2⟩ := h2
  rw [h4] at h2
  cases h2
  refine ⟨_, _, _, h4, ?_⟩
  rw [h3, Nat.add_mul, Nat.mul_add]
  have : k * (2 * k) = 2 * (k * k) := Nat.mul_left_comm ..
  omega

/-- The hypotheses of `C87_back`: an object with a duplicate, in a debug build. -/
example : ∃ (s : Nat) (j' : Json F64), Json.run checked (Json.object [("a".toList, (.array [.boolean true, .null], [.string "x".toList]))] : Json F64).toString = some (s, 3, .ok j') ∧ s ≤ 180 := by
  obtain ⟨s, j', h1, _, h2⟩ := C87_back checked checked_exact (Json.object [("a".toList, (.array [.boolean true, .null], [.string "x".toList]))] : Json F64)
    (by simp [AllNum, AllNumMap, AllNumList]) (by simp [WF, WFMap, WFList]) (by simp [NestedBalanced, AllStr, AllStrMap, AllStrList, Balanced, bracketNet]) (by decide +kernel)
  exact ⟨s, j', h1, h2⟩

end RJ
