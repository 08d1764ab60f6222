import Verif.Proof.Run
/-
  C67 – C69: the resources of `Json::parse`.
-/
namespace RJ
open Spec
variable {F : Type} [FloatOps F]

/-- C67.  `parse` counts brackets and quotes in `i32`.  As long as the text has fewer than 2^31 characters no counter leaves its range: whatever the arithmetic does on overflow (`checked`: a debug build
panics; `wrapping`: a release build wraps), the call ends, without a panic, with the result `parse` has over unbounded integers. -/
theorem C67_counters (add : Arith) (ha : Exact32 add) (t : Str) (ht : t.length < 2 ^ 31) : ∃ s d, Json.run (F := F) add t = some (s, d, Json.parse t) := by
  obtain ⟨a, b, _, _, e⟩ := trimWs_split t
  have : (trimWs t).length ≤ t.length := by
    have := congrArg List.length e
    simp only [List.length_append] at this; omega
  exact fuelRun_ends ha _ (trimWs t) (by omega)

/-- Both kinds of builds are covered. -/
theorem C67_builds : Exact32 checked ∧ Exact32 wrapping := ⟨checked_exact, wrapping_exact⟩

/-- C67.  The bound on the length cannot be dropped: a debug build panics on every text of more than 2^31 opening brackets. -/
theorem C67_overflow (n : Nat) (h : 2 ^ 31 < n) : Json.run (F := F) checked (List.replicate n '[') = none := by
  obtain ⟨m, rfl⟩ : ∃ m, n = m + 2 := ⟨n - 2, by omega⟩
  have et : trimWs (List.replicate (m + 2) '[') = List.replicate (m + 2) '[' := by
    refine trimWs_self '[' (List.replicate (m + 1) '[') (by unfold IsWs; decide) (List.replicate (m + 1) '[') '[' (by unfold IsWs; decide) ?_
    rw [← List.replicate_succ, List.replicate_succ']
  unfold Json.run
  rw [et]
  show bodyRun checked (fuelRun checked _) _ = none
  rw [List.replicate_succ]
  unfold bodyRun
  simp only [List.head?_cons]
  rw [if_neg (by decide), if_neg (by decide), if_neg (by decide), if_neg (by decide), if_pos trivial]
  unfold arrayRun
  simp only [List.drop_one, List.tail_cons]
  rw [if_neg (by simp [List.replicate_succ]), arrRun_overflow _ _ (m + 1) 0 [] (by omega) (by omega) (by omega)]
  rfl

/-- C68.  `parse` takes at most (n + 1)² steps on a text of n characters, accepted or refused. -/
theorem C68_time (add : Arith) (t : Str) (s d : Nat) (x : Res (Json F)) (h : Json.run add t = some (s, d, x)) : s ≤ (t.length + 1) ^ 2 := by
  obtain ⟨a, b, _, _, e⟩ := trimWs_split t
  have hl : (trimWs t).length + 1 ≤ t.length + 1 := by
    have := congrArg List.length e
    simp only [List.length_append] at this; omega
  exact Nat.le_trans (fuelRun_within add _ (trimWs t) s d x h).1 (sq_mono hl)

/-- C68.  The square is needed: on `null` in `k` arrays, 2k + 4 characters, `parse` takes k² + 5k + 6 steps. -/
theorem C68_time_attained (add : Arith) (ha : Exact32 add) (k : Nat) (hk : k < 2 ^ 31) :
    (nest k).length = 2 * k + 4 ∧ ∃ d x, Json.run (F := F) add (nest k) = some (k * k + 5 * k + 6, d, x) := by
  refine ⟨nest_length k, k + 1, .ok (nestVal k), ?_⟩
  unfold Json.run
  rw [nest_trim]
  exact nested_run ha _ k (by rw [nest_length]; omega) hk

/-- C69.  The calls of `parse` nest at most one deeper than the text has opening brackets. -/
theorem C69_depth (add : Arith) (t : Str) (s d : Nat) (x : Res (Json F)) (h : Json.run add t = some (s, d, x)) : d ≤ opens t + 1 := by
  obtain ⟨a, b, _, _, e⟩ := trimWs_split t
  have hl : opens (trimWs t) ≤ opens t := by
    have := congrArg opens e
    rw [opens_append, opens_append] at this; omega
  exact Nat.le_trans (fuelRun_within add _ (trimWs t) s d x h).2 (by omega)

/-- C69.  This depth is reached, by an accepted text, at every size: nothing bounds the recursion (the code has no depth limit). -/
theorem C69_depth_attained (add : Arith) (ha : Exact32 add) (k : Nat) (hk : k < 2 ^ 31) :
    opens (nest k) = k ∧ ∃ s, Json.run (F := F) add (nest k) = some (s, k + 1, .ok (nestVal k)) := by
  refine ⟨nest_opens k, k * k + 5 * k + 6, ?_⟩
  unfold Json.run
  rw [nest_trim]
  exact nested_run ha _ k (by rw [nest_length]; omega) hk

/-- A concrete text: three brackets deep, with a string of brackets, run in a debug build. -/
example : ∃ s d, Json.run (F := F) checked "[{\"a]\": [null, true]}]".toList = some (s, d, Json.parse "[{\"a]\": [null, true]}]".toList) :=
  C67_counters checked checked_exact _ (by decide +kernel)

end RJ
