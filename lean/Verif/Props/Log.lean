import Verif.Spec.Log
import Verif.Props.Embed
import Verif.Props.Framing
/-
  C95: a log of JSON texts, one per line, survives crashes.
-/
namespace RJ
open Spec
variable {F : Type} [FloatOps F]

theorem logLines_single (l : Str) (h : '\n' ∉ l) : logLines l = [l] := by
  induction l with
  | nil => rfl
  | cons c l ih =>
    rw [List.mem_cons, not_or] at h
    rw [logLines, if_neg (fun e => h.1 e.symm), ih h.2]

theorem logLines_line (l s : Str) (h : '\n' ∉ l) : logLines (l ++ '\n' :: s) = l :: logLines s := by
  induction l with
  | nil => rw [List.nil_append, logLines, if_pos rfl]
  | cons c l ih =>
    rw [List.mem_cons, not_or] at h
    rw [List.cons_append, logLines, if_neg (fun e => h.1 e.symm), ih h.2]

theorem recovered_none (u : Str) (h : '\n' ∉ u) : recovered u = [] := by
  cases u with
  | nil => rfl
  | cons c u => rw [recovered, if_neg h]

theorem recovered_line (l s : Str) : recovered (l ++ '\n' :: s) = l ++ '\n' :: recovered s := by
  induction l with
  | nil => rw [List.nil_append, recovered, if_pos List.mem_cons_self]; rfl
  | cons c l ih => rw [List.cons_append, recovered, if_pos (by simp), ih]; rfl

theorem recovered_log (js : List (Json F)) (u : Str) : recovered (logText js ++ u) = logText js ++ recovered u := by
  induction js with
  | nil => rfl
  | cons j js ih => rw [logText, List.append_assoc, List.cons_append, recovered_line, ih, List.append_assoc, List.cons_append]

theorem logText_append (a b : List (Json F)) : logText (a ++ b) = logText a ++ logText b := by
  induction a with
  | nil => rfl
  | cons j a ih => rw [List.cons_append, logText, ih, logText, List.append_assoc, List.cons_append]

/-- What the first `n` characters of a log are. -/
theorem log_take (js : List (Json F)) (n : Nat) :
    ∃ k u, Ended js n k ∧ (logText js).take n = logText (js.take k) ++ u ∧
      ((k = js.length ∧ u = []) ∨ ∃ j v, js.drop k = j :: js.drop (k + 1) ∧ j.toString = u ++ v) := by
  induction js generalizing n with
  | nil => exact ⟨0, [], ⟨Nat.le_refl _, Nat.zero_le _, fun h => absurd h (by simp)⟩, by simp [logText], Or.inl ⟨rfl, rfl⟩⟩
  | cons j js ih =>
    by_cases hn : n < j.toString.length + 1
    · refine ⟨0, j.toString.take n, ⟨Nat.zero_le _, Nat.zero_le _, fun _ => ?_⟩, ?_, Or.inr ⟨j, j.toString.drop n, ?_, ?_⟩⟩
      · simp [logText]; omega
      · rw [logText, List.take_append_of_le_length (by omega)]; rfl
      · simp
      · simp
    · obtain ⟨k, u, ⟨h1, h2, h3⟩, h4, h5⟩ := ih (n - (j.toString.length + 1))
      refine ⟨k + 1, u, ⟨?_, ?_, fun h => ?_⟩, ?_, ?_⟩
      · simpa using h1
      · simp only [List.take_succ_cons, logText, List.length_append, List.length_cons]; omega
      · have := h3 (by simpa using h)
        simp only [List.take_succ_cons, logText, List.length_append, List.length_cons] at this ⊢
        omega
      · rw [logText, List.take_succ_cons, logText, List.append_assoc, List.cons_append, ← h4, List.take_append,
          List.take_of_length_le (by omega)]
        congr 1
        obtain ⟨m, hm⟩ : ∃ m, n = j.toString.length + 1 + m := ⟨n - (j.toString.length + 1), by omega⟩
        subst hm
        rw [show j.toString.length + 1 + m - j.toString.length = m + 1 by omega, List.take_succ_cons, show j.toString.length + 1 + m - (j.toString.length + 1) = m by omega]
      · rcases h5 with ⟨rfl, rfl⟩ | ⟨j', v, h5, h6⟩
        · exact Or.inl ⟨rfl, rfl⟩
        · exact Or.inr ⟨j', v, by simpa using h5, h6⟩

theorem twoAll_append {α β : Type} {R : α → β → Prop} : ∀ {a : List α} {b : List β} {c d}, AllTwo R a b → AllTwo R c d → AllTwo R (a ++ c) (b ++ d)
  | [], [], _, _, _, h => h
  | _ :: _, _ :: _, _, _, ⟨h1, h2⟩, h => ⟨h1, twoAll_append h2 h⟩

variable [LawfulFloat F]

theorem noNewline (j : Json F) (hj : Printable j) : '\n' ∉ j.toString := by
  intro h
  have := (C03_printable_ascii j hj.2.1 _ h).1
  revert this
  decide

theorem parse_empty_error : ∃ e, (Json.parse [] : Res (Json F)) = .error e := by
  have hj : Printable (.null : Json F) := ⟨trivial, trivial, trivial⟩
  exact C83_torn_write (.null : Json F) hj.2.1 hj.1 (nested_of_all _ hj.2.2) (fun f h => by cases h) 0 (by rw [Json.toString]; decide)

theorem readLog_append (js : List (Json F)) (hj : ∀ j ∈ js, Printable j) (u : Str) :
    ∃ rs : List (Json F), readLog (logText js ++ u) = rs ++ readLog u ∧ AllTwo SameDoc rs js := by
  induction js with
  | nil => exact ⟨[], rfl, trivial⟩
  | cons j js ih =>
    obtain ⟨rs, h1, h2⟩ := ih (fun x hx => hj x (List.mem_cons_of_mem _ hx))
    have hp := hj j List.mem_cons_self
    obtain ⟨j', h3, h4⟩ := C01_round_trip j hp.2.1 hp.1 (nested_of_all _ hp.2.2)
    refine ⟨j' :: rs, ?_, h4, h2⟩
    unfold readLog at h1 ⊢
    rw [logText, List.append_assoc, List.cons_append, logLines_line _ _ (noNewline j hp), readLines, h3]
    dsimp only
    rw [h1, List.cons_append]

omit [LawfulFloat F] in
theorem readLog_error (u : Str) (hu : '\n' ∉ u) (he : ∃ e, (Json.parse u : Res (Json F)) = .error e) : (readLog u : List (Json F)) = [] := by
  obtain ⟨e, he⟩ := he
  rw [readLog, logLines_single u hu, readLines, he]

/-- **C95.** If only the first `n` characters of a log have reached the disk, reading it gives exactly the records that are whole there: none is lost, none is made up from a part, for every `n`.  (A bare number may be cut into another number, see `C95_ended` for these.) -/
theorem C95_cut (js : List (Json F)) (hj : ∀ j ∈ js, Printable j) (hn : ∀ j ∈ js, ∀ f, j ≠ .number f) (n : Nat) :
    ∃ k, Whole js n k ∧ AllTwo SameDoc (readLog ((logText js).take n) : List (Json F)) (js.take k) := by
  obtain ⟨k, u, ⟨h1, h2, h3⟩, h4, h5⟩ := log_take js n
  have hk : ∀ j ∈ js.take k, Printable j := fun j h => hj j (List.mem_of_mem_take h)
  obtain ⟨rs, h6, h7⟩ := readLog_append (js.take k) hk u
  rcases h5 with ⟨rfl, rfl⟩ | ⟨j, v, h5, h8⟩
  · refine ⟨js.length, ⟨Nat.le_refl _, by omega, fun h => absurd h (Nat.lt_irrefl _)⟩, ?_⟩
    rw [h4, h6, readLog_error [] (by simp) parse_empty_error, List.append_nil]
    exact h7
  have hm : j ∈ js := List.mem_of_mem_drop (by rw [h5]; exact List.mem_cons_self)
  have hlt : k < js.length := by
    rcases Nat.lt_or_ge k js.length with h | h
    · exact h
    · rw [List.drop_eq_nil_of_le h] at h5; cases h5
  have hp := hj j hm
  have hu : '\n' ∉ u := fun h => noNewline j hp (by rw [h8]; exact List.mem_append_left _ h)
  have ht : js.take (k + 1) = js.take k ++ [j] := by
    rw [List.take_add_one]
    congr 1
    rw [← List.head?_drop, h5]; rfl
  have hlen : (logText (js.take (k + 1))).length = (logText (js.take k)).length + j.toString.length + 1 := by
    rw [ht, logText_append]; simp [logText]; omega
  have hu2 : (logText (js.take k)).length + u.length = min n (logText js).length := by
    rw [← List.length_append, ← h4, List.length_take]
  have hle : (logText (js.take (k+1))).length ≤ (logText js).length := by
    conv => rhs; rw [← List.take_append_drop (k + 1) js, logText_append, List.length_append]
    omega
  have h3' := h3 hlt
  have hun : (logText (js.take k)).length + u.length = n := by omega
  by_cases hv : v = []
  · subst hv
    rw [List.append_nil] at h8
    obtain ⟨j', h9, h10⟩ := C01_round_trip j hp.2.1 hp.1 (nested_of_all _ hp.2.2)
    refine ⟨k + 1, ⟨hlt, ?_, fun h => ?_⟩, ?_⟩
    · rw [hlen, h8]; omega
    · have : js.drop (k + 1) ≠ [] := by
        intro e
        have := congrArg List.length e
        simp at this
        omega
      obtain ⟨x, l, hx⟩ := List.exists_cons_of_ne_nil this
      have ht2 : js.take (k + 2) = js.take (k + 1) ++ [x] := by
        rw [List.take_add_one (i := k + 1)]
        congr 1
        rw [← List.head?_drop, hx]; rfl
      rw [ht2, logText_append, List.length_append, hlen, h8]
      simp [logText]
      omega
    · rw [h4, h6, readLog, logLines_single u hu, ← h8, readLines, h9, readLines, ht]
      exact twoAll_append h7 ⟨h10, trivial⟩
  · refine ⟨k, ⟨h1, by omega, fun _ => ?_⟩, ?_⟩
    · rw [hlen, h8, List.length_append]
      have : 0 < v.length := List.length_pos_of_ne_nil hv
      omega
    · rw [h4, h6, readLog_error u hu (printed_cut j hp.2.1 hp.1 (nested_of_all _ hp.2.2) (hn j hm) u v h8 hv), List.append_nil]
      exact h7

/-- The part of a cut log that ends in a newline. -/
theorem recovered_take (js : List (Json F)) (hj : ∀ j ∈ js, Printable j) (n : Nat) :
    ∃ k, Ended js n k ∧ recovered ((logText js).take n) = logText (js.take k) := by
  obtain ⟨k, u, h1, h4, h5⟩ := log_take js n
  refine ⟨k, h1, ?_⟩
  rw [h4, recovered_log, recovered_none, List.append_nil]
  rcases h5 with ⟨_, rfl⟩ | ⟨j, v, h5, h8⟩
  · simp
  · have hm : j ∈ js := List.mem_of_mem_drop (by rw [h5]; exact List.mem_cons_self)
    exact fun h => noNewline j (hj j hm) (by rw [h8]; exact List.mem_append_left _ h)

theorem readLog_whole (js : List (Json F)) (hj : ∀ j ∈ js, Printable j) : AllTwo SameDoc (readLog (logText js) : List (Json F)) js := by
  obtain ⟨rs, h6, h7⟩ := readLog_append js hj []
  rw [List.append_nil, readLog_error [] (by simp) parse_empty_error, List.append_nil] at h6
  rw [h6]
  exact h7

/-- **C95, bare numbers allowed.** If the unfinished last line is cut off first, reading gives exactly the records that are there with their newlines. -/
theorem C95_ended (js : List (Json F)) (hj : ∀ j ∈ js, Printable j) (n : Nat) :
    ∃ k, Ended js n k ∧ AllTwo SameDoc (readLog (recovered ((logText js).take n)) : List (Json F)) (js.take k) := by
  obtain ⟨k, h1, h2⟩ := recovered_take js hj n
  exact ⟨k, h1, h2 ▸ readLog_whole _ (fun j h => hj j (List.mem_of_mem_take h))⟩

theorem sessions_from (l : List (Session F)) (hl : ∀ a ∈ l, ∀ j ∈ a.recs, Printable j) (rs : List (Json F)) (file : Str) (hf : recovered file = logText rs) :
    ∃ rs', Survives l rs' ∧ recovered (sessions file l) = logText (rs ++ rs') := by
  induction l generalizing rs file with
  | nil => exact ⟨[], .nil, by rw [List.append_nil]; exact hf⟩
  | cons a l ih =>
    obtain ⟨k, h1, h2⟩ := recovered_take a.recs (hl a List.mem_cons_self) a.n
    obtain ⟨rs', h3, h4⟩ := ih (fun b hb => hl b (List.mem_cons_of_mem _ hb)) (rs ++ a.recs.take k) (recovered file ++ (logText a.recs).take a.n)
      (by rw [hf, recovered_log, h2, logText_append])
    exact ⟨_, .cons h1 h3, by rw [sessions, h4, List.append_assoc]⟩

omit [LawfulFloat F] in
theorem survives_mem {l : List (Session F)} {rs : List (Json F)} (h : Survives l rs) : ∀ j ∈ rs, ∃ a ∈ l, j ∈ a.recs := by
  induction h with
  | nil => intro j hj; cases hj
  | @cons a l k rs _ _ ih =>
    intro j hj
    rcases List.mem_append.1 hj with hj | hj
    · exact ⟨a, List.mem_cons_self, List.mem_of_mem_take hj⟩
    · obtain ⟨b, hb, h⟩ := ih j hj
      exact ⟨b, List.mem_cons_of_mem _ hb, h⟩

/-- **C95, many crashes.** Runs of a writer that cuts off the unfinished line it finds and appends its records, each crashing at any point: in the end exactly those records of every run are read, in order, whose newline has reached the disk. -/
theorem C95_sessions (l : List (Session F)) (hl : ∀ a ∈ l, ∀ j ∈ a.recs, Printable j) :
    ∃ rs, Survives l rs ∧ AllTwo SameDoc (readLog (recovered (sessions [] l)) : List (Json F)) rs := by
  obtain ⟨rs, h1, h2⟩ := sessions_from l hl [] [] rfl
  rw [List.nil_append] at h2
  refine ⟨rs, h1, h2 ▸ readLog_whole rs (fun j hj => ?_)⟩
  obtain ⟨a, ha, hm⟩ := survives_mem h1 j hj
  exact hl a ha j hm

/-- A log of two records, cut inside the second, and cut just before its newline. -/
def sampleLog : List (Json F64) := [.array [.null], .object [("a".toList, (.string "x\ny".toList, []))]]

example : String.ofList (logText sampleLog) = "[null]\n{\"a\": \"x\\ny\"}\n" := by decide +kernel
example : (∀ j ∈ sampleLog, Printable j) ∧ (∀ j ∈ sampleLog, ∀ f, j ≠ .number f) := by
  refine ⟨fun j hj => ?_, fun j hj f => ?_⟩ <;>
    (simp only [sampleLog, List.mem_cons, List.not_mem_nil, or_false] at hj; rcases hj with rfl | rfl)
  · exact ⟨by simp [WF, WFList], by simp [AllNum, AllNumList], by simp [AllStr, AllStrList]⟩
  · exact ⟨by simp [WF, WFMap, WFList], by simp [AllNum, AllNumMap, AllNumList], by simp [AllStr, AllStrMap, AllStrList, Balanced]; decide⟩
  · exact fun h => nomatch h
  · exact fun h => nomatch h
example : Whole sampleLog 15 1 ∧ Whole sampleLog 20 2 ∧ Ended sampleLog 20 1 ∧ Ended sampleLog 21 2 := by
  refine ⟨⟨by decide, ?_, fun _ => ?_⟩, ⟨by decide, ?_, fun h => absurd h (by decide)⟩, ⟨by decide, ?_, fun _ => ?_⟩, ⟨by decide, ?_, fun h => absurd h (by decide)⟩⟩ <;> decide +kernel
example : (readLog ((logText sampleLog).take 15) : List (Json F64)).length = 1 ∧ (readLog ((logText sampleLog).take 20) : List (Json F64)).length = 2 ∧
    (readLog (recovered (sessions [] [⟨sampleLog, 20⟩, ⟨sampleLog, 100⟩])) : List (Json F64)).length = 3 := by decide +kernel

end RJ
