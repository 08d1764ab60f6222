import Verif.Proof.History
import Verif.Props.Print
/-
  C70: histories of API calls.
-/
namespace RJ
open Spec
variable {F : Type}

/-- C70.  Whatever calls are made on a document, in whatever order and to whatever depth, up to a possible panic: what the caller sees of each call (values, full errors, panics) and the document in the end
are those of the specification, which knows nothing of the order in the hash maps. -/
theorem C70_history (lim : Nat) (cs : List (Call F)) (j : Json F) (hw : WF j) (hc : ∀ c ∈ cs, c.WF) :
    History lim cs (absJ j) (runAll lim cs j).1 ((runAll lim cs j).2.map absJ) ∧ ∀ j', (runAll lim cs j).2 = some j' → WF j' := by
  induction cs generalizing j with
  | nil => exact ⟨.nil, fun j' h => by cases h; exact hw⟩
  | cons c cs ih =>
    obtain ⟨⟨d', h1, h2⟩, h3⟩ := run_step lim c j hw (hc c List.mem_cons_self)
    obtain ⟨h4, h5⟩ := ih (Call.run lim c j).1 h3 (fun c h => hc c (List.mem_cons_of_mem _ h))
    by_cases hp : (Call.run lim c j).2 = .panic
    · have e : runAll lim (c :: cs) j = ([.panic], none) := by
        rw [runAll]
        cases hr : Call.run lim c j with
        | mk a b => rw [hr] at hp; subst hp; rfl
      rw [e]
      rw [hp] at h1
      exact ⟨.panic h1, fun j' h => by cases h⟩
    · have e : runAll lim (c :: cs) j = ((Call.run lim c j).2 :: (runAll lim cs (Call.run lim c j).1).1, (runAll lim cs (Call.run lim c j).1).2) := by
        rw [runAll]
        cases hr : Call.run lim c j with
        | mk a b =>
          rw [hr] at hp
          cases b <;> first | rfl | exact absurd rfl hp
      rw [e]
      have := h2 hp
      subst this
      exact ⟨.step h1 hp h4, h5⟩

/-- C70.  The specification determines all of it. -/
theorem C70_deterministic (lim : Nat) (cs : List (Call F)) (d : Val F) (os os' : List (Saw F)) (r r' : Option (Val F))
    (h : History lim cs d os r) (h' : History lim cs d os' r') : os = os' ∧ r = r' := history_unique h h'

/-- C70.  Hash order cannot be observed: two documents that differ only in the order of their hash maps give the same answers to every history of calls, end (or panic) alike, and print alike. -/
theorem C70_hash_order [FloatOps F] (lim : Nat) (cs : List (Call F)) (j j' : Json F) (hw : WF j) (hw' : WF j') (hc : ∀ c ∈ cs, c.WF) (h : absJ j = absJ j') :
    (runAll lim cs j).1 = (runAll lim cs j').1 ∧ (runAll lim cs j).2.map absJ = (runAll lim cs j').2.map absJ ∧
    (runAll lim cs j).2.map Json.toString = (runAll lim cs j').2.map Json.toString := by
  obtain ⟨h1, h2⟩ := C70_history lim cs j hw hc
  obtain ⟨h1', h2'⟩ := C70_history lim cs j' hw' hc
  rw [h] at h1
  obtain ⟨e1, e2⟩ := history_unique h1 h1'
  refine ⟨e1, e2, ?_⟩
  cases h3 : (runAll lim cs j).2 with
  | none =>
    rw [h3] at e2
    cases h4 : (runAll lim cs j').2 with
    | none => rfl
    | some y => rw [h4] at e2; cases e2
  | some x =>
    rw [h3] at e2
    cases h4 : (runAll lim cs j').2 with
    | none => rw [h4] at e2; cases e2
    | some y =>
      rw [h4] at e2
      simp only [Option.map_some, Option.some.injEq] at e2 ⊢
      exact C04_order_independent x y (h2 x h3) (h2' y h4) e2

/-- A history: `set("a.#1", true)`, `js["a"].push(null)`, `find_mut("b")?.push(null)` fails, `append("b", null)`, `del("a.#0")`, `index_and_merge("b")`, `js["z"]` panics. -/
def sampleCalls : List (Call Nat) :=
  [.set (.text "a.#1".toList) (.boolean true), .index (.key "a".toList) [] (.push .null), .via (.key "b".toList) [] (.push .null), .direct (.append "b".toList .null),
   .del (.path (.key "a".toList) [.index 0]), .direct (.merge "b".toList), .index (.key "z".toList) [] .read, .get (.text "a".toList)]

example : (∀ c ∈ sampleCalls, c.WF) ∧ WF (.null : Json Nat) ∧ (runAll 100 sampleCalls .null).1.length = 7 ∧ (runAll 100 sampleCalls .null).2 = none := by
  refine ⟨?_, trivial, rfl, rfl⟩
  intro c hc
  simp only [sampleCalls, List.mem_cons, List.not_mem_nil, or_false] at hc
  rcases hc with rfl | rfl | rfl | rfl | rfl | rfl | rfl | rfl <;> trivial

example : (runAll 100 sampleCalls .null).1 = [.value (.bool true), .ok, .error ⟨.MissingKey, "missing key \"b\".".toList⟩, .ok, .value .null, .values [.null], .panic] := rfl

end RJ
