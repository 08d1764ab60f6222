import Verif.Model.TextHistory
import Verif.Props.Laws
import Verif.Props.Convert
import Verif.Props.Exact
/-
  C72: histories of the functions on texts.
-/
namespace RJ
open Spec
variable {F : Type} [FloatOps F] [LawfulFloat F]

theorem same_printable (j j' : Json F) (h : absJ j = absJ j') (hj : Printable j) (s : Str) (hs : Json.parse s = .ok j') : Printable j' := by
  obtain ⟨hw, hf, hb⟩ := hj
  obtain ⟨hf', hw'⟩ := C14_parse_well_formed s j' hs
  refine ⟨hw', hf', ?_⟩
  have h1 := ((C01_round_trip_iff j hf hw).1).mpr (nested_of_all _ hb)
  rw [C04_order_independent j j' hw hw' h] at h1
  have h2 := ((C01_round_trip_iff j' hf' hw').1).mp h1
  cases j' with
  | string t =>
    cases j with
    | string t' => cases h; exact hb
    | _ => cases h
  | _ => exact h2

/-- One call on two documents that differ in hash order only. -/
theorem step_same (lim : Nat) (c : Call F) (j j' : Json F) (hw : WF j) (hw' : WF j') (hc : c.WF) (h : absJ j = absJ j') :
    (Call.run lim c j).2 = (Call.run lim c j').2 ∧ ((Call.run lim c j).2 ≠ .panic → absJ (Call.run lim c j).1 = absJ (Call.run lim c j').1) := by
  obtain ⟨⟨d, h1, h2⟩, _⟩ := run_step lim c j hw hc
  obtain ⟨⟨d', h1', h2'⟩, _⟩ := run_step lim c j' hw' hc
  rw [h] at h1
  obtain ⟨e1, e2⟩ := step_unique h1 h1'
  exact ⟨e2, fun hp => by rw [← h2 hp, e1, h2' (by rw [← e2]; exact hp)]⟩

theorem call_wf {c : TextCall F} (h : c.Printable) : c.call.WF := by
  cases c with
  | set s v => exact h.1.1
  | _ => trivial

/-- A call keeps the document printable. -/
theorem call_printable (lim : Nat) (c : TextCall F) (hc : c.Printable) (j : Json F) (hj : Printable j) : Printable (Call.run lim c.call j).1 := by
  obtain ⟨hw, hf, hb⟩ := hj
  refine ⟨(run_step lim c.call j hw (call_wf hc)).2, ?_⟩
  cases c with
  | get s => exact ⟨hf, hb⟩
  | del s =>
    show AllNum _ (j.del s).1 ∧ AllStr _ (j.del s).1
    unfold Json.del
    split
    · exact ⟨hf, hb⟩
    · cases parsePath s with
      | error e => exact ⟨hf, hb⟩
      | ok p => exact ⟨(parts_num _).path_discard p j hf, (parts_str _).path_discard p j hb⟩
  | set s v =>
    show AllNum _ (j.set lim s v).1 ∧ AllStr _ (j.set lim s v).1
    obtain ⟨⟨_, hvf, hvb⟩, hk⟩ := hc
    by_cases ht : ∃ fs, PathText s fs
    · obtain ⟨fs, ht⟩ := ht
      obtain ⟨h0, p, hp, rfl⟩ := parsePath_of_text ht
      rw [set_of_text lim j v h0 hp]
      exact ⟨(parts_num _).path_update lim p j v (fun _ _ => trivial) hf hvf, (parts_str _).path_update lim p j v (fun k hm => hk _ k ht hm) hb hvb⟩
    · obtain ⟨e, _, _, _, h⟩ := bad_path lim s ht j v
      rw [h]; exact ⟨hf, hb⟩

/-- One call: what is seen, and the new text - the old one, or the printed document. -/
theorem text_step (lim : Nat) (c : TextCall F) (s : Str) (j : Json F) (hs : Json.parse s = .ok j) :
    (TextCall.run lim c s).2 = c.seen (Call.run lim c.call j).2 ∧
    ((TextCall.run lim c s).1 = s ∧ ((Call.run lim c.call j).2 ≠ .panic → (Call.run lim c.call j).1 = j) ∨ (TextCall.run lim c s).1 = (Call.run lim c.call j).1.toString) := by
  cases c with
  | get p =>
    refine ⟨?_, .inl ⟨rfl, fun _ => rfl⟩⟩
    show sawValue (getText .json s p) = sawValue (j.get p)
    unfold getText
    rw [hs]
    dsimp only
    cases j.get p <;> rfl
  | del p =>
    have h2 := C25_del p j
    show (match delText F s p with | .ok s' => (s', Saw.ok) | .error e => (s, Saw.error e) : Str × Saw F).2 = TextCall.seen (.del p) (sawValue (j.del p).2) ∧
      ((match delText F s p with | .ok s' => (s', Saw.ok) | .error e => (s, Saw.error e) : Str × Saw F).1 = s ∧ ((_ : Saw F) ≠ .panic → (j.del p).1 = j) ∨
       (match delText F s p with | .ok s' => (s', Saw.ok) | .error e => (s, Saw.error e) : Str × Saw F).1 = (j.del p).1.toString)
    unfold delText
    rw [hs]
    dsimp only
    cases hd : j.del p with
    | mk a b =>
      rw [hd] at h2
      cases b with
      | ok x => exact ⟨rfl, .inr rfl⟩
      | error e => exact ⟨rfl, .inl ⟨rfl, fun _ => h2.2 e h2.1.symm⟩⟩
  | set p v =>
    show (match setText lim .json s p v with | .ok s' => (s', Saw.ok) | .err e => (s, Saw.error e) | .panic => (s, .panic) : Str × Saw F).2
        = TextCall.seen (.set p v) (match (j.set lim p v).2 with | .ok r => .value (absJ r.val) | .err e => .error e | .panic => .panic) ∧
      ((match setText lim .json s p v with | .ok s' => (s', Saw.ok) | .err e => (s, Saw.error e) | .panic => (s, .panic) : Str × Saw F).1 = s ∧
        ((match (j.set lim p v).2 with | .ok r => .value (absJ r.val) | .err e => .error e | .panic => .panic : Saw F) ≠ .panic → (j.set lim p v).1 = j) ∨
       (match setText lim .json s p v with | .ok s' => (s', Saw.ok) | .err e => (s, Saw.error e) | .panic => (s, .panic) : Str × Saw F).1 = (j.set lim p v).1.toString)
    have e0 : setText lim .json s p v = match j.set lim p v with | (js, .ok _) => .ok js.toString | (_, .err e) => .err e | (_, .panic) => .panic := by
      unfold setText; rw [hs]; rfl
    rw [e0]
    by_cases ht : ∃ fs, PathText p fs
    · cases hd : j.set lim p v with
      | mk a b =>
        cases b with
        | ok x => exact ⟨rfl, .inr rfl⟩
        | panic => exact ⟨rfl, .inl ⟨rfl, fun h => absurd rfl h⟩⟩
        | err e =>
          obtain ⟨fs, ht⟩ := ht
          obtain ⟨h0, q, hq, rfl⟩ := parsePath_of_text ht
          rw [set_of_text lim j v h0 hq] at hd
          rcases path_room lim q j v with ⟨_, j', r, h⟩ | ⟨_, j', h⟩ <;> rw [h] at hd <;> exact nomatch congrArg Prod.snd hd
    · obtain ⟨e, _, _, _, h⟩ := bad_path lim p ht j v
      rw [h]
      exact ⟨rfl, .inl ⟨rfl, fun _ => rfl⟩⟩

theorem runAll_cons (lim : Nat) (c : Call F) (cs : List (Call F)) (j : Json F) :
    ((Call.run lim c j).2 = .panic → runAll lim (c :: cs) j = ([.panic], none)) ∧
    ((Call.run lim c j).2 ≠ .panic → runAll lim (c :: cs) j = ((Call.run lim c j).2 :: (runAll lim cs (Call.run lim c j).1).1, (runAll lim cs (Call.run lim c j).1).2)) := by
  rw [runAll]
  cases hr : Call.run lim c j with
  | mk a b => cases b <;> simp

theorem runTexts_cons (lim : Nat) (c : TextCall F) (cs : List (TextCall F)) (s : Str) :
    ((TextCall.run lim c s).2 = .panic → runTexts lim (c :: cs) s = ([.panic], none)) ∧
    ((TextCall.run lim c s).2 ≠ .panic → runTexts lim (c :: cs) s = ((TextCall.run lim c s).2 :: (runTexts lim cs (TextCall.run lim c s).1).1, (runTexts lim cs (TextCall.run lim c s).1).2)) := by
  rw [runTexts]
  cases hr : TextCall.run lim c s with
  | mk a b => cases b <;> simp

theorem seen_panic (c : TextCall F) (o : Saw F) : c.seen o = .panic ↔ o = .panic := by
  cases c <;> cases o <;> simp [TextCall.seen]

/-- One call on the text `s` of a document `j0` and on a document `j` with the same content. -/
theorem text_step_same (lim : Nat) (c : TextCall F) (hc : c.Printable) (s : Str) (j0 j : Json F) (hs : Json.parse s = .ok j0) (hj : Printable j) (h : absJ j = absJ j0) :
    (TextCall.run lim c s).2 = c.seen (Call.run lim c.call j).2 ∧
    ((Call.run lim c.call j).2 ≠ .panic →
      (∃ j1, Json.parse (TextCall.run lim c s).1 = .ok j1 ∧ absJ (Call.run lim c.call j).1 = absJ j1) ∧
      (s = j.toString → (TextCall.run lim c s).1 = (Call.run lim c.call j).1.toString)) := by
  have p0 := same_printable j j0 h hj s hs
  obtain ⟨h1, h2⟩ := text_step lim c s j0 hs
  obtain ⟨h3, h4⟩ := step_same lim c.call j j0 hj.1 p0.1 (call_wf hc) h
  refine ⟨by rw [h1, h3], fun hp => ?_⟩
  have h4 := h4 hp
  have p1 := call_printable lim c hc j hj
  have p2 := call_printable lim c hc j0 p0
  rcases h2 with ⟨h5, h6⟩ | h5
  · have h6 := h6 (by rw [← h3]; exact hp)
    rw [h6] at h4
    rw [h5]
    refine ⟨⟨j0, hs, h4⟩, fun e => ?_⟩
    rw [e]
    exact C04_order_independent _ _ hj.1 p1.1 (by rw [h, h4])
  · obtain ⟨j1, h7, h8⟩ := C01_round_trip _ p2.2.1 p2.1 (nested_of_all _ p2.2.2)
    rw [h5]
    exact ⟨⟨j1, h7, by rw [h4, h8]⟩, fun _ => C04_order_independent _ _ p2.1 p1.1 h4.symm⟩

/-- C72.  A history of `json::get`, `json::set` and `json::del` on a text is the history of the same calls on the document: parsing and printing in between leave no trace.  Each call shows the same value,
error or panic; the final text has the final document as its meaning, and is its printed form if the first text was one. -/
theorem C72_text_history (lim : Nat) (cs : List (TextCall F)) (hc : ∀ c ∈ cs, c.Printable) (s : Str) (j0 j : Json F) (hs : Json.parse s = .ok j0) (hj : Printable j) (h : SameDoc j j0) :
    (runTexts lim cs s).1 = seenAll cs (runAll lim (cs.map TextCall.call) j).1 ∧
    ((runAll lim (cs.map TextCall.call) j).2 = none → (runTexts lim cs s).2 = none) ∧
    (∀ j', (runAll lim (cs.map TextCall.call) j).2 = some j' →
      Printable j' ∧ ∃ s' j1, (runTexts lim cs s).2 = some s' ∧ Json.parse s' = .ok j1 ∧ SameDoc j' j1 ∧ (s = j.toString → s' = j'.toString)) := by
  induction cs generalizing s j0 j with
  | nil =>
    refine ⟨rfl, ?_, ?_⟩
    · intro h; cases h
    · intro j' e; cases e; exact ⟨hj, s, j0, rfl, hs, h, id⟩
  | cons c cs ih =>
    have hc1 := hc c List.mem_cons_self
    obtain ⟨h1, h2⟩ := text_step_same lim c hc1 s j0 j hs hj h
    rw [List.map_cons]
    by_cases hp : (Call.run lim c.call j).2 = .panic
    · have hp' : (TextCall.run lim c s).2 = .panic := by rw [h1, seen_panic]; exact hp
      rw [(runAll_cons lim c.call _ j).1 hp, (runTexts_cons lim c cs s).1 hp']
      refine ⟨?_, fun _ => rfl, fun _ h => nomatch h⟩
      have := (seen_panic c .panic).mpr rfl
      simp only [seenAll, this]
    · have hp' : (TextCall.run lim c s).2 ≠ .panic := by rw [h1, Ne, seen_panic]; exact hp
      obtain ⟨⟨j1, h3, h4⟩, h5⟩ := h2 hp
      obtain ⟨i1, i2, i3⟩ := ih (fun c h => hc c (List.mem_cons_of_mem _ h)) _ j1 _ h3 (call_printable lim c hc1 j hj) h4
      rw [(runAll_cons lim c.call _ j).2 hp, (runTexts_cons lim c cs s).2 hp']
      refine ⟨?_, i2, fun j' e => ?_⟩
      · simp only [seenAll]
        rw [h1, i1]
      · obtain ⟨k1, s', j2, k2, k3, k4, k5⟩ := i3 j' e
        exact ⟨k1, s', j2, k2, k3, k4, fun e => k5 (h5 e)⟩

section examples

/-- `{"a":[null]}` -/
private def doc : Json F := .object [("a".toList, (.array [.null], []))]

private def calls : List (TextCall F) := [.get "a.#0".toList, .set "a.#2".toList (.string "[]".toList), .set "#x".toList .null, .del "a.#0".toList, .get "b".toList]

omit [LawfulFloat F] in
private theorem doc_printable : Printable (doc : Json F) := by
  refine ⟨by simp [doc, WF, WFMap, WFList], by simp [doc, AllNum, AllNumMap, AllNumList], ?_⟩
  simp only [doc, AllStr, AllStrMap, AllStrList, and_true]
  show bracketNet "a".toList = 0
  decide

-- the hypotheses of C72 for a document and its printed form
example : ∃ j0 : Json F, Json.parse (doc : Json F).toString = .ok j0 ∧ SameDoc doc j0 := by
  obtain ⟨j0, h1, h2⟩ := C01_round_trip (doc : Json F) doc_printable.2.1 doc_printable.1 (nested_of_all _ doc_printable.2.2)
  exact ⟨j0, h1, h2.symm⟩
example : TextCall.Printable (.set "a.#2".toList (.string "[]".toList) : TextCall F) := by
  refine ⟨⟨trivial, trivial, show bracketNet _ = 0 by decide⟩, fun fs k h1 h2 => ?_⟩
  have : PathText "a.#2".toList [.key "a".toList, .index 2] := by
    have := C26_expressible [.key "a".toList, .index 2] (by simp [Writable])
    have he : writePath [.key "a".toList, .index 2] = "a.#2".toList := by decide
    rw [← he]; exact this
  rw [C27_unambiguous _ _ _ h1 this] at h2
  simp only [List.mem_cons, reduceCtorEq, List.not_mem_nil, or_false, Finder.key.injEq] at h2
  subst h2
  show bracketNet _ = 0
  decide
-- what the document shows, to which C72 relates the texts: a value, ok, an error, ok, an error
example : (runAll 10 (calls.map TextCall.call) (doc : Json F)).1.length = 5 := rfl
example : seenAll calls (runAll 10 (calls.map TextCall.call) (doc : Json F)).1 =
    [.value .null, .ok, .error ⟨.PathSyntaxError, "error parsing \"x\" to usize.".toList⟩, .ok, .error ⟨.MissingKey, "missing key \"b\".".toList⟩] := rfl

end examples

end RJ
