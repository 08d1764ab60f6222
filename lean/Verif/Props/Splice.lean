import Verif.Proof.Splice
import Verif.Props.Flatten
import Verif.Model.Ieee
/-
  C99: a change of one place is a change of one stretch of the text.
-/
namespace RJ
open Spec
variable {F : Type} [FloatOps F]

theorem commas_in {a l r b : Str} (P Q : Str) (h : Commas a l r b) : Commas (P ++ a) l r (b ++ Q) := by
  rcases h with ⟨h1, h2, p, q, h3⟩ | h | h
  · refine .inl ⟨h1, h2, P ++ p, q ++ Q, ?_⟩
    rcases h3 with ⟨rfl, rfl⟩ | ⟨rfl, rfl⟩
    · exact .inl ⟨by simp, by simp⟩
    · exact .inr ⟨by simp, by simp⟩
  · exact .inr (.inl h)
  · exact .inr (.inr h)

theorem entry_alone (k : Str) (v : Json F) : entryText (k, (v, [])) = label (.key k) ++ v.toString := by
  simp [entryText, printEntry, label]

theorem same_text {a b : Json F} (ha : WF a) (hb : WF b) (h : absJ a = absJ b) : a.toString = b.toString := C04_order_independent a b ha hb h

theorem get_wf {s : Str} {fs : List Finder} (hs : PathText s fs) (j x : Json F) (hw : WF j) (h : j.get s = .ok x) : WF x := by
  obtain ⟨h0, p, hp, rfl⟩ := parsePath_of_text hs
  rw [get_of_text j h0 hp] at h
  exact Path.wf_find p j x hw h

/-- One item out of a container. -/
theorem item_out (f : Finder) (c : Json F) (hc : WF c) (x : Val F) (hx : look [f] (absJ c) = some x) (hs : Sole [f] (absJ c)) :
    ∃ (c' v : Json F) (a b l r : Str), WF c' ∧ absJ c' = delV [f] (absJ c) ∧ WF v ∧ absJ v = x ∧ Commas a l r b ∧ c'.toString = a ++ b ∧ c.toString = a ++ (l ++ (label f ++ v.toString) ++ r) ++ b := by
  cases f with
  | key k =>
    cases c with
    | object m =>
      simp only [absJ, look] at hx
      cases e : (absMap m k).getLast? with
      | none => rw [e] at hx; cases hx
      | some w =>
        rw [e] at hx; cases hx
        obtain ⟨v, l, hm, rfl⟩ := absMap_last m k _ e
        obtain ⟨hn, hw⟩ := hc
        have hw' := (WFMap_iff m).1 hw
        have hl : l = [] := by
          have := hs [] k (absMap m) rfl rfl
          rw [absMap_of_mem hn hm] at this
          simp only [List.length_append, List.length_reverse, List.length_cons, List.length_nil, absList_map, List.length_map] at this
          exact List.length_eq_zero_iff.1 (by omega)
        subst hl
        obtain ⟨m1, m2, em⟩ := List.append_of_mem hm
        obtain ⟨hp, ha⟩ := absMap_front em hn
        obtain ⟨a, b, l, r, h1, h2, h3⟩ := object_insert k (m1 ++ m2)
        have hn' := (hp.map (·.1)).nodup_iff.2 hn
        have hwf : WF (.object ((k, (v, [])) :: (m1 ++ m2))) := ⟨by simpa using hn', (WFMap_iff _).2 fun k' v' l' h => hw' k' v' l' (hp.subset h)⟩
        refine ⟨.object (m1 ++ m2), v, a, b, l, r, ⟨by simpa using (List.nodup_cons.1 hn').2, (WFMap_iff _).2 fun k' v' l' h => hw' k' v' l' (hp.subset (List.mem_cons_of_mem _ h))⟩,
          by simp only [absJ, delV, ha], (hw' k v [] hm).1, rfl, h1, h2, ?_⟩
        rw [same_text (a := .object m) ⟨hn, hw⟩ hwf ?_, h3, entry_alone]
        simp only [absJ]
        congr 1
        funext q
        simp only [absMap]
        by_cases hq : k = q
        · subst hq; rw [if_pos rfl, absMap_of_mem hn hm]
        · rw [if_neg hq, ha, upd_off _ _ _ _ (fun e => hq e.symm)]
    | _ => cases hx
  | index i =>
    cases c with
    | array l =>
      simp only [absJ, look, absList_map, List.getElem?_map] at hx
      cases e : l[i]? with
      | none => rw [e] at hx; cases hx
      | some w =>
        rw [e] at hx; cases hx
        have hw : ∀ x ∈ l, WF x := (WFList_iff l).1 hc
        have hl : l = l.take i ++ w :: l.drop (i + 1) := by
          rw [← (List.getElem?_eq_some_iff.1 e).2, List.getElem_cons_drop, List.take_append_drop]
        obtain ⟨a, b, p, q, h1, h2, h3⟩ := array_insert (l.take i) (l.drop (i + 1))
        refine ⟨.array (l.take i ++ l.drop (i + 1)), w, a, b, p, q, (WFList_iff _).2 fun z hz => ?_, ?_, hw w (List.mem_of_getElem? e), rfl, h1, h2, ?_⟩
        · rcases List.mem_append.1 hz with hz | hz
          · exact hw z (List.mem_of_mem_take hz)
          · exact hw z (List.mem_of_mem_drop hz)
        · simp only [absJ, delV, absList_map, List.map_append, List.map_take, List.map_drop]
        · have := h3 w
          rw [← hl] at this
          rw [this]; simp [label]
    | _ => cases hx

/-- One more item in a container. -/
theorem item_in (f : Finder) (c : Json F) (hc : WF c) (hf : Fresh [f] (absJ c)) :
    ∃ (a b l r : Str), Commas a l r b ∧ c.toString = a ++ b ∧
      ∀ v, WF v → ∃ c' : Json F, WF c' ∧ absJ c' = setV [f] (absJ v) (absJ c) ∧ c'.toString = a ++ (l ++ (label f ++ v.toString) ++ r) ++ b := by
  rcases hf with ⟨pre, k, m', h1, h2, h3⟩ | ⟨pre, l', h1, h2⟩
  · obtain ⟨rfl, rfl⟩ : pre = [] ∧ f = .key k := by cases pre with | nil => cases h1; exact ⟨rfl, rfl⟩ | cons a t => simp at h1
    cases c with
    | object m =>
      cases h2
      obtain ⟨hn, hw⟩ := hc
      have hk := absMap_eq_nil.1 h3
      obtain ⟨a, b, l, r, h4, h5, h6⟩ := object_insert k m
      refine ⟨a, b, l, r, h4, h5, fun v hv => ⟨.object ((k, (v, [])) :: m), ⟨by simpa using ⟨by simpa using hk, hn⟩, (WFMap_iff _).2 fun k' v' l' h => ?_⟩, ?_, ?_⟩⟩
      · rcases List.mem_cons.1 h with e | h
        · cases e; exact ⟨hv, by simp⟩
        · exact (WFMap_iff m).1 hw k' v' l' h
      · simp only [absJ, setV]
        congr 1
        funext q
        simp only [absMap, upd]
        by_cases hq : k = q
        · rw [if_pos hq, if_pos hq.symm]; simp [absList]
        · rw [if_neg hq, if_neg (fun e => hq e.symm)]
      · rw [h6, entry_alone]
    | _ => cases h2
  · obtain ⟨rfl, rfl⟩ : pre = [] ∧ f = .index l'.length := by cases pre with | nil => cases h1; exact ⟨rfl, rfl⟩ | cons a t => simp at h1
    cases c with
    | array l0 =>
      cases h2
      obtain ⟨a, b, l, r, h4, h5, h6⟩ := array_insert l0 []
      refine ⟨a, b, l, r, h4, by simpa using h5, fun v hv => ⟨.array (l0 ++ [v]), (WFList_iff _).2 fun x hx => ?_, ?_, ?_⟩⟩
      · rcases List.mem_append.1 hx with hx | hx
        · exact (WFList_iff l0).1 hc x hx
        · simp at hx; subst hx; exact hv
      · simp only [absJ, setV, setElem, absList_map, List.map_append, List.map_cons, List.map_nil, List.length_map]
        rw [List.take_of_length_le (by simp), List.drop_of_length_le (by simp)]
        simp
      · rw [h6]; simp [label]
    | _ => cases h2

theorem sole_last {pre : List Finder} {f : Finder} {d c : Val F} (h : look pre d = some c) (hs : Sole (pre ++ [f]) d) : Sole [f] c := by
  intro p k m e hm
  cases p with
  | nil => cases e; cases hm; exact hs pre k m rfl h
  | cons a t => simp at e

theorem fresh_last {pre : List Finder} {f : Finder} {d : Val F} (hs : Fresh (pre ++ [f]) d) : ∃ c, look pre d = some c ∧ Fresh [f] c := by
  rcases hs with ⟨p, k, m, e, h, hm⟩ | ⟨p, l, e, h⟩
  · obtain ⟨rfl, h2⟩ := List.append_inj' e rfl
    cases h2; exact ⟨_, h, .inl ⟨[], k, m, rfl, rfl, hm⟩⟩
  · obtain ⟨rfl, h2⟩ := List.append_inj' e rfl
    cases h2; exact ⟨_, h, .inr ⟨[], l, rfl, rfl⟩⟩

theorem look_parent {pre : List Finder} {f : Finder} {d b : Val F} (h : look (pre ++ [f]) d = some b) : ∃ c, look pre d = some c ∧ look [f] c = some b := by
  cases e : look pre d with
  | none => rw [look_append_none _ _ _ e] at h; cases h
  | some c => rw [look_append _ _ _ _ e] at h; exact ⟨c, rfl, h⟩

/-- C99, another value.  The text of a document contains, as one stretch, the text of the value at any place; setting the place replaces this stretch by the text of the new value and
leaves all other characters as they are (a key given twice would lose its older values: hence `Sole`). -/
theorem C99_set (lim : Nat) (s : Str) (fs : List Finder) (hs : PathText s fs) (j x : Json F) (hw : WF j) (h : j.get s = .ok x) (hq : Sole fs (absJ j)) :
    ∃ pre post, j.toString = pre ++ x.toString ++ post ∧ ∀ v, WF v → ∃ j' r, j.set lim s v = (j', .ok r) ∧ j'.toString = pre ++ v.toString ++ post := by
  have hl := get_look hs j x h
  obtain ⟨y, pre, post, f, h1, h2, h3, h4⟩ := focus fs j hw _ hl
  refine ⟨pre, post, by rw [h3, same_text h2 (get_wf hs j x hw h) h1], fun v hv => ?_⟩
  obtain ⟨j', r, h5⟩ := (set_room lim hs j v).mpr (room_there lim _ _ _ hl)
  obtain ⟨h6, h7, h8⟩ := h4 v hv
  have w : WF j' := by have := C23_set_wf lim s j v hw hv; rw [h5] at this; exact this
  refine ⟨j', r, h5, ?_⟩
  rw [← h8]
  exact same_text w h6 (by rw [C23_set_document lim s fs hs _ _ _ _ h5, h7, plug_sole fs _ _ _ hl hq])

/-- C99, one more value.  Setting a new key of an object, or the next element of an array, puts one stretch into the text: the value after its key, with one comma before or after it unless
the container was empty.  Where it goes does not depend on the value. -/
theorem C99_add (s : Str) (p : List Finder) (f : Finder) (hs : PathText s (p ++ [f])) (j : Json F) (hw : WF j) (hf : Fresh (p ++ [f]) (absJ j)) :
    ∃ a b l r, Commas a l r b ∧ j.toString = a ++ b ∧
      ∀ lim v j' ref, WF v → j.set lim s v = (j', .ok ref) → j'.toString = a ++ (l ++ (label f ++ v.toString) ++ r) ++ b := by
  obtain ⟨c, hc, hf'⟩ := fresh_last hf
  obtain ⟨y, pre, post, g, h1, h2, h3, h4⟩ := focus p j hw _ hc
  rw [← h1] at hf'
  obtain ⟨a, b, l, r, h5, h6, h7⟩ := item_in f y h2 hf'
  refine ⟨pre ++ a, b ++ post, l, r, commas_in pre post h5, by rw [h3, h6]; simp, fun lim v j' ref hv h8 => ?_⟩
  obtain ⟨c', h9, h10, h11⟩ := h7 v hv
  obtain ⟨h12, h13, h14⟩ := h4 c' h9
  have w : WF j' := by have := C23_set_wf lim s j v hw hv; rw [h8] at this; exact this
  rw [same_text w h12 (by rw [C23_set_document lim s _ hs _ _ _ _ h8, h13, h10, h1, plug_set p [f] (by simp) _ _ _ hc]), h14, h11]
  simp

/-- C99, one value less.  Deleting takes one stretch out of the text: the value with its key, and one comma unless the container is left empty. -/
theorem C99_del (s : Str) (p : List Finder) (f : Finder) (hs : PathText s (p ++ [f])) (j x : Json F) (hw : WF j) (h : j.get s = .ok x) (hq : Sole (p ++ [f]) (absJ j)) :
    ∃ a b l r, Commas a l r b ∧ j.toString = a ++ (l ++ (label f ++ x.toString) ++ r) ++ b ∧ (j.del s).1.toString = a ++ b := by
  have hl := get_look hs j x h
  obtain ⟨c, hc, hx⟩ := look_parent hl
  obtain ⟨y, pre, post, g, h1, h2, h3, h4⟩ := focus p j hw _ hc
  obtain ⟨c', v, a, b, l, r, h5, h6, h7, h8, h9, h10, h11⟩ := item_out f y h2 (absJ x) (by rw [h1]; exact hx) (by rw [h1]; exact sole_last hc hq)
  obtain ⟨h12, h13, h14⟩ := h4 c' h5
  obtain ⟨_, d2, d3⟩ := C24_del s _ hs j x hw h
  refine ⟨pre ++ a, b ++ post, l, r, commas_in pre post h9, ?_, ?_⟩
  · rw [h3, h11, same_text h7 (get_wf hs j x hw h) h8]; simp
  · rw [same_text d3 h12 (by rw [d2, h13, h6, h1, plug_del p f _ _ hc]), h14, h10]; simp

/-- C99, on texts.  For a text as `to_string` writes it, `json::set` at a place that is there replaces one stretch, and `json::del` takes one out. -/
theorem C99_text (lim : Nat) (t : Ty) (s path : Str) (p : List Finder) (f : Finder) (hp : PathText path (p ++ [f])) (j x : Json F) (hj : Json.parse s = .ok j) (hs : s = j.toString)
    (h : j.get path = .ok x) (hq : Sole (p ++ [f]) (absJ j)) :
    (∃ pre post, s = pre ++ x.toString ++ post ∧ ∀ v : t.T F, WF (t.enc v) → setText lim t s path v = .ok (pre ++ encodeText t v ++ post)) ∧
    (∃ a b l r, Commas a l r b ∧ s = a ++ (l ++ (label f ++ x.toString) ++ r) ++ b ∧ delText F s path = .ok (a ++ b)) := by
  have hw : WF j := (C14_parse_well_formed s j hj).2
  constructor
  · obtain ⟨pre, post, h1, h2⟩ := C99_set lim path _ hp j x hw h hq
    refine ⟨pre, post, by rw [hs, h1], fun v hv => ?_⟩
    obtain ⟨j', r, h3, h4⟩ := h2 _ hv
    simp only [setText, hj, h3, h4, encodeText]
  · obtain ⟨a, b, l, r, h1, h2, h3⟩ := C99_del path p f hp j x hw h hq
    refine ⟨a, b, l, r, h1, by rw [hs, h2], ?_⟩
    have e : j.del path = ((j.del path).1, .ok x) := Prod.ext rfl (C24_del path _ hp j x hw h).1
    rw [delText, hj]
    dsimp only
    rw [e]
    dsimp only
    rw [h3]

section examples

private def shelf : Json F64 := .object [("b".toList, (.boolean true, [])), ("a".toList, (.array [.null, .string "x".toList], []))]

private theorem path_of (fs : List Finder) (s : Str) (hw : Writable fs) (he : writePath fs = s) : PathText s fs := by
  rw [← he]; exact C26_expressible fs hw

-- the conditions of the theorems for `a.#1`, `c`, `a.#2` and `b`
example : PathText "a.#1".toList [.key "a".toList, .index 1] ∧ PathText "c".toList ([] ++ [.key "c".toList]) ∧ PathText "a.#2".toList ([.key "a".toList] ++ [.index 2]) ∧
    PathText "b".toList ([] ++ [.key "b".toList]) :=
  ⟨path_of _ _ (by simp [Writable]) (by decide +kernel), path_of _ _ (by simp [Writable]) (by decide +kernel), path_of _ _ (by simp [Writable]) (by decide +kernel), path_of _ _ (by simp [Writable]) (by decide +kernel)⟩
example : WF shelf ∧ shelf.get "a.#1".toList = .ok (.string "x".toList : Json F64) ∧ shelf.get "b".toList = .ok (.boolean true : Json F64) := ⟨by simp [shelf, WF, WFMap, WFList], rfl, rfl⟩
example : Fresh ([] ++ [.key "c".toList]) (absJ shelf) ∧ Fresh ([.key "a".toList] ++ [.index 2]) (absJ shelf) :=
  ⟨.inl ⟨[], "c".toList, _, rfl, rfl, rfl⟩, .inr ⟨[.key "a".toList], _, rfl, rfl⟩⟩
example : Sole [.key "a".toList, .index 1] (absJ shelf) ∧ Sole ([] ++ [.key "b".toList]) (absJ shelf) := by
  constructor
  · intro pre k m h; exact absurd (congrArg List.getLast? h) (by simp)
  · intro pre k m h hm
    obtain ⟨rfl, h2⟩ := List.append_inj' h rfl
    cases h2; cases hm
    show (absMap _ "b".toList).length ≤ 1
    decide
-- what happens to the text
example : shelf.toString = "{\"a\": [null, \"x\"], \"b\": true}".toList ∧
    (shelf.set 9 "a.#1".toList (.array [])).1.toString = "{\"a\": [null, []], \"b\": true}".toList ∧
    (shelf.set 9 "a.#2".toList .null).1.toString = "{\"a\": [null, \"x\", null], \"b\": true}".toList ∧
    (shelf.set 9 "aa".toList .null).1.toString = "{\"a\": [null, \"x\"], \"aa\": null, \"b\": true}".toList ∧
    (shelf.del "b".toList).1.toString = "{\"a\": [null, \"x\"]}".toList := by decide +kernel

end examples

end RJ
