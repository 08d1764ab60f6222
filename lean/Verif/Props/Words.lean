import Verif.Props.Exact
import Verif.Props.Unique
/-
  C91: documents in which a scalar is misspelled; printed documents with NaN or infinities.
-/
set_option linter.unusedSectionVars false
namespace RJ
open Spec
variable {F : Type} [FloatOps F] [LawfulFloat F]

theorem trimWs_wordDoc (d : Doc) (hv : d.Wordy) : trimWs d.text = d.body.text := by
  unfold Doc.text
  rw [trimWs_around _ _ _ hv.1 hv.2.2, trimWs_words _ hv.2.1]

/-- **C91.** A document in which any words stand in place of numbers is accepted with the value `v` exactly if every word denotes
something, the document then denotes `v`, and it is plain (C08). -/
theorem C91_accepted_iff (d : Doc) (hv : d.Wordy) (v : Val F) :
    (∃ j : Json F, Json.parse d.text = .ok j ∧ absJ j = v) ↔ d.body.read = some v ∧ d.body.TopPlain := by
  rw [Json.parse, trimWs_wordDoc d hv]
  constructor
  · rintro ⟨j, h, rfl⟩
    exact exact_words hv.2.1 h
  · rintro ⟨h1, h2⟩
    exact complete_words d.body v hv.2.1 h2 h1

mutual
theorem words_cst : ∀ (x : Cst) (v : Val F), x.read = some v → ∀ w ∈ x.words, (wordVal w : Option (Val F)).isSome
  | .null, _, _, _, hw => by cases hw
  | .true, _, _, _, hw => by cases hw
  | .false, _, _, _, hw => by cases hw
  | .num n, v, h, w, hw => by
    rw [Cst.words, List.mem_singleton] at hw
    rw [hw, ← Cst.read, h]; rfl
  | .str _, _, _, _, hw => by cases hw
  | .arr0 _, _, _, _, hw => by cases hw
  | .obj0 _, _, _, _, hw => by cases hw
  | .arr es, v, h, w, hw => by
    rw [Cst.read, Option.map_eq_some_iff] at h
    obtain ⟨l, h, _⟩ := h
    exact words_elems es l h w hw
  | .obj ms, v, h, w, hw => by
    rw [Cst.read, Option.map_eq_some_iff] at h
    obtain ⟨l, h, _⟩ := h
    exact words_members ms l h w hw
theorem words_elems : ∀ (es : Elems) (l : List (Val F)), es.read = some l → ∀ w ∈ es.words, (wordVal w : Option (Val F)).isSome
  | .one _ x _, l, h, w, hw => by
    rw [Elems.read, Option.map_eq_some_iff] at h
    obtain ⟨v, h, _⟩ := h
    exact words_cst x v h w hw
  | .cons _ x _ t, l, h, w, hw => by
    rw [Elems.read] at h
    split at h
    · rename_i v l' h1 h2
      rw [Elems.words, List.mem_append] at hw
      rcases hw with hw | hw
      · exact words_cst x v h1 w hw
      · exact words_elems t l' h2 w hw
    · cases h
theorem words_members : ∀ (ms : Members) (l : List (Str × Val F)), ms.read = some l → ∀ w ∈ ms.words, (wordVal w : Option (Val F)).isSome
  | .one _ _ _ _ x _, l, h, w, hw => by
    rw [Members.read] at h
    split at h
    · rename_i v h1 h2
      exact words_cst x v h2 w hw
    · cases h
  | .cons _ _ _ _ x _ t, l, h, w, hw => by
    rw [Members.read] at h
    split at h
    · rename_i v l' h0 h1 h2
      rw [Members.words, List.mem_append] at hw
      rcases hw with hw | hw
      · exact words_cst x v h1 w hw
      · exact words_members t l' h2 w hw
    · cases h
end

/-- **C91.** A misspelt word anywhere in the document, at any depth, makes `parse` fail. -/
theorem C91_misspelt (d : Doc) (hv : d.Wordy) (w : Str) (hw : w ∈ d.body.words) (hm : Misspelt w) (j : Json F) : Json.parse d.text ≠ .ok j := by
  intro h
  have h1 := ((C91_accepted_iff d hv (absJ j)).mp ⟨j, h, rfl⟩).1
  have h2 := words_cst d.body _ h1 w hw
  unfold wordVal at h2
  rw [if_neg hm.1, if_neg hm.2.1, if_neg hm.2.2.1, if_neg hm.2.2.2] at h2
  cases h2

/-! ### Printed documents -/

/-- Any word with a character no number has is misspelt, if it is not one of the three literals. -/
theorem misspelt_of {w : Str} (c : Char) (hc : c ∈ w) (hn : ¬ (IsDigit c ∨ c = '-' ∨ c = '+' ∨ c = '.' ∨ c = 'e' ∨ c = 'E'))
    (h1 : w ≠ "null".toList) (h2 : w ≠ "true".toList) (h3 : w ≠ "false".toList) : Misspelt w := by
  refine ⟨h1, h2, h3, ?_⟩
  rintro ⟨n, ha, rfl⟩
  have := accepted_chars ha c hc
  unfold NumChar at this
  exact hn (by tauto)

theorem bad_word {f : F} (hb : PrintsBad F) (hf : ¬ FloatOps.isFinite f = true) : AnyWord (FloatOps.print f) ∧ Misspelt (FloatOps.print f) := by
  rcases hb f hf with h | h | h <;> rw [h]
  · exact ⟨⟨by simp, by unfold WordChar IsWs; decide⟩, misspelt_of 'N' (by simp) (by unfold IsDigit; decide) (by decide) (by decide) (by decide)⟩
  · exact ⟨⟨by simp, by unfold WordChar IsWs; decide⟩, misspelt_of 'n' (by simp) (by unfold IsDigit; decide) (by decide) (by decide) (by decide)⟩
  · exact ⟨⟨by simp, by unfold WordChar IsWs; decide⟩, misspelt_of 'n' (by simp) (by unfold IsDigit; decide) (by decide) (by decide) (by decide)⟩

theorem mkElems_wordy (w : Str) (hw : WsStr w) (x : Cst) (t : List Cst) (h : ∀ y ∈ x :: t, y.Wordy) : (mkElems w x t).Wordy := by
  induction t generalizing w x with
  | nil => exact ⟨hw, h x (by simp), wsNil⟩
  | cons y t ih => exact ⟨hw, h x (by simp), wsNil, ih _ wsSpace y (fun z hz => h z (by simp at hz ⊢; exact .inr hz))⟩

theorem mkMembers_wordy (w : Str) (hw : WsStr w) (p : Str × Cst) (t : List (Str × Cst))
    (h : ∀ y ∈ p :: t, y.2.Wordy) : (mkMembers w p t).Wordy := by
  induction t generalizing w p with
  | nil => exact ⟨hw, escapeItems_valid _, wsNil, wsSpace, h p (by simp), wsNil⟩
  | cons q t ih =>
    exact ⟨⟨hw, escapeItems_valid _, wsNil, wsSpace, h p (by simp), wsNil⟩,
      ih _ wsSpace q (fun z hz => h z (by simp at hz ⊢; exact .inr hz))⟩

theorem objCst_wordy (l : List (Str × Cst)) (h : ∀ p ∈ l, p.2.Wordy) : (objCst l).Wordy := by
  cases l with
  | nil => exact wsNil
  | cons p t => exact mkMembers_wordy [] wsNil p t h

theorem arrCst_wordy (l : List Cst) (h : ∀ p ∈ l, p.Wordy) : (arrCst l).Wordy := by
  cases l with
  | nil => exact wsNil
  | cons p t => exact mkElems_wordy [] wsNil p t h

/-- The printed text of anything is a document of words. -/
theorem cstOf_wordy (hb : PrintsBad F) (j : Json F) : (cstOf j).Wordy := by
  induction j using Json.ind with
  | hobj m ih =>
    rw [cstOf_object]
    apply objCst_wordy
    intro p hp
    simp only [List.mem_map] at hp
    obtain ⟨q, hq, rfl⟩ := hp
    obtain ⟨v, l, hm, hx⟩ := mem_flatVals hq
    have hih := ih _ _ _ hm
    rcases hx with h | h
    · simp only [h]; exact hih.1
    · exact hih.2 _ h
  | harr l ih =>
    rw [cstOf, cstList_eq]
    apply arrCst_wordy
    intro p hp
    simp only [List.mem_map] at hp
    obtain ⟨x, hx, rfl⟩ := hp
    exact ih x hx
  | hstr s => rw [cstOf]; exact escapeItems_valid s
  | hnum f =>
    rw [cstOf, Cst.Wordy]
    by_cases hf : FloatOps.isFinite f = true
    · exact cst_wordy (.num (numLitOf f)) (numLitOf_spec f hf).1
    · rw [numLitOf_text]; exact (bad_word hb hf).1
  | hbool b => cases b <;> simp [cstOf, Cst.Wordy]
  | hnull => simp [cstOf, Cst.Wordy]

theorem arrCst_words (l : List Cst) {x : Cst} (hx : x ∈ l) {w : Str} (hw : w ∈ x.words) : w ∈ (arrCst l).words := by
  cases l with
  | nil => cases hx
  | cons p t =>
    show w ∈ (mkElems [] p t).words
    generalize ([] : Str) = s
    induction t generalizing p s with
    | nil => rw [List.mem_singleton] at hx; subst hx; exact hw
    | cons y t ih =>
      rw [mkElems, Elems.words, List.mem_append]
      rcases List.mem_cons.mp hx with rfl | hx
      · exact .inl hw
      · exact .inr (ih y hx _)

theorem objCst_words (l : List (Str × Cst)) {x : Str × Cst} (hx : x ∈ l) {w : Str} (hw : w ∈ x.2.words) : w ∈ (objCst l).words := by
  cases l with
  | nil => cases hx
  | cons p t =>
    show w ∈ (mkMembers [] p t).words
    generalize ([] : Str) = s
    induction t generalizing p s with
    | nil => rw [List.mem_singleton] at hx; subst hx; exact hw
    | cons y t ih =>
      rw [mkMembers, Members.words, List.mem_append]
      rcases List.mem_cons.mp hx with rfl | hx
      · exact .inl hw
      · exact .inr (ih y hx _)

/-- A printed document without misspelt words has finite numbers only. -/
theorem cstOf_words (hb : PrintsBad F) (j : Json F) (h : ∀ w ∈ (cstOf j).words, ¬ Misspelt w) : Finite j := by
  induction j using Json.ind with
  | hobj m ih =>
    rw [cstOf_object] at h
    refine (AllNumMap_iff _ m).mpr ?_
    intro k v l hm
    have aux : ∀ x, x = v ∨ x ∈ l → ∀ w ∈ (cstOf x).words, ¬ Misspelt w := by
      intro x hx w hw
      exact h w (objCst_words _ (x := (k, cstOf x)) (List.mem_map.mpr ⟨(k, x), flatVals_mem hm x hx, rfl⟩) hw)
    exact ⟨(ih k v l hm).1 (aux v (.inl rfl)), fun x hx => (ih k v l hm).2 x hx (aux x (.inr hx))⟩
  | harr l ih =>
    rw [cstOf, cstList_eq] at h
    refine (AllNumList_iff _ l).mpr ?_
    intro x hx
    exact ih x hx (fun w hw => h w (arrCst_words _ (List.mem_map_of_mem hx) hw))
  | hstr s => trivial
  | hnum f =>
    by_cases hf : FloatOps.isFinite f = true
    · exact hf
    · exact absurd (bad_word hb hf).2 (h _ (by rw [cstOf, Cst.words, numLitOf_text]; simp))
  | hbool b => trivial
  | hnull => trivial

/-- **C01.** The printed text of a value is parsed successfully exactly if all its numbers are finite and the strings (and keys)
nested in containers have balanced brackets. -/
theorem C01_round_trip_exactly (j : Json F64) (hwf : WF j) :
    (∃ j' : Json F64, Json.parse j.toString = .ok j' ∧ absJ j' = absJ j) ↔
      AllNum (fun f => FloatOps.isFinite f = true) j ∧ NestedBalanced j := by
  constructor
  · rintro ⟨j', h, _⟩
    have hfin : AllNum (fun f => FloatOps.isFinite f = true) j := by
      refine cstOf_words f64_printsBad j ?_
      intro w hw hm
      refine C91_misspelt ⟨[], cstOf j, []⟩ ⟨wsNil, cstOf_wordy f64_printsBad j, wsNil⟩ w hw hm j' ?_
      simpa [Doc.text, cstOf_text_any] using h
    exact ⟨hfin, (C01_round_trip_iff j hfin hwf).1.mp ⟨j', h⟩⟩
  · rintro ⟨h1, h2⟩
    obtain ⟨j', h⟩ := (C01_round_trip_iff j h1 hwf).1.mpr h2
    exact ⟨j', h, (C01_round_trip_iff j h1 hwf).2 j' h⟩

/-- **C51.** A NaN or infinity anywhere in a document makes `parse` reject the printed text. -/
theorem C51_rejected_anywhere (j : Json F64) (h : ¬ AllNum (fun f => FloatOps.isFinite f = true) j) (j' : Json F64) :
    Json.parse j.toString ≠ .ok j' := by
  intro hp
  apply h
  refine cstOf_words f64_printsBad j ?_
  intro w hw hm
  refine C91_misspelt ⟨[], cstOf j, []⟩ ⟨wsNil, cstOf_wordy f64_printsBad j, wsNil⟩ w hw hm j' ?_
  simpa [Doc.text, cstOf_text_any] using hp

/-! ### Cases -/

/-- A word, as a scalar. -/
def wordCst (s : String) : Cst := .num ⟨false, s.toList, none, none⟩

-- `{"a": [1, nul]}` is a document of words
example : (⟨[], .obj (.one [] [.plain 'a'] [] [' '] (.arr (.cons [] (wordCst "1") [] (.one [' '] (wordCst "nul") []))) []), []⟩ : Doc).text =
    "{\"a\": [1, nul]}".toList := rfl
-- and is rejected
example (j : Json F) : Json.parse "{\"a\": [1, nul]}".toList ≠ .ok j :=
  C91_misspelt ⟨[], .obj (.one [] [.plain 'a'] [] [' '] (.arr (.cons [] (wordCst "1") [] (.one [' '] (wordCst "nul") []))) []), []⟩
    (by simp [Doc.Wordy, Cst.Wordy, Members.Wordy, Elems.Wordy, WsStr, IsWs, wordCst, AnyWord, WordChar, NumLit.text, StrItem.Valid])
    "nul".toList (by simp [Cst.words, Members.words, Elems.words, wordCst, NumLit.text])
    (misspelt_of 'n' (by decide) (by unfold IsDigit; decide) (by decide) (by decide) (by decide)) j
-- as are `[ True ]`, `[ undefined ]`, `[ 0x10 ]`, `[ 'x' ]`, `[ 1_000 ]`
example (w : String) (hw : w ∈ ["True", "undefined", "0x10", "'x'", "1_000"]) (j : Json F) :
    Json.parse ("[ ".toList ++ w.toList ++ " ]".toList) ≠ .ok j := by
  have h : AnyWord w.toList ∧ Misspelt w.toList := by
    simp only [List.mem_cons, List.not_mem_nil, or_false] at hw
    rcases hw with rfl | rfl | rfl | rfl | rfl
    · exact ⟨⟨by decide, by unfold WordChar IsWs; decide⟩, misspelt_of 'T' (by decide) (by unfold IsDigit; decide) (by decide) (by decide) (by decide)⟩
    · exact ⟨⟨by decide, by unfold WordChar IsWs; decide⟩, misspelt_of 'u' (by decide) (by unfold IsDigit; decide) (by decide) (by decide) (by decide)⟩
    · exact ⟨⟨by decide, by unfold WordChar IsWs; decide⟩, misspelt_of 'x' (by decide) (by unfold IsDigit; decide) (by decide) (by decide) (by decide)⟩
    · exact ⟨⟨by decide, by unfold WordChar IsWs; decide⟩, misspelt_of 'x' (by decide) (by unfold IsDigit; decide) (by decide) (by decide) (by decide)⟩
    · exact ⟨⟨by decide, by unfold WordChar IsWs; decide⟩, misspelt_of '_' (by decide) (by unfold IsDigit; decide) (by decide) (by decide) (by decide)⟩
  have := C91_misspelt (F := F) ⟨[], .arr (.one [' '] (wordCst w) [' ']), []⟩
    ⟨wsNil, ⟨wsSpace, by simpa [wordCst, Cst.Wordy, NumLit.text] using h.1, wsSpace⟩, wsNil⟩ w.toList
    (by simp [Cst.words, Elems.words, wordCst, NumLit.text]) h.2 j
  simpa [Doc.text, Cst.text, Elems.text, wordCst, NumLit.text] using this
-- a sign or point in front is misspelt, too
example (w : String) (hw : w ∈ ["+1", ".5", "+inf"]) : Misspelt w.toList := by
  simp only [List.mem_cons, List.not_mem_nil, or_false] at hw
  rcases hw with rfl | rfl | rfl <;>
  · refine ⟨by decide, by decide, by decide, ?_⟩
    rintro ⟨n, hn, e⟩
    obtain ⟨c, t, e', hc⟩ := accepted_head hn
    rw [e'] at e
    injection e with e1 _
    subst e1
    revert hc
    unfold IsDigit
    decide
-- `[[NaN]]` is printed and not read back
example (j : Json F64) : Json.parse (Json.array [.array [.number .nan]] : Json F64).toString ≠ .ok j :=
  C51_rejected_anywhere _ (by simp [AllNum, AllNumList, FloatOps.isFinite, Fl.isFinite]) j

end RJ
