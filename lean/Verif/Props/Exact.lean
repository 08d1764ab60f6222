import Verif.Proof.Exact
import Verif.Props.Ops
/-
  C01, C08, C09, C16: what `parse` does with RFC 8259 texts and with printed values, exactly.
-/
set_option linter.unusedSectionVars false
namespace RJ
open Spec
variable {F : Type} [FloatOps F] [LawfulFloat F]

/-! ### C09 -/

/-- **C09.** On an RFC 8259 text, `parse` never returns a value other than the denoted one: what it returns, if anything, is the
value of the text (in particular the text does denote a value). -/
theorem C09_never_wrong (d : Doc) (hv : d.Valid) (j : Json F) (h : Json.parse d.text = .ok j) :
    d.body.value = some (absJ j) := by
  rw [Json.parse, trimWs_doc d hv] at h
  exact (exact_cst hv.2.1 h).1

/-- **C09**, as a disjunction: the denoted value or an error. -/
theorem C09_value_or_error (d : Doc) (hv : d.Valid) :
    (∃ j : Json F, Json.parse d.text = .ok j ∧ d.body.value = some (absJ j)) ∨ ∃ e, (Json.parse d.text : Res (Json F)) = .error e := by
  cases h : (Json.parse d.text : Res (Json F)) with
  | ok j => exact .inl ⟨j, rfl, C09_never_wrong d hv j h⟩
  | error e => exact .inr ⟨e, rfl⟩

/-! ### C08 -/

/-- **C08.** Exactly which RFC 8259 texts are accepted with the value `v`: those which denote `v`, have no string literal with
unbalanced raw brackets inside a container, and no whitespace between the brackets of an empty container. -/
theorem C08_accepted_iff (d : Doc) (hv : d.Valid) (v : Val F) :
    (∃ j : Json F, Json.parse d.text = .ok j ∧ absJ j = v) ↔ d.body.value = some v ∧ d.body.TopPlain := by
  rw [Json.parse, trimWs_doc d hv]
  constructor
  · rintro ⟨j, h, rfl⟩
    exact exact_cst hv.2.1 h
  · rintro ⟨h1, h2⟩
    exact complete_top d.body v hv.2.1 h2 h1

/-- **C08.** Every RFC 8259 text with a value and without these two features is accepted. -/
theorem C08_complete (d : Doc) (hv : d.Valid) (v : Val F) (hp : d.body.TopPlain) (h : d.body.value = some v) :
    ∃ j : Json F, Json.parse d.text = .ok j ∧ absJ j = v := (C08_accepted_iff d hv v).mpr ⟨h, hp⟩

/-- **C08, refuted as first stated.** `[ ]`, `{ }` and `["["]` are RFC 8259 texts with values which `parse` rejects. -/
theorem C08_counterexamples (d : Doc) (h : d = ⟨[], .arr0 [' '], []⟩ ∨ d = ⟨[], .obj0 [' '], []⟩ ∨
      d = ⟨[], .arr (.one [] (.str [.plain '[']) []), []⟩) :
    d.Valid ∧ (d.body.value : Option (Val F)).isSome ∧ ∀ j : Json F, Json.parse d.text ≠ .ok j := by
  have hv : d.Valid := by
    rcases h with rfl | rfl | rfl <;> simp [Doc.Valid, Cst.Valid, Elems.Valid, StrItem.Valid, WsStr, IsWs]
  refine ⟨hv, ?_, ?_⟩
  · rcases h with rfl | rfl | rfl <;> simp [Cst.value, Elems.value, strVal]
  · intro j hj
    have := ((C08_accepted_iff d hv (absJ j)).mp ⟨j, hj, rfl⟩).2
    rcases h with rfl | rfl | rfl <;> simp [Cst.TopPlain, Cst.Plain, Elems.Plain, rawBrackets] at this

-- the texts meant
example : (⟨[], .arr0 [' '], []⟩ : Doc).text = "[ ]".toList := rfl
example : (⟨[], .obj0 [' '], []⟩ : Doc).text = "{ }".toList := rfl
example : (⟨[], .arr (.one [] (.str [.plain '[']) []), []⟩ : Doc).text = "[\"[\"]".toList := rfl
-- C09 is not vacuous, with brackets in strings: `["[]"]`
example : ∃ j : Json F, Json.parse "[\"[]\"]".toList = .ok j :=
  let d : Doc := ⟨[], .arr (.one [] (.str [.plain '[', .plain ']']) []), []⟩
  have hv : d.Valid := by simp [d, Doc.Valid, Cst.Valid, Elems.Valid, StrItem.Valid, WsStr]
  let ⟨j, h, _⟩ := C08_complete (F := F) d hv (.arr [.str ['[', ']']]) (by simp [d, Cst.TopPlain, Cst.Plain, Elems.Plain, rawBrackets])
    (by simp [d, Cst.value, Elems.value, strVal])
  ⟨j, h⟩

/-! ### C01 -/

theorem cstOf_topPlain (j : Json F) : (cstOf j).TopPlain ↔ NestedBalanced j := by
  have key : ∀ x : Cst, (∀ s, x ≠ .str s) → (x.TopPlain ↔ x.Plain) := by
    intro x hx
    cases x <;> first | exact Iff.rfl | exact absurd rfl (hx _)
  cases j with
  | string s => simp [cstOf, Cst.TopPlain, NestedBalanced]
  | object m =>
    rw [key, cstOf_plain]; rfl
    intro s e
    rw [cstOf_object] at e
    unfold objCst at e
    split at e <;> cases e
  | array l =>
    rw [key, cstOf_plain]; rfl
    intro s e
    simp only [cstOf] at e
    unfold arrCst at e
    split at e <;> cases e
  | number f => simp [cstOf, Cst.TopPlain, Cst.Plain, NestedBalanced, AllStr]
  | boolean b => cases b <;> simp [cstOf, Cst.TopPlain, Cst.Plain, NestedBalanced, AllStr]
  | null => simp [cstOf, Cst.TopPlain, Cst.Plain, NestedBalanced, AllStr]

/-- **C01.** For a value with finite numbers, the printed text is parsed successfully exactly if the strings (and keys) nested in
containers have balanced brackets; and then the result is the value. -/
theorem C01_round_trip_iff (j : Json F) (hfin : AllNum (fun f => FloatOps.isFinite f = true) j) (hwf : WF j) :
    ((∃ j' : Json F, Json.parse j.toString = .ok j') ↔ NestedBalanced j) ∧
    (∀ j' : Json F, Json.parse j.toString = .ok j' → absJ j' = absJ j) := by
  have hv := cstOf_valid j hfin
  have hval := cstOf_value j hfin hwf
  have e : (Json.parse j.toString : Res (Json F)) = parseRaw (cstOf j).text := by
    rw [cstOf_text j hfin, Json.parse, trimWs_cst _ hv]
  constructor
  · constructor
    · rintro ⟨j', h⟩
      rw [e] at h
      exact (cstOf_topPlain j).mp (exact_cst hv h).2
    · intro h
      obtain ⟨j', h1, _⟩ := C01_round_trip j hfin hwf h
      exact ⟨j', h1⟩
  · intro j' h
    rw [e] at h
    have := (exact_cst hv h).1
    rw [hval] at this
    exact (Option.some.inj this).symm

/-- **C01, refuted as first stated.** `Json::Array(["["])` prints to a text that `parse` rejects. -/
theorem C01_counterexample (j' : Json F) : Json.parse (Json.array [.string ['[']] : Json F).toString ≠ .ok j' := by
  intro h
  have := (C01_round_trip_iff (F := F) (.array [.string ['[']]) (by simp [AllNum, AllNumList]) (by simp [WF, WFList])).1.mp ⟨j', h⟩
  simp [NestedBalanced, AllStr, AllStrList, Balanced, bracketNet] at this

-- the hypotheses are met by a nested value with duplicates and brackets
example : NestedBalanced (.object [("a]b[".toList, (.array [.string "{}".toList, .null], [.string "[x]".toList]))] : Json F) := by
  simp [NestedBalanced, AllStr, AllStrMap, AllStrList, Balanced, bracketNet]

/-! ### C16 -/

/-- **C16.** Whenever an RFC 8259 object text is parsed successfully, the members of the text called `k` are what
`index_and_merge(k)` returns, in text order; looking `k` up returns the last of them; `MissingKey` if there is none. -/
theorem C16_duplicates (d : Doc) (ms : Members) (hv : d.Valid) (hd : d.body = .obj ms) (j : Json F) (h : Json.parse d.text = .ok j) :
    ∃ (m : Obj F) (l : List (Str × Val F)), j = .object m ∧ ms.value = some l ∧ ∀ k,
      (named l k = [] ∧ (∃ e, j.indexAndMerge k = .error e ∧ e.kind = .MissingKey) ∧
        (∃ e, (Finder.key k).find j = .error e ∧ e.kind = .MissingKey)) ∨
      (named l k ≠ [] ∧ (∃ vs, j.indexAndMerge k = .ok vs ∧ vs.map absJ = named l k) ∧
        ∃ v, (Finder.key k).find j = .ok v ∧ (named l k).getLast? = some (absJ v)) := by
  have h1 := C09_never_wrong d hv j h
  rw [hd, Cst.value] at h1
  cases hl : (ms.value : Option (List (Str × Val F))) with
  | none => rw [hl] at h1; cases h1
  | some l =>
    rw [hl] at h1
    simp only [Option.map_some, Option.some.injEq] at h1
    cases j with
    | object m =>
      refine ⟨m, l, rfl, rfl, ?_⟩
      simp only [absJ, Val.obj.injEq] at h1
      intro k
      rw [h1]
      rcases C17_index_and_merge m k with h | h
      · refine .inl ⟨h.1, h.2, ?_⟩
        have h0 := h.1
        rw [absMap_hist] at h0
        cases hg : mapGet k m with
        | none => exact ⟨_, by rw [Finder.find]; simp only [hg]; rfl, rfl⟩
        | some p => rw [hg] at h0; simp [hist] at h0
      · refine .inr ⟨h.1, h.2, ?_⟩
        rw [absMap_hist] at h
        cases hg : mapGet k m with
        | none => rw [hg] at h; exact absurd rfl h.1
        | some p => exact ⟨p.1, by simp [Finder.find, hg], by rw [mapGet_abs_last, hg]; rfl⟩
    | _ => simp [absJ] at h1

/-- **C16, printing.** The parsed object prints its members sorted by name, the ones with the same name in text order. -/
theorem C16_printed_order (d : Doc) (ms : Members) (hv : d.Valid) (hd : d.body = .obj ms) (j : Json F) (h : Json.parse d.text = .ok j) :
    ∃ (l : List (Str × Val F)) (out : List (Str × Json F)), ms.value = some l ∧
      j.toString = ['{'] ++ List.intercalate ", ".toList (out.map (fun p => escape p.1 ++ ": ".toList ++ p.2.toString)) ++ ['}'] ∧
      (out.map (·.1)).Pairwise (· ≤ ·) ∧
      (∀ k, (out.filter (fun p => p.1 = k)).map (fun p => absJ p.2) = named l k) := by
  have h1 := C09_never_wrong d hv j h
  rw [hd, Cst.value] at h1
  cases hl : (ms.value : Option (List (Str × Val F))) with
  | none => rw [hl] at h1; cases h1
  | some l =>
    rw [hl] at h1
    simp only [Option.map_some, Option.some.injEq] at h1
    cases j with
    | object m =>
      simp only [absJ, Val.obj.injEq] at h1
      obtain ⟨out, a, b, c⟩ := C04_sorted_members m (C14_parse_well_formed _ _ h).2
      exact ⟨l, out, rfl, a, b, fun k => by rw [c, h1]⟩
    | _ => simp [absJ] at h1

-- `{"a":1,"b":2,"a":3}`-shaped documents: the accepted texts include ones with duplicate names
example : ∃ (d : Doc) (ms : Members), d.Valid ∧ d.body = .obj ms ∧ (∃ j : Json F, Json.parse d.text = .ok j) ∧
    d.text = "{\"a\":null,\"b\":true,\"a\":false}".toList := by
  let d : Doc := ⟨[], .obj (.cons [] [.plain 'a'] [] [] .null [] (.cons [] [.plain 'b'] [] [] .true [] (.one [] [.plain 'a'] [] [] .false []))), []⟩
  have hv : d.Valid := by simp [d, Doc.Valid, Cst.Valid, Members.Valid, StrItem.Valid, WsStr]
  obtain ⟨j, h, _⟩ := C08_complete (F := F) d hv (.obj (named [(['a'], .null), (['b'], .bool true), (['a'], .bool false)]))
    (by simp [d, Cst.TopPlain, Cst.Plain, Members.Plain, rawBrackets]) (by simp [d, Cst.value, Members.value, strVal])
  exact ⟨d, _, hv, rfl, ⟨j, h⟩, rfl⟩

end RJ
