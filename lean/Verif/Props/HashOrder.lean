import Verif.Proof.HashOrder
import Verif.Props.Convert
import Verif.Props.Exact
import Verif.Props.Nested
/-
  C82: decoding does not depend on the order of hash maps, nor on the order of the members in the text.

  `absJ j = absJ j'`: the two documents have the same content, that is they differ at most in the order in which their hash maps are iterated (which in Rust
  is different in every run of the program).
-/
set_option linter.unusedSectionVars false
namespace RJ
open Spec
variable {F : Type} [FloatOps F]

/-! ### Built-in types -/

/-- **C82, outcome.** Whether decoding succeeds does not depend on the order of the hash maps. -/
theorem C82_outcome (t : Ty) (j j' : Json F) (hw : WF j) (hw' : WF j') (ha : absJ j = absJ j') : (∃ y, t.dec j = .ok y) ↔ ∃ y, t.dec j' = .ok y := by
  constructor
  · rintro ⟨y, hy⟩
    obtain ⟨y', h, _⟩ := dec_outcome t j j' hw hw' ha.symm y hy
    exact ⟨y', h⟩
  · rintro ⟨y, hy⟩
    obtain ⟨y', h, _⟩ := dec_outcome t j' j hw' hw ha y hy
    exact ⟨y', h⟩

/-- **C82, value.** Nor does what is decoded, if no two member names stand for the same key. -/
theorem C82_value (t : Ty) (j j' : Json F) (hw : WF j) (hw' : WF j') (ha : absJ j = absJ j') (hc : NoClash t j) (y y' : t.T F) (h : t.dec j = .ok y)
    (h' : t.dec j' = .ok y') : Same t y y' := by
  obtain ⟨z, h1, h2⟩ := dec_same t j j' hw hw' ha.symm hc y h
  rw [h1] at h'
  cases h'
  exact h2

/-- With `String` keys no two names are the same key. -/
theorem C82_exact_keys (t : Ty) (h : ExactKeys t) (j : Json F) : NoClash t j := by
  induction t generalizing j with
  | vec t ih => cases j <;> first | trivial | exact fun x _ => ih h x
  | option t ih => unfold NoClash; exact ih h j
  | pairs κ t ih =>
    cases j with
    | object m =>
      unfold NoClash
      exact ⟨fun e _ e' _ k hk hk' => h.1 _ _ k hk hk', fun p _ => ih h.2 p.2⟩
    | _ => trivial
  | map κ t ih =>
    cases j with
    | object m =>
      unfold NoClash
      exact ⟨fun e _ e' _ k hk hk' => h.1 _ _ k hk hk', fun p _ => ih h.2 p.2⟩
    | _ => trivial
  | _ => cases j <;> trivial

/-- **C82, exactly.** Types without hash maps, `Vec<(K, V)>` and `Json` inside: the very same value, or the very same error. -/
theorem C82_exact (t : Ty) (hp : Plain t) (j j' : Json F) (ha : absJ j = absJ j') : t.dec j = t.dec j' := dec_exactly t hp j' j ha

/-! ### Texts -/

/-- **C82, texts.** Two documents (in the sense of RFC 8259) that `parse` accepts and that mean the same decode alike: both fail (with a `ConvertError`), or both give the
same value. -/
theorem C82_texts [LawfulFloat F] (t : Ty) (d d' : Doc) (hv : d.Valid) (hv' : d'.Valid) (hp : d.body.TopPlain) (hp' : d'.body.TopPlain) (v : Val F) (h : d.body.value = some v)
    (h' : d'.body.value = some v) (hk : ExactKeys t) :
    (∃ y y', decodeText (F := F) t d.text = .ok y ∧ decodeText t d'.text = .ok y' ∧ Same t y y') ∨
    (∃ e e', decodeText (F := F) t d.text = .error e ∧ decodeText (F := F) t d'.text = .error e' ∧ e.kind = .ConvertError ∧ e'.kind = .ConvertError) := by
  obtain ⟨j, h1, h2⟩ := C08_complete d hv v hp h
  obtain ⟨j', h3, h4⟩ := C08_complete d' hv' v hp' h'
  have hw := (C14_parse_well_formed _ _ h1).2
  have hw' := (C14_parse_well_formed _ _ h3).2
  have ha : absJ j = absJ j' := h2.trans h4.symm
  have e1 : decodeText (F := F) t d.text = t.dec j := by unfold decodeText; rw [h1]
  have e2 : decodeText (F := F) t d'.text = t.dec j' := by unfold decodeText; rw [h3]
  rw [e1, e2]
  cases hy : t.dec j with
  | ok y =>
    obtain ⟨y', hy'⟩ := (C82_outcome t j j' hw hw' ha).1 ⟨y, hy⟩
    exact .inl ⟨y, y', rfl, hy', C82_value t j j' hw hw' ha (C82_exact_keys t hk j) y y' hy hy'⟩
  | error e =>
    cases hy' : t.dec j' with
    | ok y' =>
      obtain ⟨y, hy2⟩ := (C82_outcome t j j' hw hw' ha).2 ⟨y', hy'⟩
      rw [hy] at hy2; cases hy2
    | error e' => exact .inr ⟨e, e', rfl, rfl, C36_only_ConvertError t j e hy, C36_only_ConvertError t j' e' hy'⟩

theorem members_cons (w1 w2 w3 w4 : Str) (k : List StrItem) (x : Cst) (t : Members) (l : List (Str × Val F)) :
    Members.value (.cons w1 k w2 w3 x w4 t) = some l ↔ ∃ s v r, strVal k = some s ∧ x.value = some v ∧ t.value = some r ∧ l = (s, v) :: r := by
  rw [Members.value]
  constructor
  · intro h
    split at h
    · rename_i s v r h1 h2 h3
      cases h
      exact ⟨s, v, r, h1, h2, h3, rfl⟩
    · cases h
  · rintro ⟨s, v, r, h1, h2, h3, rfl⟩
    rw [h1, h2, h3]

theorem members_one (w1 w2 w3 w4 : Str) (k : List StrItem) (x : Cst) (l : List (Str × Val F)) :
    Members.value (.one w1 k w2 w3 x w4) = some l ↔ ∃ s v, strVal k = some s ∧ x.value = some v ∧ l = [(s, v)] := by
  rw [Members.value]
  constructor
  · intro h
    split at h
    · rename_i s v h1 h2
      cases h
      exact ⟨s, v, h1, h2, rfl⟩
    · cases h
  · rintro ⟨s, v, h1, h2, rfl⟩
    rw [h1, h2]

theorem named_swap {a b : Str} (h : a ≠ b) (v w : Val F) (r : List (Str × Val F)) : named ((a, v) :: (b, w) :: r) = named ((b, w) :: (a, v) :: r) := by
  funext k
  unfold named
  by_cases h1 : a = k <;> by_cases h2 : b = k
  · exact absurd (h1.trans h2.symm) h
  · simp [h1, h2]
  · simp [h1, h2]
  · simp [h1, h2]

theorem named_later (a : Str) (v : Val F) {r r' : List (Str × Val F)} (h : named r = named r') : named ((a, v) :: r) = named ((a, v) :: r') := by
  funext k
  have := congrFun h k
  unfold named at *
  by_cases h1 : a = k
  · simp [h1]; simpa using this
  · simp [h1]; simpa using this

/-- **C82, order of members.** Exchanging neighbouring members with different names does not change what an object means. -/
theorem C82_swap {ms ms' : Members} (h : Swapped ms ms') (v : Val F) (hv : (Cst.obj ms).value = some v) : (Cst.obj ms').value = some v := by
  simp only [Cst.value, Option.map_eq_some_iff] at hv ⊢
  obtain ⟨l, hl, rfl⟩ := hv
  suffices hs : ∀ l, Members.value ms = some l → ∃ l', Members.value ms' = some l' ∧ named l' = (named l : Str → List (Val F)) by
    obtain ⟨l', h1, h2⟩ := hs l hl
    exact ⟨l', h1, by rw [h2]⟩
  clear hl l
  induction h with
  | last w1 w2 w3 w4 u1 u2 u3 u4 x x' hk =>
    intro l hl
    obtain ⟨s, v, r, h1, h2, h3, rfl⟩ := (members_cons _ _ _ _ _ _ _ _).1 hl
    obtain ⟨s', v', h4, h5, rfl⟩ := (members_one _ _ _ _ _ _ _).1 h3
    refine ⟨_, (members_cons _ _ _ _ _ _ _ _).2 ⟨s', v', _, h4, h5, (members_one _ _ _ _ _ _ _).2 ⟨s, v, h1, h2, rfl⟩, rfl⟩, named_swap ?_ _ _ _⟩
    rintro rfl
    exact hk (h1.trans h4.symm)
  | here w1 w2 w3 w4 u1 u2 u3 u4 x x' t hk =>
    intro l hl
    obtain ⟨s, v, r, h1, h2, h3, rfl⟩ := (members_cons _ _ _ _ _ _ _ _).1 hl
    obtain ⟨s', v', r', h4, h5, h6, rfl⟩ := (members_cons _ _ _ _ _ _ _ _).1 h3
    refine ⟨_, (members_cons _ _ _ _ _ _ _ _).2 ⟨s', v', _, h4, h5, (members_cons _ _ _ _ _ _ _ _).2 ⟨s, v, r', h1, h2, h6, rfl⟩, rfl⟩, named_swap ?_ _ _ _⟩
    rintro rfl
    exact hk (h1.trans h4.symm)
  | later w1 w2 w3 w4 k x _ ih =>
    intro l hl
    obtain ⟨s, v, r, h1, h2, h3, rfl⟩ := (members_cons _ _ _ _ _ _ _ _).1 hl
    obtain ⟨r', h4, h5⟩ := ih r h3
    exact ⟨_, (members_cons _ _ _ _ _ _ _ _).2 ⟨s, v, r', h1, h2, h4, rfl⟩, named_later s v h5⟩

/-! ### Derived types -/

/-- **C82, derived types, outcome.** -/
theorem C82_derived_outcome {P : Program F} {decl : P.N → Struct} (hD : Declared P decl) (t : P.Ty) (j j' : Json F) (hw : WF j) (hw' : WF j') (ha : absJ j = absJ j') :
    (∃ y, P.dec t j = .ok y) ↔ ∃ y, P.dec t j' = .ok y := by
  constructor
  · rintro ⟨y, hy⟩
    obtain ⟨y', h, _⟩ := dec_outcomeN hD _ j (Nat.lt_succ_self _) t j' hw hw' ha.symm y hy
    exact ⟨y', h⟩
  · rintro ⟨y, hy⟩
    obtain ⟨y', h, _⟩ := dec_outcomeN hD _ j' (Nat.lt_succ_self _) t j hw' hw ha y hy
    exact ⟨y', h⟩

/-- **C82, derived types, value.** -/
theorem C82_derived_value {P : Program F} {decl : P.N → Struct} (hD : Declared P decl) {t : P.Ty} {j : Json F} (hc : NoClashN P decl t j) (j' : Json F) (hw : WF j)
    (hw' : WF j') (ha : absJ j = absJ j') (y y' : P.Val) (h : P.dec t j = .ok y) (h' : P.dec t j' = .ok y') : Back P decl t y y' := by
  obtain ⟨z, h1, h2⟩ := dec_sameN hD hc j' hw hw' ha.symm y h
  rw [h1] at h'
  cases h'
  exact h2

/-- **C82, derived types, from text.** `T::from_json(&Json::parse(text)?)` from two documents that mean the same: if every text is at most one key (`String` keys), both fail
or both give the same value. -/
theorem C82_derived_text [LawfulFloat F] {P : Program F} {decl : P.N → Struct} (hD : Declared P decl)
    (hk : ∀ i s s' k, (P.key i).fromStr s = some k → (P.key i).fromStr s' = some k → s = s') (t : P.Ty) (d d' : Doc) (hv : d.Valid) (hv' : d'.Valid) (hp : d.body.TopPlain)
    (hp' : d'.body.TopPlain) (v : Val F) (h : d.body.value = some v) (h' : d'.body.value = some v) :
    ∃ j j' : Json F, Json.parse d.text = .ok j ∧ Json.parse d'.text = .ok j' ∧
      ((∃ y y', P.dec t j = .ok y ∧ P.dec t j' = .ok y' ∧ Back P decl t y y') ∨ ∃ e e', P.dec t j = .error e ∧ P.dec t j' = .error e') := by
  obtain ⟨j, h1, h2⟩ := C08_complete d hv v hp h
  obtain ⟨j', h3, h4⟩ := C08_complete d' hv' v hp' h'
  have hw := (C14_parse_well_formed _ _ h1).2
  have hw' := (C14_parse_well_formed _ _ h3).2
  have ha : absJ j = absJ j' := h2.trans h4.symm
  refine ⟨j, j', h1, h3, ?_⟩
  cases hy : P.dec t j with
  | ok y =>
    obtain ⟨y', hy'⟩ := (C82_derived_outcome hD t j j' hw hw' ha).1 ⟨y, hy⟩
    exact .inl ⟨y, y', rfl, hy', C82_derived_value hD (noClash_exact hD hk _ j (Nat.lt_succ_self _) t y hy) j' hw hw' ha y y' hy hy'⟩
  | error e =>
    cases hy' : P.dec t j' with
    | ok y' =>
      obtain ⟨y, hy2⟩ := (C82_derived_outcome hD t j j' hw hw' ha).2 ⟨y', hy'⟩
      rw [hy] at hy2; cases hy2
    | error e' => exact .inr ⟨e, e', rfl, rfl⟩

/-- **C82, derived types, exactly.** Without hash maps, `Vec<(K, V)>` and `Json`: the very same value, or the very same error. -/
theorem C82_derived_exact {P : Program F} {decl : P.N → Struct} (hD : Declared P decl) (hF : ∀ n, ∀ f ∈ (decl n).kept, PlainN (P.fieldTy n f.name)) (t : P.Ty)
    (hp : PlainN t) (j j' : Json F) (ha : absJ j = absJ j') : P.dec t j = P.dec t j' := dec_exactlyN hD hF _ j' (Nat.lt_succ_self _) t hp j ha

/-! ### What does depend on the order -/

/-- `usize` keys: `usize::to_string` and `usize::from_str`. -/
def usizeKey : KeyCodec := ⟨Nat, inferInstance, natStr, parseUsize⟩

/-- `{"1": true, "+1": false}`, in the two possible orders. -/
def clash1 : Obj F := [("1".toList, (.boolean true, [])), ("+1".toList, (.boolean false, []))]
def clash2 : Obj F := [("+1".toList, (.boolean false, [])), ("1".toList, (.boolean true, []))]

theorem clash_abs : absMap (clash1 : Obj F) = absMap clash2 := by
  funext k
  rw [absMap_hist, absMap_hist]
  simp only [clash1, clash2, mapGet]
  by_cases h1 : "1".toList = k
  · subst h1; rfl
  · rw [if_neg h1, if_neg h1]

/-- **C82, clashing keys.** `"1"` and `"+1"` are the same `usize`.  Reading `{"1": true, "+1": false}` as a `HashMap<usize, bool>` gives `true` or `false`, as a
`Vec<(usize, bool)>` one order or the other, depending on the order of the hash map: that is on the run of the program. -/
theorem C82_clash : ∃ j j' : Json F, WF j ∧ WF j' ∧ absJ j = absJ j' ∧
    (∃ y y', (Ty.map usizeKey .bool).dec j = .ok y ∧ (Ty.map usizeKey .bool).dec j' = .ok y' ∧ hmGet (1 : Nat) y = some false ∧ hmGet (1 : Nat) y' = some true) ∧
    (Ty.pairs usizeKey .bool).dec j = .ok [((1 : Nat), true), ((1 : Nat), false)] ∧
    (Ty.pairs usizeKey .bool).dec j' = .ok [((1 : Nat), false), ((1 : Nat), true)] := by
  refine ⟨.object clash1, .object clash2, ?_, ?_, ?_, ⟨[((1 : Nat), false)], [((1 : Nat), true)], ?_, ?_, rfl, rfl⟩, ?_, ?_⟩
  · rw [wf_object_iff]
    refine ⟨by simp [clash1], ?_⟩
    intro k e he
    simp only [clash1, List.mem_cons, List.not_mem_nil, or_false, Prod.mk.injEq] at he
    rcases he with ⟨_, rfl⟩ | ⟨_, rfl⟩ <;> exact ⟨trivial, by simp⟩
  · rw [wf_object_iff]
    refine ⟨by simp [clash2], ?_⟩
    intro k e he
    simp only [clash2, List.mem_cons, List.not_mem_nil, or_false, Prod.mk.injEq] at he
    rcases he with ⟨_, rfl⟩ | ⟨_, rfl⟩ <;> exact ⟨trivial, by simp⟩
  · simp only [absJ]; rw [clash_abs]
  all_goals rfl

/-- `{"a": 0, "b": null}`, in the two possible orders. -/
def twoBad1 (x : F) : Obj F := [("a".toList, (.number x, [])), ("b".toList, (.null, []))]
def twoBad2 (x : F) : Obj F := [("b".toList, (.null, [])), ("a".toList, (.number x, []))]

/-- **C82, which error.** If several members cannot be read, which one is reported depends on the order: reading `{"a": 0, "b": null}` as a `HashMap<String, bool>` fails
with "cannot convert number to bool." or with "cannot convert null to bool.". -/
theorem C82_which_error (x : F) : ∃ j j' : Json F, WF j ∧ WF j' ∧ absJ j = absJ j' ∧
    (Ty.map stringKey .bool).dec j = .error ⟨.ConvertError, "cannot convert number to bool.".toList⟩ ∧
    (Ty.map stringKey .bool).dec j' = .error ⟨.ConvertError, "cannot convert null to bool.".toList⟩ := by
  refine ⟨.object (twoBad1 x), .object (twoBad2 x), ?_, ?_, ?_, rfl, rfl⟩
  · rw [wf_object_iff]
    refine ⟨by simp [twoBad1], ?_⟩
    intro k e he
    simp only [twoBad1, List.mem_cons, List.not_mem_nil, or_false, Prod.mk.injEq] at he
    rcases he with ⟨_, rfl⟩ | ⟨_, rfl⟩ <;> exact ⟨trivial, by simp⟩
  · rw [wf_object_iff]
    refine ⟨by simp [twoBad2], ?_⟩
    intro k e he
    simp only [twoBad2, List.mem_cons, List.not_mem_nil, or_false, Prod.mk.injEq] at he
    rcases he with ⟨_, rfl⟩ | ⟨_, rfl⟩ <;> exact ⟨trivial, by simp⟩
  · simp only [absJ]
    congr 1
    funext k
    rw [absMap_hist, absMap_hist]
    simp only [twoBad1, twoBad2, mapGet]
    by_cases h1 : "a".toList = k
    · subst h1; rfl
    · rw [if_neg h1, if_neg h1]

/-- The hypotheses of `C82_texts`: `{"a":1,"b":[true]}` and `{"b":[true],"a":1}` as `HashMap<String, Json>`. -/
example : ExactKeys (.map stringKey .json) ∧
    Swapped (.cons [] [.plain 'a'] [] [] .null [] (.one [] [.plain 'b'] [] [] (.arr (.one [] .true [])) []))
      (.cons [] [.plain 'b'] [] [] (.arr (.one [] .true [])) [] (.one [] [.plain 'a'] [] [] .null [])) := by
  refine ⟨⟨?_, trivial⟩, .last [] [] [] [] [] [] [] [] .null _ (by simp [strVal])⟩
  intro s s' k h h'
  exact (Option.some.inj h).trans (Option.some.inj h').symm

/-- The hypotheses of `C82_derived_text`: the program `fsProgram`. -/
example : Declared (fsProgram F) fsDecl ∧ ∀ (i : (fsProgram F).ι) s s' k, ((fsProgram F).key i).fromStr s = some k → ((fsProgram F).key i).fromStr s' = some k → s = s' :=
  ⟨fs_declared, fun _ s s' k h h' => (Option.some.inj h).trans (Option.some.inj h').symm⟩

end RJ
