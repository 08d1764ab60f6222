import Verif.Props.DeriveCases
import Verif.Props.Exact
/-
  C81: what a derived decoder makes of documents written by another (version of the) struct.
-/
set_option linter.unusedSectionVars false
namespace RJ
open Spec
variable {F : Type}

/-- **C81.** Only the newest values of the members named by its non-ignored fields matter to a derived decoder: objects that agree on them decode alike,
whatever other members they have, in whatever order, with whatever older duplicates. -/
theorem C81_only_its_members {t : Struct} (h : t.Ok) (T : StructTy F) (m m' : Obj F)
    (ha : ∀ g ∈ t.kept, (mapGet g.key m).map (·.1) = (mapGet g.key m').map (·.1)) :
    decodeDerived t.toks T (.object m) = decodeDerived t.toks T (.object m') := by
  have reads : ∀ m m' : Obj F, ∀ g : Field, (mapGet g.key m).map (·.1) = (mapGet g.key m').map (·.1) → ∀ p, FieldReads T m g p → FieldReads T m' g p := by
    rintro m m' g hg p ⟨v, rest, x, h1, h2, h3⟩
    rw [h1] at hg
    cases h4 : mapGet g.key m' with
    | none => rw [h4] at hg; cases hg
    | some e =>
      rw [h4] at hg
      have : v = e.1 := by simpa using hg
      exact ⟨e.1, e.2, x, h4, by rw [← this]; exact h2, h3⟩
  have fails : ∀ g e, (mapGet g.key m).map (·.1) = (mapGet g.key m').map (·.1) → FieldFails T m g e → FieldFails T m' g e := by
    rintro g e hg (⟨h1, h2⟩ | ⟨v, rest, h1, h2⟩)
    · rw [h1] at hg
      cases h4 : mapGet g.key m' with
      | none => exact .inl ⟨h4, h2⟩
      | some e => rw [h4] at hg; cases hg
    · rw [h1] at hg
      cases h4 : mapGet g.key m' with
      | none => rw [h4] at hg; cases hg
      | some e =>
        rw [h4] at hg
        have : v = e.1 := by simpa using hg
        exact .inr ⟨e.1, e.2, h4, by rw [← this]; exact h2⟩
  obtain ⟨r, hr⟩ := C41_total h T (.object m)
  rw [hr]
  symm
  cases r with
  | ok l =>
    obtain ⟨l', h1, h2⟩ := (C41_ok h T m l).mp hr
    refine (C41_ok h T m' l).mpr ⟨l', h1, ?_⟩
    have key : ∀ (fs : List Field) (l : T.Inits), (∀ f ∈ fs, f ∈ t.kept) → AllTwo (FieldReads T m) fs l → AllTwo (FieldReads T m') fs l := by
      intro fs
      induction fs with
      | nil => intro l _ h; cases l with
        | nil => exact h
        | cons p l => exact h
      | cons f fs ih =>
        intro l hm h
        cases l with
        | nil => exact h
        | cons p l => exact ⟨reads m m' f (ha f (hm f (by simp))) p h.1, ih l (fun g hg => hm g (by simp [hg])) h.2⟩
    exact key t.kept l' (fun _ h => h) h2
  | error e =>
    obtain ⟨pre, f, post, h1, h2, h3⟩ := (C41_error h T m e).mp hr
    refine (C41_error h T m' e).mpr ⟨pre, f, post, h1, fun g hg => ?_, ?_⟩
    · obtain ⟨p, hp⟩ := h2 g hg
      exact ⟨p, reads m m' g (ha g (by rw [h1]; simp [hg])) p hp⟩
    · exact fails f e (ha f (by rw [h1]; simp)) h3

theorem encoded_member {s : Struct} (hd : (s.kept.map Field.key).Nodup) (S : StructTy F) (self : S.Val) (m' : Obj F)
    (ha : absMap m' = absMap (s.kept.map (fun f => (f.key, (S.enc f.name (self f.name), ([] : List (Json F))))))) (hw : WF (.object m')) (f : Field) (hf : f ∈ s.kept) :
    ∃ v rest, mapGet f.key m' = some (v, rest) ∧ WF v ∧ absJ v = absJ (S.enc f.name (self f.name)) := by
  have h1 : mapGet f.key (s.kept.map (fun f => (f.key, (S.enc f.name (self f.name), ([] : List (Json F)))))) = some (S.enc f.name (self f.name), []) := by
    apply mapGet_mem_nodup
    · rw [List.map_map]; exact hd
    · exact List.mem_map.mpr ⟨f, hf, rfl⟩
  have h2 := mapGet_abs_last m' f.key
  rw [ha, mapGet_abs_last, h1] at h2
  cases h3 : mapGet f.key m' with
  | none => rw [h3] at h2; simp at h2
  | some e =>
    obtain ⟨v, rest⟩ := e
    rw [h3] at h2
    simp at h2
    exact ⟨v, rest, rfl, ((WFMap_iff m').mp hw.2 _ _ _ (mapGet_mem h3)).1, h2.symm⟩

/-- **C81.** What one struct has encoded, another one decodes, if each of its non-ignored fields has a field with the same member name in the first, whose encoding its type can
decode.  Further fields of the first struct, the order of the fields and the names of the structs and fields play no role.  (`j'`: the document, or any one equal to it.) -/
theorem C81_other_struct {s t : Struct} (hs : s.Ok) (ht : t.Ok) (hd : (s.kept.map Field.key).Nodup) (S T : StructTy F) (self : S.Val) (got : T.Val)
    (hf : ∀ g ∈ t.kept, ∃ f ∈ s.kept, f.key = g.key ∧ ∀ v, WF v → absJ v = absJ (S.enc f.name (self f.name)) → T.dec g.name v = .ok (got g.name))
    (j j' : Json F) (hj : encodeDerived s.toks S self = some (.ok j)) (hw : WF j') (ha : absJ j' = absJ j) :
    decodeDerived t.toks T j' = some (.ok (t.kept.map (fun g => ⟨g.name, got g.name⟩) ++ defaults t T)) := by
  rw [C39_encode_distinct hs hd S self] at hj
  cases hj
  cases j' with
  | object m' =>
    simp only [absJ, Val.obj.injEq] at ha
    rw [C41_ok ht]
    refine ⟨_, rfl, ?_⟩
    have key : ∀ gs : List Field, (∀ g ∈ gs, g ∈ t.kept) → AllTwo (FieldReads T m') gs (gs.map (fun g => ⟨g.name, got g.name⟩)) := by
      intro gs
      induction gs with
      | nil => intro _; exact trivial
      | cons g gs ih =>
        intro hm
        refine ⟨?_, ih (fun x hx => hm x (by simp [hx]))⟩
        obtain ⟨f, f1, f2, f3⟩ := hf g (hm g (by simp))
        obtain ⟨v, rest, v1, v2, v3⟩ := encoded_member hd S self m' ha hw f f1
        exact ⟨v, rest, got g.name, by rw [← f2]; exact v1, f3 v v2 v3, rfl⟩
    exact key t.kept (fun _ h => h)
  | _ => simp [absJ] at ha

/-- **C81.** A field that the first struct does not have is an error, whatever its type (an `Option` too): if the fields before it decode, the error that its member is missing. -/
theorem C81_new_field {s t : Struct} (hs : s.Ok) (ht : t.Ok) (hd : (s.kept.map Field.key).Nodup) (S T : StructTy F) (self : S.Val)
    (pre post : List Field) (g : Field) (hk : t.kept = pre ++ g :: post) (hg : g.key ∉ s.kept.map Field.key)
    (hf : ∀ x ∈ pre, ∃ f ∈ s.kept, f.key = x.key ∧ ∀ v, WF v → absJ v = absJ (S.enc f.name (self f.name)) → ∃ y, T.dec x.name v = .ok y)
    (j j' : Json F) (hj : encodeDerived s.toks S self = some (.ok j)) (hw : WF j') (ha : absJ j' = absJ j) :
    decodeDerived t.toks T j' = some (.error ⟨.MissingKey, "missing key \"".toList ++ g.key ++ "\".".toList⟩) := by
  rw [C39_encode_distinct hs hd S self] at hj
  cases hj
  cases j' with
  | object m' =>
    simp only [absJ, Val.obj.injEq] at ha
    rw [C41_error ht]
    refine ⟨pre, g, post, hk, ?_, .inl ⟨?_, rfl⟩⟩
    · intro x hx
      obtain ⟨f, f1, f2, f3⟩ := hf x hx
      obtain ⟨v, rest, v1, v2, v3⟩ := encoded_member hd S self m' ha hw f f1
      obtain ⟨y, hy⟩ := f3 v v2 v3
      exact ⟨_, v, rest, y, by rw [← f2]; exact v1, hy, rfl⟩
    · have h2 := mapGet_abs_last m' g.key
      have h1 : mapGet g.key (s.kept.map (fun f => (f.key, (S.enc f.name (self f.name), ([] : List (Json F)))))) = none := by
        cases h : mapGet g.key (s.kept.map (fun f => (f.key, (S.enc f.name (self f.name), ([] : List (Json F)))))) with
        | none => rfl
        | some e =>
          obtain ⟨f, f1, f2⟩ := List.mem_map.mp (mapGet_mem h)
          exact absurd (List.mem_map.mpr ⟨f, f1, (Prod.mk.inj f2).1⟩) hg
      rw [ha, mapGet_abs_last, h1] at h2
      cases h3 : mapGet g.key m' with
      | none => rfl
      | some e => rw [h3] at h2; simp at h2
  | _ => simp [absJ] at ha

/-- **C81.** The same through text. -/
theorem C81_text [FloatOps F] [LawfulFloat F] {s t : Struct} (hs : s.Ok) (ht : t.Ok) (hd : (s.kept.map Field.key).Nodup) (S T : StructTy F) (self : S.Val) (got : T.Val)
    (hf : ∀ g ∈ t.kept, ∃ f ∈ s.kept, f.key = g.key ∧ ∀ v, WF v → absJ v = absJ (S.enc f.name (self f.name)) → T.dec g.name v = .ok (got g.name))
    (j : Json F) (hj : encodeDerived s.toks S self = some (.ok j)) (hw : WF j) (hn : AllNum (fun x => FloatOps.isFinite x = true) j) (hb : NestedBalanced j) :
    ∃ j', (Json.parse j.toString : Res (Json F)) = .ok j' ∧
      decodeDerived t.toks T j' = some (.ok (t.kept.map (fun g => ⟨g.name, got g.name⟩) ++ defaults t T)) := by
  obtain ⟨j', h1, h2⟩ := C01_round_trip j hn hw hb
  exact ⟨j', h1, C81_other_struct hs ht hd S T self got hf j j' hj (C14_parse_well_formed _ _ h1).2 h2⟩

/-- **C81.** For built-in field types, given by member name: `ty k` is the type and `val k` the value of the fields with the member name `k`; `old` and `new` give the member names of the
fields of the two structs. -/
theorem C81_builtin [FloatOps F] [LawfulFloat F] [LawfulCast F] {s t : Struct} (hs : s.Ok) (ht : t.Ok) (hd : (s.kept.map Field.key).Nodup) (ty : Str → Ty)
    (d d' val : (k : Str) → (ty k).T F) (old new : Str → Str) (ho : ∀ f ∈ s.kept, old f.name = f.key) (hn : ∀ g ∈ t.kept, g.key ∈ s.kept.map Field.key ∧ new g.name = g.key)
    (hg : ∀ f ∈ s.kept, Plain (ty f.key) ∧ Invertible (ty f.key) ∧ Good (ty f.key) (val f.key)) :
    ∃ j, encodeDerived s.toks (tyStruct F (fun i => ty (old i)) (fun i => d (old i))) (fun i => val (old i)) = some (.ok j) ∧
      decodeDerived t.toks (tyStruct F (fun i => ty (new i)) (fun i => d' (new i))) j =
        some (.ok (t.kept.map (fun g => ⟨g.name, val (new g.name)⟩) ++ defaults t (tyStruct F (fun i => ty (new i)) (fun i => d' (new i))))) := by
  have hj := C39_encode_distinct hs hd (tyStruct F (fun i => ty (old i)) (fun i => d (old i))) (fun i => val (old i))
  have enc : ∀ f ∈ s.kept, (ty (old f.name)).enc (val (old f.name)) = (ty f.key).enc (val f.key) := by
    intro f hf
    rw [ho f hf]
  have hw : WF (.object (s.kept.map (fun f => (f.key, ((ty (old f.name)).enc (val (old f.name)), ([] : List (Json F))))))) := by
    refine ⟨by rw [List.map_map]; exact hd, (WFMap_iff _).mpr ?_⟩
    intro k v l hm
    obtain ⟨f, f1, f2⟩ := List.mem_map.mp hm
    simp only [Prod.mk.injEq] at f2
    obtain ⟨-, rfl, rfl⟩ := f2
    exact ⟨by rw [enc f f1]; exact wf_enc _ _ (hg f f1).2.2, by intro x hx; cases hx⟩
  refine ⟨_, hj, ?_⟩
  refine C81_other_struct hs ht hd (tyStruct F (fun i => ty (old i)) (fun i => d (old i))) (tyStruct F (fun i => ty (new i)) (fun i => d' (new i)))
    (fun i => val (old i)) (fun i => val (new i)) ?_ _ _ hj hw rfl
  intro g hgk
  obtain ⟨h1, h2⟩ := hn g hgk
  obtain ⟨f, f1, f2⟩ := List.mem_map.mp h1
  refine ⟨f, f1, f2, ?_⟩
  intro v wv ha
  have ha : absJ v = absJ ((ty (old f.name)).enc (val (old f.name))) := ha
  rw [enc f f1] at ha
  obtain ⟨g1, g2, g3⟩ := hg f f1
  show (ty (new g.name)).dec v = .ok (val (new g.name))
  rw [h2, ← f2]
  obtain ⟨y, h4, h5⟩ := dec_enc (ty f.key) g2 (val f.key) g3 v wv ha
  have h6 := Same.plain_eq (ty f.key) g1 y (val f.key) h5
  subst h6
  exact h4

/-! ### Concrete cases -/

/-- `struct Summary { title: String (key "name"), n: i32 (key "id") }`, fields renamed, reordered and left out. -/
def summary : Struct where
  attrs := []
  vis := none
  name := "Summary".toList
  params := []
  where_ := []
  fields :=
    [⟨[.key '=' (.cooked [.plain 'n', .plain 'a', .plain 'm', .plain 'e'])], none, "title".toList, [id' "String"]⟩,
     ⟨[.key '=' (.cooked [.plain 'i', .plain 'd'])], none, "n".toList, [id' "i32"]⟩]
  comma := false
  commaP := false
  commaW := false

theorem summary_ok : summary.Ok := by
  refine ⟨by simp [summary], by simp [summary], by simp [summary], ?_, ?_, by simp [summary]⟩
  · intro t ht; cases ht
  · intro f hf
    simp only [summary, List.mem_cons, List.not_mem_nil, or_false] at hf
    have i : ∀ s : String, (∀ c ∈ s.toList, c ≠ '"' ∧ c ≠ '\\' ∧ c ≠ '\r') ∧ s.toList ≠ "pub".toList → IdentOk s.toList := fun _ h => h
    rcases hf with rfl | rfl
    · refine ⟨?_, i "title" (by decide), ty_ident "String" (by decide)⟩
      intro a ha
      simp only [List.mem_cons, List.not_mem_nil, or_false] at ha
      subst ha
      exact ⟨Or.inl rfl, ⟨by simp [RItem.Valid], by simp [RItem.Valid], by simp [RItem.Valid], by simp [RItem.Valid], trivial⟩, by simp⟩
    · refine ⟨?_, i "n" (by decide), ty_ident "i32" (by decide)⟩
      intro a ha
      simp only [List.mem_cons, List.not_mem_nil, or_false] at ha
      subst ha
      exact ⟨Or.inl rfl, ⟨by simp [RItem.Valid], by simp [RItem.Valid], trivial⟩, by simp⟩

/-- What the struct of the readme encodes, `Summary` decodes (`ty` gives the type for each member name). -/
example [FloatOps F] [LawfulFloat F] [LawfulCast F] (ty : Str → Ty) (d val : (i : Str) → (ty i).T F)
    (hg : ∀ f ∈ readmeItem.kept, Plain (ty f.key) ∧ Invertible (ty f.key) ∧ Good (ty f.key) (val f.key)) :
    let old : Str → Str := fun i => if i = "_id".toList then "id".toList else i
    let new : Str → Str := fun i => if i = "title".toList then "name".toList else "id".toList
    ∃ j, encodeDerived readmeItem.toks (tyStruct F (fun i => ty (old i)) (fun i => d (old i))) (fun i => val (old i)) = some (.ok j) ∧
      decodeDerived summary.toks (tyStruct F (fun i => ty (new i)) (fun i => d (new i))) j =
        some (.ok [⟨"title".toList, val "name".toList⟩, ⟨"n".toList, val "id".toList⟩]) := by
  intro old new
  refine C81_builtin readmeItem_ok summary_ok (by decide) ty d d val old new ?_ ?_ hg
  · decide
  · decide

/-- The other way round a member is missing, whatever its type. -/
example (S T : StructTy F) (self : S.Val) (x : T.V "_id".toList) (y : T.V "name".toList)
    (h1 : ∀ v, T.dec "_id".toList v = .ok x) (h2 : ∀ v, T.dec "name".toList v = .ok y) (j : Json F) (hj : encodeDerived summary.toks S self = some (.ok j)) (hw : WF j) :
    decodeDerived readmeItem.toks T j = some (.error ⟨.MissingKey, "missing key \"vec\".".toList⟩) := by
  refine C81_new_field summary_ok readmeItem_ok (by decide) S T self
    [⟨[.key '=' (.cooked [.plain 'i', .plain 'd'])], some none, "_id".toList, [id' "i32"]⟩, ⟨[], some none, "name".toList, [id' "String"]⟩] []
    ⟨[], some none, "vec".toList, [id' "Vec", .punct '<', id' "i32", .punct '>']⟩ rfl (by decide) ?_ j j hj hw rfl
  intro f hf
  simp only [List.mem_cons, List.not_mem_nil, or_false] at hf
  rcases hf with rfl | rfl
  · exact ⟨_, List.mem_cons_of_mem _ (List.mem_cons_self ..), rfl, fun v _ _ => ⟨x, h1 v⟩⟩
  · exact ⟨_, List.mem_cons_self .., rfl, fun v _ _ => ⟨y, h2 v⟩⟩

end RJ
