import Verif.Props.Derive
/-
  C39-C44: concrete cases, what the macros refuse, and what they get wrong.
-/
set_option linter.unusedSectionVars false
namespace RJ
open Spec
variable {F : Type}

/-- An identifier token. -/
abbrev id' (s : String) : Tok := .ident s.toList

/-! ### The struct of readme.md:84-92 -/

/-- `#[key = "id"] pub _id: i32`, `pub name: String`, `pub vec: Vec<i32>`, `#[ignore] opt: Option<()>`. -/
def readmeItem : Struct where
  attrs := []
  vis := some none
  name := "Item".toList
  params := []
  where_ := []
  fields :=
    [⟨[.key '=' (.cooked [.plain 'i', .plain 'd'])], some none, "_id".toList, [id' "i32"]⟩,
     ⟨[], some none, "name".toList, [id' "String"]⟩,
     ⟨[], some none, "vec".toList, [id' "Vec", .punct '<', id' "i32", .punct '>']⟩,
     ⟨[.ignore], none, "opt".toList, [id' "Option", .punct '<', .group .paren [], .punct '>']⟩]
  comma := true
  commaP := false
  commaW := false

/-- Its tokens are those of the readme. -/
example : readmeItem.toks = [id' "pub", id' "struct", id' "Item", .group .brace [
    .punct '#', .group .bracket [id' "key", .punct '=', .lit "\"id\"".toList], id' "pub", id' "_id", .punct ':', id' "i32", .punct ',',
    id' "pub", id' "name", .punct ':', id' "String", .punct ',',
    id' "pub", id' "vec", .punct ':', id' "Vec", .punct '<', id' "i32", .punct '>', .punct ',',
    .punct '#', .group .bracket [id' "ignore"], id' "opt", .punct ':', id' "Option", .punct '<', .group .paren [], .punct '>', .punct ',']] := rfl

theorem bare_ident (s : String) (h : s.toList ≠ "dyn".toList ∧ s.toList ≠ "impl".toList ∧ s.toList ≠ "mut".toList) (r : List Tok) : Bare (id' s :: r) := by
  intro t ht
  cases ht
  refine ⟨by simp, ?_, ?_, ?_⟩ <;> intro e <;> injection e with e
  · exact h.1 e
  · exact h.2.1 e
  · exact h.2.2 e

theorem ty_path {ts : List Tok} (h : TyG .path ts) (hb : Bare ts) : TyG .ty ts :=
  .bare [ts] (by simp) (by simpa using h) hb

theorem ty_ident (s : String) (h : s.toList ≠ "dyn".toList ∧ s.toList ≠ "impl".toList ∧ s.toList ≠ "mut".toList) : TyG .ty [id' s] :=
  ty_path (.ident [] _ (by simp)) (bare_ident s h _)

theorem ty_apply (s : String) (h : s.toList ≠ "dyn".toList ∧ s.toList ≠ "impl".toList ∧ s.toList ≠ "mut".toList) (a : List Tok) (ha : TyG .arg a) :
    TyG .ty (id' s :: .punct '<' :: (a ++ [.punct '>'])) :=
  ty_path (.apply [] _ [a] (by simp) (by simp) (by simpa using ha)) (bare_ident s h _)

theorem readmeItem_ok : readmeItem.Ok := by
  refine ⟨by simp [readmeItem], by simp [readmeItem], by simp [readmeItem], ?_, ?_, by simp [readmeItem]⟩
  · intro t ht; cases ht
  · intro f hf
    simp only [readmeItem, List.mem_cons, List.not_mem_nil, or_false] at hf
    have i : ∀ s : String, (∀ c ∈ s.toList, c ≠ '"' ∧ c ≠ '\\' ∧ c ≠ '\r') ∧ s.toList ≠ "pub".toList → IdentOk s.toList := fun _ h => h
    rcases hf with rfl | rfl | rfl | rfl
    · refine ⟨?_, i "_id" (by decide), ty_ident "i32" (by decide)⟩
      intro a ha
      simp only [List.mem_cons, List.not_mem_nil, or_false] at ha
      subst ha
      exact ⟨Or.inl rfl, ⟨by simp [RItem.Valid], by simp [RItem.Valid], trivial⟩, by simp⟩
    · exact ⟨by simp, i "name" (by decide), ty_ident "String" (by decide)⟩
    · exact ⟨by simp, i "vec" (by decide), ty_apply "Vec" (by decide) [id' "i32"] (.ofTy _ (ty_ident "i32" (by decide)))⟩
    · refine ⟨?_, i "opt" (by decide), ty_apply "Option" (by decide) [.group .paren []] (.ofTy _ (ty_path (.paren []) ?_))⟩
      · intro a ha
        simp only [List.mem_cons, List.not_mem_nil, or_false] at ha
        subst ha
        exact trivial
      · intro t ht; cases ht; simp

/-- Its members. -/
example : readmeItem.kept.map Field.key = ["id".toList, "name".toList, "vec".toList] ∧ readmeItem.ignored.map Field.name = ["opt".toList] := ⟨rfl, rfl⟩

/-- What the readme shows: encoding gives members `id`, `name`, `vec`, whatever the field types do. -/
example (S : StructTy F) (self : S.Val) : encodeDerived readmeItem.toks S self =
    some (.ok (.object [("id".toList, (S.enc "_id".toList (self "_id".toList), [])), ("name".toList, (S.enc "name".toList (self "name".toList), [])),
      ("vec".toList, (S.enc "vec".toList (self "vec".toList), []))])) :=
  C39_encode_distinct readmeItem_ok (by decide) S self

/-! ### Structs whose fields have built-in types -/

/-- A struct type whose field `i` has the built-in type `t i`. -/
def tyStruct (F : Type) [FloatOps F] (t : Str → Ty) (d : (i : Str) → (t i).T F) : StructTy F where
  V i := (t i).T F
  enc i x := (t i).enc x
  dec i j := (t i).dec j
  dflt := d

/-- **C40, built-in field types.** Decoding the encoding gives the struct back. -/
theorem C40_builtin [FloatOps F] [LawfulCast F] {s : Struct} (h : s.Ok) (hd : (s.kept.map Field.key).Nodup) (t : Str → Ty) (d : (i : Str) → (t i).T F)
    (self : (tyStruct F t d).Val) (ht : ∀ f ∈ s.kept, Plain (t f.name) ∧ Invertible (t f.name) ∧ Good (t f.name) (self f.name)) :
    ∃ j, encodeDerived s.toks (tyStruct F t d) self = some (.ok j) ∧
      decodeDerived s.toks (tyStruct F t d) j = some (.ok (s.kept.map (fun f => ⟨f.name, self f.name⟩) ++ defaults s (tyStruct F t d))) :=
  C40_decode_encode h hd (tyStruct F t d) self self (fun f hf => C30_round_trip (t f.name) (ht f hf).1 (ht f hf).2.1 (self f.name) (ht f hf).2.2)

/-- **C40, built-in field types, through text.** -/
theorem C40_builtin_text [FloatOps F] [LawfulFloat F] [LawfulCast F] {s : Struct} (h : s.Ok) (hd : (s.kept.map Field.key).Nodup) (t : Str → Ty) (d : (i : Str) → (t i).T F)
    (self : (tyStruct F t d).Val) (ht : ∀ f ∈ s.kept, Plain (t f.name) ∧ Invertible (t f.name) ∧ Good (t f.name) (self f.name))
    (hs : ∀ f ∈ s.kept, FiniteVals (t f.name) (self f.name) ∧ Strs Balanced (t f.name) (self f.name) ∧ Balanced f.key) :
    ∃ j j', encodeDerived s.toks (tyStruct F t d) self = some (.ok j) ∧ (Json.parse j.toString : Res (Json F)) = .ok j' ∧
      decodeDerived s.toks (tyStruct F t d) j' = some (.ok (s.kept.map (fun f => ⟨f.name, self f.name⟩) ++ defaults s (tyStruct F t d))) := by
  refine C40_text_round_trip h hd (tyStruct F t d) self self ?_ ?_
  · intro f hf
    obtain ⟨h1, h2, h3⟩ := ht f hf
    obtain ⟨h4, h5, h6⟩ := hs f hf
    exact ⟨wf_enc (t f.name) (self f.name) h3, finite_enc (t f.name) (self f.name) h3 h4, strs_enc Balanced (t f.name) (self f.name) h5, h6⟩
  · intro f hf v hw ha
    obtain ⟨h1, h2, h3⟩ := ht f hf
    obtain ⟨y, h4, h5⟩ := dec_enc (t f.name) h2 (self f.name) h3 v hw ha
    have h6 := Same.plain_eq (t f.name) h1 y (self f.name) h5
    subst h6
    exact h4

/-! ### C40: shared keys -/

/-- `struct S { a: bool, #[key = "a"] b: bool }`. -/
def sharedKeys : Struct where
  attrs := []
  vis := none
  name := "S".toList
  params := []
  where_ := []
  fields := [⟨[], none, "a".toList, [id' "bool"]⟩, ⟨[.key '=' (.cooked [.plain 'a'])], none, "b".toList, [id' "bool"]⟩]
  comma := false
  commaP := false
  commaW := false

theorem sharedKeys_ok : sharedKeys.Ok := by
  refine ⟨by simp [sharedKeys], by simp [sharedKeys], by simp [sharedKeys], ?_, ?_, by simp [sharedKeys]⟩
  · intro t ht; cases ht
  · intro f hf
    simp only [sharedKeys, List.mem_cons, List.not_mem_nil, or_false] at hf
    have i : ∀ s : String, (∀ c ∈ s.toList, c ≠ '"' ∧ c ≠ '\\' ∧ c ≠ '\r') ∧ s.toList ≠ "pub".toList → IdentOk s.toList := fun _ h => h
    rcases hf with rfl | rfl
    · exact ⟨by simp, i "a" (by decide), ty_ident "bool" (by decide)⟩
    · refine ⟨?_, i "b" (by decide), ty_ident "bool" (by decide)⟩
      intro a ha
      simp only [List.mem_cons, List.not_mem_nil, or_false] at ha
      subst ha
      exact ⟨Or.inl rfl, ⟨by simp [RItem.Valid], trivial⟩, by simp⟩

/-- **C40, counterexample.** With a shared name the macros accept the struct, and both fields come back as the second one. -/
theorem C40_shared_key [FloatOps F] (x y : Bool) : let S := tyStruct F (fun _ => .bool) (fun _ => false)
    ∃ j, encodeDerived sharedKeys.toks S (fun i => if i = "a".toList then x else y) = some (.ok j) ∧
      decodeDerived sharedKeys.toks S j = some (.ok [⟨"a".toList, y⟩, ⟨"b".toList, y⟩]) := by
  exact ⟨.object [("a".toList, (.boolean y, [.boolean x]))], rfl, rfl⟩

/-! ### What the macros refuse -/

/-- The keywords skipped in front of an item. -/
def Spec.Modifier (s : Str) : Prop := s = "async".toList ∨ s = "const".toList ∨ s = "unsafe".toList ∨ s = "extern".toList ∨ s = "pub".toList

/-- Both macros fail on anything but a struct (`enum`, `union`, ..). -/
theorem C39_only_structs (l : List (List Tok)) (v : Vis) (kw : Str) (h1 : kw ≠ "struct".toList) (h2 : ¬ Modifier kw) (rest : List Tok) :
    deriveEncode (hashToks l ++ (visToks v ++ .ident kw :: rest)) = none ∧ deriveDecode (hashToks l ++ (visToks v ++ .ident kw :: rest)) = none := by
  have : Item.parse (hashToks l ++ (visToks v ++ .ident kw :: rest)) = none := by
    unfold Item.parse
    rw [skip_hash, skip_vis, List.dropWhile_cons_of_neg, if_neg]
    · rw [any_isIdent]; simp; exact h1
    · unfold Modifier at h2
      simp only [skipToKeyword, Bool.or_eq_true, decide_eq_true_eq]
      tauto
  unfold deriveEncode deriveDecode
  rw [this]; exact ⟨rfl, rfl⟩

/-- Both macros fail on tuple structs, unit structs and structs without fields: whatever attributes, visibility and parameters they have. -/
theorem C39_only_named_fields (l : List (List Tok)) (v : Vis) (name : Str) (ps : List Param) (hp : ∀ p ∈ ps, p.Ok) (rest : List Tok)
    (hr : (∃ g, rest.head? = some (.group .paren g)) ∨ rest.head? = some (.punct ';') ∨ rest.head? = some (.group .brace [])) :
    let ts := hashToks l ++ (visToks v ++ (id' "struct" :: .ident name :: (angled (ps.map Param.toks) ++ rest)))
    deriveEncode ts = none ∧ deriveDecode ts = none := by
  intro ts
  have htail : ∀ g, structTail g rest = none ∨ ∃ a b f, structTail g rest = some (a, b, f) ∧ ∀ l, f ≠ .struct l := by
    intro g
    cases rest with
    | nil => simp at hr
    | cons t rest =>
      simp only [List.head?_cons, Option.some.injEq] at hr
      rcases hr with ⟨g', rfl⟩ | rfl | rfl
      · right; refine ⟨g, none, .tuple, ?_, by simp⟩
        rfl
      · right; refine ⟨g, none, .no, ?_, by simp⟩
        rfl
      · left; rfl
  have hbody : structBody (angled (ps.map Param.toks) ++ rest) = none ∨ ∃ a b f, structBody (angled (ps.map Param.toks) ++ rest) = some (a, b, f) ∧ ∀ l, f ≠ .struct l := by
    by_cases he : ps = []
    · subst he
      unfold structBody
      rw [show angled (([] : List Param).map Param.toks) ++ rest = rest from rfl, if_neg]
      · exact htail none
      · rw [any_isPunct]
        rcases hr with ⟨g, h⟩ | h | h <;> rw [h] <;> simp
    · obtain ⟨g, hg1, hg2, _, _⟩ := generics_parse he hp false rest
      have : angled (ps.map Param.toks) = .punct '<' :: (joinWith [.punct ','] (ps.map Param.toks) ++ optComma false ++ [.punct '>']) := by
        unfold angled optComma
        rw [if_neg (by simpa using he)]
        simp
      unfold structBody
      rw [this, if_pos (by simp [Tok.isPunct]), hg1]
      dsimp only
      have hd : ∀ (a r : List Tok), ((Tok.punct '<' :: (a ++ [.punct '>'])) ++ r).drop (a.length + 2) = r := by
        intro a r
        apply List.drop_left'
        simp
      rw [hg2, hd]
      exact htail (some g)
  have hitem : ∀ it, Item.parse ts = some it → ∀ l, it.fields ≠ .struct l := by
    intro it hit
    unfold Item.parse at hit
    split at hit
    case isFalse => cases hit
    unfold StructItem.parse at hit
    have hm : ∃ m, takeMeta ts = none ∨ takeMeta ts = some (m, visToks v ++ (id' "struct" :: .ident name :: (angled (ps.map Param.toks) ++ rest))) := by
      rw [takeMeta_hash]
      · split
        · exact ⟨none, Or.inr rfl⟩
        · cases h : collectO (l.map MetaItem.parse) with
          | none => exact ⟨none, Or.inl rfl⟩
          | some m => exact ⟨some m, Or.inr rfl⟩
      · intro t ht
        match v, ht with
        | none, ht => cases ht; rfl
        | some none, ht => cases ht; rfl
        | some (some p), ht => cases ht; rfl
    obtain ⟨m, hm | hm⟩ := hm
    · rw [hm] at hit; cases hit
    · rw [hm] at hit
      dsimp only at hit
      rw [takeVis_run _ _ _ (by decide)] at hit
      dsimp only at hit
      rw [if_pos (by simp [Tok.isIdent])] at hit
      rcases hbody with h | ⟨a, b, f, h, hf⟩
      · rw [h] at hit; cases hit
      · rw [h] at hit
        cases hit
        exact hf
  unfold deriveEncode deriveDecode
  cases h : Item.parse ts with
  | none => exact ⟨rfl, rfl⟩
  | some it =>
    have := hitem it h
    dsimp only
    cases hf : it.fields with
    | tuple => exact ⟨rfl, rfl⟩
    | no => exact ⟨rfl, rfl⟩
    | struct l => exact absurd hf (this l)

/-- A tuple struct with parameters, `pub struct W<'a, T: Clone>(T);`. -/
example : let ps := [Param.life "a".toList [], .type "T".toList [[id' "Clone"]] [] false]
    (∀ p ∈ ps, p.Ok) ∧ angled (ps.map Param.toks) = [.punct '<', .punct '\'', id' "a", .punct ',', id' "T", .punct ':', id' "Clone", .punct '>'] := by
  refine ⟨?_, rfl⟩
  intro p hp
  simp only [List.mem_cons, List.not_mem_nil, or_false] at hp
  rcases hp with rfl | rfl
  · exact trivial
  · intro t ht
    simp only [List.mem_cons, List.not_mem_nil, or_false] at ht
    subst ht
    refine ⟨.ident [] _ (by simp), ?_, by simp, by simp⟩
    rintro ⟨h, _⟩
    revert h
    simp

/-! ### What they get wrong -/

/-- Findings: types that are read, but written differently into the generated code.
`Vec<&'a str>` becomes `Vec<&'astr>`; `Box<dyn Iterator<Item = &T>>` becomes `Box<dyn Iterator<&Item = T>>`. -/
theorem C39_type_wrong :
    (RType.parse [id' "Vec", .punct '<', .punct '&', .punct '\'', id' "a", id' "str", .punct '>']).map RType.usedTy
      = some [id' "Vec", .punct '<', .punct '&', .punct '\'', id' "astr", .punct '>'] ∧
    (RType.parse [id' "Box", .punct '<', id' "dyn", id' "Iterator", .punct '<', id' "Item", .punct '=', .punct '&', id' "T", .punct '>', .punct '>']).map RType.usedTy
      = some [id' "Box", .punct '<', id' "dyn", id' "Iterator", .punct '<', .punct '&', id' "Item", .punct '=', id' "T", .punct '>', .punct '>'] := ⟨rfl, rfl⟩

/-- Findings: types that make the macros fail: `&&T`, `&dyn T`, `Foo<3>`. -/
theorem C39_type_refused :
    RType.parse [.punct '&', .punct '&', id' "T"] = none ∧
    RType.parse [.punct '&', id' "dyn", id' "T"] = none ∧
    RType.parse [id' "Foo", .punct '<', .lit "3".toList, .punct '>'] = none := ⟨rfl, rfl, rfl⟩

/-- Finding: a const parameter `const N: usize` is passed on as `'N`. -/
theorem C39_const_generic :
    (Generics.parse [.punct '<', id' "const", id' "N", .punct ':', id' "usize", .punct '>']).map Generics.onlyIdents
      = some [.punct '<', .punct '\'', id' "N", .punct '>'] := rfl

/-- Finding: a default is repeated in the generated `impl<T = u8>`, where Rust does not allow it. -/
theorem C39_default_generic :
    (Generics.parse [.punct '<', id' "T", .punct '=', id' "u8", .punct '>']).map Generics.toks
      = some [.punct '<', id' "T", .punct '=', id' "u8", .punct '>'] := rfl

/-- Finding: the member name of a raw identifier is the identifier with its `r#`. -/
theorem C42_raw_ident : (FieldItem.parse [id' "r#type", .punct ':', id' "i32"]).bind FieldItem.key = some "r#type".toList := rfl

end RJ
