import Verif.Proof.RereadN
import Verif.Props.Nested
import Verif.Props.Float
/-
  C85: what has been read from a document stays: written and read again, and again, it is the same.
-/
set_option linter.unusedSectionVars false
namespace RJ
open Spec

/-! ### The built-in types -/

/-- **C85, the document.** What `T::from_json` gave for any document is given again for the document that `to_json` writes for it (the hash maps in any order) - and
that value is again written as the same text.  Nothing is asked of the value: integers may be as large as they like, `Option`s nested. -/
theorem C85_stable (t : Ty) (hu : Usual t) (j : Json F64) (hw : WF j) (x : t.T F64) (h : t.dec j = .ok x) :
    WF (t.enc x) ∧ ∀ j' : Json F64, WF j' → absJ j' = absJ (t.enc x) → ∃ y, t.dec j' = .ok y ∧ Same t y x ∧ (t.enc y).toString = (t.enc x).toString := by
  obtain ⟨h1, h2⟩ := reread t hu j x hw h
  refine ⟨h1, fun j' hw' ha => ?_⟩
  obtain ⟨y, h3, h4, h5⟩ := h2 j' hw' ha
  exact ⟨y, h3, h4, C04_order_independent _ _ (reread t hu j' y hw' h3).1 h1 h5⟩

/-- **C85, exactly.** The very value, if the type involves no hash maps, `Vec<(K, V)>` and `Json`. -/
theorem C85_exact (t : Ty) (hu : Usual t) (hp : Plain t) (j : Json F64) (hw : WF j) (x : t.T F64) (h : t.dec j = .ok x) : t.dec (t.enc x) = .ok x := by
  obtain ⟨h1, h2⟩ := C85_stable t hu j hw x h
  obtain ⟨y, h3, h4, _⟩ := h2 _ h1 rfl
  rw [h3, Same.plain_eq t hp y x h4]

/-- **C85, through text.** `decode(&encode(&decode(text)?))` is `decode(text)`, and `encode` of it the same text, provided no number was too large for an `f32` and the
strings and keys have balanced brackets (see C01). -/
theorem C85_text (t : Ty) (hu : Usual t) (s : Str) (x : t.T F64) (h : decodeText t s = .ok x) (hf : FiniteVals t x) (hs : NestedStrs t x) :
    ∃ y : t.T F64, decodeText t (encodeText t x) = .ok y ∧ Same t y x ∧ encodeText t y = encodeText t x := by
  unfold decodeText at h
  cases hj : (Json.parse s : Res (Json F64)) with
  | error e => rw [hj] at h; cases h
  | ok j =>
    rw [hj] at h
    have hw := (C14_parse_well_formed _ _ hj).2
    obtain ⟨h1, h2⟩ := C85_stable t hu j hw x h
    obtain ⟨j', h3, h4⟩ := C01_round_trip (t.enc x) (reread_finite t hu j x hw h hf) h1 (nested_enc t x hs)
    obtain ⟨y, h5, h6, h7⟩ := h2 j' (C14_parse_well_formed _ _ h3).2 h4
    refine ⟨y, ?_, h6, h7⟩
    unfold decodeText encodeText
    rw [h3]
    exact h5

/-- **C85, through text, exactly.** -/
theorem C85_text_exact (t : Ty) (hu : Usual t) (hp : Plain t) (s : Str) (x : t.T F64) (h : decodeText t s = .ok x) (hf : FiniteVals t x) (hs : NestedStrs t x) :
    decodeText t (encodeText t x) = .ok x := by
  obtain ⟨y, h1, h2, _⟩ := C85_text t hu s x h hf hs
  rw [h1, Same.plain_eq t hp y x h2]

/-- **C85, finite.** Unless the type has an `f32` in it, every float read from a text is finite. -/
theorem C85_finite (t : Ty) (hn : NoF32 t) (s : Str) (x : t.T F64) (h : decodeText t s = .ok x) : FiniteVals t x := by
  unfold decodeText at h
  cases hj : (Json.parse s : Res (Json F64)) with
  | error e => rw [hj] at h; cases h
  | ok j =>
    rw [hj] at h
    replace h : t.dec j = .ok x := h
    have hw := C14_parse_well_formed _ _ hj
    clear hj
    obtain ⟨hfin, hw⟩ := hw
    have hp := parts_num (F := F64) (fun f => FloatOps.isFinite f = true)
    have size : ∀ N (j : Json F64), jsz j < N → AllNum (fun f => FloatOps.isFinite f = true) j → ∀ (t : Ty), NoF32 t → ∀ x : t.T F64, t.dec j = .ok x → FiniteVals t x := by
      intro N
      induction N with
      | zero => intro j h; omega
      | succ N IH =>
        intro j hj hfin t
        induction t with
        | json => intro _ x h; cases h; exact hfin
        | string => intros; exact trivial
        | bool => intros; exact trivial
        | f64 =>
          intro _ x h
          cases j with
          | number f => cases h; exact hfin
          | _ => cases h
        | f32 => intro h; exact h.elim
        | int => intros; exact trivial
        | vec t _ =>
          intro hn (l : List (t.T F64)) h x hx
          cases j with
          | array vs =>
            have h : collect (vs.map t.dec) = .ok l := h
            rw [collect_ok] at h
            have : (Except.ok x : Res (t.T F64)) ∈ vs.map t.dec := by rw [h]; exact List.mem_map.2 ⟨x, hx, rfl⟩
            obtain ⟨v, hv, e⟩ := List.mem_map.1 this
            exact IH v (Nat.lt_of_lt_of_le (json_size_array hv : jsz v < jsz (Json.array vs)) (Nat.le_of_lt_succ hj)) ((hp.arr vs).mp hfin v hv) t hn x e
          | _ => cases h
        | option t ih =>
          intro hn o h x hx
          rcases decOption_cases h with ⟨rfl, rfl⟩ | ⟨_, a, rfl, ha⟩
          · cases hx
          · cases hx; exact ih hn _ ha
        | pairs κ t _ =>
          intro hn l h p hx
          cases j with
          | object m =>
            obtain ⟨v, ⟨h1, h2⟩, h3⟩ := member_parts (κ := κ) (dec := t.dec) (Q := fun v => AllNum (fun f => FloatOps.isFinite f = true) v ∧ jsz v < jsz (Json.object m))
              (h : collect _ = .ok l) (by
                intro r hr
                obtain ⟨e, he, hr⟩ := List.mem_flatMap.1 hr
                obtain ⟨v, hv, rfl⟩ := List.mem_map.1 hr
                obtain ⟨_, w1, w2⟩ := (hp.obj m).mp hfin _ _ _ he
                obtain ⟨s1, s2⟩ := json_size_object he
                refine ⟨e.1, v, ?_, rfl⟩
                rcases List.mem_append.1 hv with hv | hv
                · exact ⟨w2 v (List.mem_reverse.1 hv), s2 v (List.mem_reverse.1 hv)⟩
                · rw [List.mem_singleton.1 hv]; exact ⟨w1, s1⟩) p hx
            exact IH v (Nat.lt_of_lt_of_le h2 (Nat.le_of_lt_succ hj)) h1 t hn _ h3
          | _ => cases h
        | map κ t _ =>
          intro hn l h p hx
          cases j with
          | object m =>
            replace h : decMap κ t.dec (.object m) = .ok l := h
            unfold decMap at h
            dsimp only at h
            cases hc : collect (m.map (fun e => decMember κ t.dec e.1 e.2.1)) with
            | error e => rw [hc] at h; cases h
            | ok l0 =>
              rw [hc] at h
              cases h
              rcases hm_foldl_mem hx with hx | hx
              · obtain ⟨v, ⟨h1, h2⟩, h3⟩ := member_parts (κ := κ) (dec := t.dec) (Q := fun v => AllNum (fun f => FloatOps.isFinite f = true) v ∧ jsz v < jsz (Json.object m))
                  hc (by
                    intro r hr
                    obtain ⟨e, he, rfl⟩ := List.mem_map.1 hr
                    exact ⟨e.1, e.2.1, ⟨((hp.obj m).mp hfin _ _ _ he).2.1, (json_size_object he).1⟩, rfl⟩) p hx
                exact IH v (Nat.lt_of_lt_of_le h2 (Nat.le_of_lt_succ hj)) h1 t hn _ h3
              · cases hx
          | _ => cases h
    exact size _ j (Nat.lt_succ_self _) hfin t hn x h

/-- **C85, integers.** An integer that was read is exact from then on, even above 2^53, and so are the bounds of each type. -/
theorem C85_int {name : String} {lo hi : Int} (h : RustInt name lo hi) :
    (∀ (j : Json F64) (n : Int), (Ty.int name lo hi).dec j = .ok n → (Ty.int name lo hi).dec ((Ty.int name lo hi).enc n : Json F64) = .ok n) ∧
    (Ty.int name lo hi).dec ((Ty.int name lo hi).enc lo : Json F64) = .ok lo ∧ (Ty.int name lo hi).dec ((Ty.int name lo hi).enc hi : Json F64) = .ok hi := by
  refine ⟨fun j n hj => ?_, congrArg Except.ok (bounds_stable h).1, congrArg Except.ok (bounds_stable h).2⟩
  cases j with
  | number f =>
    have hx : toIntFl lo hi f = n := Except.ok.inj hj
    refine congrArg Except.ok ?_
    show toIntFl lo hi (ofIntFl b64 n) = n
    rw [← hx]
    exact cast_stable h f
  | _ => cases hj

/-! ### Derived types -/

/-- **C85, derived types.** The same for every type of a program with derived structs: what comes back is the value up to the order of hash maps, and it is written as
the same text; if no hash maps, `Vec<(K, V)>` and `Json` are involved it is the very value, ignored fields included. -/
theorem C85_program {P : Program F64} {decl : P.N → Struct} (hD : Declared P decl) (hU : ∀ n, ∀ f ∈ (decl n).kept, UsualN P (P.fieldTy n f.name))
    {t : P.Ty} (hu : UsualN P t) {j : Json F64} (hw : WF j) {v : P.Val} (h : P.dec t j = .ok v) :
    WF (P.enc t v) ∧ ∀ j' : Json F64, WF j' → absJ j' = absJ (P.enc t v) → ∃ y, P.dec t j' = .ok y ∧ Back P decl t v y ∧
      (P.enc t y).toString = (P.enc t v).toString ∧ ((∀ n, ∀ f ∈ (decl n).kept, PlainN (P.fieldTy n f.name)) → PlainN t → y = v) := by
  have shape : ∀ {j : Json F64} {v : P.Val}, WF j → P.dec t j = .ok v → Shaped P decl MaxInt t v :=
    fun hw h => shaped_dec hD hU _ _ (Nat.lt_succ_self _) hw _ hu _ h
  refine ⟨wf_encNS hD (shape hw h), fun j' hw' ha => ?_⟩
  obtain ⟨y, h1, h2, h3, h4⟩ := rereadN hD hU _ j (Nat.lt_succ_self _) hw t hu v h j' hw' ha
  exact ⟨y, h1, h2, C04_order_independent _ _ (wf_encNS hD (shape hw' h1)) (wf_encNS hD (shape hw h)) h3, h4⟩

/-- **C85, derived types, through text.** -/
theorem C85_program_text {P : Program F64} {decl : P.N → Struct} (hD : Declared P decl) (hU : ∀ n, ∀ f ∈ (decl n).kept, UsualN P (P.fieldTy n f.name))
    {t : P.Ty} (hu : UsualN P t) {s : Str} {j : Json F64} (hj : Json.parse s = .ok j) {v : P.Val} (h : P.dec t j = .ok v)
    (hs : Within P decl (fun x => FloatOps.isFinite x = true) Balanced t v) :
    ∃ (j' : Json F64) (y : P.Val), Json.parse (P.enc t v).toString = .ok j' ∧ P.dec t j' = .ok y ∧ Back P decl t v y ∧
      (P.enc t y).toString = (P.enc t v).toString ∧ ((∀ n, ∀ f ∈ (decl n).kept, PlainN (P.fieldTy n f.name)) → PlainN t → y = v) := by
  have hw := (C14_parse_well_formed _ _ hj).2
  have hv : Shaped P decl MaxInt t v := shaped_dec hD hU _ _ (Nat.lt_succ_self _) hw _ hu _ h
  have hfin : AllNum (fun x => FloatOps.isFinite x = true) (P.enc t v) :=
    parts_encNS hD (parts_num (fun x => FloatOps.isFinite x = true)) (fun _ h _ => h) (fun _ _ => trivial) (fun _ => trivial) (fun _ h => h)
      (fun n h => int_finite n h) (fun _ _ => trivial) hv hs
  have hbal : AllStr Balanced (P.enc t v) :=
    parts_encNS hD (parts_str _) (fun _ _ h => h) (fun _ h => h) (fun _ => trivial) (fun _ _ => trivial) (fun _ _ => trivial) (fun _ h => h) hv hs
  obtain ⟨h1, h2⟩ := C85_program hD hU hu hw h
  obtain ⟨j', h3, h4⟩ := C01_round_trip _ hfin h1 (nested_of_all _ hbal)
  obtain ⟨y, h5, h6⟩ := h2 j' (C14_parse_well_formed _ _ h3).2 h4
  exact ⟨j', y, h3, h5, h6⟩

/-! ### Cases -/

/-- `i64`. -/
theorem rustInt_i64 : RustInt "i64" (-2 ^ 63) (2 ^ 63 - 1) := by rw [← C34_types]; simp [intTypes]

/-- Read or not makes a difference: 2^53 + 1 does not survive the first time.  (What then comes back does.) -/
example : (Ty.int "i64" (-2 ^ 63) (2 ^ 63 - 1)).dec ((Ty.int "i64" (-2 ^ 63) (2 ^ 63 - 1)).enc (2 ^ 53 + 1 : Int) : Json F64) = .ok (2 ^ 53 : Int) := by
  refine congrArg Except.ok ?_
  show toIntFl (-2 ^ 63) (2 ^ 63 - 1) (ofIntFl b64 (2 ^ 53 + 1)) = 2 ^ 53
  decide +kernel

/-- `Vec<Option<i64>>`. -/
abbrev someInts : Ty := .vec (.option (.int "i64" (-2 ^ 63) (2 ^ 63 - 1)))

/-- A text with a number larger than every `i64`, read as `Vec<Option<i64>>`: a case of `C85_text_exact`. -/
example : ∃ x, decodeText (F := F64) someInts "[1e30, null, -7.9]".toList = .ok x ∧ decodeText (F := F64) someInts (encodeText (F := F64) someInts x) = .ok x := by
  have h : decodeText (F := F64) someInts "[1e30, null, -7.9]".toList = .ok ([some (2 ^ 63 - 1), none, some (-7)] : List (Option Int)) := by
    have key : ∀ (r : Res (List (Option Int))) (l : List (Option Int)), r.toOption = some l → r = .ok l := by
      intro r l h
      cases r with
      | error e => cases h
      | ok l' => exact congrArg Except.ok (Option.some.inj h)
    exact key (decodeText (F := F64) someInts "[1e30, null, -7.9]".toList) _ (by decide +kernel)
  refine ⟨_, h, C85_text_exact someInts rustInt_i64 trivial _ _ h (C85_finite someInts trivial _ _ h) ?_⟩
  intro x _ y _
  exact trivial

/-- Why floats must be finite: `1e300` is read as an infinite `f32`, which is written as no JSON. -/
example : ∃ x, decodeText (F := F64) .f32 "1e300".toList = .ok x ∧ ∀ y, decodeText (F := F64) .f32 (encodeText (F := F64) .f32 x) ≠ .ok y := by
  refine ⟨(.inf false : F32), ?_, ?_⟩
  · have h' : (match (decodeText (F := F64) .f32 "1e300".toList : Res F32) with
        | .ok (.inf false) => true
        | _ => false) = true := by decide +kernel
    revert h'
    generalize (decodeText (F := F64) .f32 "1e300".toList : Res F32) = r
    match r with
    | .ok (.inf false) => intro _; rfl
    | .ok (.inf true) => intro h; cases h
    | .ok .nan => intro h; cases h
    | .ok (.fin _ _ _) => intro h; cases h
    | .error e => intro h; cases h
  · intro y h
    have h' : (match (decodeText (F := F64) .f32 (encodeText (F := F64) .f32 (.inf false : F32)) : Res F32) with
        | .ok _ => true
        | _ => false) = false := by decide +kernel
    rw [h] at h'
    cases h'

/-- The types of the two structs of C77. -/
theorem fs_usual : ∀ n, ∀ f ∈ (fsDecl n).kept, UsualN (fsProgram F64) ((fsProgram F64).fieldTy n f.name) := by
  have hi : RustInt "i32" (-(2 ^ 31)) (2 ^ 31 - 1) := by rw [← C34_types]; simp [intTypes]
  intro n f hf
  cases n with
  | false =>
    have hf : f ∈ fileDecl.kept := hf
    simp only [file_kept, List.mem_cons, List.not_mem_nil, or_false] at hf
    rcases hf with rfl | rfl
    · exact hi
    · exact trivial
  | true =>
    have hf : f ∈ dirDecl.kept := hf
    simp only [dir_kept, List.mem_cons, List.not_mem_nil, or_false] at hf
    rcases hf with rfl | rfl | rfl
    · exact trivial
    · exact trivial
    · exact ⟨fun _ => rfl, trivial⟩

/-- A file whose size fits no `i32`, from a document with an unknown member: a case of `C85_program`. -/
example (x : F64) : ∃ v, (fsProgram F64).dec (.named false) (.object [("size".toList, (.number x, [])), ("unpacked".toList, (.null, [])), ("owner".toList, (.null, []))]) = .ok v ∧
    ∃ y, (fsProgram F64).dec (.named false) ((fsProgram F64).enc (.named false) v) = .ok y ∧ Back (fsProgram F64) fsDecl (.named false) v y := by
  have h : (fsProgram F64).dec (.named false) (.object [("size".toList, (.number x, [])), ("unpacked".toList, (.null, [])), ("owner".toList, (.null, []))]) =
      .ok (.struct [("size".toList, .int (FloatOps.toInt (-(2 ^ 31)) (2 ^ 31 - 1) x)), ("unpacked".toList, .option none)]) := by
    rw [C77_decode fs_declared]
    exact ReadsN.struct (P := fsProgram F64) (decl := fsDecl) (n := false) (l := [("size".toList, .int (FloatOps.toInt (-(2 ^ 31)) (2 ^ 31 - 1) x)), ("unpacked".toList, .option none)])
      (.cons (f := ⟨[], none, "size".toList, [id' "i32"]⟩) (dups := []) rfl (.int _ _ _ x)
      (.cons (f := ⟨[], none, "unpacked".toList, [id' "Option", .punct '<', id' "Dir", .punct '>']⟩) (dups := []) rfl (.null _) (.nil _ _)))
  refine ⟨_, h, ?_⟩
  obtain ⟨h1, h2⟩ := C85_program fs_declared fs_usual (t := .named false) trivial (by
    refine ⟨by simp, ?_⟩
    rw [WFMap_iff]
    intro k v l hm
    simp at hm
    rcases hm with ⟨_, rfl, rfl⟩ | ⟨_, rfl, rfl⟩ | ⟨_, rfl, rfl⟩ <;> exact ⟨trivial, by simp⟩) h
  obtain ⟨y, h3, h4, _⟩ := h2 _ h1 rfl
  exact ⟨y, h3, h4⟩

end RJ
