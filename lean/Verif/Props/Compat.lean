import Verif.Props.Nested
import Verif.Proof.Compat
/-
  C86: compatible changes of types.
-/
set_option linter.unusedSectionVars false
namespace RJ
open Spec
variable {F : Type} [FloatOps F]

/-- **C86.** What was written as a `t'` is read as a `t`, if the types are compatible, to any depth of nesting; what is read is what one sees of the value as a `t`: fields matched by their member
names, numbers widened, values that have become optional present, maps with the same entries, ignored fields at their defaults.  The same from every document with the content written. -/
theorem C86_compat [LawfulCast F] {P : Program F} {decl : P.N → Struct} (hD : Declared P decl) {R : P.N → P.N → Prop} (hE : Evolves P decl R) {t t' : P.Ty}
    (hc : Compat P decl R t t') {x : P.Val} (hx : HasTy P decl t' x) {j : Json F} (hw : WF j) (hj : absJ j = absJ (P.enc t' x)) :
    ∃ y, P.dec t j = .ok y ∧ View P decl t y t' x := compat hD hE _ hc x (Nat.lt_succ_self _) hx j hw hj

/-- **C86, through text.** If the floats are finite and the strings, keys and member names have balanced brackets (see C01). -/
theorem C86_text [LawfulFloat F] [LawfulCast F] {P : Program F} {decl : P.N → Struct} (hD : Declared P decl) {R : P.N → P.N → Prop} (hE : Evolves P decl R) {t t' : P.Ty}
    (hc : Compat P decl R t t') {x : P.Val} (hx : HasTy P decl t' x) (hs : Within P decl (fun x => FloatOps.isFinite x = true) Balanced t' x) :
    ∃ (j : Json F) (y : P.Val), Json.parse (P.enc t' x).toString = .ok j ∧ P.dec t j = .ok y ∧ View P decl t y t' x := by
  have hfin : AllNum (fun x => FloatOps.isFinite x = true) (P.enc t' x) :=
    parts_encN hD (parts_num (fun x => FloatOps.isFinite x = true)) (fun _ h _ => h) (fun _ _ => trivial) (fun _ => trivial) (fun _ h => h) (fun n h1 h2 => LawfulCast.ofInt_finite n h1 h2)
      (fun _ _ => trivial) hx hs
  have hbal : AllStr Balanced (P.enc t' x) :=
    parts_encN hD (parts_str _) (fun _ _ h => h) (fun _ h => h) (fun _ => trivial) (fun _ _ => trivial) (fun _ _ _ => trivial) (fun _ h => h) hx hs
  obtain ⟨j, h1, h2⟩ := C01_round_trip _ hfin (wf_encN hD hx) (nested_of_all _ hbal)
  obtain ⟨y, h3, h4⟩ := C86_compat hD hE hc hx (C14_parse_well_formed _ _ h1).2 h2
  exact ⟨j, y, h1, h3, h4⟩

/-- **C86, the limits: a new field.** A struct with a non-ignored field whose member name the earlier version does not write reads nothing of what that has written, whatever the type of the
field (an `Option` too).  If the fields before it are compatible, the error says that its member is missing. -/
theorem C86_missing [LawfulCast F] {P : Program F} {decl : P.N → Struct} (hD : Declared P decl) {n n' : P.N} {f : Field} (hf : f ∈ (decl n).kept)
    (hm : f.key ∉ (decl n').kept.map Field.key) {x : P.Val} (hx : HasTy P decl (.named n') x) {j : Json F} (hw : WF j) (hj : absJ j = absJ (P.enc (.named n') x)) :
    (∃ e, P.dec (.named n) j = .error e) ∧
    ∀ (R : P.N → P.N → Prop) (pre post : List Field), Evolves P decl R → (decl n).kept = pre ++ f :: post →
      (∀ g ∈ pre, ∃ f' ∈ (decl n').kept, f'.key = g.key ∧ Compat P decl R (P.fieldTy n g.name) (P.fieldTy n' f'.name)) →
      P.dec (.named n) j = .error ⟨.MissingKey, "missing key \"".toList ++ f.key ++ "\".".toList⟩ := by
  cases hx with
  | @struct _ l hl h =>
  obtain ⟨m, rfl, hm1, hm2, _⟩ := struct_members hD hl h hw hj
  refine ⟨?_, ?_⟩
  · cases hr : P.dec (.named n) (.object m) with
    | error e => exact ⟨e, rfl⟩
    | ok v =>
      have h' := (C77_decode hD _ _ v).1 hr
      clear hr
      cases h' with
      | @struct _ _ l' hr =>
        have key : ∀ (fs : List Field) (l : List (Str × P.Val)), ReadsFieldsN P decl n m fs l → f ∈ fs → False := by
          intro fs
          induction fs with
          | nil => intro l _ h; cases h
          | cons g fs ih =>
            intro l h hfs
            cases h with
            | cons h1 _ h3 =>
              rcases List.mem_cons.1 hfs with rfl | hfs
              · rw [hm2 _ hm] at h1; cases h1
              · exact ih _ h3 hfs
        exact (key _ _ hr hf).elim
  · intro R pre post hE hk hpre
    obtain ⟨ys, h1, h2, h3⟩ := readFields_all (dec := P.dec) (n := n) (m := m) (fun _ _ => True) pre (by
      intro g hg
      obtain ⟨f', hf', e, hc⟩ := hpre g hg
      obtain ⟨x, hx⟩ := mem_of_name (hl ▸ kept_mem hf')
      obtain ⟨v, r, g1, g2, g3⟩ := hm1 f' hf' x hx
      obtain ⟨y, g4, _⟩ := C86_compat hD hE hc (h f' hf' x hx) g2 g3
      exact ⟨v, r, y, e ▸ g1, g4, trivial⟩)
    rw [dec_struct hD n _ (fail .ConvertError ""), decStruct_object hD, hk]
    have key : ∀ (fs : List Field) (ys : List (Str × P.Val)), readFields P P.dec n m fs = .ok ys → readFields P P.dec n m (fs ++ f :: post) = missingKey f.key := by
      intro fs
      induction fs with
      | nil => intro ys _; rw [List.nil_append, readFields, hm2 _ hm]
      | cons g fs ih =>
        intro ys hr
        rw [readFields] at hr
        rw [List.cons_append, readFields]
        cases hg : mapGet g.key m with
        | none => rw [hg] at hr; cases hr
        | some vr =>
          rw [hg] at hr
          dsimp only at hr ⊢
          cases hd : P.dec (P.fieldTy n g.name) vr.1 with
          | error e => rw [hd] at hr; cases hr
          | ok a =>
            rw [hd] at hr
            dsimp only at hr ⊢
            cases ht : readFields P P.dec n m fs with
            | error e => rw [ht] at hr; cases hr
            | ok b => rw [ih b ht]; rfl
    rw [key pre ys h1]
    rfl

/-- **C86, the limits: what was optional.** A `None` is not read at a type that is not optional (and not `Json`). -/
theorem C86_required {P : Program F} {decl : P.N → Struct} (hD : Declared P decl) {t t' : P.Ty} (hn : NeverNullN t) :
    ∃ e, P.dec t (P.enc (.option t') (.option none)) = .error e := by
  show ∃ e, P.dec t .null = .error e
  cases t with
  | json | option => exact hn.elim
  | named n => rw [dec_struct hD n _ (fail .ConvertError ""), decStruct_other hD _ _ _ _ (by intro m h; cases h)]; exact ⟨_, rfl⟩
  | _ => exact ⟨_, rfl⟩

/-- **C86, no change.** A type is compatible with itself (C77): every type for which decoding can invert encoding. -/
theorem C86_refl {P : Program F} {decl : P.N → Struct} (hI : ∀ n, ∀ f ∈ (decl n).kept, InvertibleN P (P.fieldTy n f.name)) :
    Evolves P decl Eq ∧ ∀ t, InvertibleN P t → Compat P decl Eq t t := by
  have key : ∀ t, InvertibleN P t → Compat P decl Eq t t := by
    intro t
    induction t with
    | json => exact fun _ => .json _
    | string => exact fun _ => .string
    | bool => exact fun _ => .bool
    | f64 => exact fun _ => .f64
    | f32 => exact fun _ => .f32
    | int => exact fun _ => .int (Int.le_refl _) (Int.le_refl _)
    | vec t ih => exact fun h => .vec (ih h)
    | option t ih => exact fun h => .option h.1 (ih h.2)
    | pairs i t ih => exact fun h => .pairs h.1 (ih h.2)
    | map i t ih => exact fun h => .map h.1 (ih h.2)
    | named n => exact fun _ => .named rfl
  refine ⟨?_, key⟩
  rintro n _ rfl f hf
  exact ⟨f, hf, rfl, key _ (hI n f hf)⟩

/-- **C86, any struct as its members.** What a derived struct has written is read as a `HashMap<K, Json>` and as a `Vec<(K, Json)>` (`K`: `String`, or any type with a key for each member name that
is read back from its text): each non-ignored field once, under its member name, with the document of the field's value; nothing else. -/
theorem C86_members [LawfulCast F] {P : Program F} {decl : P.N → Struct} (hD : Declared P decl) {i : P.ι} (hk : KeysBack P i) {n : P.N}
    (ha : ∀ f ∈ (decl n).kept, ∃ k, (P.key i).toStr k = f.key) {l : List (Str × P.Val)} (hx : HasTy P decl (.named n) (.struct l)) {j : Json F} (hw : WF j)
    (hj : absJ j = absJ (P.enc (.named n) (.struct l))) {t : P.Ty} (ht : t = .map i .json ∨ t = .pairs i .json) :
    ∃ m : List ((P.key i).K × P.Val), P.dec t j = .ok (.entries (P.tag i m)) ∧ (m.map (·.1)).Nodup ∧
      (∀ k, k ∈ m.map (·.1) ↔ ∃ f ∈ (decl n).kept, f.key = (P.key i).toStr k) ∧
      ∀ k v, (k, v) ∈ m → ∀ f ∈ (decl n).kept, f.key = (P.key i).toStr k → ∀ x, (f.name, x) ∈ l → ∃ d, v = .json d ∧ absJ d = absJ (P.enc (P.fieldTy n f.name) x) := by
  have hE : Evolves P decl (fun _ _ => False) := fun _ _ h => h.elim
  have see : ∀ {v x : P.Val} {t' : P.Ty}, View P decl .json v t' x → ∃ d, v = .json d ∧ absJ d = absJ (P.enc t' x) := by
    intro v x t' h
    cases h with
    | @json _ _ d _ e => exact ⟨d, rfl, e⟩
  rcases ht with rfl | rfl
  · obtain ⟨y, h1, h2⟩ := C86_compat hD hE (.members hk ha (fun _ _ => .json _)) hx hw hj
    cases h2 with
    | @members _ _ _ m _ h3 h4 h5 => exact ⟨m, h1, h3, h4, fun k v hv f hf e x hx => see (h5 k v hv f hf e x hx)⟩
  · obtain ⟨y, h1, h2⟩ := C86_compat hD hE (.fields hk ha (fun _ _ => .json _)) hx hw hj
    cases h2 with
    | @fields _ _ _ m _ h3 h4 h5 => exact ⟨m, h1, h3, h4, fun k v hv f hf e x hx => see (h5 k v hv f hf e x hx)⟩

/-! ### Two versions of a program -/

/-- `struct Dir { #[key = "name"] title: Option<String>, #[ignore] seen: bool, #[key = "f"] files: Vec<File>, dirs: Vec<(String, Dir)> }`. -/
def dirDecl2 : Struct where
  attrs := []
  vis := none
  name := "Dir".toList
  params := []
  where_ := []
  fields :=
    [⟨[.key '=' (.cooked [.plain 'n', .plain 'a', .plain 'm', .plain 'e'])], none, "title".toList, [id' "Option", .punct '<', id' "String", .punct '>']⟩,
     ⟨[.ignore], none, "seen".toList, [id' "bool"]⟩,
     ⟨[.key '=' (.cooked [.plain 'f'])], none, "files".toList, [id' "Vec", .punct '<', id' "File", .punct '>']⟩,
     ⟨[], none, "dirs".toList, [id' "Dirs"]⟩]
  comma := true
  commaP := false
  commaW := false

/-- `struct File { unpacked: Option<HashMap<String, Json>>, size: f64 }`. -/
def fileDecl2 : Struct where
  attrs := []
  vis := none
  name := "File".toList
  params := []
  where_ := []
  fields := [⟨[], none, "unpacked".toList, [id' "Option", .punct '<', id' "Members", .punct '>']⟩, ⟨[], none, "size".toList, [id' "f64"]⟩]
  comma := true
  commaP := false
  commaW := false

theorem dirDecl2_ok : dirDecl2.Ok := by
  refine ⟨by simp [dirDecl2], by simp [dirDecl2], by simp [dirDecl2], ?_, ?_, by simp [dirDecl2]⟩
  · intro t ht; cases ht
  · intro f hf
    simp only [dirDecl2, List.mem_cons, List.not_mem_nil, or_false] at hf
    have i : ∀ s : String, (∀ c ∈ s.toList, c ≠ '"' ∧ c ≠ '\\' ∧ c ≠ '\r') ∧ s.toList ≠ "pub".toList → IdentOk s.toList := fun _ h => h
    rcases hf with rfl | rfl | rfl | rfl
    · refine ⟨?_, i "title" (by decide), ty_apply "Option" (by decide) [id' "String"] (.ofTy _ (ty_ident "String" (by decide)))⟩
      intro a ha
      simp only [List.mem_cons, List.not_mem_nil, or_false] at ha
      subst ha
      exact ⟨Or.inl rfl, ⟨by simp [RItem.Valid], by simp [RItem.Valid], by simp [RItem.Valid], by simp [RItem.Valid], trivial⟩, by simp⟩
    · refine ⟨?_, i "seen" (by decide), ty_ident "bool" (by decide)⟩
      intro a ha
      simp only [List.mem_cons, List.not_mem_nil, or_false] at ha
      subst ha
      exact trivial
    · refine ⟨?_, i "files" (by decide), ty_apply "Vec" (by decide) [id' "File"] (.ofTy _ (ty_ident "File" (by decide)))⟩
      intro a ha
      simp only [List.mem_cons, List.not_mem_nil, or_false] at ha
      subst ha
      exact ⟨Or.inl rfl, ⟨by simp [RItem.Valid], trivial⟩, by simp⟩
    · exact ⟨by simp, i "dirs" (by decide), ty_ident "Dirs" (by decide)⟩

theorem fileDecl2_ok : fileDecl2.Ok := by
  refine ⟨by simp [fileDecl2], by simp [fileDecl2], by simp [fileDecl2], ?_, ?_, by simp [fileDecl2]⟩
  · intro t ht; cases ht
  · intro f hf
    simp only [fileDecl2, List.mem_cons, List.not_mem_nil, or_false] at hf
    have i : ∀ s : String, (∀ c ∈ s.toList, c ≠ '"' ∧ c ≠ '\\' ∧ c ≠ '\r') ∧ s.toList ≠ "pub".toList → IdentOk s.toList := fun _ h => h
    rcases hf with rfl | rfl
    · exact ⟨by simp, i "unpacked" (by decide), ty_apply "Option" (by decide) [id' "Members"] (.ofTy _ (ty_ident "Members" (by decide)))⟩
    · exact ⟨by simp, i "size" (by decide), ty_ident "f64" (by decide)⟩

/-- The declarations: those of `fsProgram` (`inl`) and the new ones (`inr`); `false` is `File`, `true` is `Dir`. -/
def fs2Decl : Bool ⊕ Bool → Struct
  | .inl n => fsDecl n
  | .inr false => fileDecl2
  | .inr true => dirDecl2

/-- The types of the fields. -/
def fs2Ty (n : Bool ⊕ Bool) (f : Str) : NTy Unit (Bool ⊕ Bool) :=
  match n with
  | .inl false => if f = "size".toList then .int "i32" (-(2 ^ 31)) (2 ^ 31 - 1) else .option (.named (.inl true))
  | .inl true => if f = "name".toList then .string else if f = "_files".toList then .vec (.named (.inl false)) else .map () (.named (.inl true))
  | .inr false => if f = "size".toList then .f64 else .option (.map () .json)
  | .inr true => if f = "title".toList then .option .string else if f = "files".toList then .vec (.named (.inr false)) else .pairs () (.named (.inr true))

/-- Both versions. -/
def fs2Program (F : Type) [FloatOps F] : Program F where
  ι := Unit
  eqι := inferInstance
  key _ := stringKey
  N := Bool ⊕ Bool
  toks n := (fs2Decl n).toks
  fieldTy := fs2Ty
  dflt _ _ := .bool false

theorem fs2_declared : Declared (fs2Program F) fs2Decl where
  toks _ := rfl
  ok n := by rcases n with n | n <;> cases n; exacts [fileDecl_ok, dirDecl_ok, fileDecl2_ok, dirDecl2_ok]
  keys n := by rcases n with n | n <;> cases n <;> decide
  names n := by rcases n with n | n <;> cases n <;> decide

/-- The new versions of the structs. -/
def fs2Later (n n' : Bool ⊕ Bool) : Prop := ∃ b, n = .inr b ∧ n' = .inl b

theorem string_keys : KeysBack (fs2Program F) () := fun _ => rfl

theorem fs2_evolves : Evolves (fs2Program F) fs2Decl fs2Later := by
  rintro n n' ⟨b, rfl, rfl⟩ f hf
  cases b with
  | false =>
    have hf : f ∈ fileDecl2.kept := hf
    have hk : fileDecl2.kept = [⟨[], none, "unpacked".toList, [id' "Option", .punct '<', id' "Members", .punct '>']⟩, ⟨[], none, "size".toList, [id' "f64"]⟩] := rfl
    simp only [hk, List.mem_cons, List.not_mem_nil, or_false] at hf
    rcases hf with rfl | rfl
    · refine ⟨⟨[], none, "unpacked".toList, [id' "Option", .punct '<', id' "Dir", .punct '>']⟩, by show _ ∈ fileDecl.kept; simp [file_kept], rfl, ?_⟩
      exact .option trivial (.members string_keys (fun f _ => ⟨f.key, rfl⟩) (fun _ _ => .json _))
    · exact ⟨⟨[], none, "size".toList, [id' "i32"]⟩, by show _ ∈ fileDecl.kept; simp [file_kept], rfl, .float _ _ _⟩
  | true =>
    have hf : f ∈ dirDecl2.kept := hf
    have hk : dirDecl2.kept = [⟨[.key '=' (.cooked [.plain 'n', .plain 'a', .plain 'm', .plain 'e'])], none, "title".toList, [id' "Option", .punct '<', id' "String", .punct '>']⟩,
        ⟨[.key '=' (.cooked [.plain 'f'])], none, "files".toList, [id' "Vec", .punct '<', id' "File", .punct '>']⟩, ⟨[], none, "dirs".toList, [id' "Dirs"]⟩] := rfl
    simp only [hk, List.mem_cons, List.not_mem_nil, or_false] at hf
    rcases hf with rfl | rfl | rfl
    · exact ⟨⟨[], none, "name".toList, [id' "String"]⟩, by show _ ∈ dirDecl.kept; simp [dir_kept], rfl, .some trivial .string⟩
    · exact ⟨⟨[.key '=' (.cooked [.plain 'f'])], none, "_files".toList, [id' "Vec", .punct '<', id' "File", .punct '>']⟩,
        by show _ ∈ dirDecl.kept; simp [dir_kept], rfl, .vec (.named ⟨false, rfl, rfl⟩)⟩
    · exact ⟨⟨[], none, "dirs".toList, [id' "HashMap", .punct '<', id' "String", .punct ',', id' "Dir", .punct '>']⟩,
        by show _ ∈ dirDecl.kept; simp [dir_kept], rfl, .listed string_keys (.named ⟨true, rfl, rfl⟩)⟩

/-- Every directory the old program has written is read by the new one. -/
theorem C86_example [LawfulCast F] {x : (fs2Program F).Val} (hx : HasTy (fs2Program F) fs2Decl (.named (.inl true)) x) :
    ∃ y, (fs2Program F).dec (.named (.inr true)) ((fs2Program F).enc (.named (.inl true)) x) = .ok y ∧
      View (fs2Program F) fs2Decl (.named (.inr true)) y (.named (.inl true)) x :=
  C86_compat fs2_declared fs2_evolves (.named ⟨true, rfl, rfl⟩) hx (wf_encN fs2_declared hx) rfl

/-- `Dir { name: s, _files: fs, dirs: ds, cache: false }` of the old version. -/
def oldDir (s : Str) (fs : List (fs2Program F).Val) (ds : List (Str × (fs2Program F).Val)) : (fs2Program F).Val :=
  .struct [("name".toList, .string s), ("_files".toList, .vec fs), ("dirs".toList, .entries ((fs2Program F).tag () ds)), ("cache".toList, .bool false)]

theorem oldDir_ty {s : Str} {fs : List (fs2Program F).Val} {ds : List (Str × (fs2Program F).Val)} (h1 : ∀ x ∈ fs, HasTy (fs2Program F) fs2Decl (.named (.inl false)) x)
    (hn : (ds.map (·.1)).Nodup) (h2 : ∀ p ∈ ds, HasTy (fs2Program F) fs2Decl (.named (.inl true)) p.2) :
    HasTy (fs2Program F) fs2Decl (.named (.inl true)) (oldDir s fs ds) := by
  refine .struct rfl ?_
  intro f hf x hx
  have hf : f ∈ dirDecl.kept := hf
  simp only [dir_kept, List.mem_cons, List.not_mem_nil, or_false] at hf
  rcases hf with rfl | rfl | rfl <;> simp at hx <;> subst hx
  · exact .string s
  · exact .vec h1
  · exact HasTy.map (P := fs2Program F) (decl := fs2Decl) (i := ()) (t := .named (.inl true)) (l := ds) hn h2

/-- The hypotheses of `C86_members`: every directory of the old program is read as a `HashMap<String, Json>`. -/
example [LawfulCast F] {s : Str} {fs : List (fs2Program F).Val} {ds : List (Str × (fs2Program F).Val)} (h1 : ∀ x ∈ fs, HasTy (fs2Program F) fs2Decl (.named (.inl false)) x)
    (hn : (ds.map (·.1)).Nodup) (h2 : ∀ p ∈ ds, HasTy (fs2Program F) fs2Decl (.named (.inl true)) p.2) :
    ∃ m : List (Str × (fs2Program F).Val), (fs2Program F).dec (.map () .json) ((fs2Program F).enc (.named (.inl true)) (oldDir s fs ds)) = .ok (.entries ((fs2Program F).tag () m)) ∧
      "f".toList ∈ m.map (·.1) ∧ "_files".toList ∉ m.map (·.1) := by
  have hx := oldDir_ty (s := s) h1 hn h2
  obtain ⟨m, h3, _, h4, _⟩ := C86_members fs2_declared (i := ()) string_keys (fun f _ => ⟨f.key, rfl⟩) hx (wf_encN fs2_declared hx) rfl (.inl rfl)
  refine ⟨m, h3, (h4 _).2 ?_, fun h => ?_⟩
  · exact ⟨⟨[.key '=' (.cooked [.plain 'f'])], none, "_files".toList, [id' "Vec", .punct '<', id' "File", .punct '>']⟩, by show _ ∈ dirDecl.kept; simp [dir_kept], rfl⟩
  · obtain ⟨f, hf, e⟩ := (h4 _).1 h
    have hf : f ∈ dirDecl.kept := hf
    have e : f.key = "_files".toList := e
    simp only [dir_kept, List.mem_cons, List.not_mem_nil, or_false] at hf
    rcases hf with rfl | rfl | rfl <;> revert e <;> decide +kernel

/-- A directory with an archive, itself a directory, and a subdirectory: the hypothesis of `C86_example`. -/
example : HasTy (fs2Program F) fs2Decl (.named (.inl true))
    (oldDir "/".toList [.struct [("size".toList, .int 7), ("unpacked".toList, .option (some (oldDir "zip".toList [] [])))]] [("etc".toList, oldDir "etc".toList [] [])]) := by
  refine oldDir_ty ?_ (by simp) ?_
  · intro x hx
    simp at hx
    subst hx
    refine .struct rfl ?_
    intro f hf x hx
    have hf : f ∈ fileDecl.kept := hf
    simp only [file_kept, List.mem_cons, List.not_mem_nil, or_false] at hf
    rcases hf with rfl | rfl <;> simp at hx <;> subst hx
    · exact .int (by decide) (by decide) (by decide) (by decide)
    · exact .some (oldDir_ty (by simp) (by simp) (by simp))
  · intro p hp
    simp at hp
    subst hp
    exact oldDir_ty (by simp) (by simp) (by simp)

/-- In it the title is the old name, present; a new field `seen` at its default. -/
example {x y : (fs2Program F).Val} (h : View (fs2Program F) fs2Decl (.named (.inr true)) y (.named (.inl true)) x) :
    ∃ l l', y = .struct l ∧ x = .struct l' ∧ ("seen".toList, .bool false) ∈ l ∧
      ∀ s v, ("name".toList, .string s) ∈ l' → ("title".toList, v) ∈ l → v = .option (some (.string s)) := by
  cases h with
  | @struct _ _ l l' _ h2 h3 =>
    refine ⟨l, l', rfl, rfl, h3 ⟨[.ignore], none, "seen".toList, [id' "bool"]⟩ (by show _ ∈ dirDecl2.ignored; exact List.mem_singleton.2 rfl), ?_⟩
    intro s v hs hv
    have h := h2 ⟨[.key '=' (.cooked [.plain 'n', .plain 'a', .plain 'm', .plain 'e'])], none, "title".toList, [id' "Option", .punct '<', id' "String", .punct '>']⟩ (List.mem_cons_self ..)
      ⟨[], none, "name".toList, [id' "String"]⟩ (by show _ ∈ dirDecl.kept; simp [dir_kept]) rfl _ _ hv hs
    have h : View (fs2Program F) fs2Decl (.option .string) v .string (.string s) := h
    cases h with
    | some _ h => cases h; rfl

/-- The old program does not read what the new one has written, should the title be `None`. -/
example : ∃ e, (fs2Program F).dec .string ((fs2Program F).enc (.option .string) (.option none)) = .error e := C86_required fs2_declared trivial

end RJ
