import Verif.Props.DeriveCases
import Verif.Proof.NestedDec
/-
  C77: derived types that contain one another.
-/
set_option linter.unusedSectionVars false
namespace RJ
open Spec
variable {F : Type} [FloatOps F]

/-! ### The recursion -/

/-- **C77, the recursion ends.** However deep the derived implementations may call one another, provided it is deeper than the value (the document), the result is the
same; in particular none of the "unreachable" results `d` ever shows. -/
theorem C77_terminates {P : Program F} {decl : P.N → Struct} (hD : Declared P decl) (t : P.Ty) :
    (∀ v, HasTy P decl t v → ∀ (d : Json F) (k : Nat), sizeOf v < k → P.encTy d (P.encNamed d k) t v = P.enc t v) ∧
    (∀ (j : Json F) (d : Res P.Val) (k : Nat), sizeOf j < k → P.decTy (P.decNamed d k) t j = P.dec t j) :=
  ⟨fun _ hv d _ hk => enc_eq hD hv d hk, fun j d _ hk => dec_eq hD t j d hk⟩

/-- **C77, the generated code.** `from_json` of a derived struct is the code the macro generates for it, its fields being read with `from_json` of their types. -/
theorem C77_decode_code {P : Program F} {decl : P.N → Struct} (hD : Declared P decl) (n : P.N) (j : Json F) :
    (decodeDerived (P.toks n) (P.structOf n P.enc P.dec) j).map (fun r => r.map (fun l => (NVal.struct (l.map (fun p => (p.1, p.2))) : P.Val))) =
      some (P.dec (.named n) j) := by
  rw [dec_struct hD n j (fail .ConvertError "")]
  by_cases hj : ∃ m, j = .object m
  · obtain ⟨m, rfl⟩ := hj
    rw [decStruct_object hD, hD.toks n, decode_body (hD.ok n), ← runGets_read P.enc]
    unfold fromJsonBody
    dsimp only
    cases runGets (P.structOf n P.enc P.dec) m ((decl n).kept.map (fun f => (f.key, f.name))) with
    | error e => rfl
    | ok l =>
      refine congrArg (fun q => some (Except.ok (NVal.struct q))) ?_
      refine Eq.trans (List.map_append ..) ?_
      rw [List.map_map, List.map_map]
      rfl
  · have hj' : ∀ m, j ≠ .object m := fun m h => hj ⟨m, h⟩
    rw [decStruct_other hD _ _ _ _ hj', hD.toks n, C41_not_object (hD.ok n) _ _ hj']
    rfl

/-- **C77, the generated code.** `to_json` of a derived struct is the code the macro generates for it, its fields being written with `to_json` of their types. -/
theorem C77_encode_code {P : Program F} {decl : P.N → Struct} (hD : Declared P decl) (n : P.N) (l : List (Str × P.Val)) (h : HasTy P decl (.named n) (.struct l)) :
    encodeDerived (P.toks n) (P.structOf n P.enc P.dec) (fieldOf l (.bool false)) = some (.ok (P.enc (.named n) (.struct l))) := by
  cases h with
  | struct h1 h2 =>
    rw [enc_struct hD h1 h2 .null, encStruct_eq hD, hD.toks n]
    exact C39_encode_distinct (hD.ok n) (hD.keys n) (P.structOf n P.enc P.dec) (fieldOf l (.bool false))

/-- **C77, encoding.** A struct is the object of its non-ignored fields, in declaration order, under their keys; a `Vec` the array of its elements' encodings; `None` is
`null`, `Some(x)` what `x` is. -/
theorem C77_encode {P : Program F} {decl : P.N → Struct} (hD : Declared P decl) :
    (∀ n l, HasTy P decl (.named n) (.struct l) → ∃ vs : List P.Val, AllTwo (fun (f : Field) v => (f.name, v) ∈ l) (decl n).kept vs ∧
      P.enc (.named n) (.struct l) = .object (((decl n).kept.zip vs).map (fun p => (p.1.key, (P.enc (P.fieldTy n p.1.name) p.2, []))))) ∧
    (∀ t l, HasTy P decl (.vec t) (.vec l) → P.enc (.vec t) (.vec l) = .array (l.map (P.enc t))) ∧
    (∀ t, P.enc (.option t) (.option none) = .null) ∧
    (∀ t x, HasTy P decl t x → P.enc (.option t) (.option (some x)) = P.enc t x) := by
  refine ⟨?_, ?_, fun _ => rfl, fun _ _ h => enc_some hD h⟩
  · intro n l h
    cases h with
    | struct h1 h2 =>
      refine ⟨(decl n).kept.map (fun f => fieldOf l (.bool false) f.name), ?_, ?_⟩
      · have key : ∀ fs : List Field, (∀ f ∈ fs, f ∈ (decl n).kept) → AllTwo (fun (f : Field) v => (f.name, v) ∈ l) fs (fs.map (fun f => fieldOf l (.bool false) f.name)) := by
          intro fs
          induction fs with
          | nil => intro _; exact trivial
          | cons f fs ih => intro hm; exact ⟨fieldOf_mem hD h1 (hm f (by simp)) _, ih (fun g hg => hm g (by simp [hg]))⟩
        exact key _ (fun _ h => h)
      · rw [enc_struct hD h1 h2 .null, encStruct_eq hD]
        congr 1
        generalize (decl n).kept = fs
        induction fs with
        | nil => rfl
        | cons f fs ih => rw [List.map_cons, List.map_cons, List.zip_cons_cons, List.map_cons, ih]
  · intro t l h
    cases h with
    | vec h => rw [enc_vec hD h]; rfl

/-! ### Round trips -/

/-- **C77, round trip.** `T::from_json(&x.to_json())` gives `x` back, to any depth of nesting: up to the order of hash maps, with the ignored fields at their defaults.  The
same from every document with the same content. -/
theorem C77_round_trip [LawfulCast F] {P : Program F} {decl : P.N → Struct} (hD : Declared P decl) (hI : ∀ n, ∀ f ∈ (decl n).kept, InvertibleN P (P.fieldTy n f.name))
    {t : P.Ty} (ht : InvertibleN P t) {v : P.Val} (h : HasTy P decl t v) {j : Json F} (hw : WF j) (hj : absJ j = absJ (P.enc t v)) :
    ∃ y, P.dec t j = .ok y ∧ Back P decl t v y := dec_encN hD hI h ht j hw hj

/-- The encoding is a well-formed value. -/
theorem C77_well_formed {P : Program F} {decl : P.N → Struct} (hD : Declared P decl) {t : P.Ty} {v : P.Val} (h : HasTy P decl t v) : WF (P.enc t v) := wf_encN hD h

/-- **C77, exactly.** If no field is ignored and no type involves hash maps, `Vec<(K, V)>` or `Json`, the very value comes back. -/
theorem C77_round_trip_exact [LawfulCast F] {P : Program F} {decl : P.N → Struct} (hD : Declared P decl)
    (hI : ∀ n, ∀ f ∈ (decl n).kept, InvertibleN P (P.fieldTy n f.name) ∧ PlainN (P.fieldTy n f.name)) (hi : ∀ n, (decl n).ignored = [])
    {t : P.Ty} (ht : InvertibleN P t) (hp : PlainN t) {v : P.Val} (h : HasTy P decl t v) {j : Json F} (hw : WF j) (hj : absJ j = absJ (P.enc t v)) :
    P.dec t j = .ok v := by
  obtain ⟨y, h1, h2⟩ := C77_round_trip hD (fun n f hf => (hI n f hf).1) ht h hw hj
  rw [h1, back_plain (fun n f hf => (hI n f hf).2) hD hi h2 hp]

/-- **C77, through text.** `T::from_json(&Json::parse(&x.to_json().to_string())?)` gives `x` back, if the floats are finite and the strings, keys and member names have
balanced brackets (see C01). -/
theorem C77_text [LawfulFloat F] [LawfulCast F] {P : Program F} {decl : P.N → Struct} (hD : Declared P decl)
    (hI : ∀ n, ∀ f ∈ (decl n).kept, InvertibleN P (P.fieldTy n f.name)) {t : P.Ty} (ht : InvertibleN P t) {v : P.Val} (h : HasTy P decl t v)
    (hs : Within P decl (fun x => FloatOps.isFinite x = true) Balanced t v) :
    ∃ (j : Json F) (y : P.Val), Json.parse (P.enc t v).toString = .ok j ∧ P.dec t j = .ok y ∧ Back P decl t v y := by
  have hfin : AllNum (fun x => FloatOps.isFinite x = true) (P.enc t v) :=
    parts_encN hD (parts_num (fun x => FloatOps.isFinite x = true)) (fun _ h _ => h) (fun _ _ => trivial) (fun _ => trivial) (fun _ h => h) (fun n h1 h2 => LawfulCast.ofInt_finite n h1 h2)
      (fun _ _ => trivial) h hs
  have hbal : AllStr Balanced (P.enc t v) :=
    parts_encN hD (parts_str _) (fun _ _ h => h) (fun _ h => h) (fun _ => trivial) (fun _ _ => trivial) (fun _ _ _ => trivial) (fun _ h => h) h hs
  obtain ⟨j, h1, h2⟩ := C01_round_trip _ hfin (wf_encN hD h) (nested_of_all _ hbal)
  obtain ⟨y, h3, h4⟩ := C77_round_trip hD hI ht h (C14_parse_well_formed _ _ h1).2 h2
  exact ⟨j, y, h1, h3, h4⟩

/-- **C77, through text, exactly.** -/
theorem C77_text_exact [LawfulFloat F] [LawfulCast F] {P : Program F} {decl : P.N → Struct} (hD : Declared P decl)
    (hI : ∀ n, ∀ f ∈ (decl n).kept, InvertibleN P (P.fieldTy n f.name) ∧ PlainN (P.fieldTy n f.name)) (hi : ∀ n, (decl n).ignored = [])
    {t : P.Ty} (ht : InvertibleN P t) (hp : PlainN t) {v : P.Val} (h : HasTy P decl t v)
    (hs : Within P decl (fun x => FloatOps.isFinite x = true) Balanced t v) :
    ∃ j : Json F, Json.parse (P.enc t v).toString = .ok j ∧ P.dec t j = .ok v := by
  obtain ⟨j, y, h1, h2, h3⟩ := C77_text hD (fun n f hf => (hI n f hf).1) ht h hs
  exact ⟨j, h1, by rw [h2, back_plain (fun n f hf => (hI n f hf).2) hD hi h3 hp]⟩

/-! ### Decoding any document -/

/-- **C77, what is read.** From any document. -/
theorem C77_decode {P : Program F} {decl : P.N → Struct} (hD : Declared P decl) (t : P.Ty) (j : Json F) (v : P.Val) : P.dec t j = .ok v ↔ ReadsN P decl t j v :=
  (dec_exact hD _ j (Nat.lt_succ_self _) t).1 v

/-- **C77, which error.** That of the first part that cannot be read. -/
theorem C77_error {P : Program F} {decl : P.N → Struct} (hD : Declared P decl) (t : P.Ty) (j : Json F) (e : Error) : P.dec t j = .error e ↔ FailsN P decl t j e :=
  (dec_exact hD _ j (Nat.lt_succ_self _) t).2 e

/-- **C77, no other outcome.** -/
theorem C77_total {P : Program F} {decl : P.N → Struct} (hD : Declared P decl) (t : P.Ty) (j : Json F) :
    ((∃ v, ReadsN P decl t j v) ∨ ∃ e, FailsN P decl t j e) ∧ ¬ ((∃ v, ReadsN P decl t j v) ∧ ∃ e, FailsN P decl t j e) := by
  constructor
  · cases h : P.dec t j with
    | ok v => exact .inl ⟨v, (C77_decode hD t j v).1 h⟩
    | error e => exact .inr ⟨e, (C77_error hD t j e).1 h⟩
  · rintro ⟨⟨v, hv⟩, e, he⟩
    have h1 := (C77_decode hD t j v).2 hv
    have h2 := (C77_error hD t j e).2 he
    rw [h1] at h2
    cases h2

/-- **C77, complete.** Every struct read has each of its declared fields exactly once, the ignored ones at their defaults. -/
theorem C77_complete {P : Program F} {decl : P.N → Struct} (hD : Declared P decl) {n : P.N} {j : Json F} {v : P.Val} (h : P.dec (.named n) j = .ok v) :
    ∃ l, v = .struct l ∧ l.map (·.1) = fieldNames (decl n) ∧ ∀ f ∈ (decl n).ignored, (f.name, P.dflt n f.name) ∈ l := by
  have h' := (C77_decode hD _ j v).1 h
  clear h
  cases h' with
  | @struct _ m l h =>
    refine ⟨_, rfl, ?_, fun f hf => List.mem_append.2 (.inr (List.mem_map.2 ⟨f, hf, rfl⟩))⟩
    have key : ∀ (fs : List Field) (l : List (Str × P.Val)), ReadsFieldsN P decl n m fs l → l.map (·.1) = fs.map Field.name := by
      intro fs
      induction fs with
      | nil => intro l h; cases h; rfl
      | cons f fs ih => intro l h; cases h with | cons _ _ h => rw [List.map_cons, List.map_cons, ih _ h]
    unfold fieldNames
    rw [List.map_append, List.map_append, key _ _ h, List.map_map]
    rfl

/-! ### A program -/

/-- `struct Dir { name: String, #[key = "f"] _files: Vec<File>, dirs: HashMap<String, Dir>, #[ignore] cache: i32 }`. -/
def dirDecl : Struct where
  attrs := []
  vis := none
  name := "Dir".toList
  params := []
  where_ := []
  fields :=
    [⟨[], none, "name".toList, [id' "String"]⟩,
     ⟨[.key '=' (.cooked [.plain 'f'])], none, "_files".toList, [id' "Vec", .punct '<', id' "File", .punct '>']⟩,
     ⟨[], none, "dirs".toList, [id' "HashMap", .punct '<', id' "String", .punct ',', id' "Dir", .punct '>']⟩,
     ⟨[.ignore], none, "cache".toList, [id' "i32"]⟩]
  comma := true
  commaP := false
  commaW := false

/-- `struct File { size: i32, unpacked: Option<Dir> }`. -/
def fileDecl : Struct where
  attrs := []
  vis := none
  name := "File".toList
  params := []
  where_ := []
  fields := [⟨[], none, "size".toList, [id' "i32"]⟩, ⟨[], none, "unpacked".toList, [id' "Option", .punct '<', id' "Dir", .punct '>']⟩]
  comma := true
  commaP := false
  commaW := false

theorem dir_kept : dirDecl.kept = [⟨[], none, "name".toList, [id' "String"]⟩,
    ⟨[.key '=' (.cooked [.plain 'f'])], none, "_files".toList, [id' "Vec", .punct '<', id' "File", .punct '>']⟩,
    ⟨[], none, "dirs".toList, [id' "HashMap", .punct '<', id' "String", .punct ',', id' "Dir", .punct '>']⟩] := rfl

theorem file_kept : fileDecl.kept = [⟨[], none, "size".toList, [id' "i32"]⟩, ⟨[], none, "unpacked".toList, [id' "Option", .punct '<', id' "Dir", .punct '>']⟩] := rfl

theorem dirDecl_ok : dirDecl.Ok := by
  refine ⟨by simp [dirDecl], by simp [dirDecl], by simp [dirDecl], ?_, ?_, by simp [dirDecl]⟩
  · intro t ht; cases ht
  · intro f hf
    simp only [dirDecl, List.mem_cons, List.not_mem_nil, or_false] at hf
    have i : ∀ s : String, (∀ c ∈ s.toList, c ≠ '"' ∧ c ≠ '\\' ∧ c ≠ '\r') ∧ s.toList ≠ "pub".toList → IdentOk s.toList := fun _ h => h
    rcases hf with rfl | rfl | rfl | rfl
    · exact ⟨by simp, i "name" (by decide), ty_ident "String" (by decide)⟩
    · refine ⟨?_, i "_files" (by decide), ty_apply "Vec" (by decide) [id' "File"] (.ofTy _ (ty_ident "File" (by decide)))⟩
      intro a ha
      simp only [List.mem_cons, List.not_mem_nil, or_false] at ha
      subst ha
      exact ⟨Or.inl rfl, ⟨by simp [RItem.Valid], trivial⟩, by simp⟩
    · refine ⟨by simp, i "dirs" (by decide), ty_path (.apply [] _ [[id' "String"], [id' "Dir"]] (by simp) (by simp) ?_) (bare_ident "HashMap" (by decide) _)⟩
      intro a ha
      simp only [List.mem_cons, List.not_mem_nil, or_false] at ha
      rcases ha with rfl | rfl
      · exact .ofTy _ (ty_ident "String" (by decide))
      · exact .ofTy _ (ty_ident "Dir" (by decide))
    · refine ⟨?_, i "cache" (by decide), ty_ident "i32" (by decide)⟩
      intro a ha
      simp only [List.mem_cons, List.not_mem_nil, or_false] at ha
      subst ha
      exact trivial

theorem fileDecl_ok : fileDecl.Ok := by
  refine ⟨by simp [fileDecl], by simp [fileDecl], by simp [fileDecl], ?_, ?_, by simp [fileDecl]⟩
  · intro t ht; cases ht
  · intro f hf
    simp only [fileDecl, List.mem_cons, List.not_mem_nil, or_false] at hf
    have i : ∀ s : String, (∀ c ∈ s.toList, c ≠ '"' ∧ c ≠ '\\' ∧ c ≠ '\r') ∧ s.toList ≠ "pub".toList → IdentOk s.toList := fun _ h => h
    rcases hf with rfl | rfl
    · exact ⟨by simp, i "size" (by decide), ty_ident "i32" (by decide)⟩
    · exact ⟨by simp, i "unpacked" (by decide), ty_apply "Option" (by decide) [id' "Dir"] (.ofTy _ (ty_ident "Dir" (by decide)))⟩

/-- The declarations: `false` is `File`, `true` is `Dir`. -/
def fsDecl : Bool → Struct
  | false => fileDecl
  | true => dirDecl

/-- The types of the fields. -/
def fsTy (n : Bool) (f : Str) : NTy Unit Bool :=
  match n with
  | false => if f = "size".toList then .int "i32" (-(2 ^ 31)) (2 ^ 31 - 1) else .option (.named true)
  | true => if f = "name".toList then .string else if f = "_files".toList then .vec (.named false) else .map () (.named true)

/-- The two structs, which contain each other and themselves. -/
def fsProgram (F : Type) [FloatOps F] : Program F where
  ι := Unit
  eqι := inferInstance
  key _ := stringKey
  N := Bool
  toks n := (fsDecl n).toks
  fieldTy := fsTy
  dflt _ _ := .int 0

theorem fs_declared : Declared (fsProgram F) fsDecl where
  toks _ := rfl
  ok n := by cases n; exacts [fileDecl_ok, dirDecl_ok]
  keys n := by cases n <;> decide
  names n := by cases n <;> decide

theorem fs_invertible : ∀ n, ∀ f ∈ (fsDecl n).kept, InvertibleN (fsProgram F) ((fsProgram F).fieldTy n f.name) := by
  intro n f hf
  cases n with
  | false =>
    have hf : f ∈ fileDecl.kept := hf
    simp only [file_kept, List.mem_cons, List.not_mem_nil, or_false] at hf
    rcases hf with rfl | rfl
    · exact trivial
    · exact ⟨trivial, trivial⟩
  | true =>
    have hf : f ∈ dirDecl.kept := hf
    simp only [dir_kept, List.mem_cons, List.not_mem_nil, or_false] at hf
    rcases hf with rfl | rfl | rfl
    · exact trivial
    · exact trivial
    · exact ⟨fun _ => rfl, trivial⟩

/-- `Dir { name: s, _files: fs, dirs: ds, cache: c }`. -/
def mkDir (s : Str) (fs : List (fsProgram F).Val) (ds : List (Str × (fsProgram F).Val)) (c : Int) : (fsProgram F).Val :=
  .struct [("name".toList, .string s), ("_files".toList, .vec fs), ("dirs".toList, .entries ((fsProgram F).tag () ds)), ("cache".toList, .int c)]

/-- `File { size: n, unpacked: o }`. -/
def mkFile (n : Int) (o : Option (fsProgram F).Val) : (fsProgram F).Val :=
  .struct [("size".toList, .int n), ("unpacked".toList, .option o)]

theorem mkDir_ty {s : Str} {fs : List (fsProgram F).Val} {ds : List (Str × (fsProgram F).Val)} {c : Int} (h1 : ∀ x ∈ fs, HasTy (fsProgram F) fsDecl (.named false) x)
    (hn : (ds.map (·.1)).Nodup) (h2 : ∀ p ∈ ds, HasTy (fsProgram F) fsDecl (.named true) p.2) : HasTy (fsProgram F) fsDecl (.named true) (mkDir s fs ds c) := by
  refine .struct rfl ?_
  intro f hf x hx
  have hf : f ∈ dirDecl.kept := hf
  simp only [dir_kept, List.mem_cons, List.not_mem_nil, or_false] at hf
  rcases hf with rfl | rfl | rfl <;> simp at hx <;> subst hx
  · exact .string s
  · exact .vec h1
  · exact HasTy.map (P := fsProgram F) (decl := fsDecl) (i := ()) (t := .named true) (l := ds) hn h2

theorem mkFile_ty {n : Int} {o : Option (fsProgram F).Val} (h1 : -(2 ^ 31) ≤ n) (h2 : n ≤ 2 ^ 31 - 1) (h3 : ∀ x, o = some x → HasTy (fsProgram F) fsDecl (.named true) x) :
    HasTy (fsProgram F) fsDecl (.named false) (mkFile n o) := by
  refine .struct rfl ?_
  intro f hf x hx
  have hf : f ∈ fileDecl.kept := hf
  simp only [file_kept, List.mem_cons, List.not_mem_nil, or_false] at hf
  rcases hf with rfl | rfl <;> simp at hx <;> subst hx
  · exact .int h1 h2 (by omega) (by omega)
  · cases o with
    | none => exact .none _
    | some x => exact .some (h3 x rfl)

/-- A directory with an archive in it, and a subdirectory. -/
def someDir : (fsProgram F).Val :=
  mkDir "/".toList [mkFile 7 none, mkFile (-1) (some (mkDir "zip".toList [mkFile 3 none] [] 5))] [("etc".toList, mkDir "etc".toList [] [] 9)] 1

theorem someDir_ty : HasTy (fsProgram F) fsDecl (.named true) someDir := by
  have hf : ∀ n : Int, -(2 ^ 31) ≤ n → n ≤ 2 ^ 31 - 1 → HasTy (fsProgram F) fsDecl (.named false) (mkFile n none) := fun n h1 h2 => mkFile_ty h1 h2 (by simp)
  refine mkDir_ty ?_ (by simp) ?_
  · intro x hx
    simp at hx
    rcases hx with rfl | rfl
    · exact hf 7 (by decide) (by decide)
    · refine mkFile_ty (by decide) (by decide) ?_
      intro x hx
      cases hx
      refine mkDir_ty ?_ (by simp) (by simp)
      intro x hx
      simp at hx
      subst hx
      exact hf 3 (by decide) (by decide)
  · intro p hp
    simp at hp
    subst hp
    exact mkDir_ty (by simp) (by simp) (by simp)

/-- Its encoding. -/
example : (fsProgram F).enc (.named true) (mkDir "/".toList [mkFile 7 none] [] 1) =
    .object [("name".toList, (.string "/".toList, [])),
      ("f".toList, (.array [.object [("size".toList, (.number (FloatOps.ofInt 7), [])), ("unpacked".toList, (.null, []))]], [])),
      ("dirs".toList, (.object [], []))] := by
  have hf : HasTy (fsProgram F) fsDecl (.named false) (mkFile 7 none) := mkFile_ty (by decide) (by decide) (by simp)
  have hd : HasTy (fsProgram F) fsDecl (.named true) (mkDir "/".toList [mkFile 7 none] [] 1) := mkDir_ty (by simpa using hf) (by simp) (by simp)
  have e1 : (fsProgram F).enc (.named false) (mkFile 7 none) =
      .object [("size".toList, (.number (FloatOps.ofInt 7), [])), ("unpacked".toList, (.null, []))] := by
    unfold mkFile at hf ⊢
    cases hf with
    | struct h1 h2 =>
      refine (enc_struct fs_declared h1 h2 .null).trans ?_
      refine (encStruct_eq fs_declared _ _ _ _).trans ?_
      show Json.object (fileDecl.kept.map _) = _
      rw [file_kept]
      rfl
  unfold mkDir at hd ⊢
  cases hd with
  | struct h1 h2 =>
    refine (enc_struct fs_declared h1 h2 .null).trans ?_
    refine (encStruct_eq fs_declared _ _ _ _).trans ?_
    show Json.object (dirDecl.kept.map _) = _
    rw [dir_kept, List.map_cons, List.map_cons, List.map_cons, List.map_nil]
    show Json.object [("name".toList, (.string "/".toList, [])), ("f".toList, ((fsProgram F).enc (.vec (.named false)) (.vec [mkFile 7 none]), [])),
      ("dirs".toList, ((fsProgram F).enc (.map () (.named true)) (.entries ((fsProgram F).tag () [])), []))] = _
    rw [enc_vec fs_declared (by simpa using hf)]
    show Json.object [_, (_, (Json.array [(fsProgram F).enc (.named false) (mkFile 7 none)], [])), _] = _
    rw [e1]
    rfl

/-- It comes back. -/
example [LawfulCast F] : ∃ y, (fsProgram F).dec (.named true) ((fsProgram F).enc (.named true) someDir) = .ok y ∧ Back (fsProgram F) fsDecl (.named true) someDir y :=
  C77_round_trip fs_declared fs_invertible (t := .named true) trivial someDir_ty (C77_well_formed fs_declared someDir_ty) rfl

/-- The cache of what comes back is empty. -/
example {v y : (fsProgram F).Val} (h : Back (fsProgram F) fsDecl (.named true) v y) : ∃ l, y = .struct l ∧ ("cache".toList, .int 0) ∈ l := by
  cases h with
  | struct _ _ _ h => exact ⟨_, rfl, h ⟨[.ignore], none, "cache".toList, [id' "i32"]⟩ (by show _ ∈ dirDecl.ignored; exact List.mem_singleton.2 rfl)⟩

/-- A file whose archive has no name: the error names the missing key of the inner struct. -/
example (x : F) : (fsProgram F).dec (.named false) (.object [("unpacked".toList, (.object [], [])), ("size".toList, (.number x, []))]) =
    .error ⟨.MissingKey, "missing key \"name\".".toList⟩ := by
  rw [C77_error fs_declared]
  refine .field (pre := [⟨[], none, "size".toList, [id' "i32"]⟩]) (post := []) (f := ⟨[], none, "unpacked".toList, [id' "Option", .punct '<', id' "Dir", .punct '>']⟩)
    (j := .object []) (dups := []) (l := [("size".toList, .int (FloatOps.toInt (-(2 ^ 31)) (2 ^ 31 - 1) x))]) rfl ?_ rfl ?_
  · exact .cons (j := .number x) (dups := []) rfl (.int _ _ _ x) (.nil _ _)
  · refine .some (by simp) ?_
    exact .missing (pre := []) (l := []) (f := ⟨[], none, "name".toList, [id' "String"]⟩) (post := dirDecl.kept.tail) rfl (.nil _ _) rfl

end RJ
