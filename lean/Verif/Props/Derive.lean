import Verif.Proof.Derived
import Verif.Props.Ops
import Verif.Props.Convert
/-
  C39-C44: the derive macros.
-/
set_option linter.unusedSectionVars false
namespace RJ
open Spec
variable {F : Type}

/-! ### C43 -/

/-- **C43.** Pieces without top-level separator, joined by the separator, are found again (the last one must not be empty: see the next theorem). -/
theorem C43_split_of_join (sep : String) (c : Char) (cs : List Char) (hs : sep.toList = c :: cs) (hc : ¬ Bracketish (.punct c))
    (ps : List (List Tok)) (hne : ps ≠ []) (hp : ∀ p ∈ ps, Without c p) (hl : ps.length = 1 ∨ ps.getLast? ≠ some []) :
    splitTokensBy (joinWith (sepToks sep) ps) sep = ps := by
  unfold splitTokensBy sepToks
  rw [hs]; exact split_pieces c cs hc ps hne hp hl

/-- **C43.** A trailing separator makes no difference. -/
theorem C43_split_of_join_trailing (sep : String) (c : Char) (cs : List Char) (hs : sep.toList = c :: cs) (hc : ¬ Bracketish (.punct c))
    (ps : List (List Tok)) (hne : ps ≠ []) (hp : ∀ p ∈ ps, Without c p) :
    splitTokensBy (joinWith (sepToks sep) ps ++ sepToks sep) sep = ps := by
  unfold splitTokensBy sepToks
  rw [hs]; exact split_pieces_trailing c cs hc ps hne hp

/-- **C43.** Every stream with properly nested brackets is such a join, for one-character separators: so `split_tokens_by` cuts it exactly at the
separators outside the brackets. -/
theorem C43_split_balanced (sep : String) (c : Char) (hs : sep.toList = [c]) (hc : ¬ Bracketish (.punct c)) (ts : List Tok) (h : AngleBalanced ts) :
    ∃ ps, ps ≠ [] ∧ (∀ p ∈ ps, Without c p) ∧ ts = joinWith (sepToks sep) ps ∧
      (ps.length = 1 ∨ ps.getLast? ≠ some [] → splitTokensBy ts sep = ps) ∧ (∀ qs, qs ≠ [] → ps = qs ++ [[]] → splitTokensBy ts sep = qs) := by
  obtain ⟨p, ps, h1, h2⟩ := balanced_pieces c hc h
  have hj : sepToks sep = [.punct c] := by unfold sepToks; rw [hs]; rfl
  refine ⟨p :: ps, by simp, h1, by rw [hj]; exact h2, ?_, ?_⟩
  · intro hl
    have := C43_split_of_join sep c [] hs hc (p :: ps) (by simp) h1 hl
    rw [hj] at this
    rw [h2]; exact this
  · intro qs hq he
    have hjoin : ∀ (qs : List (List Tok)), qs ≠ [] → joinWith [.punct c] (qs ++ [[]]) = joinWith [.punct c] qs ++ [.punct c] := by
      intro qs
      induction qs with
      | nil => intro h; exact absurd rfl h
      | cons q qs ih =>
        intro _
        cases qs with
        | nil => simp [joinWith]
        | cons r rs =>
          have := ih (by simp)
          rw [List.cons_append, List.cons_append, joinWith, ← List.cons_append, this, joinWith]
          simp
    have := C43_split_of_join_trailing sep c [] hs hc qs hq (fun q hq' => h1 q (by rw [he]; simp [hq']))
    rw [hj] at this
    rw [h2, he, hjoin qs hq]; exact this

/-- **C43.** For every stream: rejoining the pieces gives it back, up to (a prefix of) one separator at the end. -/
theorem C43_rejoin (sep : String) (hs : sep.toList ≠ []) (ts : List Tok) :
    ∃ q, q <+: sepToks sep ∧ joinWith (sepToks sep) (splitTokensBy ts sep) ++ q = ts := by
  unfold splitTokensBy sepToks
  cases h : sep.toList with
  | nil => exact absurd h hs
  | cons c cs => exact splitGo_rejoin c cs ts.length ts (Nat.le_refl _) false 0 []

/-- **C43.** For every stream: no piece contains the separator after balanced tokens. -/
theorem C43_no_separator_left (sep : String) (c : Char) (cs : List Char) (hs : sep.toList = c :: cs) (hc : ¬ Bracketish (.punct c)) (ts : List Tok) :
    ∀ p ∈ splitTokensBy ts sep, ∀ a b, AngleBalanced a → p ≠ a ++ sepToks sep ++ b := by
  unfold splitTokensBy sepToks
  rw [hs]; exact split_no_sep c cs hc ts.length ts (Nat.le_refl _)

/-- `a, Map<K, V>, fn(x) -> B<C, D>` cut at the commas. -/
example : let i := fun (s : String) => Tok.ident s.toList
    splitTokensBy [i "a", .punct ',', i "Map", .punct '<', i "K", .punct ',', i "V", .punct '>', .punct ',', i "fn", .group .paren [i "x"], .punct '-', .punct '>',
      i "B", .punct '<', i "C", .punct ',', i "D", .punct '>'] "," =
    [[i "a"], [i "Map", .punct '<', i "K", .punct ',', i "V", .punct '>'], [i "fn", .group .paren [i "x"], .punct '-', .punct '>',
      i "B", .punct '<', i "C", .punct ',', i "D", .punct '>']] := rfl

/-- The hypotheses of `C43_split_of_join` and `C43_split_balanced` are met by `a, Map<K, V>`. -/
example : let i := fun (s : String) => Tok.ident s.toList
    AngleBalanced [i "a", .punct ',', i "Map", .punct '<', i "K", .punct ',', i "V", .punct '>'] ∧
    Without ',' [i "Map", .punct '<', i "K", .punct ',', i "V", .punct '>'] := by
  refine ⟨.tok _ _ (by simp [Bracketish]) trivial (.tok _ _ (by simp [Bracketish]) trivial (.tok _ _ (by simp [Bracketish]) trivial
    (.angle [_, _, _] [] (.tok _ _ (by simp [Bracketish]) trivial (.tok _ _ (by simp [Bracketish]) trivial (.tok _ _ (by simp [Bracketish]) trivial .nil))) .nil))), ?_⟩
  exact .tok _ _ (by simp [Bracketish]) (by simp)
    (.angle [_, _, _] [] (.tok _ _ (by simp [Bracketish]) trivial (.tok _ _ (by simp [Bracketish]) trivial (.tok _ _ (by simp [Bracketish]) trivial .nil))) .nil)

/-! ### C44 -/

/-- **C44.** Leading attributes `#[a1] .. #[an]` are read in order, one item each, and exactly what follows them is left; reading fails only if one
of them is not an attribute the parser knows. -/
theorem C44_attributes (l : List (List Tok)) (hl : l ≠ []) (rest : List Tok) (hr : rest.head? ≠ some (.punct '#')) :
    (∀ m, takeMeta (hashToks l ++ rest) = some (some m, rest) ↔ l.map MetaItem.parse = m.map some) ∧
    (takeMeta (hashToks l ++ rest) = none ↔ ∃ a ∈ l, MetaItem.parse a = none) ∧
    (∀ m r, takeMeta (hashToks l ++ rest) = some (m, r) → r = rest) := by
  have hr' : ∀ t, rest.head? = some t → t.isPunct '#' = false := by
    intro t ht
    cases h : t.isPunct '#' with
    | false => rfl
    | true => rw [isPunct_iff] at h; rw [h] at ht; exact absurd ht hr
  have key := takeMeta_hash l rest hr'
  rw [if_neg (by simpa using hl)] at key
  have hs : ∀ (xs : List (Option MetaItem)) m, collectO xs = some m ↔ xs = m.map some := by
    intro xs
    induction xs with
    | nil => intro m; cases m <;> simp [collectO]
    | cons x xs ih =>
      intro m
      cases x with
      | none => cases m <;> simp [collectO]
      | some x =>
        cases m with
        | nil => simp [collectO]
        | cons y m => simp [collectO, ih, and_comm]
  have hn : ∀ (xs : List (Option MetaItem)), collectO xs = none ↔ none ∈ xs := by
    intro xs
    induction xs with
    | nil => simp [collectO]
    | cons x xs ih => cases x <;> simp [collectO, ih]
  rw [key]
  refine ⟨?_, ?_, ?_⟩
  · intro m
    rw [← hs]
    cases collectO (l.map MetaItem.parse) <;> simp
  · rw [Option.map_eq_none_iff, hn, List.mem_map]
  · intro m r h
    rw [Option.map_eq_some_iff] at h
    obtain ⟨_, _, h⟩ := h
    cases h; rfl

/-- **C44.** No attributes: nothing is read. -/
theorem C44_no_attributes (rest : List Tok) (hr : rest.head? ≠ some (.punct '#')) : takeMeta rest = some (none, rest) := by
  unfold takeMeta
  rw [if_neg]
  rw [any_isPunct]; exact hr

/-- **C44.** The attributes of the documented forms (words, `name = literal`, `name = true`, `name(list)`, nested) are accepted. -/
theorem C44_accepted {ts : List Tok} (h : Note ts) : ∃ it, MetaItem.parse ts = some it := by
  obtain ⟨it, h1, _⟩ := note_parse (toksSize ts + 1) ts (by omega) h
  exact ⟨it, h1⟩

/-- **C44.** A field of the grammar is read as declared: all attributes, the visibility, the name, and the type (written back as it was). -/
theorem C44_field {f : Field} (h : f.Ok) : ∃ x, FieldItem.parse f.toks = some x ∧ x.vis = f.vis ∧ x.ident = f.name ∧ x.ty.usedTy = f.ty := by
  obtain ⟨x, h1, h2, h3, h4, _⟩ := field_parse h
  exact ⟨x, h1, h4, h2, h3⟩

/-- Finding: attributes with paths or empty parentheses, of other macros, make the derive macros fail: `#[allow(clippy::all)]`, `#[ignore()]`,
`#[repr(align(0x10))]`. -/
theorem C44_refused : let i := fun (s : String) => Tok.ident s.toList
    MetaItem.parse [i "allow", .group .paren [i "clippy", .punct ':', .punct ':', i "all"]] = none ∧
    MetaItem.parse [i "ignore", .group .paren []] = none ∧
    MetaItem.parse [i "repr", .group .paren [i "align", .group .paren [.lit "0x10".toList]]] = none := by
  refine ⟨rfl, rfl, rfl⟩

/-! ### C42 -/

/-- **C42.** For every string literal except those named in `StrLit.Plain`, both macros use exactly the string the literal denotes. -/
theorem C42_key (v : StrLit) (h : v.Plain) :
    ∃ k, Lit.parse (.lit v.text) = some (.string k) ∧ encodeKey k = some v.val ∧ decodeKey k = some v.val := strLit_parse h

/-- **C42**, at the field: with `#[key = literal]` first among the `key` attributes the member name is the string the literal denotes, without any it is
the field's name. -/
theorem C42_field_key {f : Field} (h : f.Ok) : ∃ x k, FieldItem.parse f.toks = some x ∧ x.key = some k ∧
    encodeKey k = some f.key ∧ decodeKey k = some f.key := by
  obtain ⟨x, h1, _, _, _, _, k, h2, h3, h4⟩ := field_parse h
  exact ⟨x, k, h1, h2, h3, h4⟩

/-- **C42, counterexample.** A literal ending in an escaped quote: both macros generate code that does not compile. -/
theorem C42_escaped_quote (l : List RItem) (h : RItemsValid (l ++ [.simple '"' '"'])) :
    ∃ k, Lit.parse (.lit (cookedText (l ++ [.simple '"' '"']))) = some (.string k) ∧ encodeKey k = none ∧ decodeKey k = none := by
  have h1 := cooked_key_quote h
  have h2 := keys_unclosed h
  refine ⟨itemsText l ++ ['\\'], ?_, h2⟩
  rw [Lit.parse, litOfText_cooked, h1]

/-- **C42, raw literals.** With at most two hashes, and not starting or ending with its own delimiter, the name is the literal's content
exactly if there is no quote and no backslash in it. -/
theorem C42_raw (n : Nat) (hn : n ≤ 2) (s : Str) (hr : '\r' ∉ s) (h1 : ¬ rawOpen n <+: s ++ rawClose n) (h2 : ¬ rawClose n <:+ s) :
    ∃ k, Lit.parse (.lit (rawText n s)) = some (.string k) ∧ (encodeKey k = some s ↔ ('"' ∉ s ∧ '\\' ∉ s)) ∧ (decodeKey k = some s ↔ ('"' ∉ s ∧ '\\' ∉ s)) :=
  ⟨s, litOfText_raw hn s h1 h2, keys_iff hr⟩

/-- **C42, raw literals** with three or more hashes: the macro fails. -/
theorem C42_raw_many (n : Nat) (hn : 3 ≤ n) (s : Str) : Lit.parse (.lit (rawText n s)) = none := litOfText_raw_many hn s

/-- **C42, counterexamples.** `r"r"` names the member `""`; `r"a\n"` names it `a` + newline; `r#"a"b"#` does not compile. -/
theorem C42_raw_wrong :
    litOfText (rawText 0 "r".toList) = some (.string []) ∧ encodeKey [] = some [] ∧
    litOfText (rawText 0 "a\\n".toList) = some (.string "a\\n".toList) ∧ encodeKey "a\\n".toList = some "a\n".toList ∧
    litOfText (rawText 1 "a\"b".toList) = some (.string "a\"b".toList) ∧ encodeKey "a\"b".toList = none ∧ decodeKey "a\"b".toList = none := by
  refine ⟨rfl, rfl, rfl, rfl, rfl, rfl, rfl⟩

/-- `"a\u{e9}\n"` is a literal of `C42_key`. -/
example : (StrLit.cooked [.plain 'a', .uni "e9".toList 'é', .simple 'n' '\n']).Plain := by
  refine ⟨⟨by simp [RItem.Valid], ⟨2, ?_, by decide⟩, ?_, trivial⟩, by simp⟩
  · exact .dig ['e'] 14 1 '9' 9 (.one 'e' 14 (by simp [HexDigit])) (by simp [HexDigit])
  · simp [RItem.Valid, SimpleEsc]

/-! ### C39 -/

/-- **C39.** For every struct of the grammar the encode macro succeeds, the generated code compiles, never reaches `unreachable!()`, and the result is an object in
which the values of a member `k` are the encodings of the non-ignored fields named `k`, in declaration order; so no other members. -/
theorem C39_encode {s : Struct} (h : s.Ok) (S : StructTy F) (self : S.Val) :
    ∃ m, encodeDerived s.toks S self = some (.ok (.object m)) ∧
      ∀ k, absMap m k = (s.kept.filter (fun f => f.key = k)).map (fun f => absJ (S.enc f.name (self f.name))) := by
  obtain ⟨e, h1, _, _, _, _, h2⟩ := deriveEncode_struct h
  obtain ⟨m, h3, h4⟩ := C45_object_macro (s.kept.map (fun f : Field => (f.key, S.enc f.name (self f.name))))
  refine ⟨m, ?_, ?_⟩
  · unfold encodeDerived
    rw [h1, Option.bind_some]
    unfold EncodeImpl.toJson
    rw [h2, Option.map_some, runAdds_eq, List.map_map]
    unfold objectMacro at h3
    exact congrArg (fun j => some (Out.ok j)) h3
  · intro k
    rw [h4 k, List.filter_map, List.map_map]; rfl

/-- **C39**, with distinct names: exactly one member per non-ignored field, holding the field's encoding. -/
theorem C39_encode_distinct {s : Struct} (h : s.Ok) (hd : (s.kept.map Field.key).Nodup) (S : StructTy F) (self : S.Val) :
    encodeDerived s.toks S self = some (.ok (.object (s.kept.map (fun f => (f.key, (S.enc f.name (self f.name), [])))))) := by
  obtain ⟨e, h1, _, _, _, _, h2⟩ := deriveEncode_struct h
  unfold encodeDerived
  rw [h1, Option.bind_some]
  unfold EncodeImpl.toJson
  rw [h2, Option.map_some, runAdds_eq, List.map_map, appends_distinct]
  · simp [Function.comp_def]
  · rw [List.map_map]; exact hd
  · intro p _; rfl

/-- **C39.** The result is well formed if the fields' encodings are. -/
theorem C39_encode_wf {s : Struct} (h : s.Ok) (S : StructTy F) (self : S.Val) (hw : ∀ f ∈ s.kept, WF (S.enc f.name (self f.name))) :
    ∃ j, encodeDerived s.toks S self = some (.ok j) ∧ WF j := by
  obtain ⟨e, h1, _, _, _, _, h2⟩ := deriveEncode_struct h
  refine ⟨objectMacro (s.kept.map (fun f => (f.key, S.enc f.name (self f.name)))), ?_, ?_⟩
  · unfold encodeDerived
    rw [h1, Option.bind_some]
    unfold EncodeImpl.toJson
    rw [h2, Option.map_some, runAdds_eq, List.map_map]
    rfl
  · apply C45_object_macro_wf
    intro p hp
    obtain ⟨f, hf, rfl⟩ := List.mem_map.mp hp
    exact hw f hf

/-- **C39/C40.** Both implementations are for the declared type, with the declared parameters, their names as arguments, and the declared where clauses;
each decoded field is decoded at its declared type. -/
theorem C39_impl {s : Struct} (h : s.Ok) : ∃ e d, deriveEncode s.toks = some e ∧ deriveDecode s.toks = some d ∧
    (e.ident = s.name ∧ e.generics = angled (s.params.map Param.toks) ∧ e.args = angled (s.params.map Param.name) ∧ e.where_ = whereOut (s.where_.map Param.toks)) ∧
    (d.ident = s.name ∧ d.generics = angled (s.params.map Param.toks) ∧ d.args = angled (s.params.map Param.name) ∧ d.where_ = whereOut (s.where_.map Param.toks)) ∧
    d.gets.map (·.2) = s.kept.map (fun f => (f.name, f.ty)) := by
  obtain ⟨e, h1, h2, h3, h4, h5, _⟩ := deriveEncode_struct h
  obtain ⟨d, g1, g2, g3, g4, g5, _, g6, _⟩ := deriveDecode_struct h
  exact ⟨e, d, h1, g1, ⟨h2, h3, h4, h5⟩, ⟨g2, g3, g4, g5⟩, g6⟩

/-! ### C40, C41 -/

/-- The initialisers of the ignored fields. -/
def Spec.defaults (s : Struct) (S : StructTy F) : S.Inits := s.ignored.map (fun f => ⟨f.name, S.dflt f.name⟩)

theorem decode_body {s : Struct} (h : s.Ok) (S : StructTy F) (j : Json F) :
    decodeDerived s.toks S j = some (fromJsonBody S s.name (s.kept.map (fun f => (f.key, f.name))) (s.ignored.map Field.name) j) := by
  obtain ⟨d, h1, h2, _, _, _, h3, _, h4⟩ := deriveDecode_struct h
  unfold decodeDerived
  rw [h1, Option.bind_some]
  unfold DecodeImpl.fromJson
  rw [h3, Option.map_some, Option.map_some, h2, h4]

/-- The member of a field is present and decodes to `p`. -/
def Spec.FieldReads (S : StructTy F) (m : Obj F) (f : Field) (p : (i : Str) × S.V i) : Prop :=
  ∃ v rest x, mapGet f.key m = some (v, rest) ∧ S.dec f.name v = .ok x ∧ p = ⟨f.name, x⟩

/-- The member of a field is missing, or does not decode: the error. -/
def Spec.FieldFails (S : StructTy F) (m : Obj F) (f : Field) (e : Error) : Prop :=
  (mapGet f.key m = none ∧ e = ⟨.MissingKey, "missing key \"".toList ++ f.key ++ "\".".toList⟩) ∨
  ∃ v rest, mapGet f.key m = some (v, rest) ∧ S.dec f.name v = .error e

theorem runGets_ok_iff (S : StructTy F) (m : Obj F) : ∀ (fs : List Field) (l : S.Inits),
    runGets S m (fs.map (fun f => (f.key, f.name))) = .ok l ↔ AllTwo (FieldReads S m) fs l
  | [], l => by cases l <;> simp [runGets, AllTwo]
  | f :: fs, l => by
    rw [List.map_cons, runGets]
    have ih := runGets_ok_iff S m fs
    cases h : mapGet f.key m with
    | none =>
      cases l with
      | nil => simp [missingKey, failS, AllTwo]
      | cons p l => simp [missingKey, failS, AllTwo, FieldReads, h]
    | some vr =>
      obtain ⟨v, rest⟩ := vr
      dsimp only
      cases hd : S.dec f.name v with
      | error e => cases l <;> simp [AllTwo, FieldReads, h, hd]
      | ok x =>
        dsimp only
        cases hr : runGets S m (fs.map (fun f => (f.key, f.name))) with
        | error e =>
          dsimp only
          cases l with
          | nil => simp [AllTwo]
          | cons p l =>
            have := ih l
            rw [hr] at this
            simp [AllTwo, ← this]
        | ok l' =>
          dsimp only
          cases l with
          | nil => simp [AllTwo]
          | cons p l =>
            have := ih l
            rw [hr] at this
            simp only [Except.ok.injEq, List.cons.injEq, AllTwo, ← this]
            refine ⟨?_, ?_⟩
            · rintro ⟨rfl, rfl⟩; exact ⟨⟨v, rest, x, h, hd, rfl⟩, rfl⟩
            · rintro ⟨⟨v', rest', x', a, b, c⟩, rfl⟩
              rw [h] at a; cases a
              rw [hd] at b; cases b
              exact ⟨c.symm, rfl⟩

theorem runGets_err_iff (S : StructTy F) (m : Obj F) : ∀ (fs : List Field) (e : Error),
    runGets S m (fs.map (fun f => (f.key, f.name))) = .error e ↔
      ∃ pre f post, fs = pre ++ f :: post ∧ (∀ g ∈ pre, ∃ p, FieldReads S m g p) ∧ FieldFails S m f e
  | [], e => by simp [runGets]
  | f :: fs, e => by
    rw [List.map_cons, runGets]
    have ih := runGets_err_iff S m fs e
    have step : (∃ pre g post, f :: fs = pre ++ g :: post ∧ (∀ g ∈ pre, ∃ p, FieldReads S m g p) ∧ FieldFails S m g e) ↔
        FieldFails S m f e ∨ ((∃ p, FieldReads S m f p) ∧ ∃ pre g post, fs = pre ++ g :: post ∧ (∀ g ∈ pre, ∃ p, FieldReads S m g p) ∧ FieldFails S m g e) := by
      constructor
      · rintro ⟨pre, g, post, h1, h2, h3⟩
        cases pre with
        | nil => simp at h1; left; rw [h1.1]; exact h3
        | cons q pre =>
          simp at h1
          right
          exact ⟨by rw [h1.1]; exact h2 q (by simp), pre, g, post, h1.2, fun x hx => h2 x (by simp [hx]), h3⟩
      · rintro (h | ⟨h, pre, g, post, rfl, h2, h3⟩)
        · exact ⟨[], f, fs, rfl, by simp, h⟩
        · refine ⟨f :: pre, g, post, rfl, ?_, h3⟩
          intro x hx
          rcases List.mem_cons.mp hx with rfl | hx
          · exact h
          · exact h2 x hx
    rw [step]
    cases h : mapGet f.key m with
    | none =>
      simp only [FieldFails, FieldReads, h, missingKey, failS]
      constructor
      · intro h; cases h; simp
      · rintro (h | h)
        · rcases h with ⟨_, rfl⟩ | h
          · rfl
          · simp at h
        · simp at h
    | some vr =>
      obtain ⟨v, rest⟩ := vr
      dsimp only
      cases hd : S.dec f.name v with
      | error e' => simp [FieldFails, FieldReads, h, hd]
      | ok x =>
        dsimp only
        have : (∃ p, FieldReads S m f p) := ⟨_, v, rest, x, h, hd, rfl⟩
        have hn : ¬ FieldFails S m f e := by simp [FieldFails, h, hd]
        simp only [hn, this, false_or, true_and]
        rw [← ih]
        cases hr : runGets S m (fs.map (fun f => (f.key, f.name))) <;> simp

/-- **C41.** Anything but an object: a conversion error naming both. -/
theorem C41_not_object {s : Struct} (h : s.Ok) (S : StructTy F) (j : Json F) (hj : ∀ m, j ≠ .object m) :
    decodeDerived s.toks S j = some (.error ⟨.ConvertError, "cannot convert ".toList ++ j.kindName ++ " to ".toList ++ s.name ++ ".".toList⟩) := by
  rw [decode_body h]
  cases j with
  | object m => exact absurd rfl (hj m)
  | _ => rfl

/-- **C41.** Decoding an object succeeds with `l` exactly if every non-ignored field's member is there and decodes, and `l` consists of these
values in declaration order, followed by defaults for the ignored fields. (Other members play no role.) -/
theorem C41_ok {s : Struct} (h : s.Ok) (S : StructTy F) (m : Obj F) (l : S.Inits) :
    decodeDerived s.toks S (.object m) = some (.ok l) ↔ ∃ l', l = l' ++ defaults s S ∧ AllTwo (FieldReads S m) s.kept l' := by
  rw [decode_body h]
  show some (match runGets S m (s.kept.map (fun f => (f.key, f.name))) with
    | .ok l => (Except.ok (l ++ (s.ignored.map Field.name).map (fun i => (⟨i, S.dflt i⟩ : (i : Str) × S.V i))) : Res S.Inits) | .error e => Except.error e) = _ ↔ _
  have hdf : (s.ignored.map Field.name).map (fun i => (⟨i, S.dflt i⟩ : (i : Str) × S.V i)) = defaults s S := by
    rw [List.map_map]; rfl
  rw [hdf]
  cases hr : runGets S m (s.kept.map (fun f => (f.key, f.name))) with
  | ok l0 =>
    simp only [Option.some.injEq, Except.ok.injEq, ← runGets_ok_iff, hr]
    constructor
    · intro h; exact ⟨l0, h.symm, rfl⟩
    · rintro ⟨l', rfl, rfl⟩; rfl
  | error e => simp [← runGets_ok_iff, hr]

/-- **C41.** Decoding an object fails with `e` exactly if `e` is the error of the first non-ignored field, in declaration order, whose member is missing
(whatever its type) or does not decode. -/
theorem C41_error {s : Struct} (h : s.Ok) (S : StructTy F) (m : Obj F) (e : Error) :
    decodeDerived s.toks S (.object m) = some (.error e) ↔
      ∃ pre f post, s.kept = pre ++ f :: post ∧ (∀ g ∈ pre, ∃ p, FieldReads S m g p) ∧ FieldFails S m f e := by
  rw [decode_body h, ← runGets_err_iff]
  show some (match runGets S m (s.kept.map (fun f => (f.key, f.name))) with
    | .ok l => (Except.ok (l ++ (s.ignored.map Field.name).map (fun i => (⟨i, S.dflt i⟩ : (i : Str) × S.V i))) : Res S.Inits) | .error e => Except.error e) = _ ↔ _
  cases hr : runGets S m (s.kept.map (fun f => (f.key, f.name))) <;> simp

/-- **C41.** The derived decoder always gives one of the two results: it never panics. -/
theorem C41_total {s : Struct} (h : s.Ok) (S : StructTy F) (j : Json F) : ∃ r, decodeDerived s.toks S j = some r := ⟨_, decode_body h S j⟩

/-- **C41.** Of several members with one name the last one counts: in an object made of the pairs `kvs`, a lookup gives the last pair with that name. -/
theorem C41_last_duplicate (kvs : List (Str × Json F)) (k : Str) :
    ∃ m, objectMacro kvs = .object m ∧ (mapGet k m).map (·.1) = ((kvs.filter (fun p => p.1 = k)).getLast?).map (·.2) := by
  suffices h : ∀ m0 : Obj F, ∃ m, kvs.foldl (fun j kv => (j.append kv.1 kv.2).1) (Json.object m0) = .object m ∧
      (mapGet k m).map (·.1) = (((kvs.filter (fun p => p.1 = k)).getLast?).map (·.2)).or ((mapGet k m0).map (·.1)) by
    obtain ⟨m, h1, h2⟩ := h []
    exact ⟨m, h1, by rw [h2]; simp [mapGet]⟩
  induction kvs with
  | nil => intro m0; exact ⟨m0, rfl, by simp⟩
  | cons kv kvs ih =>
    intro m0
    obtain ⟨m, h1, h2⟩ := ih (objectInsert kv.1 kv.2 m0)
    refine ⟨m, h1, ?_⟩
    rw [h2]
    have hi : ∀ q, (mapGet q (objectInsert kv.1 kv.2 m0)).map (·.1) = if kv.1 = q then some kv.2 else (mapGet q m0).map (·.1) := by
      intro q
      unfold objectInsert
      split <;> rw [mapGet_insert] <;> split <;> simp
    rw [hi]
    by_cases hk : kv.1 = k
    · rw [if_pos hk, List.filter_cons_of_pos (by simpa using hk)]
      cases hf : kvs.filter (fun p => p.1 = k) with
      | nil => simp
      | cons x xs =>
        rw [List.getLast?_cons_cons]
        cases hg : (x :: xs).getLast? with
        | none => simp at hg
        | some y => simp
    · rw [if_neg hk, List.filter_cons_of_neg (by simpa using hk)]

/-- **C40.** With distinct names and fields whose types decode what they encode, decoding the encoding gives back the kept fields, and the
defaults of the ignored ones. -/
theorem C40_decode_encode {s : Struct} (h : s.Ok) (hd : (s.kept.map Field.key).Nodup) (S : StructTy F) (self got : S.Val)
    (hf : ∀ f ∈ s.kept, S.dec f.name (S.enc f.name (self f.name)) = .ok (got f.name)) :
    ∃ j, encodeDerived s.toks S self = some (.ok j) ∧
      decodeDerived s.toks S j = some (.ok (s.kept.map (fun f => ⟨f.name, got f.name⟩) ++ defaults s S)) := by
  refine ⟨_, C39_encode_distinct h hd S self, ?_⟩
  rw [C41_ok h]
  refine ⟨_, rfl, ?_⟩
  have key : ∀ fs : List Field, (∀ f ∈ fs, f ∈ s.kept) →
      AllTwo (FieldReads S (s.kept.map (fun f => (f.key, (S.enc f.name (self f.name), []))))) fs (fs.map (fun f => ⟨f.name, got f.name⟩)) := by
    intro fs
    induction fs with
    | nil => intro _; exact trivial
    | cons f fs ih =>
      intro hm
      refine ⟨⟨S.enc f.name (self f.name), [], got f.name, ?_, hf f (hm f (by simp)), rfl⟩, ih (fun g hg => hm g (by simp [hg]))⟩
      apply mapGet_mem_nodup
      · rw [List.map_map]; exact hd
      · exact List.mem_map.mpr ⟨f, hm f (by simp), rfl⟩
  exact key s.kept (fun _ h => h)

/-- **C40, any hash order and any equal document.** The same from every document that denotes the same value as the encoding. -/
theorem C40_decode_encode_any {s : Struct} (h : s.Ok) (hd : (s.kept.map Field.key).Nodup) (S : StructTy F) (self got : S.Val)
    (hf : ∀ f ∈ s.kept, ∀ v, WF v → absJ v = absJ (S.enc f.name (self f.name)) → S.dec f.name v = .ok (got f.name)) (j j' : Json F)
    (hj : encodeDerived s.toks S self = some (.ok j)) (hw : WF j') (ha : absJ j' = absJ j) :
      decodeDerived s.toks S j' = some (.ok (s.kept.map (fun f => ⟨f.name, got f.name⟩) ++ defaults s S)) := by
  rw [C39_encode_distinct h hd S self] at hj
  cases hj
  cases j' with
  | object m' =>
    simp only [absJ, Val.obj.injEq] at ha
    rw [C41_ok h]
    refine ⟨_, rfl, ?_⟩
    have key : ∀ fs : List Field, (∀ f ∈ fs, f ∈ s.kept) → AllTwo (FieldReads S m') fs (fs.map (fun f => ⟨f.name, got f.name⟩)) := by
      intro fs
      induction fs with
      | nil => intro _; exact trivial
      | cons f fs ih =>
        intro hm
        refine ⟨?_, ih (fun g hg => hm g (by simp [hg]))⟩
        have h1 : mapGet f.key (s.kept.map (fun f => (f.key, (S.enc f.name (self f.name), ([] : List (Json F)))))) = some (S.enc f.name (self f.name), []) := by
          apply mapGet_mem_nodup
          · rw [List.map_map]; exact hd
          · exact List.mem_map.mpr ⟨f, hm f (by simp), rfl⟩
        have h2 := mapGet_abs_last m' f.key
        rw [ha, mapGet_abs_last, h1] at h2
        cases h3 : mapGet f.key m' with
        | none => rw [h3] at h2; simp at h2
        | some e =>
          obtain ⟨v, rest⟩ := e
          rw [h3] at h2
          simp at h2
          refine ⟨v, rest, got f.name, h3, hf f (hm f (by simp)) v ?_ h2.symm, rfl⟩
          have := mapGet_mem h3
          exact ((WFMap_iff m').mp hw.2 _ _ _ this).1
    exact key s.kept (fun _ h => h)
  | _ => simp [absJ] at ha

/-- **C40, through text.** Encoding, printing, parsing and decoding gives the struct back, if the members' names and strings have balanced brackets
(see C01) and the numbers are finite. -/
theorem C40_text_round_trip [FloatOps F] [LawfulFloat F] {s : Struct} (h : s.Ok) (hd : (s.kept.map Field.key).Nodup) (S : StructTy F) (self got : S.Val)
    (hw : ∀ f ∈ s.kept, WF (S.enc f.name (self f.name)) ∧ AllNum (fun x => FloatOps.isFinite x = true) (S.enc f.name (self f.name)) ∧
      AllStr Balanced (S.enc f.name (self f.name)) ∧ Balanced f.key)
    (hf : ∀ f ∈ s.kept, ∀ v, WF v → absJ v = absJ (S.enc f.name (self f.name)) → S.dec f.name v = .ok (got f.name)) :
    ∃ j j', encodeDerived s.toks S self = some (.ok j) ∧ (Json.parse j.toString : Res (Json F)) = .ok j' ∧
      decodeDerived s.toks S j' = some (.ok (s.kept.map (fun f => ⟨f.name, got f.name⟩) ++ defaults s S)) := by
  have hj := C39_encode_distinct h hd S self
  have hl : ∀ fs : List Field, (∀ f ∈ fs, f ∈ s.kept) →
      let m := fs.map (fun f => (f.key, (S.enc f.name (self f.name), ([] : List (Json F)))))
      WFMap m ∧ AllNumMap (fun x => FloatOps.isFinite x = true) m ∧ AllStrMap Balanced m := by
    intro fs
    induction fs with
    | nil => intro _; exact ⟨trivial, trivial, trivial⟩
    | cons f fs ih =>
      intro hm
      obtain ⟨a, b, c⟩ := ih (fun g hg => hm g (by simp [hg]))
      obtain ⟨p, q, r, t⟩ := hw f (hm f (by simp))
      exact ⟨⟨⟨p, trivial⟩, a⟩, ⟨⟨q, trivial⟩, b⟩, ⟨⟨t, r, trivial⟩, c⟩⟩
  obtain ⟨a, b, c⟩ := hl s.kept (fun _ h => h)
  have hwf : WF (Json.object (s.kept.map (fun f => (f.key, (S.enc f.name (self f.name), ([] : List (Json F))))))) :=
    ⟨by rw [List.map_map]; exact hd, a⟩
  obtain ⟨j', h1, h2⟩ := C01_round_trip (Json.object (s.kept.map (fun f : Field => (f.key, (S.enc f.name (self f.name), []))))) b hwf c
  exact ⟨_, j', hj, h1, C40_decode_encode_any h hd S self got hf _ j' hj (C14_parse_well_formed _ _ h1).2 h2⟩

/-- **C40.** Every declared field is initialised exactly once (so the generated struct literal is complete). -/
theorem C40_all_fields {s : Struct} (h : s.Ok) (S : StructTy F) (j : Json F) (l : S.Inits) (hj : decodeDerived s.toks S j = some (.ok l)) :
    (l.map (·.1)).Perm (s.fields.map Field.name) := by
  cases j with
  | object m =>
    rw [C41_ok h] at hj
    obtain ⟨l', rfl, h2⟩ := hj
    have h3 : ∀ (fs : List Field) (l : S.Inits), AllTwo (FieldReads S m) fs l → l.map (·.1) = fs.map Field.name := by
      intro fs
      induction fs with
      | nil => intro l hl; cases l with
        | nil => rfl
        | cons _ _ => exact hl.elim
      | cons f fs ih =>
        intro l hl
        cases l with
        | nil => exact hl.elim
        | cons p l =>
          obtain ⟨⟨v, r, x, _, _, rfl⟩, hl2⟩ := hl
          rw [List.map_cons, List.map_cons, ih l hl2]
    rw [List.map_append, h3 _ _ h2]
    unfold defaults
    rw [List.map_map]
    show (s.kept.map Field.name ++ s.ignored.map Field.name).Perm _
    rw [← List.map_append]
    apply List.Perm.map
    unfold Struct.kept Struct.ignored
    have := List.filter_append_perm (fun f : Field => !f.ignored) s.fields
    simpa using this
  | _ => rw [C41_not_object h S _ (by simp)] at hj; simp at hj

end RJ
