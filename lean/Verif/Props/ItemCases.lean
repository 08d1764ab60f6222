import Verif.Props.Items
/-
  C60-C65: concrete declarations, what the item parser refuses, and what it gets wrong.
-/
set_option linter.unusedSectionVars false
namespace RJ
open Spec

/-! ### C65: refusals -/

theorem struct_refused (text : List Tok → Str) {h : Head} (ho : h.Ok) {tail : List Tok} (ht : tail.head? ≠ some (.punct '<')) (hn : rstructTail tail = none) :
    AnyItem.parse text (annPart h.attrs ++ (visToks h.vis ++ (.ident "struct".toList :: .ident h.name :: (h.paramPart ++ tail)))) = none := by
  obtain ⟨m, hm1, _, _⟩ := takeMetas_anns ho.1 (vis_head h.vis "struct".toList (.ident h.name :: (h.paramPart ++ tail)))
  obtain ⟨g, hg1, _⟩ := takeGenerics_params ho.2.1 tail ht
  unfold AnyItem.parse
  rw [keyword_after, List.dropWhile_cons_of_neg (by simp [skipToKeyword])]
  dsimp only [List.head?_cons]
  rw [if_pos (by simp [Tok.isIdent])]
  unfold RStruct.parse
  rw [hm1]
  dsimp only
  rw [takeVis_run _ _ _ (by decide)]
  dsimp only
  rw [if_pos (by simp [Tok.isIdent]), hg1]
  dsimp only
  rw [hn]; rfl

theorem enum_refused (text : List Tok → Str) {h : Head} (ho : h.Ok) {tail : List Tok} (ht : tail.head? ≠ some (.punct '<')) (hn : enumTail text tail = none) :
    AnyItem.parse text (annPart h.attrs ++ (visToks h.vis ++ (.ident "enum".toList :: .ident h.name :: (h.paramPart ++ tail)))) = none := by
  obtain ⟨m, hm1, _, _⟩ := takeMetas_anns ho.1 (vis_head h.vis "enum".toList (.ident h.name :: (h.paramPart ++ tail)))
  obtain ⟨g, hg1, _⟩ := takeGenerics_params ho.2.1 tail ht
  unfold AnyItem.parse
  rw [keyword_after, List.dropWhile_cons_of_neg (by simp [skipToKeyword])]
  dsimp only [List.head?_cons]
  rw [if_neg (by simp [Tok.isIdent]), if_pos (by simp [Tok.isIdent])]
  unfold REnum.parse
  rw [hm1]
  dsimp only
  rw [takeVis_run _ _ _ (by decide)]
  dsimp only
  rw [if_pos (by simp [Tok.isIdent]), hg1]
  dsimp only
  rw [hn]; rfl

theorem fields_empty (d : Delim) (hd : d = .paren ∨ d = .brace) (r : List Tok) : RFields.parse (.group d [] :: r) = none := by
  unfold RFields.parse
  rcases hd with rfl | rfl <;> rfl

/-- **C65.** A struct with an empty body, `struct S {}` or `struct S();`, is refused. -/
theorem C65_empty_struct (text : List Tok → Str) (d : StructDecl) (h : d.toHead.Ok) (hs : d.shape = .named [] false ∨ d.shape = .tuple [] false) :
    AnyItem.parse text d.toks = none := by
  unfold StructDecl.toks
  refine struct_refused text h ?_ ?_
  · rcases hs with hs | hs <;> rw [hs]
    · exact where_head _ _ _ (by simp [Shape.toks]) (by simp)
    · simp [Shape.toks]
  · rcases hs with hs | hs <;> rw [hs]
    · dsimp only
      by_cases hw : d.where_ = []
      · rw [no_where hw, List.nil_append]
        show rstructTail [.group .brace []] = none
        rw [rstructTail, if_neg (by simp [Tok.isIdent]), if_neg (by simp [Tok.isPunct]), if_pos (by rfl), fields_empty _ (.inr rfl)]; rfl
      · obtain ⟨w, r, h1, h2, h3, h4⟩ := where_split h hw (rest := (Shape.named [] false).toks) ⟨_, _, rfl, rfl⟩
        rw [h1, rstructTail, if_pos (by simp [Tok.isIdent]), h2]
        dsimp only
        rw [h3]
        show (RFields.parse [.group .brace []]).map _ = none
        rw [fields_empty _ (.inr rfl)]; rfl
    · show rstructTail (.group .paren [] :: _) = none
      rw [rstructTail, if_neg (by simp [Tok.isIdent]), if_neg (by simp [Tok.isPunct]), if_neg (by simp [Tok.isGroup]), if_pos (by rfl), fields_empty _ (.inl rfl)]

/-- **C65.** An enum without variants is refused. -/
theorem C65_empty_enum (text : List Tok → Str) (d : EnumDecl) (h : d.toHead.Ok) (hv : d.variants = []) (hc : d.comma = false) : AnyItem.parse text d.toks = none := by
  unfold EnumDecl.toks
  refine enum_refused text h (where_head _ _ _ (by simp) (by simp)) ?_
  rw [hv, hc]
  have hz : ∀ r, parseEnumValues text (.group .brace (joinWith [.punct ','] (([] : List Variant).map Variant.toks) ++ optComma false) :: r) = none := fun r => rfl
  by_cases hw : d.where_ = []
  · rw [no_where hw, List.nil_append, enumTail, if_neg (by simp [Tok.isIdent]), if_pos (by simp [Tok.isGroup]), hz]; rfl
  · obtain ⟨w, r, h1, h2, h3, h4⟩ := where_split h hw (rest := [.group .brace (joinWith [.punct ','] (([] : List Variant).map Variant.toks) ++ optComma false)]) ⟨_, _, rfl, rfl⟩
    rw [h1, enumTail, if_pos (by simp [Tok.isIdent]), h2]
    dsimp only
    rw [h3, hz]; rfl

theorem fn_refused (text : List Tok → Str) (d : FnDecl) (ho : d.toHead.Ok)
    (hp : takeParams (FnDecl.tail d) = none) : AnyItem.parse text d.toks = none := by
  have ht : fnTail text (d.paramPart ++ FnDecl.tail d) = none := by
    obtain ⟨g, hg1, _⟩ := takeGenerics_params ho.2.1 (FnDecl.tail d) (by simp [FnDecl.tail])
    unfold fnTail
    rw [hg1]
    dsimp only
    rw [hp]
  let kw : List Tok := extToks d.ext ++ (.ident "fn".toList :: .ident d.name :: (d.paramPart ++ FnDecl.tail d))
  have hd : d.toks = annPart d.attrs ++ (visToks d.vis ++ (kwToks d.isAsync "async" ++ (kwToks d.isConst "const" ++ (kwToks d.isUnsafe "unsafe" ++ kw)))) := rfl
  have e4 : kw.head?.any (Tok.isIdent "unsafe") = false := ext_head _ _ _ (by decide) (by decide)
  have e3 : (kwToks d.isUnsafe "unsafe" ++ kw).head?.any (Tok.isIdent "const") = false := kw_head _ _ _ _ (by decide) (ext_head _ _ _ (by decide) (by decide))
  have e2 : (kwToks d.isConst "const" ++ (kwToks d.isUnsafe "unsafe" ++ kw)).head?.any (Tok.isIdent "async") = false :=
    kw_head _ _ _ _ (by decide) (kw_head _ _ _ _ (by decide) (ext_head _ _ _ (by decide) (by decide)))
  have hhead : ∃ s r', kwToks d.isAsync "async" ++ (kwToks d.isConst "const" ++ (kwToks d.isUnsafe "unsafe" ++ kw)) = .ident s :: r' ∧ s ≠ "pub".toList := by
    cases d.isAsync with
    | true => exact ⟨_, _, rfl, by decide⟩
    | false =>
      cases d.isConst with
      | true => exact ⟨_, _, rfl, by decide⟩
      | false =>
        cases d.isUnsafe with
        | true => exact ⟨_, _, rfl, by decide⟩
        | false =>
          match he : d.ext with
          | none => exact ⟨"fn".toList, _, by simp only [kw, he]; rfl, by decide⟩
          | some none => exact ⟨"extern".toList, _, by simp only [kw, he]; rfl, by decide⟩
          | some (some s) => exact ⟨"extern".toList, _, by simp only [kw, he]; rfl, by decide⟩
  obtain ⟨s, r', hs, hsp⟩ := hhead
  obtain ⟨m, hm1, hm2, hm3⟩ := takeMetas_anns ho.1 (vis_head d.vis s r')
  have hp : RFn.parse text d.toks = none := by
    rw [hd]
    unfold RFn.parse
    rw [hs, hm1]
    dsimp only
    rw [takeVis_run _ _ _ hsp, ← hs]
    dsimp only
    rw [takeTok_kw _ _ _ e2]
    dsimp only
    rw [takeTok_kw _ _ _ e3]
    dsimp only
    rw [takeTok_kw _ _ _ e4]
    dsimp only
    rw [takeExtern_ext]
    dsimp only
    rw [if_pos (by simp [Tok.isIdent]), ht]; rfl
  unfold AnyItem.parse
  have hk : (d.toks.dropWhile skipToKeyword).head? = some (.ident "fn".toList) := by
    rw [hd, keyword_after, skip_kw _ _ _ (by decide), skip_kw _ _ _ (by decide), skip_kw _ _ _ (by decide), skip_ext,
      List.dropWhile_cons_of_neg (by simp [skipToKeyword])]; rfl
  rw [hk]
  dsimp only
  rw [if_neg (by simp [Tok.isIdent]), if_neg (by simp [Tok.isIdent]), if_pos (by simp [Tok.isIdent]), hp]; rfl

/-- **C65.** A function without parameters is refused. -/
theorem C65_no_parameters (text : List Tok → Str) (d : FnDecl) (h : d.toHead.Ok) (ha : d.args = []) (hc : d.comma = false) : AnyItem.parse text d.toks = none := by
  apply fn_refused text d h
  unfold FnDecl.tail
  rw [ha, hc]
  rfl

theorem splitGo_colon (inner rest : List Tok) (h : rest ≠ []) : splitGo [':'] 0 false 0 inner (.punct ':' :: rest) = inner.reverse :: splitGo [':'] 0 false 0 [] rest := by
  have := splitGo_sep ':' [] inner rest (by simp [Bracketish])
  rw [if_neg (by simpa using h)] at this
  exact this

/-- `name: a::B` has more than two pieces between colons. -/
theorem path_param (n : Str) (pre rest : List Tok) (hp : Without ':' pre) (hr : rest ≠ []) :
    ParamItem.parse (.ident n :: .punct ':' :: (pre ++ .punct ':' :: .punct ':' :: rest)) = none := by
  have h1 : splitTokensBy (.ident n :: .punct ':' :: (pre ++ .punct ':' :: .punct ':' :: rest)) ":" = [.ident n] :: pre :: [] :: splitGo [':'] 0 false 0 [] rest := by
    unfold splitTokensBy
    rw [show ":".toList = [':'] from rfl, splitGo_tok _ _ _ _ (.ident n) (by simp [Bracketish]) (by simp), splitGo_colon _ _ (by simp),
      nest_run hp _ 0 [] _ (by omega) (.inr (fun t d ht hd => by simp at hd; subst hd; exact ht)), splitGo_colon _ _ (by simp), splitGo_colon _ _ hr]
    simp
  unfold ParamItem.parse
  rw [if_neg (by simp), h1]

theorem collectO_refused {α : Type} : ∀ l : List (Option α), none ∈ l → collectO l = none
  | none :: _, _ => rfl
  | some a :: l, h => by
    rw [collectO, collectO_refused l (by simpa using h)]; rfl

/-- **C65.** A function is refused if one of its parameters has a type with `::` outside angle brackets, such as `x: std::string::String`. -/
theorem C65_path_parameter (text : List Tok → Str) (d : FnDecl) (h : d.toHead.Ok) (ha : ∀ a ∈ d.args, DeclTy a.ty)
    (hp : ∃ a ∈ d.args, ∃ n pre rest, a.name = some n ∧ a.ty = pre ++ sepToks "::" ++ rest ∧ Without ':' pre ∧ rest ≠ []) : AnyItem.parse text d.toks = none := by
  obtain ⟨a, hm, n, pre, rest, h1, h2, h3, h4⟩ := hp
  apply fn_refused text d h
  have hne : d.args ≠ [] := by intro e; rw [e] at hm; cases hm
  unfold FnDecl.tail takeParams
  dsimp only
  unfold parseParams
  dsimp only
  rw [split_map_comma Arg.toks d.args hne (by
    intro b hb
    have hn := tyG_nest (ha b hb)
    refine ⟨?_, by simp [Arg.toks, tyG_ne_nil (ha b hb)]⟩
    obtain ⟨name, ty⟩ := b
    cases name with
    | none => exact hn
    | some s => exact nest_ident _ _ (by simp) (nest_punct _ _ (by simp) (by decide) hn)) d.comma]
  suffices hc : collectO ((d.args.map Arg.toks).map ParamItem.parse) = none by rw [hc]; rfl
  apply collectO_refused
  rw [List.map_map]
  refine List.mem_map.mpr ⟨a, hm, ?_⟩
  obtain ⟨name, ty⟩ := a
  cases h1
  cases h2
  have := path_param n pre rest h3 h4
  simpa [Arg.toks, sepToks] using this

/-- Attributes the parser cannot read: paths, empty lists, and values that are characters, or integers of a fixed type beyond 31 bits. -/
inductive BadAnn : List Tok → Prop
  /-- `a::b`, and whatever follows -/
  | path (a : Str) (b : Tok) (r : List Tok) : (∀ c, b ≠ .punct c) → BadAnn (.ident a :: .punct ':' :: .punct ':' :: b :: r)
  /-- `name()` -/
  | empty (k : Str) (d : Delim) : BadAnn [.ident k, .group d []]
  /-- `name = 'c'` -/
  | char (k : Str) (c : Char) : c ≠ '\'' → BadAnn [.ident k, .punct '=', .lit ['\'', c, '\'']]
  /-- `name = 3000000000u64` -/
  | wide (k : Str) (ds : Str) (suf : String) : ds ≠ [] → Digits ds → 2 ^ 31 ≤ natOf ds → suf ∈ intSuffixes → BadAnn [.ident k, .punct '=', .lit (ds ++ suf.toList)]

theorem parseI32_wide {ds : Str} (hne : ds ≠ []) (hd : Digits ds) (hv : 2 ^ 31 ≤ natOf ds) : parseI32 ds = none := by
  obtain ⟨c, r, rfl⟩ := List.exists_cons_of_ne_nil hne
  have hc := hd c (by simp)
  unfold parseI32
  split
  rename_i neg d hm
  have hm : (neg, d) = (false, c :: r) := by
    rw [← hm]
    split
    · rename_i h; cases h; exact absurd hc (by unfold IsDigit; decide)
    · rename_i h; cases h; exact absurd hc (by unfold IsDigit; decide)
    · rfl
  cases hm
  rw [if_neg (by rw [digits_all hd]; simp), decVal_natOf]
  simp only [Bool.false_eq_true, if_false]
  rw [if_neg]
  omega

theorem lit_wide {ds suf : Str} (hne : ds ≠ []) (hd : Digits ds) (hv : 2 ^ 31 ≤ natOf ds) (hs : suf = [] ∨ ∃ s ∈ intSuffixes, suf = s.toList) :
    Lit.parse (.lit (ds ++ suf)) = (parseFl b64 (fixSuffix (ds ++ suf) ["f32", "f64"])).map .float := by
  obtain ⟨c, r, rfl⟩ := List.exists_cons_of_ne_nil hne
  have hc := hd c (by simp)
  rw [Lit.parse, litOfText]
  rw [List.cons_append, fixQuoted_digit hc _ _ (by
    intro p hp
    simp only [List.mem_cons, List.not_mem_nil, or_false] at hp
    rcases hp with rfl | rfl | rfl | rfl | rfl <;> exact ⟨_, _, rfl, by decide⟩)]
  dsimp only
  rw [fixQuoted_digit hc _ _ (by
    intro p hp
    simp only [List.mem_cons, List.not_mem_nil, or_false] at hp
    rcases hp with rfl | rfl | rfl | rfl <;> exact ⟨_, _, rfl, by decide⟩)]
  dsimp only
  rw [show fixSuffix (c :: (r ++ suf)) ["u8", "u16", "u32", "u64", "u128", "usize", "i8", "i16", "i32", "i64", "i128", "isize"] = c :: r from fixSuffix_num hd hs,
    parseI32_wide hne hd hv]

/-- The characters of numbers. -/
theorem float_chars {s : Str} (h : RustFloat s) {c : Char} {t : Str} (hs : s = c :: t) (hc : IsDigit c) :
    ∀ x ∈ s, IsDigit x ∨ x ∈ ['.', 'e', 'E', '+', '-'] := by
  obtain ⟨sg, rest, rfl, hsg, hb⟩ := h
  have : sg = [] := by
    rcases hsg with h | h | h
    · exact h
    · subst h; simp at hs; rw [← hs.1] at hc; exact absurd hc (by unfold IsDigit; decide)
    · subst h; simp at hs; rw [← hs.1] at hc; exact absurd hc (by unfold IsDigit; decide)
  subst this
  rw [List.nil_append] at hs ⊢
  have hx : ∀ ex, ExpText ex → ∀ x ∈ ex, IsDigit x ∨ x ∈ ['.', 'e', 'E', '+', '-'] := by
    intro ex he x hx
    rcases he with rfl | ⟨e, sg, ds, rfl, he, hsg, _, hds⟩
    · cases hx
    · simp only [List.mem_cons, List.mem_append] at hx
      rcases hx with rfl | hx | hx
      · rcases he with rfl | rfl <;> simp
      · rcases hsg with rfl | rfl | rfl <;> simp at hx <;> simp [hx]
      · exact .inl (hds x hx)
  rcases hb with hw | ⟨int, ex, rfl, _, hi, he⟩ | ⟨int, frac, ex, rfl, _, hi, hf, he⟩
  · subst hs
    exfalso
    have hl : asciiLower c = c := by
      unfold asciiLower
      rw [if_neg]
      intro hh
      unfold IsDigit at hc
      omega
    rw [List.map_cons, hl] at hw
    rcases hw with hw | hw | hw <;> (injection hw with h1 _; rw [h1] at hc; exact absurd hc (by unfold IsDigit; decide))
  · intro x hx'
    rcases List.mem_append.mp hx' with h | h
    · exact .inl (hi x h)
    · exact hx ex he x h
  · intro x hx'
    rw [List.append_assoc] at hx'
    rcases List.mem_append.mp hx' with h | h
    · exact .inl (hi x h)
    · rcases List.mem_cons.mp h with rfl | h
      · simp
      · rcases List.mem_append.mp h with h | h
        · exact .inl (hf x h)
        · exact hx ex he x h

theorem f_table : ∀ q ∈ intSuffixes, ∀ f ∈ ["f32", "f64"], ¬ (f.toList <:+ q.toList ∨ q.toList <:+ f.toList) := by decide

theorem fixSuffix_f {ds : Str} {q : String} (hq : q ∈ intSuffixes) : fixSuffix (ds ++ q.toList) ["f32", "f64"] = ds ++ q.toList := by
  have h : ∀ f ∈ ["f32", "f64"], ¬ (f.toList.isSuffixOf (ds ++ q.toList)) = true := by
    intro f hf h
    exact f_table q hq f hf (suffix_or (List.isSuffixOf_iff_suffix.mp h))
  rw [fixSuffix, if_neg (h _ (by simp)), fixSuffix, if_neg (h _ (by simp)), fixSuffix]

theorem lit_wide_refused {ds : Str} {suf : String} (hne : ds ≠ []) (hd : Digits ds) (hv : 2 ^ 31 ≤ natOf ds) (hs : suf ∈ intSuffixes) :
    Lit.parse (.lit (ds ++ suf.toList)) = none := by
  rw [lit_wide hne hd hv (.inr ⟨suf, hs, rfl⟩), fixSuffix_f hs]
  have : parseFl b64 (ds ++ suf.toList) = none := by
    cases hp : parseFl b64 (ds ++ suf.toList) with
    | none => rfl
    | some f =>
      exfalso
      have hf : RustFloat (ds ++ suf.toList) := (parseFl_isSome b64 _).mp (by rw [hp]; rfl)
      obtain ⟨c, r, rfl⟩ := List.exists_cons_of_ne_nil hne
      have hx := float_chars hf rfl (hd c (by simp))
      obtain ⟨x, t, h1, h2⟩ := suffix_head suf hs
      have := hx x (by rw [h1]; simp)
      rcases h2 with rfl | rfl <;> rcases this with h | h
      · exact absurd h (by unfold IsDigit; decide)
      · simp at h
      · exact absurd h (by unfold IsDigit; decide)
      · simp at h
  rw [this]; rfl

theorem char_refused (c : Char) (hc : c ≠ '\'') : Lit.parse (.lit ['\'', c, '\'']) = none := by
  rw [Lit.parse, litOfText]
  have h1 : fixQuoted ['\'', c, '\''] [("b'", "'"), ("b\"", "\""), ("br\"", "\""), ("br#\"", "\"#"), ("br##\"", "\"##")] = none := rfl
  have h2 : fixQuoted ['\'', c, '\''] [("\"", "\""), ("r\"", "\""), ("r#\"", "\"#"), ("r##\"", "\"##")] = none := rfl
  rw [h1]
  dsimp only
  rw [h2]
  dsimp only
  have h3 : fixSuffix ['\'', c, '\''] ["u8", "u16", "u32", "u64", "u128", "usize", "i8", "i16", "i32", "i64", "i128", "isize"] = ['\'', c, '\''] := rfl
  have h4 : fixSuffix ['\'', c, '\''] ["f32", "f64"] = ['\'', c, '\''] := rfl
  rw [h3, h4]
  have h5 : parseI32 ['\'', c, '\''] = none := by
    unfold parseI32
    dsimp only
    rw [if_pos (by simp [isDigit])]
  rw [h5]
  dsimp only
  have : parseFl b64 ['\'', c, '\''] = none := by
    cases hp : parseFl b64 ['\'', c, '\''] with
    | none => rfl
    | some f =>
      exfalso
      obtain ⟨sg, rest, h, hsg, hb⟩ := (parseFl_isSome b64 _).mp (by rw [hp]; rfl)
      have : sg = [] := by rcases hsg with rfl | rfl | rfl <;> simp at h ⊢
      subst this
      rw [List.nil_append] at h
      have nd : ∀ {x : Char} {l : Str}, Digits (x :: l) → x ≠ '\'' := by
        rintro x l hd rfl
        exact absurd (hd '\'' (by simp)) (by unfold IsDigit; decide)
      rcases hb with hw | ⟨int, ex, he, hne, hi, _⟩ | ⟨int, frac, ex, he, _, hi, _, _⟩
      · rw [← h, List.map_cons, show asciiLower '\'' = '\'' by decide] at hw
        rcases hw with hw | hw | hw <;> (injection hw with h1 _; exact absurd h1 (by decide))
      · obtain ⟨x, l, rfl⟩ := List.exists_cons_of_ne_nil hne
        rw [← h] at he
        injection he with h1 _
        exact nd hi h1.symm
      · rw [← h] at he
        cases int with
        | nil => injection he with h1 _; exact absurd h1 (by decide)
        | cons x l => injection he with h1 _; exact nd hi h1.symm
  rw [this]; rfl

theorem badAnn_parse {ts : List Tok} (h : BadAnn ts) : RMeta.parse ts = none := by
  unfold RMeta.parse
  rw [RMeta.parseF.eq_def]
  cases h with
  | path a b r hb =>
    cases r with
    | nil =>
      dsimp only
      rw [if_pos (by rfl), if_neg (by simp [Tok.isPunct])]
    | cons t r => rfl
  | empty k d => rfl
  | char k c hc =>
    dsimp only
    rw [if_pos (by rfl)]
    unfold RLit.parse
    rw [char_refused c hc]; rfl
  | wide k ds suf h1 h2 h3 h4 =>
    dsimp only
    rw [if_pos (by rfl)]
    unfold RLit.parse
    rw [lit_wide_refused h1 h2 h3 h4]; rfl

/-- **C65.** One attribute the parser cannot read, anywhere in front of the declaration, and the whole declaration is refused, whatever it is. -/
theorem C65_bad_attribute (text : List Tok → Str) (attrs : List (List Tok)) (hb : ∃ a ∈ attrs, BadAnn a) (decl : List Tok) (hd : decl.head? ≠ some (.punct '#')) :
    AnyItem.parse text (attrs.flatMap (fun a => [.punct '#', .group .bracket a]) ++ decl) = none := by
  have hm : takeMetas (attrs.flatMap (fun a => [.punct '#', .group .bracket a]) ++ decl) = none := by
    have := takeMetas_hash attrs decl (by
      intro t ht
      cases hp : t.isPunct '#' with
      | false => rfl
      | true => rw [ht] at hd; exact absurd (by rw [(isPunct_iff _ _).mp hp]) hd)
    obtain ⟨a, ha, hba⟩ := hb
    rw [if_neg (by simpa using List.ne_nil_of_mem ha), collectO_refused _ (List.mem_map.mpr ⟨a, ha, badAnn_parse hba⟩)] at this
    exact this
  unfold AnyItem.parse RStruct.parse REnum.parse RFn.parse
  rw [hm]
  dsimp only
  split
  · rfl
  · simp

/-- **C65.** An integer without suffix beyond 31 bits is not an integer but a float. -/
theorem C65_wide_integer (ds : Str) (hne : ds ≠ []) (hd : Digits ds) (hv : 2 ^ 31 ≤ natOf ds) : ∃ f, Lit.parse (.lit ds) = some (.float f) := by
  have h := lit_wide (suf := []) hne hd hv (.inl rfl)
  rw [List.append_nil] at h
  have hs : fixSuffix ds ["f32", "f64"] = ds := by
    have h : ∀ f ∈ ["f32", "f64"], ¬ (f.toList.isSuffixOf ds) = true := by
      intro f hf h
      have hm := List.isSuffixOf_iff_suffix.mp h
      have : 'f' ∈ ds := hm.subset (by simp at hf; rcases hf with rfl | rfl <;> decide)
      exact absurd (hd _ this) (by unfold IsDigit; decide)
    rw [fixSuffix, if_neg (h _ (by simp)), fixSuffix, if_neg (h _ (by simp)), fixSuffix]
  rw [hs] at h
  have hf : (parseFl b64 ds).isSome = true := (parseFl_isSome b64 ds).mpr ⟨[], ds, rfl, .inl rfl, .inr (.inl ⟨ds, [], by simp, hne, hd, .inl rfl⟩)⟩
  obtain ⟨f, hf⟩ := Option.isSome_iff_exists.mp hf
  exact ⟨f, by rw [h, hf]; rfl⟩

/-- **C65.** A public tuple field of a tuple type: `struct S(pub (A, B));` is refused, because `(A, B)` is taken for a restriction as in `pub(crate)`. -/
theorem C65_pub_tuple (text : List Tok → Str) (name : Str) (g : List Tok) :
    AnyItem.parse text [id' "struct", .ident name, .group .paren [id' "pub", .group .paren g], .punct ';'] = none := rfl

theorem parseIsize_bad {c : Char} {r : Str} (hc : IsDigit c) (h : (∃ x ∈ r, ¬ IsDigit x) ∨ 2 ^ 63 ≤ natOf (c :: r)) : parseIsize (c :: r) = none := by
  unfold parseIsize
  split
  rename_i neg d hm
  have hm : (neg, d) = (false, c :: r) := by
    rw [← hm]
    split
    · rename_i h; cases h; exact absurd hc (by unfold IsDigit; decide)
    · rename_i h; cases h; exact absurd hc (by unfold IsDigit; decide)
    · rfl
  cases hm
  rcases h with ⟨x, hx, hn⟩ | hv
  · rw [if_pos]
    have : (c :: r).all isDigit = false := by
      rw [List.all_eq_false]
      exact ⟨x, by simp [hx], by rw [isDigit_iff]; exact hn⟩
    rw [this]; rfl
  · by_cases hd : (c :: r).all isDigit = true
    · rw [if_neg (by rw [hd]; simp), decVal_natOf]
      simp only [Bool.false_eq_true, if_false]
      rw [if_neg]
      omega
    · rw [if_pos (by rw [Bool.eq_false_iff.mpr hd]; simp)]

/-- **C65.** An enum is refused if a discriminant is a literal other than a plain decimal number below 2^63: hexadecimal, with `_`, with a suffix. -/
theorem C65_discriminant (text : List Tok → Str) (hT : Prints text) (d : EnumDecl) (h : d.toHead.Ok)
    (hv : ∃ v ∈ d.variants, ∃ c r, v.disc = some (false, c :: r) ∧ IsDigit c ∧ ((∃ x ∈ r, ¬ IsDigit x) ∨ 2 ^ 63 ≤ natOf (c :: r))) : AnyItem.parse text d.toks = none := by
  obtain ⟨v, hm, c, r, hd, hc, hb⟩ := hv
  have hz : ∀ rest, parseEnumValues text (.group .brace (joinWith [.punct ','] (d.variants.map Variant.toks) ++ optComma d.comma) :: rest) = none := by
    intro rest
    unfold parseEnumValues
    dsimp only
    rw [split_map_comma Variant.toks d.variants (List.ne_nil_of_mem hm) (fun v _ => variant_nest v) d.comma, List.map_map]
    apply collectO_refused
    refine List.mem_map.mpr ⟨v, hm, ?_⟩
    show EnumValue.parse text v.toks = none
    unfold EnumValue.parse
    rw [if_neg (by simpa using (variant_nest v).2), variant_split, hd]
    dsimp only
    rw [enumDisc, show discBody (false, c :: r) = [.lit (c :: r)] from rfl, hT.lit, parseIsize_bad hc hb]; rfl
  unfold EnumDecl.toks
  refine enum_refused text h (where_head _ _ _ (by simp) (by simp)) ?_
  by_cases hw : d.where_ = []
  · rw [no_where hw, List.nil_append, enumTail, if_neg (by simp [Tok.isIdent]), if_pos (by simp [Tok.isGroup]), hz]; rfl
  · obtain ⟨w, r, h1, h2, h3, h4⟩ := where_split h hw (rest := [.group .brace (joinWith [.punct ','] (d.variants.map Variant.toks) ++ optComma d.comma)]) ⟨_, _, rfl, rfl⟩
    rw [h1, enumTail, if_pos (by simp [Tok.isIdent]), h2]
    dsimp only
    rw [h3, hz]; rfl

/-! ### C65: what is misread or lost -/

/-- **C65.** `mut x: T` is read as a parameter with the name `mut`; the `x` is lost. -/
theorem C65_mut_parameter (x : Str) (ty : List Tok) (h : DeclTy ty ∧ Without ':' ty) :
    ∃ p, ParamItem.parse (id' "mut" :: .ident x :: .punct ':' :: ty) = some p ∧ p.ident = some "mut".toList ∧ p.ty.toks = ty := by
  obtain ⟨t, ht1, ht2⟩ := arg_parse h.1
  have hs := split_join ':' (ps := [[id' "mut", .ident x], ty]) (by simp [Bracketish]) (by simp) (by
    intro q hq
    simp at hq
    rcases hq with rfl | rfl
    · exact nest_ident _ _ (by simp) (nest_ident _ _ (by simp) .nil)
    · exact h.2) (by
    intro q hq
    simp at hq
    rcases hq with rfl | rfl
    · simp
    · exact tyG_ne_nil h.1) ":" rfl
  refine ⟨⟨some "mut".toList, t⟩, ?_, rfl, ht2⟩
  unfold ParamItem.parse
  rw [if_neg (by simp), show splitTokensBy (id' "mut" :: .ident x :: .punct ':' :: ty) ":" = [[id' "mut", .ident x], ty] from hs]
  dsimp only
  rw [ht1]

/-- **C65.** The where clause of a unit struct is lost when it is written back. -/
theorem C65_where_lost (text : List Tok → Str) (d : StructDecl) (h : d.Ok) (hu : d.shape = .unit) :
    ∃ x, AnyItem.parse text d.toks = some x ∧ x.toks = annPart (annsCanon d.attrs) ++ (visToks d.vis ++ (id' "struct" :: .ident d.name :: (d.toHead.canon.paramPart ++ [.punct ';']))) := by
  obtain ⟨s, h1, _, h2⟩ := structDecl_parse text h
  refine ⟨_, h1, h2.trans ?_⟩
  unfold StructDecl.canon StructDecl.toks
  rw [hu]
  dsimp only
  rw [show ({ d.toHead.canon with where_ := [] } : Head).wherePart = [] from no_where rfl]
  rfl

/-- **C65.** `extern fn` without ABI is written back as `fn`. -/
theorem C65_extern_lost (text : List Tok → Str) (hT : Prints text) (d : FnDecl) (h : d.Ok (Spaced text)) (he : d.ext = some none) :
    ∃ x y, AnyItem.parse text d.toks = some x ∧ AnyItem.parse text { d with ext := none }.toks = some y ∧ x.toks = y.toks := by
  obtain ⟨f, h1, _, h2⟩ := fnDecl_parse hT h
  obtain ⟨g, h3, _, h4⟩ := fnDecl_parse (d := { d with ext := none }) hT h
  refine ⟨_, _, h1, h3, ?_⟩
  show f.toks = g.toks
  rw [h2, h4]
  unfold FnDecl.canon
  rw [he]

/-- **C65.** A negative number in an attribute is read as negative, but written back, and so read again, without the sign. -/
theorem C65_minus_lost (k ds suf : Str) (h : (AVal.num true ds suf).Ok) : ∃ x y,
    RMeta.parse (.ident k :: .punct '=' :: (AVal.num true ds suf).toks) = some (.pair k x '=') ∧ x.lit = .integer (-(natOf ds : Int)) ∧
    RMeta.parse (RMeta.pair k x '=').toks = some (.pair k y '=') ∧ y.lit = .integer (natOf ds) := by
  have ha : (Ann.pair k '=' (.num true ds suf)).Ok := ⟨.inl rfl, h⟩
  obtain ⟨m, h1, h2, h3⟩ := ann_parse _ _ (Nat.lt_succ_self _) ha
  obtain ⟨x, rfl, hx⟩ := h2
  have hb : (Ann.pair k '=' (.num false ds suf)).Ok := ⟨.inl rfl, h⟩
  obtain ⟨m, h4, h5, h6⟩ := ann_parse _ _ (Nat.lt_succ_self _) hb
  obtain ⟨y, rfl, hy⟩ := h5
  refine ⟨x, y, h1, hx, ?_, hy⟩
  rw [h3]
  exact h4

/-- **C65.** The delimiters of a list in an attribute are lost: `#[a[x]]` and `#[a{x}]` are written back as `#[a(x)]`. -/
theorem C65_delimiters_lost (k : Str) (d : Delim) (args : List Ann) (c : Bool) (h : (Ann.list k d args c).Ok) :
    ∃ m, RMeta.parse (Ann.list k d args c).toks = some m ∧ m.toks = (Ann.list k .paren (annsCanon args) false).toks := by
  obtain ⟨m, h1, _, h3⟩ := ann_parse _ _ (Nat.lt_succ_self _) h
  exact ⟨m, h1, h3⟩

/-! ### Concrete declarations -/

/-- `T` -/
abbrev plainTy (s : String) : List Tok := [id' s]

theorem declTy_ident (s : String) (h : s.toList ≠ "dyn".toList ∧ s.toList ≠ "impl".toList ∧ s.toList ≠ "mut".toList) : DeclTy (plainTy s) := .ofTy _ (ty_ident s h)

/-- `#[repr(C)] #[v = 1] #[v = 2] #[tags("a", x = true)] pub struct P<T: A>(#[skip] pub i32, Vec<T>) where T: B;` -/
def tupleStruct : StructDecl where
  attrs := [.list "repr".toList .paren [.word "C".toList] false, .pair "v".toList '=' (.num false ['1'] []), .pair "v".toList '=' (.num false ['2'] []),
    .list "tags".toList .paren [.lit (.str (.cooked [.plain 'a'])), .pair "x".toList '=' (.flag true)] false]
  vis := some none
  name := "P".toList
  params := [.type "T".toList [[id' "A"]] [] false]
  where_ := [.type "T".toList [[id' "B"]] [] false]
  commaP := false
  commaW := false
  shape := .tuple [⟨[.word "skip".toList], some none, [id' "i32"]⟩, ⟨[], none, [id' "Vec", .punct '<', id' "T", .punct '>']⟩] true

/-- Its tokens are those of the declaration above. -/
example : tupleStruct.toks = [.punct '#', .group .bracket [id' "repr", .group .paren [id' "C"]], .punct '#', .group .bracket [id' "v", .punct '=', .lit ['1']],
    .punct '#', .group .bracket [id' "v", .punct '=', .lit ['2']],
    .punct '#', .group .bracket [id' "tags", .group .paren [.lit "\"a\"".toList, .punct ',', id' "x", .punct '=', id' "true"]],
    id' "pub", id' "struct", id' "P", .punct '<', id' "T", .punct ':', id' "A", .punct '>',
    .group .paren [.punct '#', .group .bracket [id' "skip"], id' "pub", id' "i32", .punct ',', id' "Vec", .punct '<', id' "T", .punct '>', .punct ','],
    id' "where", id' "T", .punct ':', id' "B", .punct ';'] := rfl

theorem digit_ok (neg : Bool) (c : Char) (h : IsDigit c) (hv : natOf [c] < 2 ^ 31) : (AVal.num neg [c] []).Ok := by
  refine ⟨by simp, ?_, hv, .inl rfl⟩
  intro x hx
  simp at hx
  rwa [hx]

theorem bound_ok (n s : String) (h : s.toList ≠ "Sized".toList) : (Param.type n.toList [[id' s]] [] false).Ok := by
  intro t ht
  simp at ht
  subst ht
  refine ⟨.ident [] _ (by simp), ?_, by simp, by simp⟩
  intro h'
  have := h'.1
  simp only [List.head?_cons, Option.some.injEq, Tok.ident.injEq] at this
  exact h this

theorem tupleStruct_ok : tupleStruct.Ok := by
  refine ⟨⟨?_, ?_, ?_, ?_⟩, ⟨by simp, ?_⟩⟩
  · have w : ∀ s : String, s.toList ≠ "true".toList ∧ s.toList ≠ "false".toList → (Ann.word s.toList).Ok := fun _ h => h
    refine ⟨⟨by simp, w "C" (by decide), trivial⟩, ⟨.inl rfl, digit_ok _ _ (by unfold IsDigit; decide) (by decide)⟩, ⟨.inl rfl, digit_ok _ _ (by unfold IsDigit; decide) (by decide)⟩,
      ⟨by simp, ?_, ⟨.inl rfl, trivial⟩, trivial⟩, trivial⟩
    exact ⟨⟨by simp [RItem.Valid], trivial⟩, by simp⟩
  · intro p hp
    simp [tupleStruct] at hp
    subst hp
    exact bound_ok "T" "A" (by decide)
  · intro p hp
    simp [tupleStruct] at hp
    subst hp
    exact bound_ok "T" "B" (by decide)
  · intro t ht
    have : t ∈ [id' "T", .punct ':', id' "B"] := ht
    simp at this
    rcases this with rfl | rfl | rfl <;> simp
  · intro f hf
    simp at hf
    rcases hf with rfl | rfl
    · exact ⟨⟨show _ ∧ _ by decide, trivial⟩, declTy_ident "i32" (by decide), by simp, by simp, by simp⟩
    · exact ⟨trivial, .ofTy _ (ty_apply "Vec" (by decide) [id' "T"] (declTy_ident "T" (by decide))), by simp, by simp, by simp⟩

/-- What is read from it: the fields, and what the accessors say of the attributes. -/
example (text : List Tok → Str) : ∃ s its, AnyItem.parse text tupleStruct.toks = some (.struct s) ∧ StructIs tupleStruct s ∧ s.attrs = some its ∧
    (metaGet "v".toList its).map RLit.lit = some (.integer 1) ∧ (mapGet "v".toList (metaPairs its)).map RLit.lit = some (.integer 2) ∧
    (metaIn "tags".toList (metaGet "x".toList) its).map RLit.lit = some (.boolean true) ∧ metaGet "tags".toList its = none := by
  obtain ⟨s, h1, h2⟩ := C60_structs text tupleStruct tupleStruct_ok
  rcases h2.1 with ⟨h, _⟩ | ⟨_, its, h3, h4⟩
  · simp [tupleStruct] at h
  refine ⟨s, its, h1, h2, h3, ?_, ?_, ?_, ?_⟩
  · rw [C64_get_key _ h4]; rfl
  · rw [C64_pairs _ h4]; rfl
  · rw [C64_get_nested _ _ h4]; rfl
  · have := C64_get_key "tags".toList h4
    rw [show (tupleStruct.attrs.filterMap (Ann.value? "tags".toList)).head? = none from rfl, Option.map_eq_none_iff] at this
    exact this

/-- `enum E { A, B(i32) = -5, #[x] C { y: T } = 007 }` -/
def sampleEnum : EnumDecl where
  attrs := []
  vis := none
  name := "E".toList
  params := []
  where_ := []
  commaP := false
  commaW := false
  variants := [⟨[], "A".toList, .unit, none⟩, ⟨[], "B".toList, .tuple [⟨[], none, [id' "i32"]⟩] false, some (true, ['5'])⟩,
    ⟨[.word "x".toList], "C".toList, .named [⟨[], none, "y".toList, [id' "T"]⟩] false, some (false, ['0', '0', '7'])⟩]
  comma := false

example : sampleEnum.toks = [id' "enum", id' "E", .group .brace [id' "A", .punct ',', id' "B", .group .paren [id' "i32"], .punct '=', .punct '-', .lit ['5'], .punct ',',
    .punct '#', .group .bracket [id' "x"], id' "C", .group .brace [id' "y", .punct ':', id' "T"], .punct '=', .lit "007".toList]] := rfl

theorem sampleEnum_ok : sampleEnum.Ok := by
  refine ⟨⟨trivial, by simp [sampleEnum], by simp [sampleEnum], by intro t ht; cases ht⟩, by simp [sampleEnum], ?_⟩
  intro v hv
  simp [sampleEnum] at hv
  have dg : ∀ c ∈ ['0', '5', '7'], IsDigit c := by unfold IsDigit; decide
  rcases hv with rfl | rfl | rfl
  · exact ⟨trivial, trivial, by simp⟩
  · refine ⟨trivial, ⟨by simp, ?_⟩, ?_⟩
    · intro f hf
      simp at hf
      subst hf
      exact ⟨trivial, declTy_ident "i32" (by decide), by simp, by simp, by simp⟩
    · intro p hp
      cases hp
      refine ⟨by simp, ?_, by decide, by decide⟩
      intro c hc
      simp at hc
      subst hc
      exact dg _ (by simp)
  · refine ⟨⟨show _ ∧ _ by decide, trivial⟩, ⟨by simp, ?_⟩, ?_⟩
    · intro f hf
      simp at hf
      subst hf
      exact ⟨trivial, by decide, declTy_ident "T" (by decide)⟩
    · intro p hp
      cases hp
      refine ⟨by simp, ?_, by decide, by decide⟩
      intro c hc
      simp at hc
      exact dg c (by rcases hc with h | h <;> simp [h])

/-- It is read, with the discriminants -5 and 7, and written back with `= - 5` and `= 7`. -/
example : ∃ e, AnyItem.parse sampleText sampleEnum.toks = some (.enum e) ∧ EnumIs sampleEnum e ∧ e.values.map EnumValue.disc = [none, some (-5), some 7] := by
  obtain ⟨e, h1, h2⟩ := C61_enums sampleText sample_prints.1 sampleEnum sampleEnum_ok (fun _ => sample_prints.2.2)
  refine ⟨e, h1, h2, ?_⟩
  have h3 := h2.2.2.2.2.2
  match hv : e.values, h3 with
  | [a, b, c], h3 =>
    have ha := h3.1.2.2.2
    have hb := h3.2.1.2.2.2
    have hc := h3.2.2.1.2.2.2
    simp only [List.map_cons, List.map_nil]
    rw [ha, hb, hc]; rfl

/-- `#[inline] pub(crate) async unsafe extern "C" fn f<'a, T: A>(&mut self, x: &T, y: Vec<T>) -> impl Fn(T) -> U where T: B { y }` -/
def sampleFn : FnDecl where
  attrs := [.word "inline".toList]
  vis := some (some [id' "crate"])
  name := "f".toList
  params := [.life "a".toList [], .type "T".toList [[id' "A"]] [] false]
  where_ := [.type "T".toList [[id' "B"]] [] false]
  commaP := false
  commaW := false
  isAsync := true
  isConst := false
  isUnsafe := true
  ext := some (some "\"C\"".toList)
  args := [⟨none, [.punct '&', id' "mut", id' "self"]⟩, ⟨some "x".toList, [.punct '&', id' "T"]⟩, ⟨some "y".toList, [id' "Vec", .punct '<', id' "T", .punct '>']⟩]
  comma := false
  ret := some [id' "impl", id' "Fn", .group .paren [id' "T"], .punct '-', .punct '>', id' "U"]
  body := [id' "y"]

example : sampleFn.toks = [.punct '#', .group .bracket [id' "inline"], id' "pub", .group .paren [id' "crate"], id' "async", id' "unsafe", id' "extern", .lit "\"C\"".toList,
    id' "fn", id' "f", .punct '<', .punct '\'', id' "a", .punct ',', id' "T", .punct ':', id' "A", .punct '>',
    .group .paren [.punct '&', id' "mut", id' "self", .punct ',', id' "x", .punct ':', .punct '&', id' "T", .punct ',',
      id' "y", .punct ':', id' "Vec", .punct '<', id' "T", .punct '>'],
    .punct '-', .punct '>', id' "impl", id' "Fn", .group .paren [id' "T"], .punct '-', .punct '>', id' "U",
    id' "where", id' "T", .punct ':', id' "B", .group .brace [id' "y"]] := rfl

theorem sampleFn_ok (sp : Prop) (hsp : sp) : sampleFn.Ok sp := by
  refine ⟨⟨⟨show _ ∧ _ by decide, trivial⟩, ?_, ?_, ?_⟩, by simp [sampleFn], ?_, ?_⟩
  · intro p hp
    simp [sampleFn] at hp
    rcases hp with rfl | rfl
    · trivial
    · exact bound_ok "T" "A" (by decide)
  · intro p hp
    simp [sampleFn] at hp
    subst hp
    exact bound_ok "T" "B" (by decide)
  · intro t ht
    have : t ∈ [id' "T", .punct ':', id' "B"] := ht
    simp at this
    rcases this with rfl | rfl | rfl <;> simp
  · intro a ha
    simp [sampleFn] at ha
    rcases ha with rfl | rfl | rfl
    · exact ⟨.refMut _ (.ident [] _ (by simp)) (bare_ident "self" (by decide) _), nest_punct _ _ (by simp) (by decide) (nest_ident _ _ (by simp) (nest_ident _ _ (by simp) .nil))⟩
    · exact ⟨.ref _ (.ident [] _ (by simp)) (bare_ident "T" (by decide) _) (by simp), nest_punct _ _ (by simp) (by decide) (nest_ident _ _ (by simp) .nil)⟩
    · exact ⟨.ofTy _ (ty_apply "Vec" (by decide) [id' "T"] (declTy_ident "T" (by decide))), nest_ident _ _ (by simp) (.angle [id' "T"] [] (nest_ident _ _ trivial .nil) .nil)⟩
  · intro ts hts
    cases hts
    refine ⟨?_, ?_⟩
    · refine .imp [[id' "Fn", .group .paren [id' "T"], .punct '-', .punct '>', id' "U"]] (by simp) ?_ (bare_ident "Fn" (by decide) _)
      intro p hp
      simp at hp
      subst hp
      exact .func [] "Fn".toList [id' "T"] [.punct '-', .punct '>', id' "U"] hsp (.inl rfl) (.arrow _ (nest_ident _ _ (by simp [NoSep]) .nil))
    · intro t ht
      simp at ht
      rcases ht with rfl | rfl | rfl | rfl | rfl | rfl <;> simp

/-- It is read as that function. -/
example : ∃ f, AnyItem.parse sampleText sampleFn.toks = some (.fn f) ∧ FnIs sampleFn f ∧ f.isAsync = true ∧ f.abi = some "\"C\"".toList ∧
    f.params.map ParamItem.ident = [none, some "x".toList, some "y".toList] ∧ f.body = [id' "y"] := by
  obtain ⟨f, h1, h2⟩ := C62_functions sampleText sample_prints.1 sampleFn (sampleFn_ok _ sample_prints.2.1)
  refine ⟨f, h1, h2, h2.2.2.1, h2.2.2.2.2.2.1, ?_, h2.2.2.2.2.2.2.2.2.2.2.2⟩
  have h3 := h2.2.2.2.2.2.2.2.2.1
  match hv : f.params, h3 with
  | [a, b, c], h3 =>
    simp only [List.map_cons, List.map_nil]
    rw [h3.1.1, h3.2.1.1, h3.2.2.1.1]

/-! ### Instances of the refusals -/

/-- `struct S {}`, `struct S();`, `enum E {}`, `fn f() {}` -/
example (text : List Tok → Str) : AnyItem.parse text [id' "struct", id' "S", .group .brace []] = none ∧
    AnyItem.parse text [id' "struct", id' "S", .group .paren [], .punct ';'] = none ∧
    AnyItem.parse text [id' "enum", id' "E", .group .brace []] = none ∧
    AnyItem.parse text [id' "fn", id' "f", .group .paren [], .group .brace []] = none := by
  let h : Head := ⟨[], none, "S".toList, [], [], false, false⟩
  have ho : ∀ n : Str, (⟨[], none, n, [], [], false, false⟩ : Head).Ok := fun n => ⟨trivial, by simp, by simp, by intro t ht; cases ht⟩
  exact ⟨C65_empty_struct text ⟨h, .named [] false⟩ (ho _) (.inl rfl), C65_empty_struct text ⟨h, .tuple [] false⟩ (ho _) (.inr rfl),
    C65_empty_enum text ⟨⟨[], none, "E".toList, [], [], false, false⟩, [], false⟩ (ho _) rfl rfl,
    C65_no_parameters text ⟨⟨[], none, "f".toList, [], [], false, false⟩, false, false, false, none, [], false, none, []⟩ (ho _) rfl rfl⟩

/-- `fn f(x: std::String) {}` -/
example (text : List Tok → Str) : AnyItem.parse text [id' "fn", id' "f", .group .paren [id' "x", .punct ':', id' "std", .punct ':', .punct ':', id' "String"], .group .brace []] = none := by
  refine C65_path_parameter text ⟨⟨[], none, "f".toList, [], [], false, false⟩, false, false, false, none,
    [⟨some "x".toList, [id' "std", .punct ':', .punct ':', id' "String"]⟩], false, none, []⟩ ⟨trivial, by simp, by simp, by intro t ht; cases ht⟩ ?_ ?_
  · intro a ha
    simp at ha
    subst ha
    exact .ofTy _ (ty_path (.ident [[id' "std"]] "String".toList (by intro p hp; simp at hp; subst hp; exact nest_ident _ _ (by simp [NoSep]) .nil)) (bare_ident "std" (by decide) _))
  · exact ⟨⟨some "x".toList, [id' "std", .punct ':', .punct ':', id' "String"]⟩, by simp, "x".toList, [id' "std"], [id' "String"], rfl, rfl, nest_ident _ _ (by simp) .nil, by simp⟩

/-- `#[rustfmt::skip] struct S;` -/
example (text : List Tok → Str) : AnyItem.parse text [.punct '#', .group .bracket [id' "rustfmt", .punct ':', .punct ':', id' "skip"], id' "struct", id' "S", .punct ';'] = none :=
  C65_bad_attribute text [_] ⟨_, by simp, .path "rustfmt".toList (id' "skip") [] (by simp)⟩ [id' "struct", id' "S", .punct ';'] (by simp)

/-- `3000000000` is a float. -/
example : ∃ f, Lit.parse (.lit "3000000000".toList) = some (.float f) :=
  C65_wide_integer _ (by decide) (by intro c hc; simp at hc; rcases hc with rfl | rfl <;> (unfold IsDigit; decide)) (by decide)

/-- `enum E { A = 0x10 }` -/
example : AnyItem.parse sampleText [id' "enum", id' "E", .group .brace [id' "A", .punct '=', .lit "0x10".toList]] = none :=
  C65_discriminant sampleText sample_prints.1 ⟨⟨[], none, "E".toList, [], [], false, false⟩, [⟨[], "A".toList, .unit, some (false, "0x10".toList)⟩], false⟩
    ⟨trivial, by simp, by simp, by intro t ht; cases ht⟩ ⟨_, by simp; rfl, '0', "x10".toList, rfl, by unfold IsDigit; decide, .inl ⟨'x', by simp, by unfold IsDigit; decide⟩⟩

end RJ
