import Verif.Proof.AnnGram
import Verif.Proof.PathText
/-
  Declarations of the grammar: accepted by the item parser, read as what they are, written back in canonical form.
-/
set_option linter.unusedSectionVars false
namespace RJ
open Spec

/-! ### Small things -/

theorem visText_eq (v : Vis) : visText v = visToks v := by
  match v with
  | none => rfl
  | some none => rfl
  | some (some p) => rfl

theorem takeVis_gen (v : Vis) (rest : List Tok) (h1 : rest.head? ≠ some (.ident "pub".toList)) (h2 : v = some none → ∀ g, rest.head? ≠ some (.group .paren g)) :
    takeVis (visToks v ++ rest) = (v, rest) := by
  match v, h2 with
  | none, _ =>
    cases rest with
    | nil => rfl
    | cons t rest =>
      rw [show visToks none ++ t :: rest = t :: rest from rfl, takeVis.eq_def]
      dsimp only
      rw [if_neg (by rw [isIdent_iff]; simpa using h1)]
  | some none, h2 =>
    have h2 := h2 rfl
    rw [show visToks (some none) ++ rest = .ident "pub".toList :: rest from rfl, takeVis.eq_def]
    dsimp only
    rw [if_pos (by simp [Tok.isIdent])]
    split
    · rename_i p ts' _ _
      exact absurd rfl (h2 p)
    · rfl
  | some (some p), _ => simp [visToks, takeVis, Tok.isIdent]

theorem vis_head' (v : Vis) (rest : List Tok) (h : ∀ t, rest.head? = some t → t.isPunct '#' = false) :
    ∀ t, (visToks v ++ rest).head? = some t → t.isPunct '#' = false := by
  intro t ht
  match v, ht with
  | none, ht => exact h t ht
  | some none, ht => simp [visToks] at ht; subst ht; rfl
  | some (some p), ht => simp [visToks] at ht; subst ht; rfl

theorem vis_nest {ok : Tok → Prop} (h1 : ∀ s, ok (.ident s)) (h2 : ∀ d g, ok (.group d g)) (v : Vis) : Nest ok (visToks v) := by
  match v with
  | none => exact .nil
  | some none => exact nest_ident _ _ (h1 _) .nil
  | some (some p) => exact nest_ident _ _ (h1 _) (nest_group _ _ _ (h2 _ _) .nil)

theorem fields_ident_nest (ok : Tok → Prop) (h1 : ok (.punct '#')) (h2 : ∀ d g, ok (.group d g)) (l : List Ann) : Nest ok (annPart l) := by
  rw [annPart_eq]
  exact hash_nest h1 (h2 _) _

/-! ### Fields -/

theorem nfield_parse {f : NField} (h : f.Ok) : ∃ x, NamedItem.parse f.toks = some x ∧ NFieldIs f x ∧ x.toks = f.canon.toks := by
  obtain ⟨h1, h2, h3⟩ := h
  obtain ⟨t, ht1, ht2⟩ := arg_parse h3
  obtain ⟨m, hm1, hm2, hm3⟩ := takeMetas_anns h1 (vis_head f.vis f.name (.punct ':' :: f.ty))
  refine ⟨⟨m, f.vis, f.name, t⟩, ?_, ⟨hm2, rfl, rfl, ht2⟩, ?_⟩
  · unfold NamedItem.parse NField.toks
    rw [if_neg (by simp), hm1]
    dsimp only
    rw [takeVis_run _ _ _ h2]
    dsimp only
    have : splitColon [] (.ident f.name :: .punct ':' :: f.ty) = ([.ident f.name], some f.ty) := by
      rw [splitColon, if_neg (by simp [Tok.isPunct]), splitColon, if_pos (by rfl)]; rfl
    rw [this]
    dsimp only
    rw [ht1]
  · unfold NamedItem.toks NField.toks NField.canon
    dsimp only
    rw [hm3, visText_eq, ht2, List.append_assoc]

theorem tfield_parse {f : TField} (h : f.Ok) : ∃ x, TupleItem.parse f.toks = some x ∧ AttrsAre f.attrs x.attrs ∧ x.vis = f.vis ∧ x.ty.toks = f.ty ∧
    x.toks = f.canon.toks := by
  obtain ⟨h1, h2, h3, h5, h4⟩ := h
  have hh : ∀ t, f.ty.head? = some t → t.isPunct '#' = false := fun t ht => isPunct_false (by rintro rfl; exact h5 ht)
  obtain ⟨t, ht1, ht2⟩ := arg_parse h2
  obtain ⟨m, hm1, hm2, hm3⟩ := takeMetas_anns h1 (vis_head' f.vis f.ty hh)
  refine ⟨⟨m, f.vis, 0, t⟩, ?_, hm2, rfl, ht2, ?_⟩
  · unfold TupleItem.parse TField.toks
    have hne := tyG_ne_nil h2
    rw [if_neg (by simp [hne]), hm1]
    dsimp only
    rw [takeVis_gen _ _ h3 h4, ht1]
    rfl
  · unfold TupleItem.toks TField.toks TField.canon
    dsimp only
    rw [hm3, visText_eq, ht2, List.append_assoc]

theorem nfield_nest {f : NField} (h : f.Ok) : Nest (fun t => t ≠ .punct ',') f.toks ∧ f.toks ≠ [] := by
  refine ⟨?_, by simp [NField.toks]⟩
  unfold NField.toks
  refine nest_append (fields_ident_nest _ (by simp) (by simp) _) (nest_append (vis_nest (by simp) (by simp) _) ?_)
  exact nest_ident _ _ (by simp) (nest_punct _ _ (by simp) (by decide) (tyG_nest h.2.2))

theorem tfield_nest {f : TField} (h : f.Ok) : Nest (fun t => t ≠ .punct ',') f.toks ∧ f.toks ≠ [] := by
  refine ⟨?_, by have := tyG_ne_nil h.2.1; simp [TField.toks, this]⟩
  unfold TField.toks
  exact nest_append (fields_ident_nest _ (by simp) (by simp) _) (nest_append (vis_nest (by simp) (by simp) _) (tyG_nest h.2.1))

theorem joinWith_commaEach : ∀ l : List (List Tok), l ≠ [] → commaEach l = joinWith [.punct ','] l ++ optComma true
  | [], h => absurd rfl h
  | [x], _ => by simp [commaEach, joinWith, optComma]
  | x :: y :: rest, _ => by
    have ih := joinWith_commaEach (y :: rest) (by simp)
    rw [joinWith, commaEach, List.flatMap_cons]
    rw [commaEach] at ih
    rw [ih]
    simp

theorem split_map_comma {α : Type} (f : α → List Tok) (l : List α) (hne : l ≠ []) (h : ∀ a ∈ l, Nest (fun t => t ≠ .punct ',') (f a) ∧ f a ≠ []) (b : Bool) :
    splitTokensBy (joinWith [.punct ','] (l.map f) ++ optComma b) "," = l.map f := by
  refine split_comma_list (by simpa using hne) ?_ b
  intro q hq
  obtain ⟨a, ha, rfl⟩ := List.mem_map.mp hq
  exact h a ha

theorem allTwo_map {α β : Type} {R : α → β → Prop} (f : α → List Tok) (g : β → List Tok) : ∀ (l : List α) (xs : List β), AllTwo (fun a b => R a b ∧ g b = f a) l xs →
    AllTwo R l xs ∧ xs.map g = l.map f
  | [], [], _ => ⟨trivial, rfl⟩
  | a :: l, x :: xs, h => by
    obtain ⟨h1, h2⟩ := allTwo_map f g l xs h.2
    exact ⟨⟨h.1.1, h1⟩, by rw [List.map_cons, List.map_cons, h.1.2, h2]⟩
  | [], _ :: _, h => h.elim
  | _ :: _, [], h => h.elim

theorem nfields_parse {l : List NField} (hne : l ≠ []) (h : ∀ f ∈ l, f.Ok) (c : Bool) :
    ∃ xs, collectO ((splitTokensBy (joinWith [.punct ','] (l.map NField.toks) ++ optComma c) ",").map NamedItem.parse) = some xs ∧ AllTwo NFieldIs l xs ∧
      xs.map NamedItem.toks = (l.map NField.canon).map NField.toks := by
  rw [split_map_comma NField.toks l hne (fun f hf => nfield_nest (h f hf)) c, List.map_map]
  obtain ⟨xs, h1, h2⟩ := collectO_allTwo (fun f : NField => NamedItem.parse f.toks) (fun f x => NFieldIs f x ∧ x.toks = f.canon.toks) l (fun f hf => nfield_parse (h f hf))
  obtain ⟨h3, h4⟩ := allTwo_map (fun f : NField => f.canon.toks) NamedItem.toks l xs h2
  exact ⟨xs, h1, h3, by rw [h4, List.map_map]; rfl⟩

theorem setPos_are : ∀ (l : List TField) (xs : List TupleItem) (n : Nat),
    AllTwo (fun (f : TField) (x : TupleItem) => AttrsAre f.attrs x.attrs ∧ x.vis = f.vis ∧ x.ty.toks = f.ty) l xs → TFieldsAre n l (setPos n xs)
  | [], [], _, _ => rfl
  | f :: l, x :: xs, n, h => ⟨_, _, rfl, h.1.1, h.1.2.1, rfl, h.1.2.2, setPos_are l xs (n + 1) h.2⟩
  | [], _ :: _, _, h => h.elim
  | _ :: _, [], _, h => h.elim

theorem setPos_toks : ∀ (xs : List TupleItem) (n : Nat), (setPos n xs).map TupleItem.toks = xs.map TupleItem.toks
  | [], _ => rfl
  | x :: xs, n => by rw [setPos, List.map_cons, List.map_cons, setPos_toks xs (n + 1)]; rfl

theorem setPos_ge : ∀ (xs : List TupleItem) (n : Nat), ∀ x ∈ setPos n xs, n ≤ x.pos
  | [], _, x, h => by cases h
  | y :: ys, n, x, h => by
    rw [setPos] at h
    rcases List.mem_cons.mp h with rfl | h
    · exact Nat.le_refl _
    · have := setPos_ge ys (n + 1) x h; omega

theorem insertPos_last (x : TupleItem) : ∀ l : List TupleItem, (∀ y ∈ l, y.pos ≤ x.pos) → insertPos x l = l ++ [x]
  | [], _ => rfl
  | y :: ys, h => by
    have := h y (by simp)
    rw [insertPos, if_neg (by omega), insertPos_last x ys (fun z hz => h z (by simp [hz]))]; rfl

theorem sortPos_run : ∀ (xs : List TupleItem) (n : Nat) (acc : List TupleItem), (∀ y ∈ acc, y.pos ≤ n) →
    (setPos n xs).foldl (fun acc x => insertPos x acc) acc = acc ++ setPos n xs
  | [], _, acc, _ => by simp [setPos]
  | x :: xs, n, acc, h => by
    rw [setPos, List.foldl_cons, insertPos_last _ acc h, sortPos_run xs (n + 1)]
    · simp
    · intro y hy
      rcases List.mem_append.mp hy with hy | hy
      · have := h y hy; omega
      · simp at hy; subst hy; simp

/-- Sorting by position changes nothing. -/
theorem sortPos_setPos (xs : List TupleItem) : sortPos (setPos 0 xs) = setPos 0 xs := by
  unfold sortPos
  rw [sortPos_run xs 0 [] (by simp)]; rfl

theorem tfields_parse {l : List TField} (hne : l ≠ []) (h : ∀ f ∈ l, f.Ok) (c : Bool) :
    ∃ xs, collectO ((splitTokensBy (joinWith [.punct ','] (l.map TField.toks) ++ optComma c) ",").map TupleItem.parse) = some xs ∧ TFieldsAre 0 l (setPos 0 xs) ∧
      (sortPos (setPos 0 xs)).map TupleItem.toks = (l.map TField.canon).map TField.toks := by
  rw [split_map_comma TField.toks l hne (fun f hf => tfield_nest (h f hf)) c, List.map_map]
  obtain ⟨xs, h1, h2⟩ := collectO_allTwo (fun f : TField => TupleItem.parse f.toks)
    (fun f x => (AttrsAre f.attrs x.attrs ∧ x.vis = f.vis ∧ x.ty.toks = f.ty) ∧ x.toks = f.canon.toks) l (by
      intro f hf
      obtain ⟨x, a, b, c, d, e⟩ := tfield_parse (h f hf)
      exact ⟨x, a, ⟨b, c, d⟩, e⟩)
  obtain ⟨h3, h4⟩ := allTwo_map (R := fun (f : TField) (x : TupleItem) => AttrsAre f.attrs x.attrs ∧ x.vis = f.vis ∧ x.ty.toks = f.ty)
    (fun f : TField => f.canon.toks) TupleItem.toks l xs h2
  exact ⟨xs, h1, setPos_are l xs 0 h3, by rw [sortPos_setPos, setPos_toks, h4, List.map_map]; rfl⟩

/-- A body is read as what it is and written back in canonical form. -/
theorem shape_parse {s : Shape} (h : s.Ok) (hu : s ≠ .unit) (rest : List Tok) : ∃ x, RFields.parse (s.toks ++ rest) = some x ∧ ShapeIs s x ∧ x.toks = s.canon.toks := by
  cases s with
  | unit => exact absurd rfl hu
  | tuple l c =>
    obtain ⟨xs, h1, h2, h3⟩ := tfields_parse h.1 h.2 c
    refine ⟨.tuple (setPos 0 xs), ?_, ⟨_, rfl, h2⟩, ?_⟩
    · unfold RFields.parse Shape.toks
      rw [List.cons_append, List.dropWhile_cons_of_neg (by simp [Tok.isGroup])]
      dsimp only
      rw [h1]; rfl
    · rw [RFields.toks, Shape.canon, Shape.toks, h3, joinToks_eq]
      simp [optComma]
  | named l c =>
    obtain ⟨xs, h1, h2, h3⟩ := nfields_parse h.1 h.2 c
    refine ⟨.named xs, ?_, ⟨_, rfl, h2⟩, ?_⟩
    · unfold RFields.parse Shape.toks
      rw [List.cons_append, List.dropWhile_cons_of_neg (by simp [Tok.isGroup])]
      dsimp only
      rw [h1]; rfl
    · rw [RFields.toks, Shape.canon, Shape.toks, h3, joinWith_commaEach]
      simpa using h.1

/-! ### The common part -/

theorem generics_items {ps : List Param} (hne : ps ≠ []) (h : ∀ p ∈ ps, p.Ok) (b : Bool) (rest : List Tok) :
    ∃ g, Generics.parse (.punct '<' :: (joinWith [.punct ','] (ps.map Param.toks) ++ optComma b ++ [.punct '>']) ++ rest) = some g ∧
      g.n = (joinWith [.punct ','] (ps.map Param.toks) ++ optComma b).length ∧
      g.items.map GenericItem.ident = ps.map Param.name ∧ g.items.map GenericItem.toks = ps.map Param.toks := by
  obtain ⟨g, h1, h2, _⟩ := generics_parse hne h b rest
  obtain ⟨items, h3, h4, h5⟩ := params_parse hne h b
  have hn : Nest (fun _ => True) (joinWith [.punct ','] (ps.map Param.toks) ++ optComma b) := by
    refine nest_append (nest_join _ (nest_punct _ _ trivial (by decide) .nil) _ ?_) ?_
    · intro q hq
      obtain ⟨p, hp, rfl⟩ := List.mem_map.mp hq
      exact nest_mono (fun _ _ => trivial) (param_nest (h p hp)).1
    · cases b with
      | true => exact nest_punct _ _ trivial (by decide) .nil
      | false => exact .nil
  obtain ⟨q, hq, hl⟩ := loop_nest hn (.punct '<') 1 [] (.punct '>' :: rest) (by omega) rfl
  have : Generics.parse (.punct '<' :: (joinWith [.punct ','] (ps.map Param.toks) ++ optComma b ++ [.punct '>']) ++ rest) =
      some ⟨items, (joinWith [.punct ','] (ps.map Param.toks) ++ optComma b).length⟩ := by
    rw [List.cons_append, List.append_assoc, List.singleton_append, Generics.parse, hl, genericsLoop]
    simp only [hq, Bool.false_and, Bool.false_eq_true, if_false]
    simp only [Tok.isPunct, Char.reduceEq, decide_false, Bool.false_eq_true, if_false, decide_true, if_true]
    rw [if_pos (by omega)]
    simp only [List.append_nil, List.reverse_reverse, h3, Option.map_some]
  exact ⟨_, this, rfl, h5, h4⟩

/-- Written back: the parameters. -/
theorem paramsAre_toks {ps : List Param} {g : Option Generics} (h : ParamsAre ps g) :
    optToks Generics.toks g = if ps.isEmpty then [] else .punct '<' :: (joinWith [.punct ','] (ps.map Param.toks) ++ [.punct '>']) := by
  rcases h with ⟨rfl, rfl⟩ | ⟨hne, x, rfl, h1, h2⟩
  · rfl
  · have hie : x.items.isEmpty = false := by
      cases hx : x.items with
      | nil => rw [hx] at h2; simp at h2; exact absurd h2 hne
      | cons _ _ => rfl
    rw [if_neg (by simpa using hne), optToks, Generics.toks, hie, h2, joinToks_eq]; simp

/-- Written back: the where clauses. -/
theorem whereAre_toks {ps : List Param} {g : Option Generics} (h : ParamsAre ps g) :
    optToks WhereClause.toks g = if ps.isEmpty then [] else .ident "where".toList :: joinWith [.punct ','] (ps.map Param.toks) := by
  rcases h with ⟨rfl, rfl⟩ | ⟨hne, x, rfl, h1, h2⟩
  · rfl
  · have hie : x.items.isEmpty = false := by
      cases hx : x.items with
      | nil => rw [hx] at h2; simp at h2; exact absurd h2 hne
      | cons _ _ => rfl
    rw [if_neg (by simpa using hne), optToks, WhereClause.toks, hie, h2, joinToks_eq]; simp

/-- The generic parameters, if there are any. -/
theorem takeGenerics_params {h : Head} (hp : ∀ p ∈ h.params, p.Ok) (rest : List Tok) (hr : rest.head? ≠ some (.punct '<')) :
    ∃ g, takeGenerics (h.paramPart ++ rest) = some (g, rest) ∧ ParamsAre h.params g := by
  unfold takeGenerics Head.paramPart
  by_cases he : h.params = []
  · refine ⟨none, ?_, .inl ⟨he, rfl⟩⟩
    rw [if_pos (by simp [he] : h.params.isEmpty = true), List.nil_append, if_neg]
    rw [any_isPunct]; exact hr
  · obtain ⟨g, h1, h2, h3, h4⟩ := generics_items he hp h.commaP rest
    refine ⟨some g, ?_, .inr ⟨he, g, rfl, h3, h4⟩⟩
    rw [if_neg (by simpa using he : ¬ h.params.isEmpty = true), if_pos (by simp [Tok.isPunct]), h1]
    simp only [Option.map_some]
    have hd : ∀ (a r : List Tok), ((Tok.punct '<' :: (a ++ [.punct '>'])) ++ r).drop (a.length + 2) = r := by
      intro a r
      apply List.drop_left'
      simp
    rw [h2, hd]

/-- What ends a where clause. -/
def EndsWhere (rest : List Tok) : Prop := ∃ t r, rest = t :: r ∧ (t.isPunct ';' || t.isGroup .brace) = true

theorem where_items {ps : List Param} (hne : ps ≠ []) (h : ∀ p ∈ ps, p.Ok) (b : Bool)
    (hb : ∀ t ∈ joinWith [.punct ','] (ps.map Param.toks), t ≠ .punct ';' ∧ ∀ g, t ≠ .group .brace g) {rest : List Tok} (hr : EndsWhere rest) :
    ∃ g, WhereClause.parse (.ident "where".toList :: (joinWith [.punct ','] (ps.map Param.toks) ++ optComma b) ++ rest) = some g ∧
      g.n = (joinWith [.punct ','] (ps.map Param.toks) ++ optComma b).length ∧
      g.items.map GenericItem.ident = ps.map Param.name ∧ g.items.map GenericItem.toks = ps.map Param.toks := by
  obtain ⟨items, h1, h2, h3⟩ := params_parse hne h b
  have hts : ∀ t ∈ joinWith [.punct ','] (ps.map Param.toks) ++ optComma b, (!(t.isPunct ';' || t.isGroup .brace)) = true := by
    intro t ht
    have : t ≠ .punct ';' ∧ ∀ g, t ≠ .group .brace g := by
      rcases List.mem_append.mp ht with ht | ht
      · exact hb t ht
      · cases b <;> simp [optComma] at ht
        subst ht; simp
    cases t with
    | punct c => have := this.1; simp [Tok.isPunct, Tok.isGroup]; rintro rfl; exact this rfl
    | ident s => rfl
    | lit s => rfl
    | group d g => have := this.2 g; simp [Tok.isPunct, Tok.isGroup]; rintro rfl; exact this rfl
  obtain ⟨t, r, rfl, ht⟩ := hr
  refine ⟨⟨items, (joinWith [.punct ','] (ps.map Param.toks) ++ optComma b).length⟩, ?_, rfl, h3, h2⟩
  rw [List.cons_append, WhereClause.parse, List.takeWhile_append_of_pos hts, List.takeWhile_cons_of_neg (by rw [ht]; decide), List.append_nil]
  simp only [h1, Option.map_some]

theorem endsWhere_head {rest : List Tok} (hr : EndsWhere rest) : rest.head? ≠ some (.ident "where".toList) ∧ rest.head? ≠ some (.punct '<') := by
  obtain ⟨t, r, rfl, ht⟩ := hr
  constructor
  · intro h; simp at h; subst h; simp [Tok.isPunct, Tok.isGroup] at ht
  · intro h; simp at h; subst h; simp [Tok.isPunct, Tok.isGroup] at ht

/-- The where clause, if there is one. -/
theorem where_split {h : Head} (ho : h.Ok) (hw : h.where_ ≠ []) {rest : List Tok} (hr : EndsWhere rest) :
    ∃ w r, h.wherePart ++ rest = .ident "where".toList :: r ∧ WhereClause.parse (.ident "where".toList :: r) = some w ∧
      (Tok.ident "where".toList :: r).drop (w.n + 1) = rest ∧ ParamsAre h.where_ (some w) := by
  obtain ⟨_, _, h3, h4⟩ := ho
  obtain ⟨g, g1, g2, g3, g4⟩ := where_items hw h3 h.commaW h4 hr
  refine ⟨g, joinWith [.punct ','] (h.where_.map Param.toks) ++ optComma h.commaW ++ rest, ?_, g1, ?_, .inr ⟨hw, g, rfl, g3, g4⟩⟩
  · unfold Head.wherePart
    rw [if_neg (by simpa using hw)]; rfl
  · rw [g2, List.drop_succ_cons, List.drop_left]

theorem no_where {h : Head} (hw : h.where_ = []) : h.wherePart = [] := by
  unfold Head.wherePart
  rw [if_pos (by simp [hw])]

/-! ### Structs -/

theorem rfields_semi (r : List Tok) : RFields.parse (.punct ';' :: r) = some .no := by
  unfold RFields.parse
  rw [List.dropWhile_cons_of_neg (by simp [Tok.isPunct])]

theorem isIdent_where_group (d : Delim) (g : List Tok) : (Tok.group d g).isIdent "where" = false := rfl

/-- A unit struct. -/
theorem tail_unit {h : Head} (ho : h.Ok) : ∃ w, rstructTail (h.wherePart ++ [.punct ';']) = some (w, .no) ∧ ParamsAre h.where_ w := by
  by_cases hw : h.where_ = []
  · refine ⟨none, ?_, .inl ⟨hw, rfl⟩⟩
    rw [no_where hw, List.nil_append, rstructTail, if_neg (by decide), if_pos (by decide)]
  · obtain ⟨w, r, h1, h2, h3, h4⟩ := where_split ho hw (rest := [.punct ';']) ⟨_, _, rfl, rfl⟩
    refine ⟨some w, ?_, h4⟩
    rw [h1, rstructTail, if_pos (by simp [Tok.isIdent]), h2]
    dsimp only
    rw [h3, rfields_semi]; rfl

/-- A struct with named fields. -/
theorem tail_named {h : Head} (ho : h.Ok) {l : List NField} {c : Bool} (hl : (Shape.named l c).Ok) : ∃ w x, rstructTail (h.wherePart ++ (Shape.named l c).toks) = some (w, x) ∧
    ParamsAre h.where_ w ∧ ShapeIs (.named l c) x ∧ x.toks = (Shape.named l c).canon.toks := by
  obtain ⟨x, hx, hx1, hx2⟩ := shape_parse hl (by simp) []
  rw [List.append_nil] at hx
  by_cases hw : h.where_ = []
  · refine ⟨none, x, ?_, .inl ⟨hw, rfl⟩, hx1, hx2⟩
    rw [no_where hw, List.nil_append, show (Shape.named l c).toks = [.group .brace (joinWith [.punct ','] (l.map NField.toks) ++ optComma c)] from rfl] at *
    rw [rstructTail, if_neg (by simp [Tok.isIdent]), if_neg (by simp [Tok.isPunct]), if_pos (by simp [Tok.isGroup]), hx]; rfl
  · obtain ⟨w, r, h1, h2, h3, h4⟩ := where_split ho hw (rest := (Shape.named l c).toks) ⟨_, _, rfl, rfl⟩
    refine ⟨some w, x, ?_, h4, hx1, hx2⟩
    rw [h1, rstructTail, if_pos (by simp [Tok.isIdent]), h2]
    dsimp only
    rw [h3, hx]; rfl

/-- A tuple struct. -/
theorem tail_tuple {h : Head} (ho : h.Ok) {l : List TField} {c : Bool} (hl : (Shape.tuple l c).Ok) : ∃ w x,
    rstructTail ((Shape.tuple l c).toks ++ (h.wherePart ++ [.punct ';'])) = some (w, x) ∧
    ParamsAre h.where_ w ∧ ShapeIs (.tuple l c) x ∧ x.toks = (Shape.tuple l c).canon.toks := by
  obtain ⟨x, hx, hx1, hx2⟩ := shape_parse hl (by simp) []
  rw [List.append_nil] at hx
  have ht : ∃ w, tupleTail (h.wherePart ++ [.punct ';']) = some w ∧ ParamsAre h.where_ w := by
    by_cases hw : h.where_ = []
    · refine ⟨none, ?_, .inl ⟨hw, rfl⟩⟩
      rw [no_where hw, List.nil_append, tupleTail, if_neg (by decide), if_pos (by decide)]
    · obtain ⟨w, r, h1, h2, h3, h4⟩ := where_split ho hw (rest := [.punct ';']) ⟨_, _, rfl, rfl⟩
      refine ⟨some w, ?_, h4⟩
      rw [h1, tupleTail, if_pos (by simp [Tok.isIdent]), h2]; rfl
  obtain ⟨w, hw1, hw2⟩ := ht
  refine ⟨w, x, ?_, hw2, hx1, hx2⟩
  rw [show (Shape.tuple l c).toks = [.group .paren (joinWith [.punct ','] (l.map TField.toks) ++ optComma c)] from rfl] at *
  rw [List.singleton_append, rstructTail, if_neg (by simp [Tok.isIdent]), if_neg (by simp [Tok.isPunct]), if_neg (by simp [Tok.isGroup]), if_pos (by simp [Tok.isGroup]), hx]
  dsimp only
  rw [hw1]; rfl

/-- What follows the parameters. -/
def StructDecl.tail (d : StructDecl) : List Tok :=
  match d.shape with
  | .unit => d.wherePart ++ [.punct ';']
  | .tuple l c => (Shape.tuple l c).toks ++ (d.wherePart ++ [.punct ';'])
  | .named l c => d.wherePart ++ (Shape.named l c).toks

theorem structDecl_toks (d : StructDecl) : d.toks = annPart d.attrs ++ (visToks d.vis ++ (.ident "struct".toList :: .ident d.name :: (d.paramPart ++ StructDecl.tail d))) := rfl

theorem tail_any {d : StructDecl} (h : d.Ok) : ∃ w x, rstructTail (StructDecl.tail d) = some (w, x) ∧ ParamsAre d.where_ w ∧ ShapeIs d.shape x ∧ x.toks = d.shape.canon.toks := by
  obtain ⟨ho, hs⟩ := h
  unfold StructDecl.tail
  cases hd : d.shape with
  | unit =>
    obtain ⟨w, h1, h2⟩ := tail_unit ho
    exact ⟨w, .no, h1, h2, rfl, rfl⟩
  | tuple l c =>
    rw [hd] at hs
    exact tail_tuple ho hs
  | named l c =>
    rw [hd] at hs
    exact tail_named ho hs

theorem where_head (h : Head) (r : List Tok) (t : Tok) (hr : ∀ u, r.head? = some u → u ≠ t) (ht : t ≠ .ident "where".toList) : (h.wherePart ++ r).head? ≠ some t := by
  unfold Head.wherePart
  split
  · intro e; exact hr t e rfl
  · intro e
    simp at e
    exact ht e.symm

theorem tail_head (d : StructDecl) : (StructDecl.tail d).head? ≠ some (.punct '<') := by
  unfold StructDecl.tail
  cases d.shape with
  | unit => exact where_head _ _ _ (by simp) (by simp)
  | tuple l c => simp [Shape.toks]
  | named l c => exact where_head _ _ _ (by simp [Shape.toks]) (by simp)

theorem canon_paramPart (h : Head) : h.canon.paramPart = if h.params.isEmpty then [] else .punct '<' :: (joinWith [.punct ','] (h.params.map Param.toks) ++ [.punct '>']) := by
  unfold Head.paramPart Head.canon optComma
  simp

theorem canon_wherePart (h : Head) : h.canon.wherePart = if h.where_.isEmpty then [] else .ident "where".toList :: joinWith [.punct ','] (h.where_.map Param.toks) := by
  unfold Head.wherePart Head.canon optComma
  simp

/-- The keyword of an item, behind its attributes and visibility. -/
theorem keyword_after (l : List Ann) (v : Vis) (r : List Tok) : (annPart l ++ (visToks v ++ r)).dropWhile skipToKeyword = r.dropWhile skipToKeyword := by
  rw [annPart_eq, skip_hash, skip_vis]

/-- A struct declaration is read as what it is and written back in canonical form. -/
theorem structDecl_parse (text : List Tok → Str) {d : StructDecl} (h : d.Ok) :
    ∃ s, AnyItem.parse text d.toks = some (.struct s) ∧ StructIs d s ∧ s.toks = d.canon.toks := by
  obtain ⟨w, x, ht, hw, hs, hx⟩ := tail_any h
  obtain ⟨m, hm1, hm2, hm3⟩ := takeMetas_anns h.1.1 (vis_head d.vis "struct".toList (.ident d.name :: (d.paramPart ++ StructDecl.tail d)))
  obtain ⟨g, hg1, hg2⟩ := takeGenerics_params h.1.2.1 (StructDecl.tail d) (tail_head d)
  have hp : RStruct.parse d.toks = some ⟨m, d.vis, d.name, g, w, x⟩ := by
    rw [structDecl_toks]
    unfold RStruct.parse
    rw [hm1]
    dsimp only
    rw [takeVis_run _ _ _ (by decide)]
    dsimp only
    rw [if_pos (by simp [Tok.isIdent]), hg1]
    dsimp only
    rw [ht]; rfl
  refine ⟨⟨m, d.vis, d.name, g, w, x⟩, ?_, ⟨hm2, rfl, rfl, hg2, hw, hs⟩, ?_⟩
  · unfold AnyItem.parse
    have hk : (d.toks.dropWhile skipToKeyword).head? = some (.ident "struct".toList) := by
      rw [structDecl_toks, keyword_after, List.dropWhile_cons_of_neg (by simp [skipToKeyword])]; rfl
    rw [hk]
    dsimp only
    rw [if_pos (by simp [Tok.isIdent]), hp]; rfl
  · unfold RStruct.toks
    dsimp only
    rw [hm3, visText_eq, paramsAre_toks hg2, whereAre_toks hw]
    rw [structDecl_toks]
    unfold StructDecl.canon StructDecl.tail
    cases hd : d.shape with
    | unit =>
      rw [hd] at hs
      have hs : x = .no := hs
      subst hs
      dsimp only
      have : ({ d.toHead.canon with where_ := [] } : Head).wherePart = [] := no_where rfl
      rw [this]
      have : ({ d.toHead.canon with where_ := [] } : Head).paramPart = d.toHead.canon.paramPart := rfl
      rw [this, canon_paramPart]
      simp [Head.canon]
    | tuple l c =>
      rw [hd] at hs hx
      obtain ⟨xs, rfl, _⟩ := hs
      dsimp only
      rw [show (Shape.tuple l c).canon = Shape.tuple (l.map TField.canon) false from rfl] at *
      rw [hx]
      dsimp only
      rw [canon_paramPart, canon_wherePart]
      simp [Head.canon]
    | named l c =>
      rw [hd] at hs hx
      obtain ⟨xs, rfl, _⟩ := hs
      dsimp only
      rw [show (Shape.named l c).canon = Shape.named (l.map NField.canon) true from rfl] at *
      rw [hx]
      dsimp only
      rw [canon_paramPart, canon_wherePart]
      simp [Head.canon]

/-! ### Enums -/

theorem parseIsize_digits {ds : Str} (hne : ds ≠ []) (hd : Digits ds) (hv : (natOf ds : Int) < 2 ^ 63) : parseIsize ds = some (natOf ds : Int) := by
  obtain ⟨c, r, rfl⟩ := List.exists_cons_of_ne_nil hne
  have hc := hd c (by simp)
  unfold parseIsize
  split
  rename_i neg d hm
  have hm : (neg, d) = (false, c :: r) := by
    rw [← hm]
    split
    · rename_i h; cases h; exact absurd hc (by unfold IsDigit; decide)
    · rename_i h; cases h; exact absurd hc (by unfold IsDigit; decide)
    · rfl
  cases hm
  rw [if_neg (by rw [digits_all hd]; simp), decVal_natOf]
  simp only [Bool.false_eq_true, if_false]
  rw [if_pos]
  constructor <;> omega

theorem parseIsize_neg {ds : Str} (hne : ds ≠ []) (hd : Digits ds) (hv : -2 ^ 63 ≤ -(natOf ds : Int)) : parseIsize ('-' :: ds) = some (-(natOf ds : Int)) := by
  unfold parseIsize
  split
  rename_i neg d hm
  have hm : (neg, d) = (true, ds) := by rw [← hm]; rfl
  cases hm
  have : ¬ (ds.isEmpty || !ds.all isDigit) = true := by
    rw [digits_all hd]; simp [hne]
  rw [if_neg this, decVal_natOf]
  simp only [if_true]
  rw [if_pos]
  constructor <;> omega

/-- The tokens of a discriminant behind the `=`. -/
def discBody (p : Bool × Str) : List Tok := if p.1 then [.punct '-', .lit p.2] else [.lit p.2]

theorem discToks_eq (o : Option (Bool × Str)) : discToks o = match o with | none => [] | some p => .punct '=' :: discBody p := by
  match o with
  | none => rfl
  | some (true, ds) => rfl
  | some (false, ds) => rfl

theorem discBody_nest {ok : Tok → Prop} (h1 : ∀ s, ok (.lit s)) (p : Bool × Str) : Nest ok (discBody p) ∧ discBody p ≠ [] := by
  obtain ⟨b, ds⟩ := p
  cases b
  · exact ⟨.tok _ _ (by simp [Bracketish]) (h1 _) .nil, by simp [discBody]⟩
  · exact ⟨.minus _ _ (by simp) (.tok _ _ (by simp [Bracketish]) (h1 _) .nil), by simp [discBody]⟩

theorem shape_nest {ok : Tok → Prop} (h : ∀ d g, ok (.group d g)) (s : Shape) : Nest ok s.toks := by
  cases s with
  | unit => exact .nil
  | tuple l c => exact nest_group _ _ _ (h _ _) .nil
  | named l c => exact nest_group _ _ _ (h _ _) .nil

/-- A variant without its discriminant. -/
def Variant.front (v : Variant) : List Tok := annPart v.attrs ++ (.ident v.name :: v.shape.toks)

theorem variant_front (v : Variant) : v.toks = Variant.front v ++ discToks v.disc := by
  unfold Variant.toks Variant.front
  simp

theorem front_nest {ok : Tok → Prop} (h1 : ok (.punct '#')) (h2 : ∀ d g, ok (.group d g)) (h3 : ∀ s, ok (.ident s)) (v : Variant) : Nest ok (Variant.front v) :=
  nest_append (fields_ident_nest _ h1 h2 _) (nest_ident _ _ (h3 _) (shape_nest h2 _))

theorem front_ne (v : Variant) : Variant.front v ≠ [] := by simp [Variant.front]

theorem variant_split (v : Variant) : splitTokensBy v.toks "=" = match v.disc with | none => [Variant.front v] | some p => [Variant.front v, discBody p] := by
  rw [variant_front, discToks_eq]
  cases v.disc with
  | none =>
    dsimp only
    rw [List.append_nil]
    exact split_one '=' (by simp [Bracketish]) (front_nest (by simp) (by simp) (by simp) v) "=" rfl
  | some p =>
    dsimp only
    have := split_join '=' (ps := [Variant.front v, discBody p]) (by simp [Bracketish]) (by simp) (by
      intro q hq
      simp at hq
      rcases hq with rfl | rfl
      · exact front_nest (by simp) (by simp) (by simp) v
      · exact (discBody_nest (by simp) p).1) (by
      intro q hq
      simp at hq
      rcases hq with rfl | rfl
      · exact front_ne v
      · exact (discBody_nest (ok := fun _ => True) (by simp) p).2) "=" rfl
    rw [joinWith, joinWith, List.append_assoc, List.singleton_append] at this
    exact this

theorem natDigits_eq (n : Nat) : natDigits n = Nat.toDigits 10 n := rfl

theorem disc_toks {p : Bool × Str} (h : p.2 ≠ [] ∧ Digits p.2) : .punct '=' :: intToks (discVal p) = discToks (some (decide (discVal p < 0), Nat.toDigits 10 (natOf p.2))) := by
  obtain ⟨b, ds⟩ := p
  unfold intToks
  have ha : (discVal (b, ds)).natAbs = natOf ds := by cases b <;> simp [discVal]
  rw [ha, natDigits_eq]
  by_cases hn : discVal (b, ds) < 0
  · rw [if_pos hn, decide_eq_true hn]; rfl
  · rw [if_neg hn, decide_eq_false hn]; rfl

/-- Negative discriminants are only read if the printer writes `-1` without a space. -/
def DiscOk (text : List Tok → Str) (v : Variant) : Prop := ∀ ds, v.disc = some (true, ds) → Tight text

theorem variant_parse {text : List Tok → Str} (hT : Prints text) {v : Variant} (h : v.Ok) (hN : DiscOk text v) :
    ∃ x, EnumValue.parse text v.toks = some x ∧ VariantIs v x ∧ x.toks = v.canon.toks := by
  obtain ⟨h1, h2, h3⟩ := h
  obtain ⟨m, hm1, hm2, hm3⟩ := takeMetas_anns h1 (rest := .ident v.name :: v.shape.toks) (by intro t ht; simp at ht; subst ht; rfl)
  have hd : enumDisc text (splitTokensBy v.toks "=") = some (v.disc.map discVal) := by
    rw [variant_split]
    cases hv : v.disc with
    | none => rfl
    | some p =>
      obtain ⟨b, ds⟩ := p
      obtain ⟨a1, a2, a3, a4⟩ := h3 _ hv
      cases b with
      | false =>
        have : parseIsize (text [.lit ds]) = some (natOf ds : Int) := by
          rw [hT.lit]; exact parseIsize_digits a1 a2 (by simpa [discVal] using a4)
        simp only [enumDisc, discBody, Bool.false_eq_true, if_false, this, Option.map_some, discVal]
      | true =>
        have : parseIsize (text [.punct '-', .lit ds]) = some (-(natOf ds : Int)) := by
          rw [hN ds hv]; exact parseIsize_neg a1 a2 (by simpa [discVal] using a3)
        simp only [enumDisc, discBody, if_true, this, Option.map_some, discVal]
  have hf : ∃ x, (if v.shape.toks.isEmpty then some ⟨m, v.name, .no, v.disc.map discVal⟩ else (RFields.parse v.shape.toks).map (fun f => (⟨m, v.name, f, v.disc.map discVal⟩ : EnumValue)))
      = some ⟨m, v.name, x, v.disc.map discVal⟩ ∧ ShapeIs v.shape x ∧ x.toks = v.shape.canon.toks := by
    by_cases hu : v.shape = .unit
    · rw [hu]
      exact ⟨.no, rfl, rfl, rfl⟩
    · obtain ⟨x, hx1, hx2, hx3⟩ := shape_parse h2 hu []
      rw [List.append_nil] at hx1
      refine ⟨x, ?_, hx2, hx3⟩
      rw [if_neg, hx1]
      · rfl
      · cases hs : v.shape with
        | unit => exact absurd hs hu
        | tuple l c => simp [Shape.toks]
        | named l c => simp [Shape.toks]
  obtain ⟨x, hx1, hx2, hx3⟩ := hf
  refine ⟨⟨m, v.name, x, v.disc.map discVal⟩, ?_, ⟨hm2, rfl, hx2, rfl⟩, ?_⟩
  · unfold EnumValue.parse
    rw [if_neg (by simp [Variant.toks]), hd]
    dsimp only
    have hs : ∃ l, splitTokensBy v.toks "=" = Variant.front v :: l := by
      rw [variant_split]
      cases v.disc <;> exact ⟨_, rfl⟩
    obtain ⟨l, hl⟩ := hs
    rw [hl]
    dsimp only
    unfold Variant.front
    rw [hm1]
    dsimp only
    exact hx1
  · unfold EnumValue.toks Variant.toks Variant.canon
    dsimp only
    rw [hm3, hx3]
    cases hv : v.disc with
    | none => simp [discToks]
    | some p =>
      obtain ⟨a1, a2, a3, a4⟩ := h3 _ hv
      simp only [Option.map_some]
      rw [disc_toks ⟨a1, a2⟩]
      simp

theorem variant_nest (v : Variant) : Nest (fun t => t ≠ .punct ',') v.toks ∧ v.toks ≠ [] := by
  refine ⟨?_, by simp [Variant.toks]⟩
  rw [variant_front, discToks_eq]
  refine nest_append (front_nest (by simp) (by simp) (by simp) v) ?_
  cases v.disc with
  | none => exact .nil
  | some p => exact nest_punct _ _ (by simp) (by decide) (discBody_nest (by simp) p).1

/-- The variants between the braces. -/
theorem values_parse {text : List Tok → Str} (hT : Prints text) {vs : List Variant} (hne : vs ≠ []) (h : ∀ v ∈ vs, v.Ok) (hN : ∀ v ∈ vs, DiscOk text v) (c : Bool) :
    ∃ xs, parseEnumValues text [.group .brace (joinWith [.punct ','] (vs.map Variant.toks) ++ optComma c)] = some xs ∧ AllTwo VariantIs vs xs ∧
      xs.map EnumValue.toks = (vs.map Variant.canon).map Variant.toks := by
  unfold parseEnumValues
  dsimp only
  rw [split_map_comma Variant.toks vs hne (fun v _ => variant_nest v) c, List.map_map]
  obtain ⟨xs, h1, h2⟩ := collectO_allTwo (fun v : Variant => EnumValue.parse text v.toks) (fun v x => VariantIs v x ∧ x.toks = v.canon.toks) vs
    (fun v hv => variant_parse hT (h v hv) (hN v hv))
  obtain ⟨h3, h4⟩ := allTwo_map (fun v : Variant => v.canon.toks) EnumValue.toks vs xs h2
  exact ⟨xs, h1, h3, by rw [h4, List.map_map]; rfl⟩

/-- An enum declaration is read as what it is and written back in canonical form. -/
theorem enumDecl_parse {text : List Tok → Str} (hT : Prints text) {d : EnumDecl} (h : d.Ok) (hN : ∀ v ∈ d.variants, DiscOk text v) :
    ∃ e, AnyItem.parse text d.toks = some (.enum e) ∧ EnumIs d e ∧ e.toks = d.canon.toks := by
  obtain ⟨ho, hne, hv⟩ := h
  obtain ⟨xs, hx1, hx2, hx3⟩ := values_parse hT hne hv hN d.comma
  have htail : ∃ w, enumTail text (d.wherePart ++ [.group .brace (joinWith [.punct ','] (d.variants.map Variant.toks) ++ optComma d.comma)]) = some (w, xs) ∧ ParamsAre d.where_ w := by
    by_cases hw : d.where_ = []
    · refine ⟨none, ?_, .inl ⟨hw, rfl⟩⟩
      rw [no_where hw, List.nil_append, enumTail, if_neg (by simp [Tok.isIdent]), if_pos (by simp [Tok.isGroup]), hx1]; rfl
    · obtain ⟨w, r, h1, h2, h3, h4⟩ := where_split ho hw (rest := [.group .brace (joinWith [.punct ','] (d.variants.map Variant.toks) ++ optComma d.comma)]) ⟨_, _, rfl, rfl⟩
      refine ⟨some w, ?_, h4⟩
      rw [h1, enumTail, if_pos (by simp [Tok.isIdent]), h2]
      dsimp only
      rw [h3, hx1]; rfl
  obtain ⟨w, ht, hw⟩ := htail
  obtain ⟨m, hm1, hm2, hm3⟩ := takeMetas_anns ho.1 (vis_head d.vis "enum".toList (.ident d.name :: (d.paramPart ++ (d.wherePart ++
    [.group .brace (joinWith [.punct ','] (d.variants.map Variant.toks) ++ optComma d.comma)]))))
  obtain ⟨g, hg1, hg2⟩ := takeGenerics_params ho.2.1 (d.wherePart ++ [.group .brace (joinWith [.punct ','] (d.variants.map Variant.toks) ++ optComma d.comma)])
    (where_head _ _ _ (by simp) (by simp))
  have hp : REnum.parse text d.toks = some ⟨m, d.vis, d.name, g, w, xs⟩ := by
    unfold REnum.parse EnumDecl.toks
    rw [hm1]
    dsimp only
    rw [takeVis_run _ _ _ (by decide)]
    dsimp only
    rw [if_pos (by simp [Tok.isIdent]), hg1]
    dsimp only
    rw [ht]; rfl
  refine ⟨⟨m, d.vis, d.name, g, w, xs⟩, ?_, ⟨hm2, rfl, rfl, hg2, hw, hx2⟩, ?_⟩
  · unfold AnyItem.parse
    have hk : (d.toks.dropWhile skipToKeyword).head? = some (.ident "enum".toList) := by
      unfold EnumDecl.toks
      rw [keyword_after, List.dropWhile_cons_of_neg (by simp [skipToKeyword])]; rfl
    rw [hk]
    dsimp only
    rw [if_neg (by simp [Tok.isIdent]), if_pos (by simp [Tok.isIdent]), hp]; rfl
  · unfold REnum.toks EnumDecl.toks EnumDecl.canon enumValuesToks
    dsimp only
    rw [hm3, visText_eq, paramsAre_toks hg2, whereAre_toks hw, hx3, joinWith_commaEach _ (by simpa using hne), canon_paramPart, canon_wherePart]
    simp [Head.canon]

end RJ
