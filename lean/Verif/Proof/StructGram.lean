import Verif.Proof.AttrGram
/-
  Generic parameters, fields and structs of the grammar: accepted, and read as what they are.
-/
namespace RJ
open Spec

/-! ### Generic parameters -/

theorem lifeToks_parse (a : Str) : RName.parse (lifeToks a) = some (.mk [] (lifeToks a) []) := by
  unfold RName.parse lifeToks
  rw [nameParse_single _ (nest_punct _ _ (by simp) (by decide) (nest_ident _ _ (by simp) .nil)) (by simp)]
  rfl

/-- Not `Sized`, `?Sized` or a lifetime. -/
def TraitBound (t : List Tok) : Prop := TyG .path t ∧
  ¬ (t.head? = some (.ident "Sized".toList) ∧ t.getLast? = some (.ident "Sized".toList)) ∧ t.head? ≠ some (.punct '?') ∧ t.head? ≠ some (.punct '\'')

theorem isIdent_iff (s : String) (t : Tok) : t.isIdent s = true ↔ t = .ident s.toList := by
  cases t <;> simp [Tok.isIdent]

theorem isPunct_iff (c : Char) (t : Tok) : t.isPunct c = true ↔ t = .punct c := by
  cases t <;> simp [Tok.isPunct]

theorem any_isIdent (s : String) (o : Option Tok) : o.any (Tok.isIdent s) = true ↔ o = some (.ident s.toList) := by
  cases o with
  | none => simp
  | some t => simp [isIdent_iff]

theorem any_isPunct (c : Char) (o : Option Tok) : o.any (Tok.isPunct c) = true ↔ o = some (.punct c) := by
  cases o with
  | none => simp
  | some t => simp [isPunct_iff]

theorem addBound_trait (it : GenericItem) {t : List Tok} (h : TraitBound t) : ∃ n, addBound it t = some { it with traits := it.traits ++ [n] } ∧ n.toks = t := by
  obtain ⟨h1, h2, h3, h4⟩ := h
  obtain ⟨n, hn, ht, hl⟩ := name_parse h1
  refine ⟨n, ?_, ht⟩
  unfold addBound
  rw [if_neg, if_neg, hn]
  · dsimp only
    rw [hl h4]; rfl
  · simp only [Bool.and_eq_true, any_isIdent]; exact h2
  · simp only [Bool.and_eq_true, any_isPunct]; exact fun h => h3 h.1

theorem addBound_life (it : GenericItem) (a : Str) :
    addBound it (lifeToks a) = some { it with lifetimes := it.lifetimes ++ [.mk [] (lifeToks a) []] } := by
  unfold addBound
  rw [if_neg (by simp [lifeToks, Tok.isPunct]), if_neg (by simp [lifeToks, Tok.isIdent]), lifeToks_parse]
  rfl

theorem addBounds_traits (more : List (List Tok)) : ∀ (ts : List (List Tok)) (it : GenericItem), (∀ t ∈ ts, TraitBound t) →
    ∃ ns, addBounds it (ts ++ more) = addBounds { it with traits := it.traits ++ ns } more ∧ ns.map RName.toks = ts
  | [], it, _ => ⟨[], by simp, rfl⟩
  | t :: ts, it, h => by
    obtain ⟨n, h1, h2⟩ := addBound_trait it (h t (by simp))
    obtain ⟨ns, h3, h4⟩ := addBounds_traits more ts { it with traits := it.traits ++ [n] } (fun x hx => h x (by simp [hx]))
    refine ⟨n :: ns, ?_, by simp [h2, h4]⟩
    rw [List.cons_append, addBounds, h1, Option.bind_some, h3]
    simp

theorem addBounds_lifes (more : List (List Tok)) : ∀ (ls : List Str) (it : GenericItem),
    addBounds it (ls.map lifeToks ++ more) = addBounds { it with lifetimes := it.lifetimes ++ ls.map (fun a => .mk [] (lifeToks a) []) } more
  | [], it => by simp
  | a :: ls, it => by
    rw [List.map_cons, List.cons_append, addBounds, addBound_life, Option.bind_some, addBounds_lifes more ls]
    simp

theorem lifes_toks (ls : List Str) : (ls.map (fun a => RName.mk [] (lifeToks a) [])).map RName.toks = ls.map lifeToks := by
  rw [List.map_map]
  apply List.map_congr_left
  intro a _
  exact name_toks_path [] (lifeToks a) []

/-- Not a comma, `=` or `+`: the bounds. -/
theorem bounds_nest {p : Param} (h : p.Ok) : ∀ b ∈ p.bounds, Nest NoSep3 b ∧ b ≠ [] := by
  intro b hb
  have hl : ∀ a, Nest NoSep3 (lifeToks a) ∧ lifeToks a ≠ [] := fun a =>
    ⟨nest_punct _ _ (by simp [NoSep3]) (by decide) (nest_ident _ _ (by simp [NoSep3]) .nil), by simp [lifeToks]⟩
  cases p with
  | life a bs =>
    simp [Param.bounds] at hb
    obtain ⟨c, _, rfl⟩ := hb
    exact hl c
  | type n ts ls r =>
    simp only [Param.bounds, List.mem_append] at hb
    rcases hb with (hb | hb) | hb
    · exact ⟨tyG_nest (h b hb).1, tyG_ne_nil (h b hb).1⟩
    · simp at hb
      obtain ⟨c, _, rfl⟩ := hb
      exact hl c
    · cases r with
      | true =>
        simp at hb
        subst hb
        exact ⟨nest_punct _ _ (by simp [NoSep3]) (by decide) (nest_ident _ _ (by simp [NoSep3]) .nil), by simp⟩
      | false => simp at hb

theorem name_nest (p : Param) : Nest NoSep3 p.name ∧ p.name ≠ [] ∧ ∀ t ∈ p.name, t.isPunct ':' = false := by
  cases p with
  | life a bs =>
    exact ⟨nest_punct _ _ (by simp [NoSep3]) (by decide) (nest_ident _ _ (by simp [NoSep3]) .nil), by simp [Param.name, lifeToks],
      by intro t ht; simp [Param.name, lifeToks] at ht; rcases ht with rfl | rfl <;> rfl⟩
  | type n ts ls r =>
    exact ⟨nest_ident _ _ (by simp [NoSep3]) .nil, by simp [Param.name], by intro t ht; simp [Param.name] at ht; subst ht; rfl⟩

theorem param_nest {p : Param} (h : p.Ok) : Nest NoSep2 p.toks ∧ p.toks ≠ [] := by
  have h32 : ∀ t, NoSep3 t → NoSep2 t := fun t h => ⟨h.1, h.2.1⟩
  refine ⟨?_, ?_⟩
  · unfold Param.toks
    refine nest_append (nest_mono h32 (name_nest p).1) ?_
    split
    · exact .nil
    · exact nest_punct _ _ (by simp [NoSep2]) (by decide) (nest_join _ (nest_punct _ _ (by simp [NoSep2]) (by decide) .nil) _
        (fun b hb => nest_mono h32 (bounds_nest h b hb).1))
  · unfold Param.toks
    have := (name_nest p).2.1
    simp [this]

theorem splitColon_run : ∀ (a acc rest : List Tok), (∀ t ∈ a, t.isPunct ':' = false) → splitColon acc (a ++ rest) = splitColon (a.reverse ++ acc) rest
  | [], _, _, _ => rfl
  | t :: a, acc, rest, h => by
    rw [List.cons_append, splitColon, if_neg (by simp [h t]), splitColon_run a _ rest (fun x hx => h x (by simp [hx]))]
    simp

theorem genericIdent_name (p : Param) : genericIdent p.name = some p.name := by
  cases p with
  | life a bs => simp [Param.name, lifeToks, genericIdent, Tok.isPunct]
  | type n ts ls r => simp [Param.name, genericIdent]

/-- A generic parameter of the grammar is accepted, and written back as it was. -/
theorem param_parse {p : Param} (h : p.Ok) : ∃ it, GenericItem.parse p.toks = some it ∧ it.toks = p.toks ∧ it.ident = p.name := by
  have hb : ∃ it, addBounds ⟨p.name, [], [], true, none⟩ p.bounds = some it ∧ it.ident = p.name ∧ it.default = none ∧
      (it.traits ++ it.lifetimes).map RName.toks ++ (if it.sized then [] else [[.punct '?', .ident "Sized".toList]]) = p.bounds := by
    cases p with
    | life a bs =>
      have := addBounds_lifes [] bs ⟨(Param.life a bs).name, [], [], true, none⟩
      rw [List.append_nil] at this
      refine ⟨_, this, rfl, rfl, ?_⟩
      simp only [List.nil_append, if_true, List.append_nil]
      exact lifes_toks bs
    | type n ts ls r =>
      have h1 : ∃ ns, addBounds ⟨(Param.type n ts ls r).name, [], [], true, none⟩
          (ts ++ (ls.map lifeToks ++ if r then [[.punct '?', .ident "Sized".toList]] else []))
          = addBounds ⟨(Param.type n ts ls r).name, ns, [], true, none⟩ (ls.map lifeToks ++ if r then [[.punct '?', .ident "Sized".toList]] else [])
            ∧ ns.map RName.toks = ts := by
        obtain ⟨ns, h1, h2⟩ := addBounds_traits (ls.map lifeToks ++ if r then [[.punct '?', .ident "Sized".toList]] else []) ts ⟨(Param.type n ts ls r).name, [], [], true, none⟩ h
        exact ⟨ns, h1, h2⟩
      obtain ⟨ns, h1, h2⟩ := h1
      rw [addBounds_lifes] at h1
      cases r with
      | true =>
        have h3 : ∀ it : GenericItem, addBounds it [[.punct '?', .ident "Sized".toList]] = some { it with sized := false } := by
          intro it
          rw [addBounds, addBound, if_pos (by simp [Tok.isPunct, Tok.isIdent])]; rfl
        simp only [if_true] at h1
        rw [h3] at h1
        refine ⟨_, by simpa [Param.bounds] using h1, rfl, rfl, ?_⟩
        simp only [List.map_append, h2, lifes_toks, Param.bounds, if_true, Bool.false_eq_true, if_false]
      | false =>
        simp only [Bool.false_eq_true, if_false] at h1
        rw [addBounds] at h1
        refine ⟨_, by simpa [Param.bounds] using h1, rfl, rfl, ?_⟩
        simp only [List.map_append, h2, lifes_toks, Param.bounds, if_true, Bool.false_eq_true, if_false, List.append_nil]
  obtain ⟨it, h1, h2, h3, h4⟩ := hb
  have hn := param_nest h
  refine ⟨it, ?_, ?_, h2⟩
  · unfold GenericItem.parse
    rw [if_neg (by simpa using hn.2), split_one '=' (by simp [Bracketish]) (nest_mono (fun t h => h.2) hn.1) "=" rfl]
    dsimp only
    unfold genericOf Param.toks
    rw [splitColon_run p.name [] _ (name_nest p).2.2]
    by_cases he : p.bounds.isEmpty
    · rw [if_pos he, splitColon]
      simp only [List.append_nil, List.reverse_reverse]
      rw [genericIdent_name]
      dsimp only
      have : p.bounds = [] := by simpa using he
      rw [this, addBounds] at h1
      exact h1
    · rw [if_neg he, splitColon, if_pos (by rfl)]
      simp only [List.append_nil, List.reverse_reverse]
      rw [genericIdent_name]
      dsimp only
      rw [split_join '+' (by simp [Bracketish]) (by simpa using he) (fun b hb => nest_mono (fun t h => h.2.2) (bounds_nest h b hb).1)
        (fun b hb => (bounds_nest h b hb).2) "+" rfl]
      exact h1
  · unfold GenericItem.toks Param.toks
    dsimp only
    rw [h2, h3, h4, joinToks_eq]
    simp

/-- Items between commas, with or without a comma at the end. -/
theorem split_comma_list {ps : List (List Tok)} (hne : ps ≠ []) (h : ∀ p ∈ ps, Nest (fun t => t ≠ .punct ',') p ∧ p ≠ []) (b : Bool) :
    splitTokensBy (joinWith [.punct ','] ps ++ optComma b) "," = ps := by
  cases b with
  | true =>
    unfold splitTokensBy optComma
    exact split_pieces_trailing ',' [] (by simp [Bracketish]) ps hne (fun p hp => (h p hp).1)
  | false =>
    unfold optComma
    simp only [Bool.false_eq_true, if_false, List.append_nil]
    exact split_join ',' (by simp [Bracketish]) hne (fun p hp => (h p hp).1) (fun p hp => (h p hp).2) "," rfl

/-- A list of generic parameters. -/
theorem params_parse {ps : List Param} (hne : ps ≠ []) (h : ∀ p ∈ ps, p.Ok) (b : Bool) :
    ∃ items, genericItems (joinWith [.punct ','] (ps.map Param.toks) ++ optComma b) = some items ∧ items.map GenericItem.toks = ps.map Param.toks ∧
      items.map GenericItem.ident = ps.map Param.name := by
  unfold genericItems
  have hn : ∀ q ∈ ps.map Param.toks, Nest (fun t => t ≠ .punct ',') q ∧ q ≠ [] := by
    intro q hq
    obtain ⟨p, hp, rfl⟩ := List.mem_map.mp hq
    have := param_nest (h p hp)
    exact ⟨nest_mono (fun t h => h.1) this.1, this.2⟩
  rw [split_comma_list (by simpa using hne) hn b]
  have hf : (ps.map Param.toks).filter (fun x => !x.isEmpty) = ps.map Param.toks := by
    rw [List.filter_eq_self]
    intro q hq
    have := (hn q hq).2
    simpa using this
  rw [hf]
  obtain ⟨items, h1, h2⟩ := collectO_map (fun p : Param => GenericItem.parse p.toks) (fun it => (it.toks, it.ident)) (fun p => (p.toks, p.name)) ps (by
    intro p hp
    obtain ⟨it, h1, h2, h3⟩ := param_parse (h p hp)
    exact ⟨it, h1, by rw [h2, h3]⟩)
  refine ⟨items, ?_, ?_, ?_⟩
  · rw [List.map_map]; exact h1
  · have := congrArg (List.map Prod.fst) h2
    simpa [List.map_map, Function.comp_def] using this
  · have := congrArg (List.map Prod.snd) h2
    simpa [List.map_map, Function.comp_def] using this

/-! ### The parameter list -/

theorem loop_step (prev t : Tok) (i : Int) (acc ts : List Tok) (hi : 1 ≤ i) (ht : ¬ t.isPunct '<' = true) (ht' : ¬ t.isPunct '>' = true) :
    genericsLoop prev i acc (t :: ts) = genericsLoop t i (t :: acc) ts := by
  rw [genericsLoop]
  have : (if prev.isPunct '-' && t.isPunct '>' then i else if t.isPunct '<' then i + 1 else if t.isPunct '>' then i - 1 else i) = i := by
    simp [ht, ht']
  rw [this, if_neg (by omega)]

/-- Nested tokens are collected. -/
theorem loop_nest {ok : Tok → Prop} {a : List Tok} (h : Nest ok a) : ∀ (prev : Tok) (i : Int) (acc rest : List Tok), 1 ≤ i → prev.isPunct '-' = false →
    ∃ p, p.isPunct '-' = false ∧ genericsLoop prev i acc (a ++ rest) = genericsLoop p i (a.reverse ++ acc) rest := by
  induction h with
  | nil => intro prev i acc rest _ hp; exact ⟨prev, hp, rfl⟩
  | tok t ts hb _ _ ih =>
    intro prev i acc rest hi hp
    have h1 : ¬ t.isPunct '<' = true := by rw [isPunct_iff]; rintro rfl; exact hb (by simp [Bracketish])
    have h2 : ¬ t.isPunct '>' = true := by rw [isPunct_iff]; rintro rfl; exact hb (by simp [Bracketish])
    have h3 : t.isPunct '-' = false := isPunct_false (by rintro rfl; exact hb (by simp [Bracketish]))
    obtain ⟨p, hp1, hp2⟩ := ih t i (t :: acc) rest hi h3
    exact ⟨p, hp1, by rw [List.cons_append, loop_step prev t i acc _ hi h1 h2, hp2]; simp⟩
  | arrow ts _ ih =>
    intro prev i acc rest hi hp
    obtain ⟨p, hp1, hp2⟩ := ih (.punct '>') i (.punct '>' :: .punct '-' :: acc) rest hi rfl
    refine ⟨p, hp1, ?_⟩
    rw [List.cons_append, List.cons_append, loop_step prev _ i acc _ hi (by decide) (by decide), genericsLoop]
    simp only [Tok.isPunct, decide_true, Bool.and_self, if_true]
    rw [if_neg (by omega), hp2]; simp
  | minus t ts ht _ ih =>
    intro prev i acc rest hi hp
    have h1 : ¬ t.isPunct '>' = true := by rw [isPunct_iff]; exact ht _
    obtain ⟨p, hp1, hp2⟩ := ih prev i (.punct '-' :: acc) rest hi hp
    refine ⟨p, hp1, ?_⟩
    rw [List.cons_append, loop_step prev _ i acc _ hi (by decide) (by decide)]
    have : genericsLoop (.punct '-') i (.punct '-' :: acc) (t :: ts ++ rest) = genericsLoop prev i (.punct '-' :: acc) (t :: ts ++ rest) := by
      rw [List.cons_append, genericsLoop, genericsLoop]
      simp [h1]
    rw [this, hp2]; simp
  | angle a ts _ _ iha ih =>
    intro prev i acc rest hi hp
    obtain ⟨p, hp1, hp2⟩ := iha (.punct '<') (i + 1) (.punct '<' :: acc) (.punct '>' :: (ts ++ rest)) (by omega) rfl
    obtain ⟨q, hq1, hq2⟩ := ih (.punct '>') i (.punct '>' :: (a.reverse ++ .punct '<' :: acc)) rest hi rfl
    refine ⟨q, hq1, ?_⟩
    rw [List.cons_append, List.append_assoc, List.cons_append, genericsLoop]
    simp only [Tok.isPunct, Char.reduceEq, decide_false, Bool.and_false, Bool.false_eq_true, if_false, decide_true, if_true]
    rw [if_neg (by omega), hp2, genericsLoop]
    simp only [hp1, Bool.false_and, Bool.false_eq_true, if_false]
    simp only [Tok.isPunct, Char.reduceEq, decide_false, Bool.false_eq_true, if_false, decide_true, if_true]
    rw [show i + 1 - 1 = i by omega, if_neg (by omega), hq2]
    simp

theorem generics_parse {ps : List Param} (hne : ps ≠ []) (h : ∀ p ∈ ps, p.Ok) (b : Bool) (rest : List Tok) :
    ∃ g, Generics.parse (.punct '<' :: (joinWith [.punct ','] (ps.map Param.toks) ++ optComma b ++ [.punct '>']) ++ rest) = some g ∧
      g.n = (joinWith [.punct ','] (ps.map Param.toks) ++ optComma b).length ∧
      g.toks = .punct '<' :: (joinWith [.punct ','] (ps.map Param.toks) ++ [.punct '>']) ∧
      g.onlyIdents = .punct '<' :: (joinWith [.punct ','] (ps.map Param.name) ++ [.punct '>']) := by
  have hn : Nest (fun _ => True) (joinWith [.punct ','] (ps.map Param.toks) ++ optComma b) := by
    refine nest_append (nest_join _ (nest_punct _ _ trivial (by decide) .nil) _ ?_) ?_
    · intro q hq
      obtain ⟨p, hp, rfl⟩ := List.mem_map.mp hq
      exact nest_mono (fun _ _ => trivial) (param_nest (h p hp)).1
    · cases b with
      | true => exact nest_punct _ _ trivial (by decide) .nil
      | false => exact .nil
  obtain ⟨items, h1, h2, h3⟩ := params_parse hne h b
  obtain ⟨q, hq, hl⟩ := loop_nest hn (.punct '<') 1 [] (.punct '>' :: rest) (by omega) rfl
  have hie : items.isEmpty = false := by
    cases items with
    | nil => simp at h2; exact absurd h2 hne
    | cons _ _ => rfl
  refine ⟨⟨items, (joinWith [.punct ','] (ps.map Param.toks) ++ optComma b).length⟩, ?_, rfl, ?_, ?_⟩
  · rw [List.cons_append, List.append_assoc, List.singleton_append, Generics.parse, hl, genericsLoop]
    simp only [hq, Bool.false_and, Bool.false_eq_true, if_false]
    simp only [Tok.isPunct, Char.reduceEq, decide_false, Bool.false_eq_true, if_false, decide_true, if_true]
    rw [if_pos (by omega)]
    simp only [List.append_nil, List.reverse_reverse, h1, Option.map_some]
  · unfold Generics.toks
    rw [hie, h2, joinToks_eq]; simp
  · unfold Generics.onlyIdents
    rw [hie, h3, joinToks_eq]; simp

/-! ### Where clauses -/

theorem where_parse {ps : List Param} (hne : ps ≠ []) (h : ∀ p ∈ ps, p.Ok) (b : Bool)
    (hb : ∀ t ∈ joinWith [.punct ','] (ps.map Param.toks), t ≠ .punct ';' ∧ ∀ g, t ≠ .group .brace g) (body rest : List Tok) :
    ∃ g, WhereClause.parse (.ident "where".toList :: (joinWith [.punct ','] (ps.map Param.toks) ++ optComma b) ++ .group .brace body :: rest) = some g ∧
      g.n = (joinWith [.punct ','] (ps.map Param.toks) ++ optComma b).length ∧
      WhereClause.toks g = .ident "where".toList :: joinWith [.punct ','] (ps.map Param.toks) := by
  obtain ⟨items, h1, h2, _⟩ := params_parse hne h b
  have hie : items.isEmpty = false := by
    cases items with
    | nil => simp at h2; exact absurd h2 hne
    | cons _ _ => rfl
  have hts : ∀ t ∈ joinWith [.punct ','] (ps.map Param.toks) ++ optComma b, (!(t.isPunct ';' || t.isGroup .brace)) = true := by
    intro t ht
    have : t ≠ .punct ';' ∧ ∀ g, t ≠ .group .brace g := by
      rcases List.mem_append.mp ht with ht | ht
      · exact hb t ht
      · cases b <;> simp [optComma] at ht
        subst ht; simp
    cases t with
    | punct c => have := this.1; simp [Tok.isPunct, Tok.isGroup]; rintro rfl; exact this rfl
    | ident s => rfl
    | lit s => rfl
    | group d g => have := this.2 g; simp [Tok.isPunct, Tok.isGroup]; rintro rfl; exact this rfl
  refine ⟨⟨items, (joinWith [.punct ','] (ps.map Param.toks) ++ optComma b).length⟩, ?_, rfl, ?_⟩
  · rw [List.cons_append, WhereClause.parse, List.takeWhile_append_of_pos hts, List.takeWhile_cons_of_neg (by simp [Tok.isPunct, Tok.isGroup]), List.append_nil]
    simp only [h1, Option.map_some]
  · unfold WhereClause.toks
    rw [hie, h2, joinToks_eq]; simp

/-! ### Fields -/

theorem attrs_ignored : ∀ (l : List Attr) (its : List MetaItem), AllTwo AttrItem l its →
    (Meta.idents its).any (fun s => s = "ignore".toList) = l.any Attr.isIgnore
  | [], [], _ => rfl
  | a :: l, it :: its, h => by
    have ih := attrs_ignored l its h.2
    have h1 := h.1
    unfold Meta.idents at ih ⊢
    cases a with
    | ignore => have : it = .ident "ignore".toList := h1; subst this; simp [Attr.isIgnore]
    | key e v =>
      obtain ⟨k, rfl, _⟩ := h1
      simpa [Attr.isIgnore] using ih
    | note ts =>
      have h2 := h1.1
      cases it with
      | ident s =>
        have : s ≠ "ignore".toList := fun e => h2 (by rw [e])
        rw [List.filterMap_cons, List.any_cons, List.any_cons, ih, decide_eq_false this]
        rfl
      | literal l => simpa [Attr.isIgnore] using ih
      | pair k l e => simpa [Attr.isIgnore] using ih
      | group k l => simpa [Attr.isIgnore] using ih
  | [], _ :: _, h => h.elim
  | _ :: _, [], h => h.elim

theorem attrs_key : ∀ (l : List Attr) (its : List MetaItem), AllTwo AttrItem l its →
    match l.filterMap (fun | .key _ v => some v | _ => none) with
    | [] => Meta.get "key".toList its = none
    | v :: _ => ∃ k, Meta.get "key".toList its = some (.string k) ∧ encodeKey k = some (StrLit.val v) ∧ decodeKey k = some v.val
  | [], [], _ => rfl
  | a :: l, it :: its, h => by
    have ih := attrs_key l its h.2
    have h1 := h.1
    cases a with
    | ignore =>
      have : it = .ident "ignore".toList := h1
      subst this
      rw [List.filterMap_cons]
      exact ih
    | key e v =>
      obtain ⟨k, rfl, h2, h3⟩ := h1
      rw [List.filterMap_cons]
      refine ⟨k, ?_, h2, h3⟩
      rw [Meta.get, if_pos rfl]
    | note ts =>
      rw [List.filterMap_cons]
      have : Meta.get "key".toList (it :: its) = Meta.get "key".toList its := by
        cases it with
        | ident s => rfl
        | literal l => rfl
        | pair k l e =>
          rw [Meta.get, if_neg]
          rintro rfl
          exact h1.2 l e rfl
        | group k l => rfl
      rw [this]; exact ih
  | [], _ :: _, h => h.elim
  | _ :: _, [], h => h.elim

theorem takeVis_run (v : Vis) (name : Str) (rest : List Tok) (hn : name ≠ "pub".toList) :
    takeVis (visToks v ++ .ident name :: rest) = (v, .ident name :: rest) := by
  match v with
  | none =>
    rw [show visToks none ++ .ident name :: rest = .ident name :: rest from rfl, takeVis.eq_def]
    dsimp only
    rw [if_neg (by rw [isIdent_iff]; simpa using hn)]
  | some none => simp [visToks, takeVis, Tok.isIdent]
  | some (some p) => simp [visToks, takeVis, Tok.isIdent]

theorem vis_head (v : Vis) (name : Str) (rest : List Tok) : ∀ t, (visToks v ++ .ident name :: rest).head? = some t → t.isPunct '#' = false := by
  intro t ht
  match v, ht with
  | none, ht => simp [visToks] at ht; subst ht; rfl
  | some none, ht => simp [visToks] at ht; subst ht; rfl
  | some (some p), ht => simp [visToks] at ht; subst ht; rfl

/-- Attributes in front of a visibility and a name. -/
theorem takeMeta_attrs {l : List Attr} (h : ∀ a ∈ l, a.Ok) (v : Vis) (name : Str) (rest : List Tok) :
    ∃ m, takeMeta (attrToks l ++ (visToks v ++ .ident name :: rest)) = some (m, visToks v ++ .ident name :: rest) ∧
      ((l = [] ∧ m = none) ∨ ∃ its, m = some its ∧ AllTwo AttrItem l its) := by
  rw [attrToks_eq, takeMeta_hash _ _ (vis_head v name rest)]
  cases l with
  | nil => exact ⟨none, rfl, .inl ⟨rfl, rfl⟩⟩
  | cons a l =>
    obtain ⟨its, h1, h2⟩ := attrs_items (a :: l) h
    refine ⟨some its, ?_, .inr ⟨its, rfl, h2⟩⟩
    rw [if_neg (by simp), h1]; rfl

/-- A field of the grammar is read as what it is. -/
theorem field_parse {f : Field} (h : f.Ok) : ∃ x, FieldItem.parse f.toks = some x ∧ x.ident = f.name ∧ x.ty.usedTy = f.ty ∧ x.vis = f.vis ∧
    x.kept = !f.ignored ∧ ∃ k, x.key = some k ∧ encodeKey k = some f.key ∧ decodeKey k = some f.key := by
  obtain ⟨h1, h2, h3⟩ := h
  obtain ⟨t, ht1, _, ht2⟩ := type_parse h3
  obtain ⟨m, hm1, hm2⟩ := takeMeta_attrs h1 f.vis f.name (.punct ':' :: f.ty)
  refine ⟨⟨m, f.vis, f.name, t⟩, ?_, rfl, ht2, rfl, ?_, ?_⟩
  · unfold FieldItem.parse Field.toks
    rw [if_neg (by simp), hm1]
    dsimp only
    rw [takeVis_run _ _ _ h2.2]
    dsimp only
    have : splitColon [] (.ident f.name :: .punct ':' :: f.ty) = ([.ident f.name], some f.ty) := by
      rw [splitColon, if_neg (by simp [Tok.isPunct]), splitColon, if_pos (by rfl)]; rfl
    rw [this]
    dsimp only
    rw [ht1]
  · unfold FieldItem.kept Field.ignored
    rcases hm2 with ⟨hl, rfl⟩ | ⟨its, rfl, hits⟩
    · rw [hl]; rfl
    · dsimp only
      rw [attrs_ignored _ _ hits]
  · unfold FieldItem.key Field.key
    have hplain := keys_plain h2.1
    rcases hm2 with ⟨hl, rfl⟩ | ⟨its, rfl, hits⟩
    · refine ⟨f.name, rfl, ?_⟩
      rw [show f.keyLits = [] by unfold Field.keyLits; rw [hl]; rfl]
      exact hplain
    · have hk := attrs_key _ _ hits
      dsimp only
      change match f.keyLits with
        | [] => Meta.get "key".toList its = none
        | v :: _ => ∃ k, Meta.get "key".toList its = some (.string k) ∧ encodeKey k = some (StrLit.val v) ∧ decodeKey k = some v.val at hk
      cases hkl : f.keyLits with
      | nil =>
        rw [hkl] at hk
        dsimp only at hk
        rw [hk]
        exact ⟨f.name, rfl, hplain⟩
      | cons v vs =>
        rw [hkl] at hk
        obtain ⟨k, hk1, hk2⟩ := hk
        rw [hk1]
        exact ⟨k, rfl, hk2⟩

theorem hash_nest {ok : Tok → Prop} (h1 : ok (.punct '#')) (h2 : ∀ g, ok (.group .bracket g)) (l : List (List Tok)) : Nest ok (hashToks l) := by
  induction l with
  | nil => exact .nil
  | cons a l ih => exact nest_punct _ _ h1 (by decide) (nest_group _ _ _ (h2 a) ih)

theorem field_nest {f : Field} (h : f.Ok) : Nest (fun t => t ≠ .punct ',') f.toks ∧ f.toks ≠ [] := by
  refine ⟨?_, by simp [Field.toks]⟩
  unfold Field.toks
  rw [attrToks_eq]
  refine nest_append (hash_nest (by simp) (by simp) _) (nest_append ?_ ?_)
  · match f.vis with
    | none => exact .nil
    | some none => exact nest_ident _ _ (by simp) .nil
    | some (some p) => exact nest_ident _ _ (by simp) (nest_group _ _ _ (by simp) .nil)
  · exact nest_ident _ _ (by simp) (nest_punct _ _ (by simp) (by decide) (nest_mono (fun t h => h.1) (tyG_nest h.2.2)))

/-- What the macros know of a field. -/
def FieldIs (f : Field) (x : FieldItem) : Prop := x.ident = f.name ∧ x.ty.usedTy = f.ty ∧ x.kept = !f.ignored ∧
  ∃ k, x.key = some k ∧ encodeKey k = some f.key ∧ decodeKey k = some f.key

theorem collectO_allTwo {α β : Type} (f : α → Option β) (R : α → β → Prop) : ∀ l : List α, (∀ a ∈ l, ∃ b, f a = some b ∧ R a b) →
    ∃ bs, collectO (l.map f) = some bs ∧ AllTwo R l bs
  | [], _ => ⟨[], rfl, trivial⟩
  | a :: l, h => by
    obtain ⟨b, h1, h2⟩ := h a (by simp)
    obtain ⟨bs, h3, h4⟩ := collectO_allTwo f R l (fun x hx => h x (by simp [hx]))
    exact ⟨b :: bs, by rw [List.map_cons, h1, collectO, h3]; rfl, h2, h4⟩

theorem fields_parse {fs : List Field} (hne : fs ≠ []) (h : ∀ f ∈ fs, f.Ok) (b : Bool) :
    ∃ xs, structFields (joinWith [.punct ','] (fs.map Field.toks) ++ optComma b) = some (.struct xs) ∧ AllTwo FieldIs fs xs := by
  unfold structFields
  rw [split_comma_list (by simpa using hne) (by
    intro q hq
    obtain ⟨f, hf, rfl⟩ := List.mem_map.mp hq
    exact field_nest (h f hf)) b, List.map_map]
  obtain ⟨xs, h1, h2⟩ := collectO_allTwo (fun f : Field => FieldItem.parse f.toks) FieldIs fs (by
    intro f hf
    obtain ⟨x, h1, h2, h3, _, h4, h5⟩ := field_parse (h f hf)
    exact ⟨x, h1, h2, h3, h4, h5⟩)
  exact ⟨xs, by rw [show (FieldItem.parse ∘ Field.toks) = (fun f : Field => FieldItem.parse f.toks) from rfl, h1]; rfl, h2⟩

/-! ### Structs -/

/-- The parameter list in angle brackets. -/
def angled (l : List (List Tok)) : List Tok := if l.isEmpty then [] else .punct '<' :: (joinWith [.punct ','] l ++ [.punct '>'])

/-- The where clauses. -/
def whereOut (l : List (List Tok)) : List Tok := if l.isEmpty then [] else .ident "where".toList :: joinWith [.punct ','] l

/-- Where clause and fields. -/
theorem tail_parse {s : Struct} (h : s.Ok) : ∃ w xs, (∀ g, structTail g (s.wherePart ++ [.group .brace s.body]) = some (g, w, .struct xs)) ∧
    AllTwo FieldIs s.fields xs ∧ optToks WhereClause.toks w = whereOut (s.where_.map Param.toks) := by
  obtain ⟨h1, h2, h3, h4, h5, h6⟩ := h
  obtain ⟨xs, hx1, hx2⟩ := fields_parse h6 h5 s.comma
  have hf : Fields.parse [.group .brace s.body] = some (.struct xs) := by
    unfold Fields.parse
    rw [List.dropWhile_cons_of_neg (by simp [Tok.isGroup])]
    exact hx1
  by_cases he : s.where_ = []
  · refine ⟨none, xs, ?_, hx2, by rw [he]; rfl⟩
    intro g
    unfold structTail Struct.wherePart
    rw [if_pos (by simp [he] : s.where_.isEmpty = true), List.nil_append, if_neg (by simp [Tok.isIdent]), if_neg (by simp [Tok.isPunct]), if_pos (by simp [Tok.isGroup]), hf]
    rfl
  · obtain ⟨w, hw1, hw2, hw3⟩ := where_parse he h3 s.commaW h4 s.body []
    refine ⟨some w, xs, ?_, hx2, ?_⟩
    · intro g
      unfold structTail Struct.wherePart
      rw [if_neg (by simpa using he : ¬ s.where_.isEmpty = true), if_pos (by simp [Tok.isIdent])]
      unfold Struct.whereToks
      rw [hw1]
      dsimp only
      rw [hw2, List.cons_append, List.drop_succ_cons, List.drop_left, hf]
      rfl
    · rw [show optToks WhereClause.toks (some w) = WhereClause.toks w from rfl, hw3]
      unfold whereOut
      rw [if_neg (by simpa using he)]

/-- Generics, where clause and fields. -/
theorem body_parse {s : Struct} (h : s.Ok) : ∃ g w xs, structBody (s.paramPart ++ (s.wherePart ++ [.group .brace s.body])) = some (g, w, .struct xs) ∧
    AllTwo FieldIs s.fields xs ∧ optToks Generics.toks g = angled (s.params.map Param.toks) ∧ optToks Generics.onlyIdents g = angled (s.params.map Param.name) ∧
    optToks WhereClause.toks w = whereOut (s.where_.map Param.toks) := by
  obtain ⟨w, xs, hw1, hx, hw2⟩ := tail_parse h
  by_cases he : s.params = []
  · refine ⟨none, w, xs, ?_, hx, by rw [he]; rfl, by rw [he]; rfl, hw2⟩
    unfold structBody Struct.paramPart
    rw [if_pos (by simp [he] : s.params.isEmpty = true), List.nil_append, if_neg]
    · exact hw1 none
    · unfold Struct.wherePart
      split <;> simp [Tok.isPunct]
  · obtain ⟨g, hg1, hg2, hg3, hg4⟩ := generics_parse he h.2.1 s.commaP (s.wherePart ++ [.group .brace s.body])
    refine ⟨some g, w, xs, ?_, hx, ?_, ?_, hw2⟩
    · unfold structBody Struct.paramPart
      rw [if_neg (by simpa using he : ¬ s.params.isEmpty = true), if_pos (by simp [Tok.isPunct])]
      unfold Struct.paramToks
      rw [hg1]
      dsimp only
      have hd : ∀ (a r : List Tok), ((Tok.punct '<' :: (a ++ [.punct '>'])) ++ r).drop (a.length + 2) = r := by
        intro a r
        apply List.drop_left'
        simp
      rw [hg2, hd]
      exact hw1 (some g)
    · rw [show optToks Generics.toks (some g) = g.toks from rfl, hg3]
      unfold angled
      rw [if_neg (by simpa using he)]
    · rw [show optToks Generics.onlyIdents (some g) = g.onlyIdents from rfl, hg4]
      unfold angled
      rw [if_neg (by simpa using he)]

theorem skip_hash (l : List (List Tok)) (r : List Tok) : (hashToks l ++ r).dropWhile skipToKeyword = r.dropWhile skipToKeyword := by
  induction l with
  | nil => rfl
  | cons a l ih =>
    rw [show hashToks (a :: l) ++ r = .punct '#' :: .group .bracket a :: (hashToks l ++ r) from rfl, List.dropWhile_cons_of_pos (by simp [skipToKeyword]),
      List.dropWhile_cons_of_pos (by simp [skipToKeyword]), ih]

theorem skip_vis (v : Vis) (r : List Tok) : (visToks v ++ r).dropWhile skipToKeyword = r.dropWhile skipToKeyword := by
  match v with
  | none => rfl
  | some none => rw [show visToks (some none) ++ r = .ident "pub".toList :: r from rfl, List.dropWhile_cons_of_pos (by simp [skipToKeyword])]
  | some (some p) =>
    rw [show visToks (some (some p)) ++ r = .ident "pub".toList :: .group .paren p :: r from rfl, List.dropWhile_cons_of_pos (by simp [skipToKeyword]),
      List.dropWhile_cons_of_pos (by simp [skipToKeyword])]

theorem struct_parse {s : Struct} (h : s.Ok) : ∃ it xs, Item.parse s.toks = some it ∧ it.ident = s.name ∧ it.vis = s.vis ∧ it.fields = .struct xs ∧ AllTwo FieldIs s.fields xs ∧
    optToks Generics.toks it.generics = angled (s.params.map Param.toks) ∧ optToks Generics.onlyIdents it.generics = angled (s.params.map Param.name) ∧
    optToks WhereClause.toks it.where_ = whereOut (s.where_.map Param.toks) := by
  obtain ⟨g, w, xs, hg1, hx2, hg2, hg3, hw2⟩ := body_parse h
  obtain ⟨m, hm1, _⟩ := takeMeta_attrs h.1 s.vis "struct".toList (.ident s.name :: (s.paramPart ++ (s.wherePart ++ [.group .brace s.body])))
  have hstruct : StructItem.parse s.toks = some ⟨m, s.vis, s.name, g, w, .struct xs⟩ := by
    unfold StructItem.parse Struct.toks
    rw [hm1]
    dsimp only
    rw [takeVis_run _ _ _ (by decide)]
    dsimp only
    rw [if_pos (by simp [Tok.isIdent]), hg1]
    rfl
  refine ⟨⟨m, s.vis, s.name, g, w, .struct xs⟩, xs, ?_, rfl, rfl, rfl, hx2, hg2, hg3, hw2⟩
  unfold Item.parse
  rw [if_pos, hstruct]
  unfold Struct.toks
  rw [attrToks_eq]
  rw [skip_hash, skip_vis, List.dropWhile_cons_of_neg (by simp [skipToKeyword])]
  simp [Tok.isIdent]

end RJ
