import Verif.Proof.CanonDecl
/-
  The parser of Model/Derive (what the derive macros use) and the whole item parser of Model/Items agree.
-/
namespace RJ
open Spec

mutual
/-- An attribute without the source text of its literals. -/
def RMeta.erase : RMeta → MetaItem
  | .ident s => .ident s
  | .literal l => .literal l.lit
  | .pair k l eq => .pair k l.lit eq
  | .group i l => .group i (eraseAll l)
/-- Each of them. -/
def eraseAll : List RMeta → List MetaItem
  | [] => []
  | m :: l => m.erase :: eraseAll l
end

theorem eraseAll_eq : ∀ l, eraseAll l = l.map RMeta.erase
  | [] => rfl
  | m :: l => by rw [eraseAll, eraseAll_eq l]; rfl

/-- A named field, likewise. -/
def NamedItem.erase (x : NamedItem) : FieldItem := ⟨x.attrs.map eraseAll, x.vis, x.ident, x.ty⟩

/-- A struct with named fields, likewise. -/
def RStruct.named? (s : RStruct) : Option StructItem :=
  match s.fields with
  | .named l => some ⟨s.attrs.map eraseAll, s.vis, s.ident, s.generics, s.where_, .struct (l.map NamedItem.erase)⟩
  | _ => none

/-- The struct with named fields that was parsed, if it was one. -/
def AnyItem.named? : AnyItem → Option StructItem
  | .struct s => s.named?
  | _ => none

/-- The same for the parser of the macros. -/
def StructItem.named? (s : StructItem) : Option StructItem :=
  match s.fields with
  | .struct _ => some s
  | _ => none

theorem collectO_mapO {α β γ : Type} (f : α → Option β) (g : α → Option γ) (e : β → γ) : ∀ l : List α, (∀ a ∈ l, (f a).map e = g a) →
    (collectO (l.map f)).map (List.map e) = collectO (l.map g)
  | [], _ => rfl
  | a :: l, h => by
    have h1 := h a (by simp)
    have ih := collectO_mapO f g e l (fun b hb => h b (by simp [hb]))
    rw [List.map_cons, List.map_cons, ← h1]
    cases hf : f a with
    | none => rfl
    | some b =>
      rw [Option.map_some, collectO, collectO, ← ih, Option.map_map, Option.map_map]; rfl

theorem rlit_erase (t : Tok) : (RLit.parse t).map RLit.lit = Lit.parse t := by
  unfold RLit.parse
  rw [Option.map_map]
  exact Option.map_id'

theorem rneg_erase (t : Tok) : ((RLit.parse t).bind RLit.neg).map RLit.lit = (Lit.parse t).bind negLit := by
  rw [← rlit_erase t]
  cases RLit.parse t with
  | none => rfl
  | some l =>
    simp only [Option.bind_some, Option.map_some, RLit.neg, Option.map_map]
    exact Option.map_id'

theorem rmeta_erase : ∀ (fuel : Nat) (ts : List Tok), (RMeta.parseF fuel ts).map RMeta.erase = MetaItem.parseF fuel ts
  | 0, _ => rfl
  | fuel + 1, ts => by
    have ih := rmeta_erase fuel
    match ts with
    | [] => rfl
    | [.punct c] => rfl
    | [.group d g] => rfl
    | [.lit s] =>
      have h := rlit_erase (.lit s)
      simp only [RMeta.parseF, MetaItem.parseF, ← h, Option.map_map]; rfl
    | [.ident s] =>
      have h := rlit_erase (.ident s)
      simp only [RMeta.parseF, MetaItem.parseF, ← h]
      cases RLit.parse (.ident s) <;> rfl
    | [a, b] =>
      have h := rneg_erase b
      by_cases hm : a.isPunct '-' = true
      · have ha := (isPunct_iff _ _).mp hm
        subst ha
        have e1 : RMeta.parseF (fuel + 1) [.punct '-', b] = ((RLit.parse b).bind RLit.neg).map .literal := by
          rw [RMeta.parseF.eq_def]; exact if_pos hm
        have e2 : MetaItem.parseF (fuel + 1) [.punct '-', b] = ((Lit.parse b).bind negLit).map .literal := by
          rw [MetaItem.parseF.eq_def]; exact if_pos hm
        rw [e1, e2, ← h, Option.map_map, Option.map_map]; rfl
      · cases a with
        | ident name =>
          cases b with
          | group d inner =>
            by_cases hi : inner.isEmpty = true
            · simp only [RMeta.parseF, MetaItem.parseF, hi]; rfl
            · have e1 : RMeta.parseF (fuel + 1) [.ident name, .group d inner] =
                  (collectO (((splitComma [] inner).filter (fun x => !x.isEmpty)).map (RMeta.parseF fuel))).map (.group name) := by
                rw [RMeta.parseF]; simp only [Tok.isPunct, Bool.false_eq_true, if_false, if_neg hi]
              have e2 : MetaItem.parseF (fuel + 1) [.ident name, .group d inner] =
                  (collectO (((splitComma [] inner).filter (fun x => !x.isEmpty)).map (MetaItem.parseF fuel))).map (.group name) := by
                rw [MetaItem.parseF]; simp only [Tok.isPunct, Bool.false_eq_true, if_false, if_neg hi]
              rw [e1, e2, ← collectO_mapO (RMeta.parseF fuel) (MetaItem.parseF fuel) RMeta.erase _ (fun a _ => ih a), Option.map_map, Option.map_map]
              congr 1
              funext l
              simp [RMeta.erase, eraseAll_eq]
          | _ => rfl
        | punct c => simp only [RMeta.parseF, MetaItem.parseF, if_neg hm]; rfl
        | _ => rfl
    | [k, e, v] =>
      have h := rlit_erase v
      cases k with
      | ident key =>
        simp only [RMeta.parseF, MetaItem.parseF]
        by_cases he : (e.isPunct '=' || e.isPunct ':') = true
        · rw [if_pos he, if_pos he, ← h, Option.map_map, Option.map_map]; rfl
        · rw [if_neg he, if_neg he]; rfl
      | _ => simp [RMeta.parseF, MetaItem.parseF]
    | [k, e, m, v] =>
      have h := rneg_erase v
      cases k with
      | ident key =>
        simp only [RMeta.parseF, MetaItem.parseF]
        by_cases he : (e.isPunct '=' || e.isPunct ':') = true
        · rw [if_pos he, if_pos he]
          by_cases hm : m.isPunct '-' = true
          · rw [if_pos hm, if_pos hm, ← h, Option.map_map, Option.map_map]; rfl
          · rw [if_neg hm, if_neg hm]; rfl
        · rw [if_neg he, if_neg he]; rfl
      | _ => simp [RMeta.parseF, MetaItem.parseF]
    | a :: _ :: _ :: _ :: _ :: _ => rw [RMeta.parseF.eq_def, MetaItem.parseF.eq_def]; cases a <;> rfl

theorem rmetaLoop_erase : ∀ (ts : List Tok), (rmetaLoop ts).map eraseAll = metaLoop ts
  | [] => rfl
  | [t] => by
    simp only [rmetaLoop, metaLoop]
    split <;> rfl
  | t :: g :: rest => by
    have ih := rmetaLoop_erase rest
    simp only [rmetaLoop, metaLoop]
    by_cases ht : t.isPunct '#' = true
    · rw [if_pos ht, if_pos ht]
      cases g with
      | group d inner =>
        have h := rmeta_erase (toksSize inner + 1) inner
        dsimp only
        rw [show MetaItem.parse inner = (RMeta.parse inner).map RMeta.erase from h.symm]
        cases RMeta.parse inner with
        | none => rfl
        | some it =>
          dsimp only [Option.map_some]
          rw [← ih, Option.map_map, Option.map_map]; rfl
      | _ => rfl
    · rw [if_neg ht, if_neg ht]; rfl

theorem takeMetas_erase (ts : List Tok) : (takeMetas ts).map (fun p => (p.1.map eraseAll, p.2)) = takeMeta ts := by
  unfold takeMetas takeMeta
  split
  · have : Meta.parse ts = (parseMetas ts).map eraseAll := by
      unfold Meta.parse parseMetas
      split
      · rfl
      · exact (rmetaLoop_erase _).symm
    rw [this, Option.map_map, Option.map_map]
    congr 1
    funext l
    simp [eraseAll_eq]
  · rfl

theorem named_erase (ts : List Tok) : (NamedItem.parse ts).map NamedItem.erase = FieldItem.parse ts := by
  unfold NamedItem.parse FieldItem.parse
  split
  · rfl
  · rw [← takeMetas_erase ts]
    cases takeMetas ts with
    | none => rfl
    | some p =>
      obtain ⟨m, r⟩ := p
      simp only [Option.map_some]
      cases hs : splitColon [] (takeVis r).2 with
      | mk name o =>
        cases o with
        | none => rfl
        | some ty =>
          simp only
          cases RType.parse ty with
          | none => rfl
          | some t =>
            cases name with
            | nil => rfl
            | cons a l => cases a <;> rfl

/-- The fields, if they are named. -/
def Fields.named? : Fields → Option (List FieldItem)
  | .struct l => some l
  | _ => none

/-- Likewise. -/
def RFields.named? : RFields → Option (List FieldItem)
  | .named l => some (l.map NamedItem.erase)
  | _ => none

theorem rfields_erase (ts : List Tok) : (RFields.parse ts).bind RFields.named? = (Fields.parse ts).bind Fields.named? := by
  unfold RFields.parse Fields.parse
  cases ts.dropWhile (fun t => !(t.isGroup .paren || t.isGroup .brace || t.isPunct ';')) with
  | nil => rfl
  | cons t r =>
    have hb : ∀ body, ((collectO ((splitTokensBy body ",").map NamedItem.parse)).map RFields.named).bind RFields.named? = (structFields body).bind Fields.named? := by
      intro body
      have h := collectO_mapO NamedItem.parse FieldItem.parse NamedItem.erase (splitTokensBy body ",") (fun a _ => named_erase a)
      unfold structFields
      rw [← h]
      cases collectO ((splitTokensBy body ",").map NamedItem.parse) <;> rfl
    cases t with
    | punct c => rfl
    | ident s => rfl
    | lit s => rfl
    | group d body =>
      cases d with
      | paren => dsimp only; cases collectO ((splitTokensBy body ",").map TupleItem.parse) <;> rfl
      | brace => exact hb body
      | bracket => exact hb body
      | none => exact hb body

/-- A where clause and named fields, as the two parsers deliver them. -/
def tailNamed (p : Option Generics × RFields) : Option (Option Generics × List FieldItem) := p.2.named?.map (fun l => (p.1, l))

theorem rstructTail_erase (g : Option Generics) (ts : List Tok) :
    (rstructTail ts).bind (fun p => p.2.named?.map (fun l => (g, p.1, Fields.struct l))) = (structTail g ts).bind (fun p => p.2.2.named?.map (fun _ => p)) := by
  have key : ∀ (r : List Tok) (w : Option Generics), ((RFields.parse r).map (fun f => (w, f))).bind (fun p => p.2.named?.map (fun l => (g, p.1, Fields.struct l))) =
      ((Fields.parse r).map (fun f => (g, w, f))).bind (fun p => p.2.2.named?.map (fun _ => p)) := by
    intro r w
    have h := rfields_erase r
    cases hr : RFields.parse r with
    | none =>
      cases hf : Fields.parse r with
      | none => rfl
      | some f =>
        rw [hr, hf] at h
        cases f <;> first | rfl | cases h
    | some x =>
      cases hf : Fields.parse r with
      | none =>
        rw [hr, hf] at h
        cases x <;> first | rfl | cases h
      | some f =>
        rw [hr, hf] at h
        cases x <;> cases f <;> first | rfl | (cases h <;> rfl)
  cases ts with
  | nil => rfl
  | cons t r =>
    rw [rstructTail, structTail]
    by_cases h1 : t.isIdent "where" = true
    · rw [if_pos h1, if_pos (c := ((t :: r).head?.any (Tok.isIdent "where")) = true) h1]
      cases WhereClause.parse (t :: r) with
      | none => rfl
      | some w => exact key _ (some w)
    · rw [if_neg h1, if_neg (c := ((t :: r).head?.any (Tok.isIdent "where")) = true) h1]
      by_cases h2 : t.isPunct ';' = true
      · rw [if_pos h2, if_pos (c := ((t :: r).head?.any (Tok.isPunct ';')) = true) h2]; rfl
      · rw [if_neg h2, if_neg (c := ((t :: r).head?.any (Tok.isPunct ';')) = true) h2]
        by_cases h3 : t.isGroup .brace = true
        · rw [if_pos h3, if_pos (c := ((t :: r).head?.any (Tok.isGroup .brace)) = true) h3]; exact key _ none
        · rw [if_neg h3, if_neg (c := ((t :: r).head?.any (Tok.isGroup .brace)) = true) h3]
          by_cases h4 : t.isGroup .paren = true
          · rw [if_pos h4, if_pos (c := ((t :: r).head?.any (Tok.isGroup .paren)) = true) h4]
            cases t with
            | group d body =>
              have hd : d = .paren := by simpa [Tok.isGroup] using h4
              subst hd
              have : RFields.parse [.group .paren body] = (collectO ((splitTokensBy body ",").map TupleItem.parse)).map (fun l => .tuple (setPos 0 l)) := rfl
              rw [this]
              cases collectO ((splitTokensBy body ",").map TupleItem.parse) with
              | none => rfl
              | some l => dsimp only [Option.map_some]; cases tupleTail r <;> rfl
            | _ => simp [Tok.isGroup] at h4
          · rw [if_neg h4, if_neg (c := ((t :: r).head?.any (Tok.isGroup .paren)) = true) h4]; rfl

/-- The parser of the derive macros and the whole item parser find the same structs with named fields. -/
theorem parsers_agree (text : List Tok → Str) (ts : List Tok) : (Item.parse ts).bind StructItem.named? = (AnyItem.parse text ts).bind AnyItem.named? := by
  have hs : (StructItem.parse ts).bind StructItem.named? = (RStruct.parse ts).bind RStruct.named? := by
    unfold StructItem.parse RStruct.parse
    rw [← takeMetas_erase ts]
    cases takeMetas ts with
    | none => rfl
    | some p =>
      obtain ⟨m, r⟩ := p
      simp only [Option.map_some]
      cases hv : (takeVis r).2 with
      | nil => simp
      | cons kw r1 =>
        cases r1 with
        | nil => simp
        | cons n rest =>
          cases n with
          | ident name =>
            dsimp only
            by_cases hk : kw.isIdent "struct" = true
            · rw [if_pos hk, if_pos hk]
              have hb : structBody rest = (takeGenerics rest).bind (fun p => structTail p.1 p.2) := by
                unfold structBody takeGenerics
                split
                · cases Generics.parse rest <;> rfl
                · rfl
              rw [hb]
              cases takeGenerics rest with
              | none => rfl
              | some q =>
                obtain ⟨g, r2⟩ := q
                dsimp only [Option.bind_some]
                have ht := rstructTail_erase g r2
                cases hr : rstructTail r2 with
                | none =>
                  rw [hr] at ht
                  cases hf : structTail g r2 with
                  | none => rfl
                  | some b =>
                    obtain ⟨b1, b2, b3⟩ := b
                    rw [hf] at ht
                    cases b3 <;> first | rfl | cases ht
                | some x =>
                  obtain ⟨x1, x2⟩ := x
                  rw [hr] at ht
                  cases hf : structTail g r2 with
                  | none =>
                    rw [hf] at ht
                    cases x2 <;> first | rfl | cases ht
                  | some b =>
                    obtain ⟨b1, b2, b3⟩ := b
                    rw [hf] at ht
                    cases x2 <;> cases b3 <;> first | rfl | (cases ht <;> rfl)
            · rw [if_neg hk, if_neg hk]; rfl
          | _ => rfl
  unfold Item.parse AnyItem.parse
  cases (ts.dropWhile skipToKeyword).head? with
  | none => rfl
  | some kw =>
    dsimp only [Option.any_some]
    by_cases h1 : kw.isIdent "struct" = true
    · rw [if_pos h1, if_pos h1, hs]
      cases RStruct.parse ts <;> rfl
    · rw [if_neg h1, if_neg h1]
      split
      · cases REnum.parse text ts <;> rfl
      · split
        · cases RFn.parse text ts <;> rfl
        · rfl

end RJ
