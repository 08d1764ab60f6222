import Verif.Proof.StructGram
import Verif.Proof.Map
/-
  The code the macros generate for a struct of the grammar, and what it does.
-/
namespace RJ
open Spec
variable {F : Type}

/-! ### The generated code -/

theorem adds_of : ∀ (fs : List Field) (xs : List FieldItem), AllTwo FieldIs fs xs →
    ∃ adds, collectO ((xs.filter FieldItem.kept).map (fun x => x.key.map (fun k => (k, x.ident)))) = some adds ∧
      resolveKeys encodeKey adds = some ((fs.filter (fun f => !f.ignored)).map (fun f => (f.key, f.name)))
  | [], [], _ => ⟨[], rfl, rfl⟩
  | f :: fs, x :: xs, h => by
    obtain ⟨adds, h1, h2⟩ := adds_of fs xs h.2
    obtain ⟨hi, _, hk, k, hk1, hk2, _⟩ := h.1
    by_cases hg : f.ignored = true
    · refine ⟨adds, ?_, ?_⟩
      · rw [List.filter_cons_of_neg (by rw [hk, hg]; decide)]; exact h1
      · rw [List.filter_cons_of_neg (by rw [hg]; decide)]; exact h2
    · have hg : f.ignored = false := by simpa using hg
      refine ⟨(k, x.ident) :: adds, ?_, ?_⟩
      · rw [List.filter_cons_of_pos (by rw [hk, hg]; decide), List.map_cons, hk1, Option.map_some, collectO, h1]; rfl
      · rw [List.filter_cons_of_pos (by rw [hg]; decide)]
        unfold resolveKeys at h2 ⊢
        rw [List.map_cons, hk2, Option.map_some, collectO, h2, hi]; rfl
  | [], _ :: _, h => h.elim
  | _ :: _, [], h => h.elim

theorem gets_of : ∀ (fs : List Field) (xs : List FieldItem), AllTwo FieldIs fs xs →
    ∃ gets, collectO ((xs.filter FieldItem.kept).map (fun x => x.key.map (fun k => (k, x.ident, x.ty.usedTy)))) = some gets ∧
      resolveKeys decodeKey (gets.map (fun g => (g.1, g.2.1))) = some ((fs.filter (fun f => !f.ignored)).map (fun f => (f.key, f.name))) ∧
      gets.map (·.2) = (fs.filter (fun f => !f.ignored)).map (fun f => (f.name, f.ty)) ∧
      (xs.filter (fun x => !x.kept)).map FieldItem.ident = (fs.filter (fun f => f.ignored)).map Field.name
  | [], [], _ => ⟨[], rfl, rfl, rfl, rfl⟩
  | f :: fs, x :: xs, h => by
    obtain ⟨gets, h1, h2, h3, h4⟩ := gets_of fs xs h.2
    obtain ⟨hi, ht, hk, k, hk1, _, hk2⟩ := h.1
    by_cases hg : f.ignored = true
    · refine ⟨gets, ?_, ?_, ?_, ?_⟩
      · rw [List.filter_cons_of_neg (by rw [hk, hg]; decide)]; exact h1
      · rw [List.filter_cons_of_neg (by rw [hg]; decide)]; exact h2
      · rw [List.filter_cons_of_neg (by rw [hg]; decide)]; exact h3
      · rw [List.filter_cons_of_pos (by rw [hk, hg]; decide), List.filter_cons_of_pos (by rw [hg]), List.map_cons, List.map_cons, h4, hi]
    · have hg : f.ignored = false := by simpa using hg
      refine ⟨(k, x.ident, x.ty.usedTy) :: gets, ?_, ?_, ?_, ?_⟩
      · rw [List.filter_cons_of_pos (by rw [hk, hg]; decide), List.map_cons, hk1, Option.map_some, collectO, h1]; rfl
      · rw [List.filter_cons_of_pos (by rw [hg]; decide)]
        unfold resolveKeys at h2 ⊢
        rw [List.map_cons, List.map_cons]
        dsimp only
        rw [hk2, Option.map_some, collectO, h2, hi]; rfl
      · rw [List.filter_cons_of_pos (by rw [hg]; decide), List.map_cons, List.map_cons, h3, hi, ht]
      · rw [List.filter_cons_of_neg (by rw [hk, hg]; decide), List.filter_cons_of_neg (by rw [hg]; decide)]; exact h4
  | [], _ :: _, h => h.elim
  | _ :: _, [], h => h.elim

/-- The encoding code generated for a struct of the grammar. -/
theorem deriveEncode_struct {s : Struct} (h : s.Ok) : ∃ e, deriveEncode s.toks = some e ∧ e.ident = s.name ∧
    e.generics = angled (s.params.map Param.toks) ∧ e.args = angled (s.params.map Param.name) ∧ e.where_ = whereOut (s.where_.map Param.toks) ∧
    resolveKeys encodeKey e.adds = some (s.kept.map (fun f => (f.key, f.name))) := by
  obtain ⟨it, xs, h1, h2, _, h3, h4, h5, h6, h7⟩ := struct_parse h
  obtain ⟨adds, h8, h9⟩ := adds_of _ _ h4
  refine ⟨⟨optToks Generics.toks it.generics, it.ident, optToks Generics.onlyIdents it.generics, optToks WhereClause.toks it.where_, adds⟩, ?_, h2, h5, h6, h7, h9⟩
  unfold deriveEncode
  rw [h1]
  dsimp only
  rw [h3]
  dsimp only
  rw [h8]; rfl

/-- The decoding code generated for a struct of the grammar. -/
theorem deriveDecode_struct {s : Struct} (h : s.Ok) : ∃ d, deriveDecode s.toks = some d ∧ d.ident = s.name ∧
    d.generics = angled (s.params.map Param.toks) ∧ d.args = angled (s.params.map Param.name) ∧ d.where_ = whereOut (s.where_.map Param.toks) ∧
    resolveKeys decodeKey (d.gets.map (fun g => (g.1, g.2.1))) = some (s.kept.map (fun f => (f.key, f.name))) ∧
    d.gets.map (·.2) = s.kept.map (fun f => (f.name, f.ty)) ∧ d.defaults = s.ignored.map Field.name := by
  obtain ⟨it, xs, h1, h2, _, h3, h4, h5, h6, h7⟩ := struct_parse h
  obtain ⟨gets, h8, h9, h10, h11⟩ := gets_of _ _ h4
  refine ⟨⟨optToks Generics.toks it.generics, it.ident, optToks Generics.onlyIdents it.generics, optToks WhereClause.toks it.where_, gets,
          (xs.filter (fun x => !x.kept)).map FieldItem.ident⟩, ?_, h2, h5, h6, h7, h9, h10, h11⟩
  unfold deriveDecode
  rw [h1]
  dsimp only
  rw [h3]
  dsimp only
  rw [h8]; rfl

/-! ### Running it -/

theorem runAdds_eq (S : StructTy F) (self : S.Val) : ∀ (l : List (Str × Str)) (m : Obj F),
    runAdds S self (.object m) l = .ok ((l.map (fun p => (p.1, S.enc p.2 (self p.2)))).foldl (fun j kv => (j.append kv.1 kv.2).1) (.object m))
  | [], m => rfl
  | (k, i) :: l, m => by
    rw [runAdds]
    change runAdds S self (.object (objectInsert k (S.enc i (self i)) m)) l = _
    rw [runAdds_eq S self l]
    rfl

theorem objectInsert_new (k : Str) (v : Json F) (m : Obj F) (h : mapGet k m = none) : objectInsert k v m = m ++ [(k, (v, []))] := by
  unfold objectInsert
  rw [h]
  induction m with
  | nil => rfl
  | cons e m ih =>
    obtain ⟨q, e⟩ := e
    rw [mapGet] at h
    by_cases hq : q = k
    · rw [if_pos hq] at h; cases h
    · rw [if_neg hq] at h
      have := ih h
      dsimp only at this ⊢
      rw [mapInsert, if_neg hq, this]; rfl

theorem mapGet_append {β : Type} (k : Str) (a b : List (Str × β)) : mapGet k (a ++ b) = (mapGet k a).or (mapGet k b) := by
  induction a with
  | nil => rfl
  | cons e a ih =>
    obtain ⟨q, e⟩ := e
    rw [List.cons_append, mapGet, mapGet]
    by_cases hq : q = k
    · rw [if_pos hq, if_pos hq]; rfl
    · rw [if_neg hq, if_neg hq, ih]

/-- With distinct keys: one member each, in order. -/
theorem appends_distinct : ∀ (l : List (Str × Json F)) (m : Obj F), (l.map (·.1)).Nodup → (∀ p ∈ l, mapGet p.1 m = none) →
    l.foldl (fun (j : Json F) kv => (j.append kv.1 kv.2).1) (Json.object m) = Json.object (m ++ l.map (fun p => (p.1, (p.2, []))))
  | [], m, _, _ => by simp
  | (k, v) :: l, m, hn, h => by
    rw [List.map_cons, List.nodup_cons] at hn
    rw [List.foldl_cons]
    change l.foldl (fun (j : Json F) kv => (j.append kv.1 kv.2).1) (Json.object (objectInsert k v m)) = _
    rw [objectInsert_new k v m (h (k, v) (by simp)), appends_distinct l _ hn.2]
    · simp
    · intro p hp
      rw [mapGet_append, h p (by simp [hp])]
      have : k ≠ p.1 := by
        rintro rfl
        exact hn.1 (List.mem_map.mpr ⟨p, hp, rfl⟩)
      simp [mapGet, this]

theorem mapGet_mem_nodup {β : Type} : ∀ (l : List (Str × β)) (k : Str) (v : β), (l.map (·.1)).Nodup → (k, v) ∈ l → mapGet k l = some v
  | [], _, _, _, h => by cases h
  | (q, w) :: l, k, v, hn, h => by
    rw [List.map_cons, List.nodup_cons] at hn
    rw [mapGet]
    rcases List.mem_cons.mp h with he | h
    · cases he; rw [if_pos rfl]
    · rw [if_neg, mapGet_mem_nodup l k v hn.2 h]
      intro e
      exact hn.1 (by show q ∈ _; rw [e]; exact List.mem_map_of_mem (f := (·.1)) h)

end RJ
