import Verif.Spec.Compat
import Verif.Proof.NestedDec
import Mathlib.Data.List.Nodup
/-
  What was written at one type is read at another.
-/
set_option linter.unusedSectionVars false
namespace RJ
open Spec
variable {F : Type} [FloatOps F]

/-! ### Maps -/

theorem hmInsert_fresh {K α : Type} [DecidableEq K] (k : K) (v : α) (m : List (K × α)) (h : k ∉ m.map (·.1)) : hmInsert k v m = m ++ [(k, v)] := by
  induction m with
  | nil => rfl
  | cons p m ih =>
    obtain ⟨k', v'⟩ := p
    rw [List.map_cons, List.mem_cons, not_or] at h
    rw [hmInsert, if_neg (fun e => h.1 e.symm), ih h.2]
    rfl

theorem hmInserts_fresh {K α : Type} [DecidableEq K] : ∀ (l m : List (K × α)), ((m ++ l).map (·.1)).Nodup → l.foldl (fun m p => hmInsert p.1 p.2 m) m = m ++ l
  | [], m, _ => by simp
  | p :: l, m, h => by
    have hf : p.1 ∉ m.map (·.1) := by
      rw [List.map_append, List.nodup_append] at h
      intro hm
      exact h.2.2 _ hm _ (by simp) rfl
    rw [List.foldl_cons, hmInsert_fresh _ _ _ hf, hmInserts_fresh l (m ++ [p]) (by simpa using h)]
    simp

/-- The current members, read one by one. -/
theorem members_read {α : Type} (κ : KeyCodec) (hk : ∀ k, κ.fromStr (κ.toStr k) = some k) (dec : Json F → Res α) (m : Obj F) (hn : (m.map (·.1)).Nodup)
    (h : ∀ e ∈ m, (∃ k, κ.toStr k = e.1) ∧ ∃ y, dec e.2.1 = .ok y) :
    ∃ ys, collect (m.map (fun e => decMember κ dec e.1 e.2.1)) = .ok ys ∧ (ys.map (·.1)).Nodup ∧ (∀ k, k ∈ ys.map (·.1) ↔ ∃ e ∈ m, e.1 = κ.toStr k) ∧
      ∀ k y, (k, y) ∈ ys → ∃ v r, (κ.toStr k, (v, r)) ∈ m ∧ dec v = .ok y := by
  have key : ∃ ys, collect (m.map (fun e => decMember κ dec e.1 e.2.1)) = .ok ys ∧ ys.map (fun p => κ.toStr p.1) = m.map (·.1) ∧
      ∀ k y, (k, y) ∈ ys → ∃ v r, (κ.toStr k, (v, r)) ∈ m ∧ dec v = .ok y := by
    clear hn
    induction m with
    | nil => exact ⟨[], rfl, rfl, by simp⟩
    | cons e m ih =>
      obtain ⟨ys, h1, h2, h3⟩ := ih (fun x hx => h x (by simp [hx]))
      obtain ⟨⟨k, hk'⟩, y, hy⟩ := h e (by simp)
      refine ⟨(k, y) :: ys, ?_, by simp [hk', h2], ?_⟩
      · have hd : decMember κ dec e.1 e.2.1 = .ok (k, y) := decMember_ok.2 ⟨by rw [← hk']; exact hk k, hy⟩
        simp only [List.map_cons, hd, collect, h1]
      · intro k' y' hm
        rcases List.mem_cons.1 hm with hm | hm
        · cases hm
          exact ⟨e.2.1, e.2.2, by rw [hk']; simp, hy⟩
        · obtain ⟨v, r, h4, h5⟩ := h3 k' y' hm
          exact ⟨v, r, by simp [h4], h5⟩
  obtain ⟨ys, h1, h2, h3⟩ := key
  have hnd : (ys.map (·.1)).Nodup := groups_nodup κ hn h2
  refine ⟨ys, h1, hnd, ?_, h3⟩
  · intro k
    constructor
    · intro hm
      have : κ.toStr k ∈ ys.map (fun p => κ.toStr p.1) := by
        obtain ⟨p, hp, rfl⟩ := List.mem_map.1 hm
        exact List.mem_map.2 ⟨p, hp, rfl⟩
      rw [h2] at this
      obtain ⟨e, he, h4⟩ := List.mem_map.1 this
      exact ⟨e, he, h4⟩
    · rintro ⟨e, he, h4⟩
      have : κ.toStr k ∈ m.map (·.1) := List.mem_map.2 ⟨e, he, h4⟩
      rw [← h2] at this
      obtain ⟨p, hp, h5⟩ := List.mem_map.1 this
      exact List.mem_map.2 ⟨p, hp, toStr_inj κ hk _ _ h5⟩

/-- A map is read: the current members, one entry each. -/
theorem decMap_read {α : Type} (κ : KeyCodec) (hk : ∀ k, κ.fromStr (κ.toStr k) = some k) (dec : Json F → Res α) (m : Obj F) (hn : (m.map (·.1)).Nodup)
    (h : ∀ e ∈ m, (∃ k, κ.toStr k = e.1) ∧ ∃ y, dec e.2.1 = .ok y) :
    ∃ ys, decMap κ dec (.object m) = .ok ys ∧ (ys.map (·.1)).Nodup ∧ (∀ k, k ∈ ys.map (·.1) ↔ ∃ e ∈ m, e.1 = κ.toStr k) ∧
      ∀ k y, (k, y) ∈ ys → ∃ v r, (κ.toStr k, (v, r)) ∈ m ∧ dec v = .ok y := by
  obtain ⟨ys, h1, hnd, h2, h3⟩ := members_read κ hk dec m hn h
  refine ⟨ys, ?_, hnd, h2, h3⟩
  unfold decMap
  dsimp only
  rw [h1]
  dsimp only
  rw [hmInserts_fresh ys [] (by simpa using hnd)]
  rfl

/-- A list of pairs is read from an object without duplicates: one pair for each member. -/
theorem decPairs_read {α : Type} (κ : KeyCodec) (hk : ∀ k, κ.fromStr (κ.toStr k) = some k) (dec : Json F → Res α) (m : Obj F) (hn : (m.map (·.1)).Nodup)
    (h1 : ∀ e ∈ m, e.2.2 = []) (h : ∀ e ∈ m, (∃ k, κ.toStr k = e.1) ∧ ∃ y, dec e.2.1 = .ok y) :
    ∃ ys, decPairs κ dec (.object m) = .ok ys ∧ (ys.map (·.1)).Nodup ∧ (∀ k, k ∈ ys.map (·.1) ↔ ∃ e ∈ m, e.1 = κ.toStr k) ∧
      ∀ k y, (k, y) ∈ ys → ∃ v r, (κ.toStr k, (v, r)) ∈ m ∧ dec v = .ok y := by
  obtain ⟨ys, h2, h3⟩ := members_read κ hk dec m hn h
  refine ⟨ys, ?_, h3⟩
  have e : m.flatMap (fun e => (e.2.2.reverse ++ [e.2.1]).map (decMember κ dec e.1)) = m.map (fun e => decMember κ dec e.1 e.2.1) := by
    clear h2 h3 h hn
    induction m with
    | nil => rfl
    | cons a m ih =>
      rw [List.flatMap_cons, List.map_cons, ih (fun e he => h1 e (by simp [he])), h1 a (by simp)]
      rfl
  unfold decPairs
  dsimp only
  rw [e, h2]

/-- An object holds, under each name, exactly the values whose last one is the current member. -/
theorem current_member {m : Obj F} {q : Str} {v : Json F} {r : List (Json F)} (hn : (m.map (·.1)).Nodup) (h : (q, (v, r)) ∈ m) :
    (absMap m q).getLast? = some (absJ v) := by
  rw [mapGet_abs_last, mapGet_mem_nodup _ _ _ hn h]
  rfl

theorem has_member {m : Obj F} {q : Str} (h : absMap m q ≠ []) : ∃ e ∈ m, e.1 = q := by
  cases hg : mapGet q m with
  | none => rw [absMap_hist, hg] at h; exact absurd rfl h
  | some e => exact ⟨_, mapGet_mem hg, rfl⟩

/-- A list of pairs, read as a map. -/
theorem dec_map_pairs {α β : Type} (κ : KeyCodec) (hk : ∀ k, κ.fromStr (κ.toStr k) = some k) (enc : α → Json F) (dec : Json F → Res β) (R : β → α → Prop)
    (l : List (κ.K × α)) (h : ∀ p ∈ l, ∀ j : Json F, WF j → absJ j = absJ (enc p.2) → ∃ y, dec j = .ok y ∧ R y p.2) (j : Json F) (hw : WF j)
    (ha : absJ j = absJ (encPairs κ enc l)) :
    ∃ ys, decMap κ dec j = .ok ys ∧ (ys.map (·.1)).Nodup ∧ (∀ k, k ∈ ys.map (·.1) ↔ k ∈ l.map (·.1)) ∧
      ∀ k y x, (k, y) ∈ ys → (valsOf k l).getLast? = some x → R y x := by
  cases j with
  | object m =>
    have ha' : ∀ q, absMap m q = (l.filter (fun p => κ.toStr p.1 = q)).map (fun p => absJ (enc p.2)) := by
      simp only [encPairs, absJ, Val.obj.injEq] at ha
      intro q
      rw [ha, absMap_encPairs]; rfl
    have ent : ∀ q v r, (q, (v, r)) ∈ m → ∃ p ∈ l, κ.toStr p.1 = q ∧ (valsOf p.1 l).getLast? = some p.2 ∧ ∃ y, dec v = .ok y ∧ R y p.2 := by
      intro q v r hm
      have h1 := current_member hw.1 hm
      rw [ha', List.getLast?_map, Option.map_eq_some_iff] at h1
      obtain ⟨p, hp, h2⟩ := h1
      have hp' := List.mem_of_getLast? hp
      rw [List.mem_filter, decide_eq_true_eq] at hp'
      obtain ⟨y, hy⟩ := h p hp'.1 v (((WFMap_iff m).mp hw.2 _ _ _ hm).1) h2.symm
      refine ⟨p, hp'.1, hp'.2, ?_, y, hy⟩
      unfold valsOf
      rw [← filter_toStr κ hk, hp'.2, List.getLast?_map, hp]
      rfl
    obtain ⟨ys, h1, h2, h3, h4⟩ := decMap_read κ hk dec m hw.1 (by
      rintro ⟨q, v, r⟩ he
      obtain ⟨p, _, e, _, y, hy, _⟩ := ent q v r he
      exact ⟨⟨p.1, e⟩, y, hy⟩)
    refine ⟨ys, h1, h2, fun k => ?_, fun k y x hy hx => ?_⟩
    · rw [h3]
      constructor
      · rintro ⟨⟨q, v, r⟩, he, rfl⟩
        obtain ⟨p, hp, e, _⟩ := ent _ v r he
        exact List.mem_map.2 ⟨p, hp, toStr_inj κ hk _ _ e⟩
      · intro hm
        obtain ⟨p, hp, rfl⟩ := List.mem_map.1 hm
        refine has_member (fun he => ?_)
        rw [ha', List.map_eq_nil_iff, List.filter_eq_nil_iff] at he
        exact he p hp (by simp)
    · obtain ⟨v, r, h5, h6⟩ := h4 k y hy
      obtain ⟨p, hp, e, hl, y', h7, h8⟩ := ent _ v r h5
      rw [toStr_inj κ hk _ _ e] at hl
      rw [hl] at hx
      cases hx
      rw [h6] at h7
      cases h7
      exact h8
  | _ => cases ha

theorem abs_map_pairs {α : Type} (κ : KeyCodec) (hk : ∀ k, κ.fromStr (κ.toStr k) = some k) (enc : α → Json F) (l : List (κ.K × α)) (hn : (l.map (·.1)).Nodup) :
    absJ (encMap κ enc l) = absJ (encPairs κ enc l) := by
  simp only [encMap, encPairs, absJ, Val.obj.injEq]
  funext q
  rw [absMap_encMap κ enc (toStr_inj κ hk) l hn [] (fun _ _ => rfl), absMap_encPairs]

variable {P : Program F} {decl : P.N → Struct}

theorem tag_inj {i : P.ι} {l l' : List ((P.key i).K × P.Val)} (h : P.tag i l = P.tag i l') : l = l' := by
  rw [← untag_tag i l, h, untag_tag]

/-! ### Structs -/

/-- The members of a written struct. -/
theorem struct_members (hD : Declared P decl) {n' : P.N} {l : List (Str × P.Val)} (hl : l.map (·.1) = fieldNames (decl n'))
    (h : ∀ f ∈ (decl n').kept, ∀ x, (f.name, x) ∈ l → HasTy P decl (P.fieldTy n' f.name) x) {j : Json F} (hw : WF j) (ha : absJ j = absJ (P.enc (.named n') (.struct l))) :
    ∃ m, j = .object m ∧ (∀ f ∈ (decl n').kept, ∀ x, (f.name, x) ∈ l → ∃ v r, mapGet f.key m = some (v, r) ∧ WF v ∧ absJ v = absJ (P.enc (P.fieldTy n' f.name) x)) ∧
      (∀ q, q ∉ (decl n').kept.map Field.key → mapGet q m = none) ∧ ∀ e ∈ m, e.2.2 = [] := by
  rw [enc_struct hD hl h .null, encStruct_eq hD] at ha
  cases j with
  | object m =>
    simp only [absJ, Val.obj.injEq] at ha
    refine ⟨m, rfl, ?_, ?_, ?_⟩
    · intro f hf x hx
      have e3 : fieldOf l (.bool false) f.name = x := by
        unfold fieldOf
        rw [mapGet_mem_nodup _ _ _ (by rw [hl]; exact hD.names n') hx]; rfl
      have hg : mapGet f.key ((decl n').kept.map (fun f => (f.key, (P.enc (P.fieldTy n' f.name) (fieldOf l (.bool false) f.name), ([] : List (Json F)))))) =
          some (P.enc (P.fieldTy n' f.name) (fieldOf l (.bool false) f.name), []) := by
        apply mapGet_mem_nodup
        · rw [List.map_map]; exact hD.keys n'
        · exact List.mem_map.mpr ⟨f, hf, rfl⟩
      have h4 := mapGet_abs_last m f.key
      rw [ha, mapGet_abs_last, hg] at h4
      cases h5 : mapGet f.key m with
      | none => rw [h5] at h4; simp at h4
      | some e =>
        obtain ⟨v, rest⟩ := e
        rw [h5] at h4
        simp at h4
        rw [e3] at h4
        exact ⟨v, rest, rfl, ((WFMap_iff m).mp hw.2 _ _ _ (mapGet_mem h5)).1, h4.symm⟩
    · intro q hq
      have h1 : mapGet q ((decl n').kept.map (fun f => (f.key, (P.enc (P.fieldTy n' f.name) (fieldOf l (.bool false) f.name), ([] : List (Json F)))))) = none := by
        rw [mapGet_none_iff, List.map_map]
        exact hq
      have h4 := mapGet_abs_last m q
      rw [ha, mapGet_abs_last, h1] at h4
      cases h5 : mapGet q m with
      | none => rfl
      | some e => rw [h5] at h4; simp at h4
    · rintro ⟨q, v, r⟩ he
      have h1 := congrArg List.length (absMap_hist m q)
      rw [mapGet_mem_nodup _ _ _ hw.1 he, ha, absMap_hist] at h1
      cases h5 : mapGet q ((decl n').kept.map (fun f => (f.key, (P.enc (P.fieldTy n' f.name) (fieldOf l (.bool false) f.name), ([] : List (Json F)))))) with
      | none => rw [h5] at h1; simp [hist] at h1
      | some e =>
        obtain ⟨f, _, e'⟩ := List.mem_map.1 (mapGet_mem h5)
        cases e'
        rw [h5] at h1
        simp [hist] at h1
        cases r with
        | nil => rfl
        | cons a r => simp [absList] at h1
  | _ => cases ha

/-- Reading fields. -/
theorem readFields_all {dec : P.Ty → Json F → Res P.Val} {n : P.N} {m : Obj F} (Q : Field → P.Val → Prop) : ∀ fs : List Field,
    (∀ f ∈ fs, ∃ v r y, mapGet f.key m = some (v, r) ∧ dec (P.fieldTy n f.name) v = .ok y ∧ Q f y) →
    ∃ ys, readFields P dec n m fs = .ok ys ∧ ys.map (·.1) = fs.map Field.name ∧ ∀ f ∈ fs, ∃ y, (f.name, y) ∈ ys ∧ Q f y := by
  intro fs
  induction fs with
  | nil => intro _; exact ⟨[], rfl, rfl, by simp⟩
  | cons f fs ih =>
    intro h
    obtain ⟨ys, h1, h2, h3⟩ := ih (fun g hg => h g (by simp [hg]))
    obtain ⟨v, r, y, g1, g2, g3⟩ := h f (by simp)
    refine ⟨(f.name, y) :: ys, ?_, by simp [h2], ?_⟩
    · rw [readFields, g1]
      dsimp only
      rw [g2]
      dsimp only
      rw [h1]
    · intro g hg
      rcases List.mem_cons.1 hg with rfl | hg
      · exact ⟨y, by simp, g3⟩
      · obtain ⟨z, hz1, hz2⟩ := h3 g hg
        exact ⟨z, by simp [hz1], hz2⟩

/-! ### Together -/

theorem compat [LawfulCast F] (hD : Declared P decl) {R : P.N → P.N → Prop} (hE : Evolves P decl R) : ∀ (N : Nat) {t t' : P.Ty}, Compat P decl R t t' →
    ∀ x : P.Val, sizeOf x < N → HasTy P decl t' x → ∀ j : Json F, WF j → absJ j = absJ (P.enc t' x) → ∃ y, P.dec t j = .ok y ∧ View P decl t y t' x := by
  intro N
  induction N with
  | zero => intro t t' _ x h; omega
  | succ N IH =>
    intro t t' hc
    induction hc with
    | json t' => intro x _ _ j hw ha; exact ⟨.json j, rfl, .json hw ha⟩
    | string =>
      intro x _ hx j _ ha
      cases hx
      cases j with
      | string s' => cases ha; exact ⟨_, rfl, .string _⟩
      | _ => cases ha
    | bool =>
      intro x _ hx j _ ha
      cases hx
      cases j with
      | boolean s' => cases ha; exact ⟨_, rfl, .bool _⟩
      | _ => cases ha
    | f64 =>
      intro x _ hx j _ ha
      cases hx
      cases j with
      | number s' => cases ha; exact ⟨_, rfl, .f64 _⟩
      | _ => cases ha
    | f32 =>
      intro x _ hx j _ ha
      cases hx with
      | f32 s =>
      cases j with
      | number s' =>
        cases ha
        refine ⟨.f32 s, ?_, .f32 s⟩
        show Except.ok (NVal.f32 (FloatOps.narrow (FloatOps.widen s : F))) = _
        rw [LawfulCast.narrow_widen]
      | _ => cases ha
    | wider =>
      intro x _ hx j _ ha
      cases hx
      cases j with
      | number s' => cases ha; exact ⟨_, rfl, .wider _⟩
      | _ => cases ha
    | float =>
      intro x _ hx j _ ha
      cases hx
      cases j with
      | number s' => cases ha; exact ⟨_, rfl, .float _ _ _ _⟩
      | _ => cases ha
    | @int name name' lo hi lo' hi' g1 g2 =>
      intro x _ hx j _ ha
      cases hx with
      | @int _ _ _ n h1 h2 h3 h4 =>
      cases j with
      | number s' =>
        cases ha
        refine ⟨.int n, ?_, .int _ _ _ _ _ _ n⟩
        show Except.ok (NVal.int (FloatOps.toInt lo hi (FloatOps.ofInt n : F))) = _
        rw [LawfulCast.toInt_ofInt lo hi n (by omega) (by omega) h3 h4]
      | _ => cases ha
    | @vec t t' _ ih =>
      intro x hs hx j hw ha
      cases hx with
      | @vec _ l h =>
      rw [enc_vec hD h] at ha
      obtain ⟨ys, h1, h2⟩ := dec_enc_vec (P.enc t') (P.dec t) (fun y x => View P decl t y t' x) l
        (fun x hx j' hw' ha' => ih x (by have := size_vec hx; omega) (h x hx) j' hw' ha') j hw ha
      refine ⟨.vec ys, ?_, ?_⟩
      · rw [dec_vec hD, h1]; rfl
      · obtain ⟨h3, h4⟩ := allTwo_get h2
        exact .vec h3 h4
    | @some t t' hn _ ih =>
      intro x hs hx j hw ha
      obtain ⟨y, h1, h2⟩ := ih x hs hx j hw ha
      refine ⟨.option (some y), ?_, .some hn h2⟩
      rw [dec_option hD]
      cases j with
      | null => exact absurd ha.symm (neverNull hD hx hn)
      | _ => simp only [decOption, h1]; rfl
    | @option t t' hn _ ih =>
      intro x hs hx j hw ha
      cases hx with
      | none =>
        cases j with
        | null => exact ⟨.option none, rfl, .none t t'⟩
        | _ => cases ha
      | @some _ x hx =>
        rw [enc_some hD hx] at ha
        obtain ⟨y, h1, h2⟩ := ih x (by have := size_some (x := x); omega) hx j hw ha
        refine ⟨.option (some y), ?_, .option h2⟩
        rw [dec_option hD]
        cases j with
        | null => exact absurd ha.symm (neverNull hD hx hn)
        | _ => simp only [decOption, h1]; rfl
    | @pairs i t t' hk _ ih =>
      intro x hs hx j hw ha
      cases hx with
      | @pairs _ _ l h =>
      rw [enc_pairs hD h] at ha
      obtain ⟨ys, h1, h2⟩ := dec_enc_pairs (P.key i) (P.enc t') (P.dec t) (fun y x => View P decl t y t' x) hk l
        (fun p hp j' hw' ha' => ih p.2 (by have := size_entries hp; omega) (h p hp) j' hw' ha') j hw ha
      refine ⟨.entries (P.tag i ys), ?_, ?_⟩
      · rw [dec_pairs hD, h1]; rfl
      · exact .pairs (fun k => (allTwo_get (h2 k)).1) (fun k => (allTwo_get (h2 k)).2)
    | @map i t t' hk _ ih =>
      intro x hs hx j hw ha
      cases hx with
      | @map _ _ l hn h =>
      rw [enc_map hD h, abs_map_pairs _ hk _ _ hn] at ha
      obtain ⟨ys, h1, h2, h3, h4⟩ := dec_map_pairs (P.key i) hk (P.enc t') (P.dec t) (fun y x => View P decl t y t' x) l
        (fun p hp j' hw' ha' => ih p.2 (by have := size_entries hp; omega) (h p hp) j' hw' ha') j hw ha
      refine ⟨.entries (P.tag i ys), ?_, .map h2 h3 (fun k y x hy hx => h4 k y x hy ?_)⟩
      · rw [dec_map hD, h1]; rfl
      · rw [← hmGet_valsOf l hn, hmGet_of_mem hn hx]; rfl
    | @listed i t t' hk _ ih =>
      intro x hs hx j hw ha
      cases hx with
      | @map _ _ l hn h =>
      rw [enc_map hD h, abs_map_pairs _ hk _ _ hn] at ha
      obtain ⟨ys, h1, h2⟩ := dec_enc_pairs (P.key i) (P.enc t') (P.dec t) (fun y x => View P decl t y t' x) hk l
        (fun p hp j' hw' ha' => ih p.2 (by have := size_entries hp; omega) (h p hp) j' hw' ha') j hw ha
      have hlen : ∀ k, (valsOf k ys).length ≤ 1 := fun k => by
        rw [(allTwo_get (h2 k)).1, ← hmGet_valsOf l hn]
        cases hmGet k l <;> simp
      have hkey : ∀ k, k ∈ ys.map (·.1) ↔ k ∈ l.map (·.1) := fun k => by
        have key : ∀ l : List ((P.key i).K × P.Val), k ∈ l.map (·.1) ↔ 0 < (valsOf k l).length := by
          intro l
          unfold valsOf
          rw [List.length_map, List.length_pos_iff_exists_mem]
          constructor
          · intro hm
            obtain ⟨p, hp, rfl⟩ := List.mem_map.1 hm
            exact ⟨p, List.mem_filter.2 ⟨hp, by simp⟩⟩
          · rintro ⟨p, hp⟩
            rw [List.mem_filter, decide_eq_true_eq] at hp
            exact List.mem_map.2 ⟨p, hp.1, hp.2⟩
        rw [key, key, (allTwo_get (h2 k)).1]
      have hnd : ∀ ys : List ((P.key i).K × P.Val), (∀ k, (valsOf k ys).length ≤ 1) → (ys.map (·.1)).Nodup := by
        intro ys
        induction ys with
        | nil => intro _; simp
        | cons p ys ihy =>
          intro hlen
          rw [List.map_cons, List.nodup_cons]
          refine ⟨fun hm => ?_, ihy (fun k => ?_)⟩
          · obtain ⟨q, hq, e⟩ := List.mem_map.1 hm
            have := hlen p.1
            unfold valsOf at this
            rw [List.filter_cons, if_pos (by simp), List.length_map, List.length_cons] at this
            have h0 : 0 < (ys.filter (fun x => decide (x.1 = p.1))).length := List.length_pos_iff_exists_mem.2 ⟨q, List.mem_filter.2 ⟨hq, by simp [e]⟩⟩
            omega
          · have := hlen k
            unfold valsOf at this ⊢
            rw [List.filter_cons] at this
            by_cases hp : p.1 = k
            · rw [if_pos (by simp [hp]), List.map_cons, List.length_cons] at this; omega
            · rw [if_neg (by simp [hp])] at this; exact this
      have hys := hnd ys hlen
      refine ⟨.entries (P.tag i ys), ?_, .listed hys hkey (fun k y x hy hx => (allTwo_get (h2 k)).2 0 y x ?_ ?_)⟩
      · rw [dec_pairs hD, h1]; rfl
      · rw [← hmGet_valsOf ys hys, hmGet_of_mem hys hy]; rfl
      · rw [← hmGet_valsOf l hn, hmGet_of_mem hn hx]; rfl
    | @mapped i t t' hk _ ih =>
      intro x hs hx j hw ha
      cases hx with
      | @pairs _ _ l h =>
      rw [enc_pairs hD h] at ha
      obtain ⟨ys, h1, h2, h3, h4⟩ := dec_map_pairs (P.key i) hk (P.enc t') (P.dec t) (fun y x => View P decl t y t' x) l
        (fun p hp j' hw' ha' => ih p.2 (by have := size_entries hp; omega) (h p hp) j' hw' ha') j hw ha
      refine ⟨.entries (P.tag i ys), ?_, .mapped h2 h3 h4⟩
      rw [dec_map hD, h1]; rfl
    | @members i t n' hk hkeys _ ih =>
      intro x hs hx j hw ha
      cases hx with
      | @struct _ l hl h =>
      obtain ⟨m, rfl, hm1, hm2, _⟩ := struct_members hD hl h hw ha
      have ent : ∀ q v r, (q, (v, r)) ∈ m → ∃ f ∈ (decl n').kept, f.key = q ∧ ∀ x, (f.name, x) ∈ l → ∃ y, P.dec t v = .ok y ∧ View P decl t y (P.fieldTy n' f.name) x := by
        intro q v r hm
        have hg := mapGet_mem_nodup _ _ _ hw.1 hm
        by_cases hq : q ∈ (decl n').kept.map Field.key
        · obtain ⟨f, hf, rfl⟩ := List.mem_map.1 hq
          refine ⟨f, hf, rfl, fun x hx => ?_⟩
          obtain ⟨v', r', g1, g2, g3⟩ := hm1 f hf x hx
          rw [hg] at g1
          cases g1
          exact ih f hf x (by have := size_struct hx; omega) (h f hf x hx) v g2 g3
        · rw [hm2 q hq] at hg; cases hg
      have have_field : ∀ f ∈ (decl n').kept, ∃ x, (f.name, x) ∈ l := fun f hf => mem_of_name (hl ▸ kept_mem hf)
      obtain ⟨ys, h1, h2, h3, h4⟩ := decMap_read (P.key i) hk (P.dec t) m hw.1 (by
        rintro ⟨q, v, r⟩ he
        obtain ⟨f, hf, rfl, hx⟩ := ent q v r he
        obtain ⟨x, hx'⟩ := have_field f hf
        obtain ⟨y, hy, _⟩ := hx x hx'
        exact ⟨hkeys f hf, y, hy⟩)
      refine ⟨.entries (P.tag i ys), ?_, .members h2 ?_ ?_⟩
      · rw [dec_map hD, h1]; rfl
      · intro k
        rw [h3]
        constructor
        · rintro ⟨⟨q, v, r⟩, he, rfl⟩
          obtain ⟨f, hf, e, _⟩ := ent _ v r he
          exact ⟨f, hf, e⟩
        · rintro ⟨f, hf, e⟩
          obtain ⟨x, hx⟩ := have_field f hf
          obtain ⟨v, r, g1, _⟩ := hm1 f hf x hx
          exact ⟨_, mapGet_mem g1, e⟩
      · intro k y hy f hf e x hx
        obtain ⟨v, r, g1, g2⟩ := h4 k y hy
        obtain ⟨f', hf', e', g3⟩ := ent _ v r g1
        have : f' = f := List.inj_on_of_nodup_map (hD.keys n') hf' hf (e'.trans e.symm)
        subst this
        obtain ⟨y', g4, g5⟩ := g3 x hx
        rw [g2] at g4
        cases g4
        exact g5
    | @fields i t n' hk hkeys _ ih =>
      intro x hs hx j hw ha
      cases hx with
      | @struct _ l hl h =>
      obtain ⟨m, rfl, hm1, hm2, hm3⟩ := struct_members hD hl h hw ha
      have ent : ∀ q v r, (q, (v, r)) ∈ m → ∃ f ∈ (decl n').kept, f.key = q ∧ ∀ x, (f.name, x) ∈ l → ∃ y, P.dec t v = .ok y ∧ View P decl t y (P.fieldTy n' f.name) x := by
        intro q v r hm
        have hg := mapGet_mem_nodup _ _ _ hw.1 hm
        by_cases hq : q ∈ (decl n').kept.map Field.key
        · obtain ⟨f, hf, rfl⟩ := List.mem_map.1 hq
          refine ⟨f, hf, rfl, fun x hx => ?_⟩
          obtain ⟨v', r', g1, g2, g3⟩ := hm1 f hf x hx
          rw [hg] at g1
          cases g1
          exact ih f hf x (by have := size_struct hx; omega) (h f hf x hx) v g2 g3
        · rw [hm2 q hq] at hg; cases hg
      have have_field : ∀ f ∈ (decl n').kept, ∃ x, (f.name, x) ∈ l := fun f hf => mem_of_name (hl ▸ kept_mem hf)
      obtain ⟨ys, h1, h2, h3, h4⟩ := decPairs_read (P.key i) hk (P.dec t) m hw.1 hm3 (by
        rintro ⟨q, v, r⟩ he
        obtain ⟨f, hf, rfl, hx⟩ := ent q v r he
        obtain ⟨x, hx'⟩ := have_field f hf
        obtain ⟨y, hy, _⟩ := hx x hx'
        exact ⟨hkeys f hf, y, hy⟩)
      refine ⟨.entries (P.tag i ys), ?_, .fields h2 ?_ ?_⟩
      · rw [dec_pairs hD, h1]; rfl
      · intro k
        rw [h3]
        constructor
        · rintro ⟨⟨q, v, r⟩, he, rfl⟩
          obtain ⟨f, hf, e, _⟩ := ent _ v r he
          exact ⟨f, hf, e⟩
        · rintro ⟨f, hf, e⟩
          obtain ⟨x, hx⟩ := have_field f hf
          obtain ⟨v, r, g1, _⟩ := hm1 f hf x hx
          exact ⟨_, mapGet_mem g1, e⟩
      · intro k y hy f hf e x hx
        obtain ⟨v, r, g1, g2⟩ := h4 k y hy
        obtain ⟨f', hf', e', g3⟩ := ent _ v r g1
        have : f' = f := List.inj_on_of_nodup_map (hD.keys n') hf' hf (e'.trans e.symm)
        subst this
        obtain ⟨y', g4, g5⟩ := g3 x hx
        rw [g2] at g4
        cases g4
        exact g5
    | @named n n' hR =>
      intro x hs hx j hw ha
      cases hx with
      | @struct _ l hl h =>
      obtain ⟨m, rfl, hm1, _⟩ := struct_members hD hl h hw ha
      obtain ⟨ys, h1, h2, h3⟩ := readFields_all (dec := P.dec) (n := n) (m := m)
        (fun f y => ∀ f' ∈ (decl n').kept, f'.key = f.key → ∀ x, (f'.name, x) ∈ l → View P decl (P.fieldTy n f.name) y (P.fieldTy n' f'.name) x) (decl n).kept (by
          intro f hf
          obtain ⟨f', hf', e, hc⟩ := hE n n' hR f hf
          obtain ⟨x, hx⟩ := mem_of_name (hl ▸ kept_mem hf')
          obtain ⟨v, r, g1, g2, g3⟩ := hm1 f' hf' x hx
          obtain ⟨y, g4, g5⟩ := IH hc x (by have := size_struct hx; omega) (h f' hf' x hx) v g2 g3
          refine ⟨v, r, y, e ▸ g1, g4, ?_⟩
          intro f'' hf'' e'' x' hx'
          have : f'' = f' := List.inj_on_of_nodup_map (hD.keys n') hf'' hf' (e''.trans e.symm)
          subst this
          have e1 := mapGet_mem_nodup _ _ _ (by rw [hl]; exact hD.names n') hx
          have e2 := mapGet_mem_nodup _ _ _ (by rw [hl]; exact hD.names n') hx'
          rw [e1] at e2
          cases e2
          exact g5)
      refine ⟨.struct (ys ++ (decl n).ignored.map (fun f => (f.name, P.dflt n f.name))), ?_, ?_⟩
      · rw [dec_struct hD n _ (fail .ConvertError ""), decStruct_object hD, h1]; rfl
      · have hnames : (ys ++ (decl n).ignored.map (fun f => (f.name, P.dflt n f.name))).map (·.1) = fieldNames (decl n) := by
          unfold fieldNames
          rw [List.map_append, List.map_append, h2, List.map_map]; rfl
        refine .struct hnames (fun f hf f' hf' e y x hy hx => ?_) (fun f hf => List.mem_append.2 (.inr (List.mem_map.2 ⟨f, hf, rfl⟩)))
        obtain ⟨z, hz1, hz2⟩ := h3 f hf
        have hnd : ((ys ++ (decl n).ignored.map (fun f => (f.name, P.dflt n f.name))).map (·.1)).Nodup := by rw [hnames]; exact hD.names n
        have e1 := mapGet_mem_nodup _ _ _ hnd hy
        have e2 := mapGet_mem_nodup _ _ _ hnd (List.mem_append.2 (.inl hz1))
        rw [e1] at e2
        cases e2
        exact hz2 f' hf' e x hx

end RJ
