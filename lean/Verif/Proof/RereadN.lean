import Verif.Proof.Reread
import Verif.Proof.NestedDec
/-
  A value of a program's type that has been read from a document is written and read again.
-/
set_option linter.unusedSectionVars false
namespace RJ
open Spec

/-- The size of a document (the same measure for every type of floats). -/
noncomputable def jsz {F : Type} [FloatOps F] (j : Json F) : Nat := sizeOf j

variable {P : Program F64} {decl : P.N → Struct}

/-- Integers of Rust's types. -/
abbrev MaxInt (n : Int) : Prop := n.natAbs ≤ 2 ^ 128

theorem toInt_max {name : String} {lo hi : Int} (h : RustInt name lo hi) (f : F64) : MaxInt (toIntFl lo hi f) := by
  obtain ⟨_, _, z3, z4⟩ := zero_in h
  obtain ⟨h1, h2⟩ := toInt_range h f
  show Int.natAbs _ ≤ _
  generalize (2 : Nat) ^ 128 = B at *
  omega

/-! ### Fields -/

theorem readFields_parts {n : P.N} {m : Obj F64} : ∀ (fs : List Field) (l : List (Str × P.Val)), readFields P P.dec n m fs = .ok l →
    l.map (·.1) = fs.map Field.name ∧ ∀ p ∈ l, ∃ f ∈ fs, f.name = p.1 ∧ ∃ v r, mapGet f.key m = some (v, r) ∧ P.dec (P.fieldTy n f.name) v = .ok p.2 := by
  intro fs
  induction fs with
  | nil => intro l h; cases h; exact ⟨rfl, by simp⟩
  | cons f fs ih =>
    intro l h
    rw [readFields] at h
    cases hg : mapGet f.key m with
    | none => rw [hg] at h; cases h
    | some vr =>
      obtain ⟨v, r⟩ := vr
      rw [hg] at h
      dsimp only at h
      cases hd : P.dec (P.fieldTy n f.name) v with
      | error e => rw [hd] at h; cases h
      | ok x =>
        rw [hd] at h
        dsimp only at h
        cases hr : readFields P P.dec n m fs with
        | error e => rw [hr] at h; cases h
        | ok l' =>
          rw [hr] at h
          cases h
          obtain ⟨h1, h2⟩ := ih l' hr
          refine ⟨by simp [h1], ?_⟩
          intro p hp
          rcases List.mem_cons.1 hp with rfl | hp
          · exact ⟨f, by simp, rfl, v, r, hg, hd⟩
          · obtain ⟨g, hg, h3⟩ := h2 p hp
            exact ⟨g, by simp [hg], h3⟩

/-- A struct that was read: its fields are the kept ones read and the ignored ones at their defaults. -/
theorem dec_struct_parts (hD : Declared P decl) {n : P.N} {j : Json F64} {v : P.Val} (h : P.dec (.named n) j = .ok v) :
    ∃ (m : Obj F64) (l : List (Str × P.Val)), j = .object m ∧ v = .struct (l ++ (decl n).ignored.map (fun f => (f.name, P.dflt n f.name))) ∧
      (l ++ (decl n).ignored.map (fun f => (f.name, P.dflt n f.name))).map (·.1) = fieldNames (decl n) ∧
      ∀ f ∈ (decl n).kept, ∀ x, (f.name, x) ∈ l ++ (decl n).ignored.map (fun f => (f.name, P.dflt n f.name)) →
        ∃ u r, mapGet f.key m = some (u, r) ∧ P.dec (P.fieldTy n f.name) u = .ok x := by
  rw [dec_struct hD n j (fail .ConvertError "")] at h
  by_cases hj : ∃ m, j = .object m
  · obtain ⟨m, rfl⟩ := hj
    rw [decStruct_object hD] at h
    obtain ⟨l, hl, rfl⟩ := res_map_ok.1 h
    obtain ⟨h1, h2⟩ := readFields_parts _ _ hl
    have hnames : (l ++ (decl n).ignored.map (fun f => (f.name, P.dflt n f.name))).map (·.1) = fieldNames (decl n) := by
      unfold fieldNames
      rw [List.map_append, List.map_append, h1, List.map_map]; rfl
    refine ⟨m, l, rfl, rfl, hnames, ?_⟩
    intro f hf x hx
    have hnd : ((decl n).kept.map Field.name ++ (decl n).ignored.map Field.name).Nodup := by
      rw [← List.map_append]; exact hD.names n
    rw [List.nodup_append] at hnd
    rcases List.mem_append.1 hx with hx | hx
    · obtain ⟨g, hg, e, u, r, h3, h4⟩ := h2 _ hx
      have : g = f := List.inj_on_of_nodup_map hnd.1 hg hf e
      subst this
      exact ⟨u, r, h3, h4⟩
    · obtain ⟨g, hg, e⟩ := List.mem_map.1 hx
      have e : g.name = f.name := congrArg Prod.fst e
      exact absurd e.symm (hnd.2.2 _ (List.mem_map.2 ⟨f, hf, rfl⟩) _ (List.mem_map.2 ⟨g, hg, rfl⟩))
  · have hj' : ∀ m, j ≠ .object m := fun m h => hj ⟨m, h⟩
    rw [decStruct_other hD _ _ _ _ hj'] at h
    cases h

/-! ### What is read has the form of its type -/

theorem shaped_dec (hD : Declared P decl) (hU : ∀ n, ∀ f ∈ (decl n).kept, UsualN P (P.fieldTy n f.name)) :
    ∀ (N : Nat) (j : Json F64), jsz j < N → WF j → ∀ t : P.Ty, UsualN P t → ∀ v, P.dec t j = .ok v → Shaped P decl MaxInt t v := by
  intro N
  induction N with
  | zero => intro j h; omega
  | succ N IH =>
    intro j hj hw t
    have down : ∀ x : Json F64, WF x → jsz x < jsz j → ∀ t : P.Ty, UsualN P t → ∀ v, P.dec t x = .ok v → Shaped P decl MaxInt t v :=
      fun x hx hs => IH x (by omega) hx
    clear IH hj
    induction t with
    | json => intro _ v h; cases h; exact .json hw
    | string =>
      intro _ v h
      obtain ⟨a, _, rfl⟩ := res_map_ok.1 (show (decString j).map NVal.string = .ok v from h)
      exact .string a
    | bool =>
      intro _ v h
      obtain ⟨a, _, rfl⟩ := res_map_ok.1 (show (decBool j).map NVal.bool = .ok v from h)
      exact .bool a
    | f64 =>
      intro _ v h
      obtain ⟨a, _, rfl⟩ := res_map_ok.1 (show (decF64 j).map NVal.f64 = .ok v from h)
      exact .f64 a
    | f32 =>
      intro _ v h
      obtain ⟨a, _, rfl⟩ := res_map_ok.1 (show (decF32 j).map NVal.f32 = .ok v from h)
      exact .f32 a
    | int name lo hi =>
      intro hu v h
      obtain ⟨a, ha, rfl⟩ := res_map_ok.1 (show (decInt name lo hi j).map NVal.int = .ok v from h)
      cases j with
      | number f =>
        have hx : toIntFl lo hi f = a := Except.ok.inj ha
        exact .int (hx ▸ toInt_max hu f)
      | _ => cases ha
    | vec t _ =>
      intro hu v h
      rw [dec_vec hD] at h
      obtain ⟨l, hl, rfl⟩ := res_map_ok.1 h
      refine .vec (fun x hx => ?_)
      obtain ⟨u, hw, hs, hd⟩ := decVec_parts hl hw x hx
      exact down u hw hs t hu x hd
    | option t ih =>
      intro hu v h
      rw [dec_option hD] at h
      obtain ⟨o, ho, rfl⟩ := res_map_ok.1 h
      rcases decOption_cases ho with ⟨_, rfl⟩ | ⟨_, a, rfl, ha⟩
      · exact .none t
      · exact .some (ih hu a ha)
    | pairs i t _ =>
      intro hu v h
      rw [dec_pairs hD] at h
      obtain ⟨l, hl, rfl⟩ := res_map_ok.1 h
      refine .pairs (fun x hx => ?_)
      obtain ⟨u, ⟨hw, hs⟩, hd⟩ := decPairs_parts hl hw x hx
      exact down u hw hs t hu.2 _ hd
    | map i t _ =>
      intro hu v h
      rw [dec_map hD] at h
      obtain ⟨l, hl, rfl⟩ := res_map_ok.1 h
      refine .map (fun x hx => ?_)
      obtain ⟨u, ⟨hw, hs⟩, hd⟩ := decMap_parts hl hw x hx
      exact down u hw hs t hu.2 _ hd
    | named n =>
      intro _ v h
      obtain ⟨m, l, rfl, rfl, hn, hf⟩ := dec_struct_parts hD h
      refine .struct hn (fun f hk x hx => ?_)
      obtain ⟨u, r, hg, hd⟩ := hf f hk x hx
      exact down u ((WFMap_iff m).mp hw.2 _ _ _ (mapGet_mem hg)).1 (json_size_object (mapGet_mem hg)).1 _ (hU n f hk) _ hd

/-! ### Structs -/

theorem absMap_fields {fs : List Field} {e e' : Field → Json F64} (h : ∀ f ∈ fs, absJ (e f) = absJ (e' f)) :
    absMap (fs.map (fun f => (f.key, (e f, ([] : List (Json F64)))))) = absMap (fs.map (fun f => (f.key, (e' f, ([] : List (Json F64)))))) := by
  funext q
  induction fs with
  | nil => rfl
  | cons f fs ih =>
    rw [List.map_cons, List.map_cons]
    unfold absMap
    rw [h f (by simp), ih (fun g hg => h g (by simp [hg]))]

theorem struct_back (hD : Declared P decl) {n : P.N} {l : List (Str × P.Val)} {I : Int → Prop} (hl : l.map (·.1) = fieldNames (decl n))
    (h : ∀ f ∈ (decl n).kept, ∀ x, (f.name, x) ∈ l → Shaped P decl I (P.fieldTy n f.name) x) (R : P.Ty → P.Val → P.Val → Prop)
    (ih : ∀ f ∈ (decl n).kept, ∀ x, (f.name, x) ∈ l → ∀ j, WF j → absJ j = absJ (P.enc (P.fieldTy n f.name) x) →
      ∃ y, P.dec (P.fieldTy n f.name) j = .ok y ∧ R (P.fieldTy n f.name) x y) {j : Json F64} (hw : WF j) (ha : absJ j = absJ (P.enc (.named n) (.struct l))) :
    ∃ ys, P.dec (.named n) j = .ok (.struct (ys ++ (decl n).ignored.map (fun f => (f.name, P.dflt n f.name)))) ∧
      (ys ++ (decl n).ignored.map (fun f => (f.name, P.dflt n f.name))).map (·.1) = fieldNames (decl n) ∧
      ∀ f ∈ (decl n).kept, ∀ x y, (f.name, x) ∈ l → (f.name, y) ∈ ys ++ (decl n).ignored.map (fun f => (f.name, P.dflt n f.name)) → R (P.fieldTy n f.name) x y := by
  rw [enc_structS hD hl h .null, encStruct_eq hD] at ha
  cases j with
  | object m' =>
    simp only [absJ, Val.obj.injEq] at ha
    have key : ∀ fs : List Field, (∀ f ∈ fs, f ∈ (decl n).kept) → ∃ ys, readFields P P.dec n m' fs = .ok ys ∧ ys.map (·.1) = fs.map Field.name ∧
        ∀ f ∈ fs, ∃ y, (f.name, y) ∈ ys ∧ R (P.fieldTy n f.name) (fieldOf l (.bool false) f.name) y := by
      intro fs
      induction fs with
      | nil => intro _; exact ⟨[], rfl, rfl, by simp⟩
      | cons f fs ihf =>
        intro hm
        obtain ⟨ys, h1, h2, h3⟩ := ihf (fun g hg => hm g (by simp [hg]))
        have hf := hm f (by simp)
        have hg : mapGet f.key ((decl n).kept.map (fun f => (f.key, (P.enc (P.fieldTy n f.name) (fieldOf l (.bool false) f.name), ([] : List (Json F64)))))) =
            some (P.enc (P.fieldTy n f.name) (fieldOf l (.bool false) f.name), []) := by
          apply mapGet_mem_nodup
          · rw [List.map_map]; exact hD.keys n
          · exact List.mem_map.mpr ⟨f, hf, rfl⟩
        have h4 := mapGet_abs_last m' f.key
        rw [ha, mapGet_abs_last, hg] at h4
        cases h5 : mapGet f.key m' with
        | none => rw [h5] at h4; simp at h4
        | some e =>
          obtain ⟨v, rest⟩ := e
          rw [h5] at h4
          simp at h4
          obtain ⟨y, hy1, hy2⟩ := ih f hf _ (fieldOf_mem hD hl hf _) v (((WFMap_iff m').mp hw.2 _ _ _ (mapGet_mem h5)).1) h4.symm
          refine ⟨(f.name, y) :: ys, ?_, by simp [h2], ?_⟩
          · rw [readFields, h5]
            dsimp only
            rw [hy1]
            dsimp only
            rw [h1]
          · intro g hg
            rcases List.mem_cons.1 hg with rfl | hg
            · exact ⟨y, by simp, hy2⟩
            · obtain ⟨z, hz1, hz2⟩ := h3 g hg
              exact ⟨z, by simp [hz1], hz2⟩
    obtain ⟨ys, h1, h2, h3⟩ := key (decl n).kept (fun _ h => h)
    have hnames : (ys ++ (decl n).ignored.map (fun f => (f.name, P.dflt n f.name))).map (·.1) = fieldNames (decl n) := by
      unfold fieldNames
      rw [List.map_append, List.map_append, h2, List.map_map]; rfl
    refine ⟨ys, ?_, hnames, fun f hf x y hx hy => ?_⟩
    · rw [dec_struct hD n _ (fail .ConvertError ""), decStruct_object hD, h1]; rfl
    · obtain ⟨z, hz1, hz2⟩ := h3 f hf
      have hnd : ((ys ++ (decl n).ignored.map (fun f => (f.name, P.dflt n f.name))).map (·.1)).Nodup := by rw [hnames]; exact hD.names n
      have e1 := mapGet_mem_nodup _ _ _ hnd hy
      have e2 := mapGet_mem_nodup _ _ _ hnd (List.mem_append.2 (.inl hz1))
      rw [e1] at e2
      cases e2
      have e3 : fieldOf l (.bool false) f.name = x := by
        unfold fieldOf
        rw [mapGet_mem_nodup _ _ _ (by rw [hl]; exact hD.names n) hx]; rfl
      rw [← e3]; exact hz2
  | _ => cases ha

/-! ### Together -/

/-- All non-ignored fields have plain types. -/
def AllPlain (P : Program F64) (decl : P.N → Struct) : Prop := ∀ n, ∀ f ∈ (decl n).kept, PlainN (P.fieldTy n f.name)

theorem allTwo_eq {α : Type} {C : Prop} {R : α → α → Prop} : ∀ {l l' : List α}, AllTwo (fun a b => R a b ∧ (C → a = b)) l l' → C → l = l'
  | [], [], _, _ => rfl
  | a :: l, b :: l', ⟨h1, h2⟩, c => by rw [h1.2 c, allTwo_eq h2 c]
  | [], _ :: _, h, _ => h.elim
  | _ :: _, [], h, _ => h.elim

theorem fields_eq {α : Type} : ∀ {l l' : List (Str × α)}, l.map (·.1) = l'.map (·.1) → (l.map (·.1)).Nodup → (∀ k x y, (k, x) ∈ l → (k, y) ∈ l' → x = y) → l = l'
  | [], [], _, _, _ => rfl
  | (k, x) :: l, (k', y) :: l', h, hn, he => by
    rw [List.map_cons, List.map_cons, List.cons.injEq] at h
    rw [List.map_cons, List.nodup_cons] at hn
    have hk : k = k' := h.1
    subst hk
    rw [he k x y (by simp) (by simp), fields_eq h.2 hn.2 (fun k x y hx hy => he k x y (by simp [hx]) (by simp [hy]))]
  | [], _ :: _, h, _, _ => (nomatch h)
  | _ :: _, [], h, _, _ => (nomatch h)

/-- Read again from any document with the content that was written. -/
def Again (P : Program F64) (decl : P.N → Struct) (t : P.Ty) (v : P.Val) : Prop :=
  ∀ j' : Json F64, WF j' → absJ j' = absJ (P.enc t v) → ∃ y, P.dec t j' = .ok y ∧ Back P decl t v y ∧ absJ (P.enc t y) = absJ (P.enc t v) ∧ (AllPlain P decl → PlainN t → y = v)

theorem neverNullS (hD : Declared P decl) {I : Int → Prop} {t : P.Ty} {v : P.Val} (h : Shaped P decl I t v) (hn : NeverNullN t) : absJ (P.enc t v) ≠ .null := by
  cases h with
  | json _ | none _ | some _ => exact hn.elim
  | string _ | bool _ | f64 _ | f32 _ => intro h; cases h
  | int _ => intro h; cases h
  | vec h => rw [enc_vecS hD h]; intro h; cases h
  | pairs h => rw [enc_pairsS hD h]; intro h; cases h
  | map h => rw [enc_mapS hD h]; intro h; cases h
  | struct hl h => rw [enc_structS hD hl h .null, encStruct_eq hD]; intro h; cases h

theorem not_null (hD : Declared P decl) (hU : ∀ n, ∀ f ∈ (decl n).kept, UsualN P (P.fieldTy n f.name)) : ∀ (t : P.Ty), UsualN P t → ∀ (j : Json F64) (v : P.Val), WF j →
    P.dec t j = .ok v → j ≠ .null → absJ (P.enc t v) ≠ .null := by
  intro t
  induction t with
  | json =>
    intro _ j v _ h hj
    cases h
    cases j with
    | null => exact absurd rfl hj
    | _ => intro he; cases he
  | option t ih =>
    intro hu j v hw h hj
    rw [dec_option hD] at h
    obtain ⟨o, ho, rfl⟩ := res_map_ok.1 h
    rcases decOption_cases ho with ⟨e, _⟩ | ⟨_, a, rfl, ha⟩
    · exact absurd e hj
    · rw [enc_someS hD (shaped_dec hD hU _ j (Nat.lt_succ_self _) hw t hu a ha)]
      exact ih hu j a hw ha hj
  | _ =>
    intro hu j v hw h hj
    exact neverNullS hD (shaped_dec hD hU _ j (Nat.lt_succ_self _) hw _ hu v h) trivial

theorem rereadN (hD : Declared P decl) (hU : ∀ n, ∀ f ∈ (decl n).kept, UsualN P (P.fieldTy n f.name)) :
    ∀ (N : Nat) (j : Json F64), jsz j < N → WF j → ∀ t : P.Ty, UsualN P t → ∀ v, P.dec t j = .ok v → Again P decl t v := by
  have shape : ∀ {t : P.Ty} {j : Json F64} {v : P.Val}, UsualN P t → WF j → P.dec t j = .ok v → Shaped P decl MaxInt t v :=
    fun hu hw h => shaped_dec hD hU _ _ (Nat.lt_succ_self _) hw _ hu _ h
  intro N
  induction N with
  | zero => intro j h; omega
  | succ N IH =>
    intro j hj hw t
    have down : ∀ x : Json F64, WF x → jsz x < jsz j → ∀ t : P.Ty, UsualN P t → ∀ v, P.dec t x = .ok v → Again P decl t v :=
      fun x hx hs => IH x (by omega) hx
    clear IH hj
    induction t with
    | json => intro _ v h; cases h; exact fun j' _ ha => ⟨.json j', rfl, .json ha.symm, ha, fun _ h => h.elim⟩
    | string =>
      intro _ v h
      obtain ⟨a, _, rfl⟩ := res_map_ok.1 (show (decString j).map NVal.string = .ok v from h)
      intro j' _ ha
      cases j' with
      | string s => cases Val.str.inj ha; exact ⟨_, rfl, .string _, rfl, fun _ _ => rfl⟩
      | _ => cases ha
    | bool =>
      intro _ v h
      obtain ⟨a, _, rfl⟩ := res_map_ok.1 (show (decBool j).map NVal.bool = .ok v from h)
      intro j' _ ha
      cases j' with
      | boolean s => cases Val.bool.inj ha; exact ⟨_, rfl, .bool _, rfl, fun _ _ => rfl⟩
      | _ => cases ha
    | f64 =>
      intro _ v h
      obtain ⟨a, _, rfl⟩ := res_map_ok.1 (show (decF64 j).map NVal.f64 = .ok v from h)
      intro j' _ ha
      cases j' with
      | number s => cases Val.num.inj ha; exact ⟨_, rfl, .f64 _, rfl, fun _ _ => rfl⟩
      | _ => cases ha
    | f32 =>
      intro _ v h
      obtain ⟨a, _, rfl⟩ := res_map_ok.1 (show (decF32 j).map NVal.f32 = .ok v from h)
      intro j' _ ha
      cases j' with
      | number s =>
        cases ha
        have e : FloatOps.narrow (FloatOps.widen a : F64) = a := LawfulCast.narrow_widen a
        refine ⟨.f32 a, ?_, .f32 a, rfl, fun _ _ => rfl⟩
        show Except.ok (NVal.f32 (FloatOps.narrow (FloatOps.widen a : F64))) = _
        rw [e]
      | _ => cases ha
    | int name lo hi =>
      intro hu v h
      obtain ⟨a, ha, rfl⟩ := res_map_ok.1 (show (decInt name lo hi j).map NVal.int = .ok v from h)
      intro j' _ hj'
      cases j with
      | number f =>
        have hx : toIntFl lo hi f = a := Except.ok.inj ha
        cases j' with
        | number s =>
          cases hj'
          have e : toIntFl lo hi (ofIntFl b64 a) = a := by rw [← hx]; exact cast_stable hu f
          refine ⟨.int a, ?_, .int _ _ _ a, rfl, fun _ _ => rfl⟩
          show Except.ok (NVal.int (toIntFl lo hi (ofIntFl b64 a))) = _
          rw [e]
        | _ => cases hj'
      | _ => cases ha
    | vec t _ =>
      intro hu v h j' hw' ha
      rw [dec_vec hD] at h
      obtain ⟨l, hl, rfl⟩ := res_map_ok.1 h
      have hp := decVec_parts hl hw
      rw [enc_vecS hD (fun x hx => by obtain ⟨u, hw, _, hd⟩ := hp x hx; exact shape hu hw hd)] at ha ⊢
      obtain ⟨ys, h1, h2⟩ := dec_enc_vec (P.enc t) (P.dec t) (fun y x => (Back P decl t x y ∧ EncEq (P.enc t) y x) ∧ (AllPlain P decl ∧ PlainN t → y = x)) l (fun x hx j hw' ha' => by
        obtain ⟨u, hw, hs, hd⟩ := hp x hx
        obtain ⟨y, g1, g2, g3, g4⟩ := down u hw hs t hu x hd j hw' ha'
        exact ⟨y, g1, ⟨g2, g3⟩, fun c => g4 c.1 c.2⟩) j' hw' ha
      have hd : P.dec (.vec t) j' = .ok (.vec ys) := by rw [dec_vec hD, h1]; rfl
      refine ⟨.vec ys, hd, ?_, ?_, fun h1 h3 => congrArg NVal.vec (allTwo_eq h2 ⟨h1, h3⟩)⟩
      · obtain ⟨h3, h4⟩ := allTwo_get (allTwo_left (allTwo_left h2).1).1
        exact .vec h3.symm (fun a x y hx hy => h4 a y x hy hx)
      · have hs := shape (t := .vec t) hu hw' hd
        cases hs with
        | vec hs => rw [enc_vecS hD hs]; exact abs_encVec (allTwo_left (allTwo_left h2).1).2
    | option t ih =>
      intro hu v h
      rw [dec_option hD] at h
      obtain ⟨o, ho, rfl⟩ := res_map_ok.1 h
      rcases decOption_cases ho with ⟨rfl, rfl⟩ | ⟨hj, a, rfl, ha⟩
      · intro j' _ ha
        cases j' with
        | null => exact ⟨.option none, rfl, .none t, rfl, fun _ _ => rfl⟩
        | _ => cases ha
      · intro j' hw' he
        rw [enc_someS hD (shape (t := t) hu hw ha)] at he ⊢
        obtain ⟨y, h1, h2, h3, h4⟩ := ih hu a ha j' hw' he
        refine ⟨.option (some y), ?_, .some h2, ?_, fun g1 g2 => by rw [h4 g1 g2]⟩
        · have hn : j' ≠ .null := by
            rintro rfl
            exact not_null hD hU t hu j a hw ha hj he.symm
          rw [dec_option hD, decOption_some hn h1]; rfl
        · rw [enc_someS hD (shape (t := t) hu hw' h1)]; exact h3
    | pairs i t _ =>
      intro hu v h j' hw' ha
      rw [dec_pairs hD] at h
      obtain ⟨l, hl, rfl⟩ := res_map_ok.1 h
      have hp := decPairs_parts hl hw
      rw [enc_pairsS hD (fun x hx => by obtain ⟨u, ⟨hw, _⟩, hd⟩ := hp x hx; exact shape hu.2 hw hd)] at ha ⊢
      obtain ⟨ys, h1, h2⟩ := dec_enc_pairs (P.key i) (P.enc t) (P.dec t) (fun y x => (Back P decl t x y ∧ EncEq (P.enc t) y x) ∧ (AllPlain P decl ∧ PlainN t → y = x)) hu.1 l (fun x hx j hw' ha' => by
        obtain ⟨u, ⟨hw, hs⟩, hd⟩ := hp x hx
        obtain ⟨y, g1, g2, g3, g4⟩ := down u hw hs t hu.2 x.2 hd j hw' ha'
        exact ⟨y, g1, ⟨g2, g3⟩, fun c => g4 c.1 c.2⟩) j' hw' ha
      have hd : P.dec (.pairs i t) j' = .ok (.entries (P.tag i ys)) := by rw [dec_pairs hD, h1]; rfl
      refine ⟨_, hd, ?_, ?_, fun _ h => h.elim⟩
      · exact .pairs (fun k => (allTwo_get (allTwo_left (allTwo_left (h2 k)).1).1).1.symm) (fun k a x y hx hy => (allTwo_get (allTwo_left (allTwo_left (h2 k)).1).1).2 a y x hy hx)
      · rw [enc_pairsS hD (fun x hx => by obtain ⟨u, ⟨hw, _⟩, hd⟩ := decPairs_parts h1 hw' x hx; exact shape hu.2 hw hd)]
        exact abs_encPairs hu.1 (fun k => (allTwo_left (allTwo_left (h2 k)).1).2)
    | map i t _ =>
      intro hu v h j' hw' ha
      rw [dec_map hD] at h
      obtain ⟨l, hl, rfl⟩ := res_map_ok.1 h
      have hp := decMap_parts hl hw
      have hn := decMap_nodup hl
      rw [enc_mapS hD (fun x hx => by obtain ⟨u, ⟨hw, _⟩, hd⟩ := hp x hx; exact shape hu.2 hw hd)] at ha ⊢
      obtain ⟨ys, h1, h2⟩ := dec_enc_map (P.key i) (P.enc t) (P.dec t) (fun y x => (Back P decl t x y ∧ EncEq (P.enc t) y x) ∧ (AllPlain P decl ∧ PlainN t → y = x)) hu.1 l hn (fun x hx j hw' ha' => by
        obtain ⟨u, ⟨hw, hs⟩, hd⟩ := hp x hx
        obtain ⟨y, g1, g2, g3, g4⟩ := down u hw hs t hu.2 x.2 hd j hw' ha'
        exact ⟨y, g1, ⟨g2, g3⟩, fun c => g4 c.1 c.2⟩) j' hw' ha
      have hd : P.dec (.map i t) j' = .ok (.entries (P.tag i ys)) := by rw [dec_map hD, h1]; rfl
      have hys := decMap_nodup h1
      refine ⟨_, hd, ?_, ?_, fun _ h => h.elim⟩
      · refine .map hys (fun k => ?_) (fun k x y hx hy => ?_)
        · rw [← hmGet_isSome, ← hmGet_isSome, (optTwo_flip (h2 k)).1]
        · exact ((optTwo_flip (h2 k)).2 y x (hmGet_of_mem hys hy) (hmGet_of_mem hn hx)).1.1
      · rw [enc_mapS hD (fun x hx => by obtain ⟨u, ⟨hw, _⟩, hd⟩ := decMap_parts h1 hw' x hx; exact shape hu.2 hw hd)]
        exact abs_encMap hu.1 hys hn (fun k => (optTwo_left (optTwo_left (h2 k)).1).2)
    | named n =>
      intro hu v h j' hw' ha
      obtain ⟨m, l, rfl, rfl, hn, hf⟩ := dec_struct_parts hD h
      have hig : ∀ f ∈ (decl n).ignored, (f.name, P.dflt n f.name) ∈ l ++ (decl n).ignored.map (fun f => (f.name, P.dflt n f.name)) := fun f hk =>
        List.mem_append.2 (.inr (List.mem_map.2 ⟨f, hk, rfl⟩))
      generalize l ++ (decl n).ignored.map (fun f => (f.name, P.dflt n f.name)) = L at *
      have hwf : ∀ f u r, mapGet f m = some (u, r) → WF u ∧ jsz u < jsz (Json.object m) := fun f u r hg =>
        ⟨((WFMap_iff m).mp hw.2 _ _ _ (mapGet_mem hg)).1, (json_size_object (mapGet_mem hg)).1⟩
      have hs : ∀ f ∈ (decl n).kept, ∀ x, (f.name, x) ∈ L → Shaped P decl MaxInt (P.fieldTy n f.name) x := fun f hk x hx => by
        obtain ⟨u, r, hg, hd⟩ := hf f hk x hx
        exact shape (hU n f hk) (hwf _ _ _ hg).1 hd
      obtain ⟨ys, h1, h2, h3⟩ := struct_back hD hn hs (fun t x y => (Back P decl t x y ∧ EncEq (P.enc t) y x) ∧ (AllPlain P decl ∧ PlainN t → y = x)) (fun f hk x hx j hw' ha' => by
        obtain ⟨u, r, hg, hd⟩ := hf f hk x hx
        obtain ⟨y, g1, g2, g3, g4⟩ := down u (hwf _ _ _ hg).1 (hwf _ _ _ hg).2 _ (hU n f hk) x hd j hw' ha'
        exact ⟨y, g1, ⟨g2, g3⟩, fun c => g4 c.1 c.2⟩) hw' ha
      refine ⟨_, h1, ?_, ?_, fun hap _ => congrArg NVal.struct (fields_eq (h2.trans hn.symm) (by rw [h2]; exact hD.names n) ?_)⟩
      · exact .struct hn h2 (fun f hk x y hx hy => (h3 f hk x y hx hy).1.1) (fun f hk => List.mem_append.2 (.inr (List.mem_map.2 ⟨f, hk, rfl⟩)))
      · obtain ⟨_, l2, _, e2, _, hf2⟩ := dec_struct_parts hD h1
        have hs2 := shape (t := .named n) hu hw' h1
        cases hs2 with
        | struct g1 g2 =>
          rw [enc_structS hD g1 g2 .null, enc_structS hD hn hs .null, encStruct_eq hD, encStruct_eq hD]
          simp only [absJ, Val.obj.injEq]
          exact absMap_fields (fun f hk => (h3 f hk _ _ (fieldOf_mem hD hn hk _) (fieldOf_mem hD h2 hk _)).1.2)
      · intro k y x hy hx
        have hk : k ∈ fieldNames (decl n) := hn ▸ List.mem_map.2 ⟨_, hx, rfl⟩
        unfold fieldNames at hk
        obtain ⟨f, hf', rfl⟩ := List.mem_map.1 hk
        rcases List.mem_append.1 hf' with hf' | hf'
        · exact (h3 f hf' x y hx hy).2 ⟨hap, hap n f hf'⟩
        · have e1 := mapGet_mem_nodup _ _ _ (by rw [h2]; exact hD.names n) hy
          have e2 := mapGet_mem_nodup _ _ _ (by rw [h2]; exact hD.names n) (List.mem_append.2 (.inr (List.mem_map.2 ⟨f, hf', rfl⟩)) : (f.name, P.dflt n f.name) ∈ ys ++ _)
          have e3 := mapGet_mem_nodup _ _ _ (by rw [hn]; exact hD.names n) hx
          have e4 := mapGet_mem_nodup _ _ _ (by rw [hn]; exact hD.names n) (hig f hf')
          rw [e1] at e2
          rw [e3] at e4
          rw [Option.some.inj e2, Option.some.inj e4]

end RJ
