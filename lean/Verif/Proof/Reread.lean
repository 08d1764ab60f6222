import Verif.Proof.CastStable
import Verif.Proof.HashOrder
/-
  A value that has been read from a document is written and read again.
-/
set_option linter.unusedSectionVars false
namespace RJ
open Spec

/-! ### Equal contents of encodings -/

section
variable {F : Type} [FloatOps F] {α : Type} {κ : KeyCodec} {enc : α → Json F}

/-- Encodings with the same content. -/
abbrev EncEq (enc : α → Json F) (y x : α) : Prop := absJ (enc y) = absJ (enc x)

theorem allTwo_encs {l l' : List α} (h : AllTwo (EncEq enc) l l') : l.map (fun a => absJ (enc a)) = l'.map (fun a => absJ (enc a)) := by
  induction l generalizing l' with
  | nil => cases l' with
    | nil => rfl
    | cons => exact h.elim
  | cons a l ih => cases l' with
    | nil => exact h.elim
    | cons b l' => rw [List.map_cons, List.map_cons, h.1, ih h.2]

theorem abs_encVec {l l' : List α} (h : AllTwo (EncEq enc) l l') : absJ (encVec enc l) = absJ (encVec enc l') := by
  simp only [encVec, absJ, Val.arr.injEq, absList_eq, List.map_map]
  exact allTwo_encs h

/-- The values under a name are those of the key the name stands for. -/
theorem vals_at (hk : ∀ k, κ.fromStr (κ.toStr k) = some k) {l l' : List (κ.K × α)} (h : ∀ k, AllTwo (EncEq enc) (valsOf k l) (valsOf k l')) (q : Str) :
    (l.filter (fun p => κ.toStr p.1 = q)).map (fun p => absJ (enc p.2)) = (l'.filter (fun p => κ.toStr p.1 = q)).map (fun p => absJ (enc p.2)) := by
  have at_key : ∀ k, (l.filter (fun p => κ.toStr p.1 = κ.toStr k)).map (fun p => absJ (enc p.2)) = (l'.filter (fun p => κ.toStr p.1 = κ.toStr k)).map (fun p => absJ (enc p.2)) := by
    intro k
    rw [filter_toStr κ hk, filter_toStr κ hk]
    have := allTwo_encs (h k)
    simpa [valsOf, List.map_map, Function.comp_def] using this
  by_cases hq : ∃ k, κ.toStr k = q
  · obtain ⟨k, rfl⟩ := hq
    exact at_key k
  · have none : ∀ l : List (κ.K × α), l.filter (fun p => κ.toStr p.1 = q) = [] := by
      intro l
      rw [List.filter_eq_nil_iff]
      intro p _ hp
      exact hq ⟨p.1, by simpa using hp⟩
    rw [none l, none l']

theorem abs_encPairs (hk : ∀ k, κ.fromStr (κ.toStr k) = some k) {l l' : List (κ.K × α)} (h : ∀ k, AllTwo (EncEq enc) (valsOf k l) (valsOf k l')) :
    absJ (encPairs κ enc l) = absJ (encPairs κ enc l') := by
  simp only [encPairs, absJ, Val.obj.injEq]
  funext q
  rw [absMap_encPairs, absMap_encPairs, vals_at hk h]

theorem abs_encMap (hk : ∀ k, κ.fromStr (κ.toStr k) = some k) {l l' : List (κ.K × α)} (hn : (l.map (·.1)).Nodup) (hn' : (l'.map (·.1)).Nodup)
    (h : ∀ k, OptTwo (EncEq enc) (hmGet k l) (hmGet k l')) : absJ (encMap κ enc l) = absJ (encMap κ enc l') := by
  simp only [encMap, absJ, Val.obj.injEq]
  funext q
  rw [absMap_encMap κ enc (toStr_inj κ hk) l hn [] (fun _ _ => rfl), absMap_encMap κ enc (toStr_inj κ hk) l' hn' [] (fun _ _ => rfl)]
  refine congrArg _ (vals_at hk (fun k => ?_) q)
  have h1 := hmGet_valsOf l hn k
  have h2 := hmGet_valsOf l' hn' k
  rw [← h1, ← h2]
  have h3 := h k
  revert h3
  cases hmGet k l <;> cases hmGet k l'
  · intro _; trivial
  · exact fun h => h.elim
  · exact fun h => h.elim
  · exact fun h => ⟨h, trivial⟩

theorem allTwo_left {β : Type} {R S : α → β → Prop} {l : List α} {l' : List β} (h : AllTwo (fun a b => R a b ∧ S a b) l l') : AllTwo R l l' ∧ AllTwo S l l' := by
  induction l generalizing l' with
  | nil => cases l' with
    | nil => exact ⟨trivial, trivial⟩
    | cons => exact h.elim
  | cons a l ih => cases l' with
    | nil => exact h.elim
    | cons b l' => exact ⟨⟨h.1.1, (ih h.2).1⟩, ⟨h.1.2, (ih h.2).2⟩⟩

theorem optTwo_left {β : Type} {R S : α → β → Prop} {l : Option α} {l' : Option β} (h : OptTwo (fun a b => R a b ∧ S a b) l l') : OptTwo R l l' ∧ OptTwo S l l' := by
  cases l <;> cases l'
  · exact ⟨trivial, trivial⟩
  · exact h.elim
  · exact h.elim
  · exact ⟨h.1, h.2⟩

/-! ### Where the parts come from -/

theorem decVec_parts {dec : Json F → Res α} {j : Json F} {l : List α} (h : decVec dec j = .ok l) (hw : WF j) : ∀ x ∈ l, ∃ v, WF v ∧ sizeOf v < sizeOf j ∧ dec v = .ok x := by
  cases j with
  | array vs =>
    have h : collect (vs.map dec) = .ok l := h
    rw [collect_ok] at h
    intro x hx
    have : (Except.ok x : Res α) ∈ vs.map dec := by rw [h]; exact List.mem_map.2 ⟨x, hx, rfl⟩
    obtain ⟨v, hv, e⟩ := List.mem_map.1 this
    exact ⟨v, (wf_array_iff vs).mp hw v hv, json_size_array hv, e⟩
  | _ => cases h

theorem member_parts {dec : Json F → Res α} {rs : List (Res (κ.K × α))} {l : List (κ.K × α)} (h : collect rs = .ok l) {Q : Json F → Prop}
    (hr : ∀ r ∈ rs, ∃ k v, Q v ∧ r = decMember κ dec k v) : ∀ p ∈ l, ∃ v, Q v ∧ dec v = .ok p.2 := by
  rw [collect_ok] at h
  intro p hp
  have : (Except.ok p : Res (κ.K × α)) ∈ rs := by rw [h]; exact List.mem_map.2 ⟨p, hp, rfl⟩
  obtain ⟨k, v, hv, e⟩ := hr _ this
  refine ⟨v, hv, ?_⟩
  unfold decMember at e
  cases hk : κ.fromStr k with
  | none => rw [hk] at e; cases e
  | some k' =>
    rw [hk] at e
    dsimp only at e
    cases hd : dec v with
    | error _ => rw [hd] at e; cases e
    | ok y => rw [hd] at e; cases e; rfl

theorem decPairs_parts {dec : Json F → Res α} {j : Json F} {l : List (κ.K × α)} (h : decPairs κ dec j = .ok l) (hw : WF j) :
    ∀ p ∈ l, ∃ v, (WF v ∧ sizeOf v < sizeOf j) ∧ dec v = .ok p.2 := by
  cases j with
  | object m =>
    refine member_parts (Q := fun v => WF v ∧ sizeOf v < sizeOf (Json.object m)) (h : collect _ = _) ?_
    intro r hr
    obtain ⟨e, he, hr⟩ := List.mem_flatMap.1 hr
    obtain ⟨v, hv, rfl⟩ := List.mem_map.1 hr
    obtain ⟨w1, w2⟩ := (WFMap_iff m).mp hw.2 _ _ _ he
    obtain ⟨s1, s2⟩ := json_size_object he
    refine ⟨e.1, v, ?_, rfl⟩
    rcases List.mem_append.1 hv with hv | hv
    · exact ⟨w2 v (List.mem_reverse.1 hv), s2 v (List.mem_reverse.1 hv)⟩
    · rw [List.mem_singleton.1 hv]; exact ⟨w1, s1⟩
  | _ => cases h

theorem hmInsert_mem {K : Type} [DecidableEq K] {k : K} {v : α} {m : List (K × α)} {p : K × α} (h : p ∈ hmInsert k v m) : p = (k, v) ∨ p ∈ m := by
  induction m with
  | nil => exact .inl (by simpa [hmInsert] using h)
  | cons q m ih =>
    obtain ⟨k', v'⟩ := q
    rw [hmInsert] at h
    by_cases hk : k' = k
    · rw [if_pos hk] at h
      rcases List.mem_cons.1 h with h | h
      · exact .inl (by rw [h, hk])
      · exact .inr (List.mem_cons_of_mem _ h)
    · rw [if_neg hk] at h
      rcases List.mem_cons.1 h with h | h
      · exact .inr (by rw [h]; simp)
      · rcases ih h with h | h
        · exact .inl h
        · exact .inr (List.mem_cons_of_mem _ h)

theorem hm_foldl_mem {K : Type} [DecidableEq K] {l m : List (K × α)} {p : K × α} (h : p ∈ l.foldl (fun m p => hmInsert p.1 p.2 m) m) : p ∈ l ∨ p ∈ m := by
  induction l generalizing m with
  | nil => exact .inr h
  | cons q l ih =>
    rw [List.foldl_cons] at h
    rcases ih h with h | h
    · exact .inl (List.mem_cons_of_mem _ h)
    · rcases hmInsert_mem h with h | h
      · exact .inl (by rw [h]; simp)
      · exact .inr h

theorem decMap_parts {dec : Json F → Res α} {j : Json F} {l : List (κ.K × α)} (h : decMap κ dec j = .ok l) (hw : WF j) :
    ∀ p ∈ l, ∃ v, (WF v ∧ sizeOf v < sizeOf j) ∧ dec v = .ok p.2 := by
  cases j with
  | object m =>
    unfold decMap at h
    dsimp only at h
    cases hc : collect (m.map (fun e => decMember κ dec e.1 e.2.1)) with
    | error e => rw [hc] at h; cases h
    | ok l0 =>
      rw [hc] at h
      cases h
      intro p hp
      rcases hm_foldl_mem hp with hp | hp
      · refine member_parts (Q := fun v => WF v ∧ sizeOf v < sizeOf (Json.object m)) hc ?_ p hp
        intro r hr
        obtain ⟨e, he, rfl⟩ := List.mem_map.1 hr
        exact ⟨e.1, e.2.1, ⟨((WFMap_iff m).mp hw.2 _ _ _ he).1, (json_size_object he).1⟩, rfl⟩
      · cases hp
  | _ => cases h

theorem decOption_cases {dec : Json F → Res α} {j : Json F} {o : Option α} (h : decOption dec j = .ok o) : (j = .null ∧ o = none) ∨ (j ≠ .null ∧ ∃ a, o = some a ∧ dec j = .ok a) := by
  unfold decOption at h
  split at h
  · cases h; exact .inl ⟨rfl, rfl⟩
  · rename_i hj
    refine .inr ⟨hj, ?_⟩
    cases hd : dec j with
    | error e => rw [hd] at h; cases h
    | ok a => rw [hd] at h; cases h; exact ⟨a, rfl, rfl⟩

theorem decOption_some {dec : Json F → Res α} {j : Json F} {a : α} (hn : j ≠ .null) (h : dec j = .ok a) : decOption dec j = .ok (some a) := by
  unfold decOption
  split
  · exact absurd rfl hn
  · rw [h]

end

/-! ### The built-in types -/

/-- What is read from something but `null` is not written as `null`. -/
theorem read_not_null (t : Ty) : ∀ (j : Json F64) (x : t.T F64), t.dec j = .ok x → j ≠ .null → absJ (t.enc x) ≠ .null := by
  induction t with
  | json =>
    intro j x h hj
    cases h
    cases j <;> simp [Ty.enc, encJson, absJ] at hj ⊢
  | option t ih =>
    intro j x h hj
    rcases decOption_cases h with ⟨e, _⟩ | ⟨_, a, rfl, ha⟩
    · exact absurd e hj
    · exact ih j a ha hj
  | _ => intro j x h hj he; cases he

theorem reread (t : Ty) (hu : Usual t) : ∀ (j : Json F64) (x : t.T F64), WF j → t.dec j = .ok x →
    WF (t.enc x) ∧ ∀ j' : Json F64, WF j' → absJ j' = absJ (t.enc x) → ∃ y, t.dec j' = .ok y ∧ Same t y x ∧ absJ (t.enc y) = absJ (t.enc x) := by
  induction t with
  | json =>
    intro j x hw h
    cases h
    exact ⟨hw, fun j' _ ha => ⟨j', rfl, ha, ha⟩⟩
  | string =>
    intro j x hw h
    refine ⟨trivial, fun j' hw' ha => ?_⟩
    cases j' with
    | string s => cases Val.str.inj ha; exact ⟨_, rfl, rfl, rfl⟩
    | _ => cases ha
  | bool =>
    intro j x hw h
    refine ⟨trivial, fun j' hw' ha => ?_⟩
    cases j' with
    | boolean s => cases Val.bool.inj ha; exact ⟨_, rfl, rfl, rfl⟩
    | _ => cases ha
  | f64 =>
    intro j x hw h
    refine ⟨trivial, fun j' hw' ha => ?_⟩
    cases j' with
    | number s => cases Val.num.inj ha; exact ⟨_, rfl, rfl, rfl⟩
    | _ => cases ha
  | f32 =>
    intro j x hw h
    refine ⟨trivial, fun j' hw' ha => ?_⟩
    cases j' with
    | number s =>
      cases ha
      have e : FloatOps.narrow (FloatOps.widen x : F64) = x := LawfulCast.narrow_widen x
      exact ⟨_, rfl, e, by show absJ (encF32 (FloatOps.narrow (FloatOps.widen x : F64))) = _; rw [e]; rfl⟩
    | _ => cases ha
  | int name lo hi =>
    intro j x hw h
    refine ⟨trivial, fun j' hw' ha => ?_⟩
    cases j with
    | number f =>
      have hx : toIntFl lo hi f = x := Except.ok.inj h
      cases j' with
      | number s =>
        cases ha
        have e : toIntFl lo hi (ofIntFl b64 x) = x := by rw [← hx]; exact cast_stable hu f
        exact ⟨_, rfl, e, by show absJ (encInt (toIntFl lo hi (ofIntFl b64 x))) = _; rw [e]; rfl⟩
      | _ => cases ha
    | _ => cases h
  | vec t ih =>
    intro j x hw h
    have hp := decVec_parts h hw
    refine ⟨?_, fun j' hw' ha => ?_⟩
    · refine (wf_array_iff _).mpr ?_
      intro y hy
      obtain ⟨a, ha, rfl⟩ := List.mem_map.mp hy
      obtain ⟨v, hv, _, hd⟩ := hp a ha
      exact (ih hu v a hv hd).1
    · obtain ⟨ys, h1, h2⟩ := dec_enc_vec t.enc t.dec (fun y x => Same t y x ∧ EncEq t.enc y x) x (fun a hm j hw ha => by
        obtain ⟨v, hv, _, hd⟩ := hp a hm
        exact (ih hu v a hv hd).2 j hw ha) j' hw' ha
      exact ⟨ys, h1, (allTwo_left h2).1, abs_encVec (allTwo_left h2).2⟩
  | option t ih =>
    intro j x hw h
    rcases decOption_cases h with ⟨rfl, rfl⟩ | ⟨hj, a, rfl, ha⟩
    · refine ⟨trivial, fun j' hw' ha => ?_⟩
      cases j' with
      | null => exact ⟨none, rfl, trivial, rfl⟩
      | _ => cases ha
    · refine ⟨(ih hu j a hw ha).1, fun j' hw' he => ?_⟩
      obtain ⟨y, h1, h2, h3⟩ := (ih hu j a hw ha).2 j' hw' he
      refine ⟨some y, ?_, h2, h3⟩
      have hn : j' ≠ .null := by
        rintro rfl
        exact read_not_null t j a ha hj he.symm
      exact decOption_some hn h1
  | pairs κ t ih =>
    intro j x hw h
    have hp := decPairs_parts h hw
    refine ⟨wf_encPairs κ _ _ (fun p hm => ?_) [] wf_nil, fun j' hw' ha => ?_⟩
    · obtain ⟨v, ⟨hv, _⟩, hd⟩ := hp p hm
      exact (ih hu.2 v _ hv hd).1
    · obtain ⟨ys, h1, h2⟩ := dec_enc_pairs κ t.enc t.dec (fun y x => Same t y x ∧ EncEq t.enc y x) hu.1 x (fun p hm j hw ha => by
        obtain ⟨v, ⟨hv, _⟩, hd⟩ := hp p hm
        exact (ih hu.2 v _ hv hd).2 j hw ha) j' hw' ha
      exact ⟨ys, h1, fun k => (allTwo_left (h2 k)).1, abs_encPairs hu.1 (fun k => (allTwo_left (h2 k)).2)⟩
  | map κ t ih =>
    intro j x hw h
    have hp := decMap_parts h hw
    have hn := decMap_nodup h
    refine ⟨wf_encMap κ _ _ (fun p hm => ?_) [] wf_nil, fun j' hw' ha => ?_⟩
    · obtain ⟨v, ⟨hv, _⟩, hd⟩ := hp p hm
      exact (ih hu.2 v _ hv hd).1
    · obtain ⟨ys, h1, h2⟩ := dec_enc_map κ t.enc t.dec (fun y x => Same t y x ∧ EncEq t.enc y x) hu.1 x hn (fun p hm j hw ha => by
        obtain ⟨v, ⟨hv, _⟩, hd⟩ := hp p hm
        exact (ih hu.2 v _ hv hd).2 j hw ha) j' hw' ha
      exact ⟨ys, h1, fun k => (optTwo_left (h2 k)).1, abs_encMap hu.1 (decMap_nodup h1) hn (fun k => (optTwo_left (h2 k)).2)⟩

end RJ

namespace RJ
open Spec

/-- The numbers written for a value that was read are finite if its floats are. -/
theorem reread_finite (t : Ty) (hu : Usual t) : ∀ (j : Json F64) (x : t.T F64), WF j → t.dec j = .ok x → FiniteVals t x →
    AllNum (fun f => FloatOps.isFinite f = true) (t.enc x) := by
  have hp := parts_num (F := F64) (fun f => FloatOps.isFinite f = true)
  induction t with
  | json => intro j x _ _ hf; exact hf
  | string => intros; exact trivial
  | bool => intros; exact trivial
  | f64 => intro j x _ _ hf; exact hf
  | f32 => intro j x _ _ hf; exact hf
  | int name lo hi =>
    intro j x _ h _
    cases j with
    | number f =>
      have hx : toIntFl lo hi f = x := Except.ok.inj h
      obtain ⟨_, _, z3, z4⟩ := zero_in hu
      obtain ⟨h1, h2⟩ := toInt_range hu f
      refine int_finite _ ?_
      rw [← hx]
      generalize (2 : Nat) ^ 128 = B at *
      omega
    | _ => cases h
  | vec t ih =>
    intro j x hw h hf
    have hs := decVec_parts h hw
    refine (hp.arr _).mpr ?_
    intro y hy
    obtain ⟨a, ha, rfl⟩ := List.mem_map.mp hy
    obtain ⟨v, hv, _, hd⟩ := hs a ha
    exact ih hu v a hv hd (hf a ha)
  | option t ih =>
    intro j x hw h hf
    rcases decOption_cases h with ⟨rfl, rfl⟩ | ⟨hj, a, rfl, ha⟩
    · exact trivial
    · exact ih hu j a hw ha (hf a rfl)
  | pairs κ t ih =>
    intro j x hw h hf
    have hs := decPairs_parts h hw
    refine hp.encPairs κ _ _ (fun p hm => ⟨trivial, ?_⟩)
    obtain ⟨v, ⟨hv, _⟩, hd⟩ := hs p hm
    exact ih hu.2 v p.2 hv hd (hf p hm)
  | map κ t ih =>
    intro j x hw h hf
    have hs := decMap_parts h hw
    refine hp.encMap κ _ _ (fun p hm => ⟨trivial, ?_⟩)
    obtain ⟨v, ⟨hv, _⟩, hd⟩ := hs p hm
    exact ih hu.2 v p.2 hv hd (hf p hm)

end RJ
