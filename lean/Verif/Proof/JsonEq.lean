import Verif.Spec.Convert
import Verif.Proof.Convert
import Mathlib.Data.List.Perm.Subperm
/-
  `derive(PartialEq)` on `Json` is `VEq` of the abstract values.
-/
set_option linter.unusedSectionVars false
namespace RJ
open Spec
variable {F : Type}

theorem VEqL_iff (R : F → F → Prop) (l l' : List (Val F)) : VEqL R l l' ↔ AllTwo (VEq R) l l' := by
  induction l generalizing l' with
  | nil =>
    cases l' with
    | nil => exact ⟨fun _ => trivial, fun _ => .nil⟩
    | cons y t => exact ⟨(fun h => by cases h), fun h => h.elim⟩
  | cons x t ih =>
    cases l' with
    | nil => exact ⟨(fun h => by cases h), fun h => h.elim⟩
    | cons y t' =>
      constructor
      · intro h
        cases h with
        | cons h1 h2 => exact ⟨h1, (ih _).mp h2⟩
      · exact fun h => .cons h.1 ((ih _).mpr h.2)

theorem AllTwo.concat {α β : Type} {R : α → β → Prop} {x : α} {y : β} : ∀ {l : List α} {l' : List β},
    AllTwo R (l ++ [x]) (l' ++ [y]) ↔ AllTwo R l l' ∧ R x y
  | [], [] => by simp [AllTwo]
  | [], b :: t' => by
    constructor
    · intro h
      have := AllTwo.length h
      simp at this
    · exact fun h => h.1.elim
  | a :: t, [] => by
    constructor
    · intro h
      have := AllTwo.length h
      simp at this
    · exact fun h => h.1.elim
  | a :: t, b :: t' => by
    show (R a b ∧ AllTwo R (t ++ [x]) (t' ++ [y])) ↔ (R a b ∧ AllTwo R t t') ∧ R x y
    rw [AllTwo.concat, and_assoc]

theorem AllTwo.reverse {α β : Type} {R : α → β → Prop} : ∀ {l : List α} {l' : List β},
    AllTwo R l.reverse l'.reverse ↔ AllTwo R l l'
  | [], [] => Iff.rfl
  | [], b :: t' => by
    constructor
    · intro h
      have := AllTwo.length h
      simp at this
    · exact fun h => h.elim
  | a :: t, [] => by
    constructor
    · intro h
      have := AllTwo.length h
      simp at this
    · exact fun h => h.elim
  | a :: t, b :: t' => by
    rw [List.reverse_cons, List.reverse_cons, AllTwo.concat, AllTwo.reverse]
    exact and_comm

variable [FloatOps F]

theorem eqList_iff (l l' : List (Json F)) : Json.eqList l l' = true ↔ AllTwo (fun x y => Json.eq x y = true) l l' := by
  induction l generalizing l' with
  | nil => cases l' <;> simp [Json.eqList, AllTwo]
  | cons x t ih => cases l' <;> simp [Json.eqList, AllTwo, ih]

theorem eqMap_iff (m m' : Obj F) : Json.eqMap m m' = true ↔
    ∀ k v l, (k, (v, l)) ∈ m → ∃ v' l', mapGet k m' = some (v', l') ∧ Json.eq v v' = true ∧ Json.eqList l l' = true := by
  induction m with
  | nil => simp [Json.eqMap]
  | cons e t ih =>
    obtain ⟨k, v, l⟩ := e
    rw [Json.eqMap, Bool.and_eq_true, ih]
    constructor
    · rintro ⟨h1, h2⟩ k' v' l' hm
      rcases List.mem_cons.mp hm with h | h
      · cases h
        cases hg : mapGet k m' with
        | none => rw [hg] at h1; cases h1
        | some e =>
          obtain ⟨v', l'⟩ := e
          rw [hg] at h1
          exact ⟨v', l', rfl, by simpa using h1⟩
      · exact h2 _ _ _ h
    · intro h
      refine ⟨?_, fun k v l hm => h k v l (List.mem_cons_of_mem _ hm)⟩
      obtain ⟨v', l', hg, h1⟩ := h k v l (by simp)
      rw [hg]; simpa using h1

/-- The relation on numbers. -/
abbrev FEq (f g : F) : Prop := FloatOps.beq f g = true

theorem allTwo_abs (R : F → F → Prop) (l l' : List (Json F)) (h : ∀ x ∈ l, ∀ y, WF y → (Json.eq x y = true ↔ VEq R (absJ x) (absJ y)))
    (hw : ∀ y ∈ l', WF y) : AllTwo (fun x y => Json.eq x y = true) l l' ↔ AllTwo (VEq R) (l.map absJ) (l'.map absJ) := by
  induction l generalizing l' with
  | nil => cases l' <;> simp [AllTwo]
  | cons x t ih =>
    cases l' with
    | nil => simp [AllTwo]
    | cons y t' =>
      simp only [AllTwo, List.map_cons]
      rw [h x (by simp) y (hw y (by simp)), ih _ (fun z hz => h z (by simp [hz])) (fun z hz => hw z (by simp [hz]))]

theorem keys_of_eq {β γ : Type} (m : List (Str × β)) (m' : List (Str × γ)) (hn : (m.map (·.1)).Nodup) (hl : m.length = m'.length)
    (h : ∀ e ∈ m, (mapGet e.1 m').isSome) : ∀ k, k ∈ m'.map (·.1) → k ∈ m.map (·.1) := by
  have hsub : m.map (·.1) ⊆ m'.map (·.1) := by
    intro k hk
    obtain ⟨e, he, rfl⟩ := List.mem_map.mp hk
    obtain ⟨w, hw⟩ := Option.isSome_iff_exists.mp (h e he)
    exact List.mem_map.mpr ⟨_, mapGet_mem hw, rfl⟩
  have hp := (hn.subperm hsub).perm_of_length_le (by simp [hl])
  intro k hk
  exact hp.mem_iff.mpr hk

theorem absMap_of_mem {m : Obj F} (hn : (m.map (·.1)).Nodup) {k : Str} {v : Json F} {l : List (Json F)} (h : (k, (v, l)) ∈ m) :
    absMap m k = (absList l).reverse ++ [absJ v] := by
  induction m with
  | nil => cases h
  | cons e t ih =>
    obtain ⟨k', v', l'⟩ := e
    rw [absMap]
    rcases List.mem_cons.mp h with h | h
    · cases h; rw [if_pos rfl]
    · simp only [List.map_cons, List.nodup_cons] at hn
      have : ¬ k' = k := fun e => hn.1 (List.mem_map.mpr ⟨_, h, e.symm⟩)
      rw [if_neg this, ih hn.2 h]

theorem absMap_eq_nil {m : Obj F} {k : Str} : absMap m k = [] ↔ k ∉ m.map (·.1) := by
  induction m with
  | nil => simp [absMap]
  | cons e t ih =>
    obtain ⟨k', v', l'⟩ := e
    rw [absMap]
    by_cases h : k' = k
    · subst h; simp
    · rw [if_neg h, ih]
      simp [Ne.symm h]

theorem eq_iff (a b : Json F) (ha : WF a) (hb : WF b) : Json.eq a b = true ↔ VEq FEq (absJ a) (absJ b) := by
  induction a using Json.ind generalizing b with
  | hstr s =>
    cases b with
    | string s' =>
      simp only [Json.eq, absJ, beq_iff_eq]
      exact ⟨fun h => h ▸ .str s, fun h => by cases h; rfl⟩
    | _ => exact ⟨fun h => by simp [Json.eq] at h, fun h => by cases h⟩
  | hnum f =>
    cases b with
    | number g => exact ⟨fun h => .num (by simpa [Json.eq] using h), fun h => by cases h with | num h => simpa [Json.eq] using h⟩
    | _ => exact ⟨fun h => by simp [Json.eq] at h, fun h => by cases h⟩
  | hbool x =>
    cases b with
    | boolean y =>
      simp only [Json.eq, absJ, beq_iff_eq]
      exact ⟨fun h => h ▸ .bool x, fun h => by cases h; rfl⟩
    | _ => exact ⟨fun h => by simp [Json.eq] at h, fun h => by cases h⟩
  | hnull =>
    cases b with
    | null => exact ⟨fun _ => .null, fun _ => by simp [Json.eq]⟩
    | _ => exact ⟨fun h => by simp [Json.eq] at h, fun h => by cases h⟩
  | harr l ih =>
    cases b with
    | array l' =>
      have ha' := (wf_array_iff l).mp ha
      have hb' := (wf_array_iff l').mp hb
      have := allTwo_abs FEq l l' (fun x hx y hy => ih x hx y (ha' x hx) hy) hb'
      rw [Json.eq, eqList_iff, this, ← VEqL_iff, ← absList_eq, ← absList_eq]
      exact ⟨fun h => .arr h, fun h => by cases h with | arr h => exact h⟩
    | _ => exact ⟨fun h => by simp [Json.eq] at h, fun h => by cases h⟩
  | hobj m ih =>
    cases b with
    | object m' =>
      have ha' := (wf_object_iff m).mp ha
      have hb' := (wf_object_iff m').mp hb
      have entry : ∀ k v l v' l', (k, (v, l)) ∈ m → (k, (v', l')) ∈ m' →
          ((Json.eq v v' = true ∧ Json.eqList l l' = true) ↔ VEqL FEq (absMap m k) (absMap m' k)) := by
        intro k v l v' l' h h'
        have hi := ih k v l h
        have w := ha'.2 _ _ h
        have w' := hb'.2 _ _ h'
        rw [absMap_of_mem ha'.1 h, absMap_of_mem hb'.1 h', VEqL_iff, AllTwo.concat, AllTwo.reverse, absList_eq, absList_eq, eqList_iff,
          allTwo_abs FEq l l' (fun x hx y hy => hi.2 x hx y (w.2 x hx) hy) w'.2, hi.1 v' w.1 w'.1]
        exact and_comm
      rw [Json.eq, Bool.and_eq_true, eqMap_iff, beq_iff_eq]
      constructor
      · rintro ⟨hlen, h⟩
        refine .obj (fun k => ?_)
        by_cases hk : k ∈ m.map (·.1)
        · obtain ⟨⟨k', v, l⟩, he, rfl⟩ := List.mem_map.mp hk
          obtain ⟨v', l', hg, h1⟩ := h _ _ _ he
          exact (entry _ _ _ _ _ he (mapGet_mem hg)).mp h1
        · have hk' : k ∉ m'.map (·.1) := by
            intro hk'
            refine hk (keys_of_eq m m' ha'.1 hlen ?_ k hk')
            rintro ⟨k, v, l⟩ he
            obtain ⟨v', l', hg, _⟩ := h _ _ _ he
            rw [hg]; rfl
          rw [absMap_eq_nil.mpr hk, absMap_eq_nil.mpr hk']
          exact .nil
      · intro h
        cases h with
        | obj h =>
        have key : ∀ k, k ∈ m.map (·.1) ↔ k ∈ m'.map (·.1) := by
          intro k
          have := h k
          constructor
          · intro hk
            apply Classical.byContradiction
            intro hn
            rw [absMap_eq_nil.mpr hn] at this
            generalize he : absMap m k = e at this
            cases this
            exact absMap_eq_nil.mp he hk
          · intro hk
            apply Classical.byContradiction
            intro hn
            rw [absMap_eq_nil.mpr hn] at this
            generalize he : absMap m' k = e at this
            cases this
            exact absMap_eq_nil.mp he hk
        constructor
        · have hp : (m.map (·.1)).Perm (m'.map (·.1)) := (List.perm_ext_iff_of_nodup ha'.1 hb'.1).mpr key
          simpa using hp.length_eq
        · intro k v l he
          obtain ⟨⟨k', v', l'⟩, he', hk'⟩ := List.mem_map.mp ((key k).mp (List.mem_map.mpr ⟨_, he, rfl⟩))
          simp only at hk'; subst hk'
          have hg : mapGet k' m' = some (v', l') := by
            have := absMap_of_mem hb'.1 he'
            cases hg : mapGet k' m' with
            | none =>
              rw [absMap_eq, hg] at this
              simp at this
            | some e =>
              have hm := mapGet_mem hg
              have : (k', e) = (k', (v', l')) := by
                have hn := hb'.1
                clear * - hm he' hn
                induction m' with
                | nil => cases hm
                | cons e0 t iht =>
                  simp only [List.map_cons, List.nodup_cons] at hn
                  rcases List.mem_cons.mp hm with h1 | h1 <;> rcases List.mem_cons.mp he' with h2 | h2
                  · rw [h1, h2]
                  · exact absurd (List.mem_map.mpr ⟨_, h2, by rw [← h1]⟩) hn.1
                  · exact absurd (List.mem_map.mpr ⟨_, h1, by rw [← h2]⟩) hn.1
                  · exact iht h2 h1 hn.2
              cases this; rfl
          exact ⟨v', l', hg, (entry _ _ _ _ _ he he').mpr (h k')⟩
    | _ => exact ⟨fun h => by simp [Json.eq] at h, fun h => by cases h⟩

omit [FloatOps F] in
mutual
theorem VEq.symm {R : F → F → Prop} (hs : ∀ f g, R f g → R g f) {x y : Val F} : VEq R x y → VEq R y x
  | .obj h => .obj (fun k => VEqL.symm hs (h k))
  | .arr h => .arr (VEqL.symm hs h)
  | .str s => .str s
  | .num h => .num (hs _ _ h)
  | .bool b => .bool b
  | .null => .null
theorem VEqL.symm {R : F → F → Prop} (hs : ∀ f g, R f g → R g f) {x y : List (Val F)} : VEqL R x y → VEqL R y x
  | .nil => .nil
  | .cons h t => .cons (VEq.symm hs h) (VEqL.symm hs t)
end

omit [FloatOps F] in
mutual
theorem VEq.trans {R : F → F → Prop} (hs : ∀ f g h, R f g → R g h → R f h) {x y z : Val F} : VEq R x y → VEq R y z → VEq R x z
  | .obj h, .obj h' => .obj (fun k => VEqL.trans hs (h k) (h' k))
  | .arr h, .arr h' => .arr (VEqL.trans hs h h')
  | .str s, .str _ => .str s
  | .num h, .num h' => .num (hs _ _ _ h h')
  | .bool b, .bool _ => .bool b
  | .null, .null => .null
theorem VEqL.trans {R : F → F → Prop} (hs : ∀ f g h, R f g → R g h → R f h) {x y z : List (Val F)} : VEqL R x y → VEqL R y z → VEqL R x z
  | .nil, .nil => .nil
  | .cons h t, .cons h' t' => .cons (VEq.trans hs h h') (VEqL.trans hs t t')
end

omit [FloatOps F] in
theorem AllTwo.map_self {α β : Type} {R : β → β → Prop} (f : α → β) (l : List α) : AllTwo R (l.map f) (l.map f) ↔ ∀ x ∈ l, R (f x) (f x) := by
  induction l with
  | nil => simp [AllTwo]
  | cons x t ih => simp [AllTwo, ih]

theorem VEq.refl_iff (R : F → F → Prop) (a : Json F) (ha : WF a) : VEq R (absJ a) (absJ a) ↔ AllNum (fun f => R f f) a := by
  induction a using Json.ind with
  | hstr s => exact ⟨fun _ => trivial, fun _ => .str s⟩
  | hnum f => exact ⟨fun h => by cases h with | num h => exact h, fun h => .num h⟩
  | hbool x => exact ⟨fun _ => trivial, fun _ => .bool x⟩
  | hnull => exact ⟨fun _ => trivial, fun _ => .null⟩
  | harr l ih =>
    have ha' := (wf_array_iff l).mp ha
    show VEq R (.arr (absList l)) (.arr (absList l)) ↔ AllNumList _ l
    rw [AllNumList_iff, absList_eq]
    constructor
    · intro h
      cases h with
      | arr h =>
      rw [VEqL_iff, AllTwo.map_self] at h
      exact fun x hx => (ih x hx (ha' x hx)).mp (h x hx)
    · intro h
      refine .arr ?_
      rw [VEqL_iff, AllTwo.map_self]
      exact fun x hx => (ih x hx (ha' x hx)).mpr (h x hx)
  | hobj m ih =>
    have ha' := (wf_object_iff m).mp ha
    have entry : ∀ k v l, (k, (v, l)) ∈ m → (VEqL R (absMap m k) (absMap m k) ↔ (AllNum (fun f => R f f) v ∧ ∀ x ∈ l, AllNum (fun f => R f f) x)) := by
      intro k v l h
      have hi := ih k v l h
      have w := ha'.2 _ _ h
      rw [absMap_of_mem ha'.1 h, VEqL_iff, AllTwo.concat, AllTwo.reverse, absList_eq, AllTwo.map_self, hi.1 w.1, and_comm]
      constructor
      · exact fun h => ⟨h.1, fun x hx => (hi.2 x hx (w.2 x hx)).mp (h.2 x hx)⟩
      · exact fun h => ⟨h.1, fun x hx => (hi.2 x hx (w.2 x hx)).mpr (h.2 x hx)⟩
    show VEq R (.obj (absMap m)) (.obj (absMap m)) ↔ AllNumMap _ m
    rw [AllNumMap_iff]
    constructor
    · intro h
      cases h with
      | obj h => exact fun k v l he => (entry k v l he).mp (h k)
    · intro h
      refine .obj (fun k => ?_)
      by_cases hk : k ∈ m.map (·.1)
      · obtain ⟨⟨k', v, l⟩, he, rfl⟩ := List.mem_map.mp hk
        exact (entry _ _ _ he).mpr (h _ _ _ he)
      · rw [absMap_eq_nil.mpr hk]; exact .nil

end RJ
