import Verif.Spec.Rfc
/-
  Induction over `Json` and the recursive specification functions as statements about list members.
-/
namespace RJ
open Spec
variable {F : Type}

/-- Induction over documents. -/
theorem Json.ind {P : Json F → Prop}
    (hobj : ∀ m : Obj F, (∀ k v l, (k, (v, l)) ∈ m → P v ∧ ∀ x ∈ l, P x) → P (.object m))
    (harr : ∀ l : List (Json F), (∀ x ∈ l, P x) → P (.array l))
    (hstr : ∀ s, P (.string s)) (hnum : ∀ f, P (.number f)) (hbool : ∀ b, P (.boolean b)) (hnull : P .null)
    (j : Json F) : P j :=
  Json.rec (motive_1 := P)
    (motive_2 := fun m => ∀ k v l, (k, (v, l)) ∈ m → P v ∧ ∀ x ∈ l, P x)
    (motive_3 := fun l => ∀ x ∈ l, P x)
    (motive_4 := fun e => P e.2.1 ∧ ∀ x ∈ e.2.2, P x)
    (motive_5 := fun p => P p.1 ∧ ∀ x ∈ p.2, P x)
    (fun m h => hobj m h) (fun l h => harr l h) hstr hnum hbool hnull
    (fun k v l h => by cases h)
    (fun e t he ht k v l h => by
      rcases List.mem_cons.mp h with rfl | h
      · exact he
      · exact ht k v l h)
    (fun x h => by cases h)
    (fun x t hx ht y h => by
      rcases List.mem_cons.mp h with rfl | h
      · exact hx
      · exact ht y h)
    (fun k p hp => hp)
    (fun v l hv hl => ⟨hv, hl⟩)
    j

theorem WFList_iff (l : List (Json F)) : WFList l ↔ ∀ x ∈ l, WF x := by
  induction l with
  | nil => simp [WFList]
  | cons x t ih => simp [WFList, ih]

theorem WFMap_iff (m : Obj F) : WFMap m ↔ ∀ k v l, (k, (v, l)) ∈ m → WF v ∧ ∀ x ∈ l, WF x := by
  induction m with
  | nil => simp [WFMap]
  | cons e t ih =>
    obtain ⟨k, v, l⟩ := e
    simp only [WFMap, ih, WFList_iff]
    constructor
    · rintro ⟨h, ht⟩ k' v' l' hm
      rcases List.mem_cons.mp hm with e | hm
      · obtain ⟨_, rfl, rfl⟩ := (by simpa using e : k' = k ∧ v' = v ∧ l' = l)
        exact h
      · exact ht k' v' l' hm
    · intro h
      exact ⟨h k v l (by simp), fun k' v' l' hm => h k' v' l' (by simp [hm])⟩

theorem AllNumList_iff (P : F → Prop) (l : List (Json F)) : AllNumList P l ↔ ∀ x ∈ l, AllNum P x := by
  induction l with
  | nil => simp [AllNumList]
  | cons x t ih => simp [AllNumList, ih]

theorem AllNumMap_iff (P : F → Prop) (m : Obj F) :
    AllNumMap P m ↔ ∀ k v l, (k, (v, l)) ∈ m → AllNum P v ∧ ∀ x ∈ l, AllNum P x := by
  induction m with
  | nil => simp [AllNumMap]
  | cons e t ih =>
    obtain ⟨k, v, l⟩ := e
    simp only [AllNumMap, ih, AllNumList_iff]
    constructor
    · rintro ⟨h, ht⟩ k' v' l' hm
      rcases List.mem_cons.mp hm with e | hm
      · obtain ⟨_, rfl, rfl⟩ := (by simpa using e : k' = k ∧ v' = v ∧ l' = l)
        exact h
      · exact ht k' v' l' hm
    · intro h
      exact ⟨h k v l (by simp), fun k' v' l' hm => h k' v' l' (by simp [hm])⟩

theorem AllStrList_iff (P : Str → Prop) (l : List (Json F)) : AllStrList P l ↔ ∀ x ∈ l, AllStr P x := by
  induction l with
  | nil => simp [AllStrList]
  | cons x t ih => simp [AllStrList, ih]

theorem AllStrMap_iff (P : Str → Prop) (m : Obj F) :
    AllStrMap P m ↔ ∀ k v l, (k, (v, l)) ∈ m → P k ∧ AllStr P v ∧ ∀ x ∈ l, AllStr P x := by
  induction m with
  | nil => simp [AllStrMap]
  | cons e t ih =>
    obtain ⟨k, v, l⟩ := e
    simp only [AllStrMap, ih, AllStrList_iff]
    constructor
    · rintro ⟨h, ht⟩ k' v' l' hm
      rcases List.mem_cons.mp hm with e | hm
      · obtain ⟨rfl, rfl, rfl⟩ := (by simpa using e : k' = k ∧ v' = v ∧ l' = l)
        exact h
      · exact ht k' v' l' hm
    · intro h
      exact ⟨h k v l (by simp), fun k' v' l' hm => h k' v' l' (by simp [hm])⟩

end RJ
