import Verif.Props.Parse
import Verif.Spec.Doc
/-
  Lemmas about the association-list hash map and the abstraction of objects.
-/
set_option linter.unusedSectionVars false
namespace RJ
open Spec
variable {F : Type}

theorem mapGet_none_iff {β : Type} (k : Str) (m : List (Str × β)) : mapGet k m = none ↔ k ∉ m.map (·.1) := by
  induction m with
  | nil => simp [mapGet]
  | cons e t ih =>
    obtain ⟨k', v⟩ := e
    rw [mapGet]
    by_cases h : k' = k
    · subst h; simp
    · rw [if_neg h, ih]
      simp only [List.map_cons, List.mem_cons, not_or]
      constructor
      · intro h'; exact ⟨fun e => h e.symm, h'⟩
      · exact fun h' => h'.2

theorem mapRemove_keys {β : Type} (k : Str) (m : List (Str × β)) (hn : (m.map (·.1)).Nodup) :
    (mapRemove k m).map (·.1) = (m.map (·.1)).erase k := by
  induction m with
  | nil => rfl
  | cons e t ih =>
    obtain ⟨k', v⟩ := e
    have hn' := List.nodup_cons.mp hn
    rw [mapRemove]
    by_cases h : k' = k
    · subst h; simp
    · rw [if_neg h]
      simp only [List.map_cons]
      rw [ih hn'.2, List.erase_cons_tail (by simpa using h)]

theorem mapGet_remove {β : Type} (k : Str) (m : List (Str × β)) (hn : (m.map (·.1)).Nodup) (q : Str) :
    mapGet q (mapRemove k m) = if k = q then none else mapGet q m := by
  induction m with
  | nil => simp [mapRemove, mapGet]
  | cons e t ih =>
    obtain ⟨k', v⟩ := e
    have hn' := List.nodup_cons.mp hn
    rw [mapRemove]
    by_cases h : k' = k
    · subst h
      rw [if_pos rfl]
      by_cases hq : k' = q
      · subst hq
        rw [if_pos rfl]
        exact (mapGet_none_iff _ _).mpr hn'.1
      · rw [if_neg hq, mapGet, if_neg hq]
    · rw [if_neg h, mapGet, ih hn'.2, mapGet]
      by_cases hq : k' = q
      · rw [if_pos hq]
        have : ¬ k = q := fun e => h (hq.trans e.symm)
        rw [if_neg this]; simp [hq]
      · simp [hq]

theorem mapRemove_sub {β : Type} {k : Str} {m : List (Str × β)} {e : Str × β} (h : e ∈ mapRemove k m) : e ∈ m := by
  induction m with
  | nil => cases h
  | cons x t ih =>
    obtain ⟨k', v⟩ := x
    rw [mapRemove] at h
    split at h
    · exact List.mem_cons_of_mem _ h
    · rcases List.mem_cons.mp h with h | h
      · exact h ▸ List.mem_cons_self
      · exact List.mem_cons_of_mem _ (ih h)

theorem mapInsert_insert {β : Type} (k : Str) (v v' : β) (m : List (Str × β)) :
    mapInsert k v' (mapInsert k v m) = mapInsert k v' m := by
  induction m with
  | nil => simp [mapInsert]
  | cons e t ih =>
    obtain ⟨k', w⟩ := e
    by_cases h : k' = k
    · simp [mapInsert, h]
    · simp [mapInsert, h, ih]

theorem mapInsert_get {β : Type} (k : Str) (v : β) (m : List (Str × β)) (h : mapGet k m = some v) : mapInsert k v m = m := by
  induction m with
  | nil => cases h
  | cons e t ih =>
    obtain ⟨k', w⟩ := e
    rw [mapGet] at h
    rw [mapInsert]
    by_cases hk : k' = k
    · rw [if_pos hk] at h; cases h; rw [if_pos hk]
    · rw [if_neg hk] at h; rw [if_neg hk, ih h]

/-- Entries of a well-formed object. -/
def EntryWF (e : Json F × List (Json F)) : Prop := WF e.1 ∧ ∀ x ∈ e.2, WF x

theorem wf_object_iff (m : Obj F) : WF (.object m) ↔ (m.map (·.1)).Nodup ∧ ∀ k e, (k, e) ∈ m → EntryWF e := by
  show (m.map (·.1)).Nodup ∧ WFMap m ↔ _
  rw [WFMap_iff]
  constructor
  · rintro ⟨h1, h2⟩; exact ⟨h1, fun k e he => h2 k e.1 e.2 he⟩
  · rintro ⟨h1, h2⟩; exact ⟨h1, fun k v l he => h2 k (v, l) he⟩

theorem wf_array_iff (l : List (Json F)) : WF (.array l) ↔ ∀ x ∈ l, WF x := WFList_iff l

theorem wf_mapInsert {m : Obj F} (h : WF (.object m)) (k : Str) (e : Json F × List (Json F)) (he : EntryWF e) :
    WF (.object (mapInsert k e m)) := by
  rw [wf_object_iff] at *
  refine ⟨mapInsert_nodup _ _ _ h.1, ?_⟩
  intro k' e' hm
  rcases mapInsert_mem hm with hm | hm
  · cases hm; exact he
  · exact h.2 _ _ hm

theorem wf_mapRemove {m : Obj F} (h : WF (.object m)) (k : Str) : WF (.object (mapRemove k m)) := by
  rw [wf_object_iff] at *
  refine ⟨?_, fun k' e' hm => h.2 _ _ (mapRemove_sub hm)⟩
  rw [mapRemove_keys k m h.1]
  exact h.1.sublist List.erase_sublist

theorem wf_objectInsert {m : Obj F} (h : WF (.object m)) (k : Str) (v : Json F) (hv : WF v) :
    WF (.object (objectInsert k v m)) := by
  unfold objectInsert
  cases hg : mapGet k m with
  | none => exact wf_mapInsert h _ _ ⟨hv, by simp⟩
  | some p =>
    obtain ⟨old, list⟩ := p
    have := ((wf_object_iff m).mp h).2 _ _ (mapGet_mem hg)
    refine wf_mapInsert h _ _ ⟨hv, ?_⟩
    intro x hx
    rcases List.mem_cons.mp hx with rfl | hx
    · exact this.1
    · exact this.2 x hx

/-- History of a hash map entry. -/
def hist (e : Option (Json F × List (Json F))) : List (Val F) :=
  match e with
  | some (v, l) => (absList l).reverse ++ [absJ v]
  | none => []

theorem absMap_hist (m : Obj F) (q : Str) : absMap m q = hist (mapGet q m) := by
  rw [absMap_eq]; cases mapGet q m <;> rfl

theorem absMap_insert (m : Obj F) (k : Str) (v : Json F) (l : List (Json F)) :
    absMap (mapInsert k (v, l) m) = upd (absMap m) k ((absList l).reverse ++ [absJ v]) := by
  funext q
  rw [absMap_hist, mapGet_insert, upd]
  by_cases h : k = q
  · subst h; simp [hist]
  · rw [if_neg h, if_neg (fun e => h e.symm), absMap_hist]

theorem absMap_remove (m : Obj F) (hn : (m.map (·.1)).Nodup) (k : Str) :
    absMap (mapRemove k m) = upd (absMap m) k [] := by
  funext q
  rw [absMap_hist, mapGet_remove k m hn, upd]
  by_cases h : k = q
  · subst h; simp [hist]
  · rw [if_neg h, if_neg (fun e => h e.symm), absMap_hist]

theorem absMap_append (m : Obj F) (k : Str) (v : Json F) :
    absMap (objectInsert k v m) = upd (absMap m) k (absMap m k ++ [absJ v]) := by
  funext q
  rw [absMap_objectInsert, upd]
  by_cases h : k = q
  · subst h; simp
  · rw [if_neg h, if_neg (fun e => h e.symm)]; simp

theorem mapGet_abs_last (m : Obj F) (k : Str) : (absMap m k).getLast? = (mapGet k m).map (fun e => absJ e.1) := by
  rw [absMap_hist]
  cases mapGet k m with
  | none => rfl
  | some e => simp [hist]

theorem absMap_dropLast (m : Obj F) (k : Str) (v : Json F) (l : List (Json F)) (h : mapGet k m = some (v, l)) :
    (absMap m k).dropLast = (absList l).reverse := by
  rw [absMap_hist, h]; simp [hist]

end RJ
