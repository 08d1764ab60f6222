import Verif.Proof.Convert
import Verif.Proof.PathText
import Verif.Props.Print
/-
  Conditions on typed values carry over to their encodings; predicates preserved by `set` and `del`.
-/
set_option linter.unusedSectionVars false
namespace RJ
open Spec
variable {F : Type}

/-- A predicate on values that holds of a container iff it holds of its parts (`K` for the keys). -/
structure Parts (Q : Json F → Prop) (K : Str → Prop) : Prop where
  obj : ∀ m : Obj F, Q (.object m) ↔ ∀ k v l, (k, (v, l)) ∈ m → K k ∧ Q v ∧ ∀ x ∈ l, Q x
  arr : ∀ l : List (Json F), Q (.array l) ↔ ∀ x ∈ l, Q x
  null : Q .null

theorem parts_num (P : F → Prop) : Parts (AllNum P) (fun _ => True) where
  obj m := by
    show AllNumMap P m ↔ _
    rw [AllNumMap_iff]
    simp
  arr l := AllNumList_iff P l
  null := trivial

theorem parts_str (P : Str → Prop) : Parts (AllStr (F := F) P) P where
  obj m := AllStrMap_iff P m
  arr l := AllStrList_iff P l
  null := trivial

section
variable {Q : Json F → Prop} {K : Str → Prop} (hp : Parts Q K)
include hp

theorem Parts.insert {m : Obj F} (h : Q (.object m)) (k : Str) (hk : K k) (v : Json F) (l : List (Json F)) (hv : Q v) (hl : ∀ x ∈ l, Q x) :
    Q (.object (mapInsert k (v, l) m)) := by
  rw [hp.obj] at *
  intro k' v' l' hm
  rcases mapInsert_mem hm with h1 | h1
  · cases h1; exact ⟨hk, hv, hl⟩
  · exact h _ _ _ h1

theorem Parts.objectInsert {m : Obj F} (h : Q (.object m)) (k : Str) (hk : K k) (v : Json F) (hv : Q v) :
    Q (.object (objectInsert k v m)) := by
  unfold RJ.objectInsert
  cases hg : mapGet k m with
  | none => exact hp.insert h k hk v [] hv (by simp)
  | some e =>
    obtain ⟨old, list⟩ := e
    have := (hp.obj m).mp h _ _ _ (mapGet_mem hg)
    refine hp.insert h k hk v _ hv ?_
    intro x hx
    rcases List.mem_cons.mp hx with rfl | hx
    · exact this.2.1
    · exact this.2.2 x hx

theorem Parts.finder_put {f : Finder} {j : Json F} {r : Ref F} (h : f.findMut j = .ok r) (hq : Q j) :
    Q r.val ∧ ∀ x, Q x → Q (r.put x) := by
  cases f with
  | key k =>
    obtain ⟨m, v, l, rfl, hg, rfl⟩ := Finder.findMut_key h
    have he := (hp.obj m).mp hq _ _ _ (mapGet_mem hg)
    exact ⟨he.2.1, fun x hx => hp.insert hq k he.1 x l hx he.2.2⟩
  | index i =>
    obtain ⟨l, v, rfl, hg, rfl⟩ := Finder.findMut_index h
    have he := (hp.arr l).mp hq
    refine ⟨he v (List.mem_of_getElem? hg), fun x hx => (hp.arr _).mpr ?_⟩
    intro y hy
    rcases List.mem_or_eq_of_mem_set hy with hy | rfl
    · exact he y hy
    · exact hx

theorem Parts.finder_update {lim : Nat} {f : Finder} {j v j' : Json F} {o : Out (Ref F)} (h : f.update lim j v = (j', o))
    (hf : ∀ k, f = .key k → K k) (hj : Q j) (hv : Q v) : Q j' := by
  cases f with
  | key k =>
    simp only [Finder.update] at h
    cases j with
    | object m =>
      simp only [Prod.mk.injEq] at h
      rw [← h.1]; exact hp.insert hj k (hf k rfl) v [] hv (by simp)
    | _ =>
      simp only [Prod.mk.injEq] at h
      rw [← h.1]
      exact hp.insert ((hp.obj []).mpr (by simp)) k (hf k rfl) v [] hv (by simp)
  | index i =>
    have main : ∀ vec : List (Json F), (∃ w, vec[i]? = some w) → (∀ x ∈ vec, Q x) →
        (match (Json.array vec).indexMut (.index i) with
          | .ok js => ((js.assign v).1, Out.ok (js.assign v).2)
          | _ => (j, .panic)) = (j', o) → Q j' := by
      rintro vec ⟨w, hw⟩ hwf h
      simp only [Json.indexMut, Finder.findMut, hw, Ref.assign, Prod.mk.injEq] at h
      rw [← h.1, hp.arr]
      intro y hy
      rcases List.mem_or_eq_of_mem_set hy with hy | rfl
      · exact hwf y hy
      · exact hv
    have hres : ∀ l : List (Json F), (∀ x ∈ l, Q x) → ∀ x ∈ resizeNull l (i + 1), Q x := by
      intro l hl x hx
      rcases List.mem_append.mp hx with hx | hx
      · exact hl x hx
      · rw [List.eq_of_mem_replicate hx]; exact hp.null
    simp only [Finder.update] at h
    cases j with
    | array l =>
      have hl := (hp.arr l).mp hj
      simp only at h
      by_cases h1 : i ≥ l.length
      · by_cases h2 : i + 1 ≤ lim
        · rw [if_pos h1, if_pos h2] at h
          exact main _ (resizeNull_get l i) (hres l hl) h
        · rw [if_pos h1, if_neg h2] at h
          simp only [Prod.mk.injEq] at h; rw [← h.1]; exact hj
      · rw [if_neg h1] at h
        exact main l ⟨_, List.getElem?_eq_getElem (by omega)⟩ hl h
    | _ =>
      simp only at h
      by_cases h2 : i + 1 ≤ lim
      · rw [if_pos h2] at h
        exact main _ (resizeNull_get [] i) (hres [] (by simp)) h
      · rw [if_neg h2] at h; simp only [Prod.mk.injEq] at h; rw [← h.1]; exact hj

theorem Parts.path_update (lim : Nat) (p : Path) (j v : Json F) (hf : ∀ k, Finder.key k ∈ comps p → K k) (hj : Q j) (hv : Q v) :
    Q (p.update lim j v).1 := by
  induction p generalizing j with
  | last f => exact hp.finder_update (o := (f.update lim j v).2) rfl (fun k hk => hf k (by simp [comps, hk])) hj hv
  | cons f p ih =>
    rcases Path.update_step lim f p j v with ⟨j1, inner, hfm, hc, hu⟩ | ⟨hu, _⟩
    · have hj1 : Q j1 := by
        rcases hc with ⟨rfl, _⟩ | ⟨_, _, o, ho⟩
        · exact hj
        · exact hp.finder_update ho (fun k hk => hf k (by simp [comps, hk])) hj hp.null
      have hin := hp.finder_put hfm hj1
      have hrec := ih inner.val (fun k hk => hf k (by simp [comps, hk])) hin.1
      rw [hu]
      cases hpu : p.update lim inner.val v with
      | mk j2 o =>
        rw [hpu] at hrec
        cases o with
        | ok r2 => exact hin.2 _ hrec
        | err e => exact hin.2 _ hrec
        | panic => exact hj1
    · rw [hu]; exact hj

theorem Parts.path_discard (p : Path) (j : Json F) (hj : Q j) : Q (p.discard j).1 := by
  induction p generalizing j with
  | last f =>
    cases f with
    | key k =>
      cases j with
      | object m =>
        simp only [Path.discard, Finder.discard]
        cases mapGet k m with
        | none => exact hj
        | some e =>
          simp only
          rw [hp.obj] at *
          exact fun k v l hm => hj k v l (mapRemove_sub hm)
      | _ => exact hj
    | index i =>
      cases j with
      | array m =>
        simp only [Path.discard, Finder.discard]
        cases m[i]? with
        | none => exact hj
        | some e =>
          simp only
          rw [hp.arr] at *
          exact fun y hy => hj y (List.mem_of_mem_eraseIdx hy)
      | _ => exact hj
  | cons f p ih =>
    simp only [Path.discard]
    cases hf : f.findMut j with
    | error e => exact hj
    | ok r =>
      have hin := hp.finder_put hf hj
      exact hin.2 _ (ih r.val hin.1)

theorem Parts.encPairs {α : Type} (κ : KeyCodec) (enc : α → Json F) (l : List (κ.K × α)) (h : ∀ p ∈ l, K (κ.toStr p.1) ∧ Q (enc p.2)) :
    Q (encPairs κ enc l) := by
  suffices hs : ∀ m0 : Obj F, Q (.object m0) → Q (.object (l.foldl (fun m p => RJ.objectInsert (κ.toStr p.1) (enc p.2) m) m0)) from
    hs [] ((hp.obj []).mpr (by simp))
  induction l with
  | nil => exact fun m0 h0 => h0
  | cons p l ih =>
    intro m0 h0
    rw [List.foldl_cons]
    exact ih (fun q hq => h q (by simp [hq])) _ (hp.objectInsert h0 _ (h p (by simp)).1 _ (h p (by simp)).2)

theorem Parts.encMap {α : Type} (κ : KeyCodec) (enc : α → Json F) (l : List (κ.K × α)) (h : ∀ p ∈ l, K (κ.toStr p.1) ∧ Q (enc p.2)) :
    Q (encMap κ enc l) := by
  suffices hs : ∀ m0 : Obj F, Q (.object m0) → Q (.object (l.foldl (fun m p => mapInsert (κ.toStr p.1) (enc p.2, []) m) m0)) from
    hs [] ((hp.obj []).mpr (by simp))
  induction l with
  | nil => exact fun m0 h0 => h0
  | cons p l ih =>
    intro m0 h0
    rw [List.foldl_cons]
    exact ih (fun q hq => h q (by simp [hq])) _ (hp.insert h0 _ (h p (by simp)).1 _ [] (h p (by simp)).2 (by simp))

end

variable [FloatOps F]

theorem finite_enc [LawfulCast F] (t : Ty) (x : t.T F) (hg : Good t x) (hf : FiniteVals t x) :
    AllNum (fun f => FloatOps.isFinite f = true) (t.enc x) := by
  have hp := parts_num (F := F) (fun f => FloatOps.isFinite f = true)
  induction t with
  | json => exact hf
  | string => exact trivial
  | bool => exact trivial
  | f64 => exact hf
  | f32 => exact hf
  | int name lo hi => exact LawfulCast.ofInt_finite x hg.2.2.1 hg.2.2.2
  | vec t ih =>
    refine (hp.arr _).mpr ?_
    intro y hy
    obtain ⟨a, ha, rfl⟩ := List.mem_map.mp hy
    exact ih a (hg a ha) (hf a ha)
  | option t ih =>
    match x with
    | none => exact trivial
    | some a => exact ih a (hg a rfl) (hf a rfl)
  | pairs κ t ih => exact hp.encPairs κ _ _ (fun p hm => ⟨trivial, ih p.2 (hg p hm) (hf p hm)⟩)
  | map κ t ih => exact hp.encMap κ _ _ (fun p hm => ⟨trivial, ih p.2 (hg.2 p hm) (hf p hm)⟩)

theorem strs_enc (P : Str → Prop) (t : Ty) (x : t.T F) (h : Strs P t x) : AllStr P (t.enc x) := by
  have hp := parts_str (F := F) P
  induction t with
  | json => exact h
  | string => exact h
  | bool => exact trivial
  | f64 => exact trivial
  | f32 => exact trivial
  | int name lo hi => exact trivial
  | vec t ih =>
    refine (hp.arr _).mpr ?_
    intro y hy
    obtain ⟨a, ha, rfl⟩ := List.mem_map.mp hy
    exact ih a (h a ha)
  | option t ih =>
    match x with
    | none => exact trivial
    | some a => exact ih a (h a rfl)
  | pairs κ t ih => exact hp.encPairs κ _ _ (fun p hm => ⟨(h p hm).1, ih p.2 (h p hm).2⟩)
  | map κ t ih => exact hp.encMap κ _ _ (fun p hm => ⟨(h p hm).1, ih p.2 (h p hm).2⟩)

theorem nested_of_all (j : Json F) (h : AllStr Balanced j) : NestedBalanced j := by
  cases j with
  | string s => exact trivial
  | _ => exact h

theorem nested_enc (t : Ty) (x : t.T F) (h : NestedStrs t x) : NestedBalanced (t.enc x) := by
  induction t with
  | json => exact h
  | string => exact trivial
  | option t ih =>
    match x with
    | none => exact trivial
    | some a => exact ih a (h a rfl)
  | bool => exact trivial
  | f64 => exact trivial
  | f32 => exact trivial
  | int => exact trivial
  | vec t ih => exact nested_of_all _ (strs_enc Balanced _ x h)
  | pairs κ t ih => exact nested_of_all _ (strs_enc Balanced _ x h)
  | map κ t ih => exact nested_of_all _ (strs_enc Balanced _ x h)

end RJ
