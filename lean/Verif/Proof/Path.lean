import Verif.Props.Ops
/-
  Lens laws of `find_mut` and what `update`/`discard` do.
-/
set_option linter.unusedSectionVars false
namespace RJ
open Spec
variable {F : Type}

/-! ### Single components -/

theorem Finder.find_eq (f : Finder) (j : Json F) :
    f.find j = match f.findMut j with | .ok r => .ok r.val | .error e => .error e := by
  cases f with
  | key k =>
    cases j with
    | object m =>
      simp only [Finder.find, Finder.findMut]
      cases mapGet k m <;> rfl
    | _ => rfl
  | index i =>
    cases j with
    | array l =>
      simp only [Finder.find, Finder.findMut]
      cases l[i]? <;> rfl
    | _ => rfl

theorem Finder.findMut_key {k : Str} {j : Json F} {r : Ref F} (h : (Finder.key k).findMut j = .ok r) :
    ∃ m v l, j = .object m ∧ mapGet k m = some (v, l) ∧ r = ⟨v, fun x => .object (mapInsert k (x, l) m)⟩ := by
  cases j with
  | object m =>
    simp only [Finder.findMut] at h
    cases hg : mapGet k m with
    | none => rw [hg] at h; cases h
    | some p => rw [hg] at h; cases h; exact ⟨m, p.1, p.2, rfl, hg, rfl⟩
  | _ => cases h

theorem Finder.findMut_index {i : Nat} {j : Json F} {r : Ref F} (h : (Finder.index i).findMut j = .ok r) :
    ∃ l v, j = .array l ∧ l[i]? = some v ∧ r = ⟨v, fun x => .array (l.set i x)⟩ := by
  cases j with
  | array l =>
    simp only [Finder.findMut] at h
    cases hg : l[i]? with
    | none => rw [hg] at h; cases h
    | some p => rw [hg] at h; cases h; exact ⟨l, p, rfl, hg, rfl⟩
  | _ => cases h

/-- Assigning through the reference: the component now has the new value, and the new reference is the same place. -/
theorem Finder.put_get {f : Finder} {j : Json F} {r : Ref F} (h : f.findMut j = .ok r) (x : Json F) :
    f.findMut (r.put x) = .ok ⟨x, r.put⟩ := by
  cases f with
  | key k =>
    obtain ⟨m, v, l, rfl, hg, rfl⟩ := Finder.findMut_key h
    simp only [Finder.findMut, mapGet_insert, if_true, mapInsert_insert]
  | index i =>
    obtain ⟨l, v, rfl, hg, rfl⟩ := Finder.findMut_index h
    have hi : i < l.length := by
      rcases Nat.lt_or_ge i l.length with h | h
      · exact h
      · rw [List.getElem?_eq_none h] at hg; cases hg
    simp only [Finder.findMut, List.getElem?_set, hi, if_true, List.set_set]

/-- Assigning the old value changes nothing. -/
theorem Finder.put_val {f : Finder} {j : Json F} {r : Ref F} (h : f.findMut j = .ok r) : r.put r.val = j := by
  cases f with
  | key k =>
    obtain ⟨m, v, l, rfl, hg, rfl⟩ := Finder.findMut_key h
    simp only [mapInsert_get _ _ _ hg]
  | index i =>
    obtain ⟨l, v, rfl, hg, rfl⟩ := Finder.findMut_index h
    simp only
    congr 1
    apply List.ext_getElem?
    intro n
    rw [List.getElem?_set]
    split
    · rename_i e; subst e
      split
      · exact hg.symm
      · rename_i hl; rw [List.getElem?_eq_none (by omega)]
    · rfl

/-- Other components are not affected. -/
theorem Finder.put_other {f g : Finder} {j : Json F} {r : Ref F} (h : f.findMut j = .ok r) (ha : Apart f g) (x : Json F) :
    g.find (r.put x) = g.find j := by
  cases f with
  | key k =>
    obtain ⟨m, v, l, rfl, hg, rfl⟩ := Finder.findMut_key h
    cases g with
    | key k' =>
      simp only [Finder.find, mapGet_insert]
      rw [if_neg ha]
    | index i => exact absurd ha (by simp [Apart])
  | index i =>
    obtain ⟨l, v, rfl, hg, rfl⟩ := Finder.findMut_index h
    cases g with
    | key k' => exact absurd ha (by simp [Apart])
    | index i' =>
      simp only [Finder.find, List.getElem?_set]
      rw [if_neg ha]

theorem absList_set (l : List (Json F)) (i : Nat) (x : Json F) (h : i < l.length) :
    absList (l.set i x) = (absList l).take i ++ [absJ x] ++ (absList l).drop (i + 1) := by
  rw [absList_eq, absList_eq, List.set_eq_take_append_cons_drop, if_pos h]
  simp [List.map_take, List.map_drop]

theorem idx_lt {α : Type} {l : List α} {i : Nat} {v : α} (h : l[i]? = some v) : i < l.length := by
  rcases Nat.lt_or_ge i l.length with h' | h'
  · exact h'
  · rw [List.getElem?_eq_none h'] at h; cases h

theorem Finder.abs_put {f : Finder} {j : Json F} {r : Ref F} (h : f.findMut j = .ok r) (x : Json F) :
    absJ (r.put x) = place f (absJ x) (absJ j) ∧ look [f] (absJ j) = some (absJ r.val) := by
  cases f with
  | key k =>
    obtain ⟨m, v, l, rfl, hg, rfl⟩ := Finder.findMut_key h
    simp only [absJ, place, absMap_insert, look, mapGet_abs_last, hg, Option.map_some, absMap_dropLast m k v l hg, and_self]
  | index i =>
    obtain ⟨l, v, rfl, hg, rfl⟩ := Finder.findMut_index h
    simp only [absJ, place, look]
    refine ⟨by rw [absList_set l i x (idx_lt hg)], ?_⟩
    rw [absList_eq, List.getElem?_map, hg]
    rfl

theorem Finder.wf_put {f : Finder} {j : Json F} {r : Ref F} (h : f.findMut j = .ok r) (hw : WF j) :
    WF r.val ∧ ∀ x, WF x → WF (r.put x) := by
  cases f with
  | key k =>
    obtain ⟨m, v, l, rfl, hg, rfl⟩ := Finder.findMut_key h
    have he := ((wf_object_iff m).mp hw).2 _ _ (mapGet_mem hg)
    exact ⟨he.1, fun x hx => wf_mapInsert hw _ _ ⟨hx, he.2⟩⟩
  | index i =>
    obtain ⟨l, v, rfl, hg, rfl⟩ := Finder.findMut_index h
    have he := (wf_array_iff l).mp hw
    refine ⟨he v (List.mem_of_getElem? hg), fun x hx => (wf_array_iff _).mpr ?_⟩
    intro y hy
    rcases List.mem_or_eq_of_mem_set hy with hy | rfl
    · exact he y hy
    · exact hx

/-! ### `Finder::update` -/

/-- All indices of a component are below the allocation limit. -/
def fits (lim : Nat) : Finder → Prop
  | .key _ => True
  | .index i => i < lim

theorem resizeNull_get (l : List (Json F)) (i : Nat) : ∃ v, (resizeNull l (i + 1))[i]? = some v := by
  unfold resizeNull
  have : i < (l ++ List.replicate (i + 1 - l.length) (Json.null : Json F)).length := by simp; omega
  exact ⟨_, List.getElem?_eq_getElem this⟩

/-- Shape of the result of `Finder::update`. -/
theorem Finder.update_cases (lim : Nat) (f : Finder) (j v : Json F) :
    (∃ j' r, f.update lim j v = (j', .ok r) ∧ r.val = v ∧ f.findMut j' = .ok ⟨v, r.put⟩) ∨
    (f.update lim j v = (j, .panic) ∧ ¬ fits lim f) := by
  cases f with
  | key k =>
    left
    cases j with
    | object m =>
      refine ⟨.object (mapInsert k (v, []) m), ⟨v, fun x => .object (mapInsert k (x, []) m)⟩, ?_, rfl, ?_⟩
      · simp [Finder.update, Json.indexMut, Finder.findMut, mapGet_insert, mapInsert_insert]
      · simp [Finder.findMut, mapGet_insert, mapInsert_insert]
    | _ =>
      refine ⟨.object (mapInsert k (v, []) []), ⟨v, fun x => .object (mapInsert k (x, []) [])⟩, ?_, rfl, ?_⟩
      · simp [Finder.update, Json.indexMut, Finder.findMut, mapGet_insert, mapInsert_insert]
      · simp [Finder.findMut, mapGet_insert, mapInsert_insert]
  | index i =>
    -- the vector in which element `i` is assigned
    have main : ∀ vec : List (Json F), (∃ w, vec[i]? = some w) →
        ∃ j' r, (match (Json.array vec).indexMut (.index i) with
          | .ok js => ((js.assign v).1, Out.ok (js.assign v).2)
          | _ => (j, .panic)) = (j', Out.ok r) ∧ r.val = v ∧ (Finder.index i).findMut j' = .ok ⟨v, r.put⟩ := by
      rintro vec ⟨w, hw⟩
      refine ⟨.array (vec.set i v), ⟨v, fun x => .array (vec.set i x)⟩, ?_, rfl, ?_⟩
      · simp [Json.indexMut, Finder.findMut, hw, Ref.assign]
      · simp [Finder.findMut, idx_lt hw]
    simp only [Finder.update]
    cases j with
    | array l =>
      simp only
      by_cases h1 : i ≥ l.length
      · by_cases h2 : i + 1 ≤ lim
        · rw [if_pos h1, if_pos h2]; left; exact main _ (resizeNull_get l i)
        · rw [if_pos h1, if_neg h2]; right; exact ⟨rfl, by simp [fits]; omega⟩
      · rw [if_neg h1]; left
        exact main l ⟨_, List.getElem?_eq_getElem (by omega)⟩
    | _ =>
      simp only
      by_cases h2 : i + 1 ≤ lim
      · rw [if_pos h2]; left; exact main _ (resizeNull_get [] i)
      · rw [if_neg h2]; right; exact ⟨rfl, by simp [fits]; omega⟩

theorem setElem_abs (l : List (Json F)) (i : Nat) (v : Json F) (h : i ≥ l.length) :
    absList ((resizeNull l (i + 1)).set i v) = setElem (absList l) i (absJ v) := by
  unfold resizeNull setElem
  rw [absList_set _ _ _ (by simp; omega)]
  simp only [absList_eq, List.map_append, List.map_replicate, absJ, List.length_map]
  rw [List.take_append, List.drop_append]
  simp only [List.length_map]
  rw [List.take_replicate, List.drop_replicate, List.drop_eq_nil_of_le (by simp; omega)]
  rw [show min (i - l.length) (i + 1 - l.length) = i - l.length by omega]
  rw [show i + 1 - l.length - (i + 1 - l.length) = 0 by omega]
  simp

theorem Finder.update_abs {lim : Nat} {f : Finder} {j v j' : Json F} {r : Ref F} (h : f.update lim j v = (j', .ok r)) :
    absJ j' = setV [f] (absJ v) (absJ j) := by
  cases f with
  | key k =>
    simp only [Finder.update] at h
    cases j with
    | object m =>
      simp only [Prod.mk.injEq] at h
      rw [← h.1]
      simp [absJ, absMap_insert, setV, absList]
    | _ =>
      simp only [Prod.mk.injEq] at h
      rw [← h.1]
      simp [absJ, absMap_insert, setV, absList]
      rfl
  | index i =>
    have main : ∀ vec : List (Json F), (∃ w, vec[i]? = some w) →
        (match (Json.array vec).indexMut (.index i) with
          | .ok js => ((js.assign v).1, Out.ok (js.assign v).2)
          | _ => (j, .panic)) = (j', Out.ok r) → j' = .array (vec.set i v) := by
      rintro vec ⟨w, hw⟩ h
      simp only [Json.indexMut, Finder.findMut, hw, Ref.assign, Prod.mk.injEq] at h
      exact h.1.symm
    simp only [Finder.update] at h
    cases j with
    | array l =>
      simp only at h
      by_cases h1 : i ≥ l.length
      · by_cases h2 : i + 1 ≤ lim
        · rw [if_pos h1, if_pos h2] at h
          rw [main _ (resizeNull_get l i) h]
          simp only [absJ, setV]
          rw [setElem_abs l i v h1]
        · rw [if_pos h1, if_neg h2] at h; simp at h
      · rw [if_neg h1] at h
        rw [main l ⟨_, List.getElem?_eq_getElem (by omega)⟩ h]
        simp only [absJ, setV, setElem]
        rw [absList_set _ _ _ (by omega)]
        have : i - (absList l).length = 0 := by rw [absList_eq]; simp; omega
        rw [this]; simp
    | _ =>
      simp only at h
      by_cases h2 : i + 1 ≤ lim
      · rw [if_pos h2] at h
        rw [main _ (resizeNull_get [] i) h]
        simp only [absJ, setV]
        rw [setElem_abs [] i v (by simp)]
        simp [absList]
      · rw [if_neg h2] at h; simp at h

theorem Finder.update_wf {lim : Nat} {f : Finder} {j v j' : Json F} {o : Out (Ref F)} (h : f.update lim j v = (j', o))
    (hj : WF j) (hv : WF v) : WF j' := by
  cases f with
  | key k =>
    simp only [Finder.update] at h
    cases j with
    | object m =>
      simp only [Prod.mk.injEq] at h
      rw [← h.1]; exact wf_mapInsert hj _ _ ⟨hv, by simp⟩
    | _ =>
      simp only [Prod.mk.injEq] at h
      rw [← h.1]
      exact wf_mapInsert (m := []) ⟨by simp, trivial⟩ _ _ ⟨hv, by simp⟩
  | index i =>
    have main : ∀ vec : List (Json F), (∃ w, vec[i]? = some w) → (∀ x ∈ vec, WF x) →
        (match (Json.array vec).indexMut (.index i) with
          | .ok js => ((js.assign v).1, Out.ok (js.assign v).2)
          | _ => (j, .panic)) = (j', o) → WF j' := by
      rintro vec ⟨w, hw⟩ hwf h
      simp only [Json.indexMut, Finder.findMut, hw, Ref.assign, Prod.mk.injEq] at h
      rw [← h.1, wf_array_iff]
      intro y hy
      rcases List.mem_or_eq_of_mem_set hy with hy | rfl
      · exact hwf y hy
      · exact hv
    have hres : ∀ l : List (Json F), (∀ x ∈ l, WF x) → ∀ x ∈ resizeNull l (i + 1), WF x := by
      intro l hl x hx
      rcases List.mem_append.mp hx with hx | hx
      · exact hl x hx
      · rw [List.eq_of_mem_replicate hx]; trivial
    simp only [Finder.update] at h
    cases j with
    | array l =>
      have hl := (wf_array_iff l).mp hj
      simp only at h
      by_cases h1 : i ≥ l.length
      · by_cases h2 : i + 1 ≤ lim
        · rw [if_pos h1, if_pos h2] at h
          exact main _ (resizeNull_get l i) (hres l hl) h
        · rw [if_pos h1, if_neg h2] at h
          simp only [Prod.mk.injEq] at h; rw [← h.1]; exact hj
      · rw [if_neg h1] at h
        exact main l ⟨_, List.getElem?_eq_getElem (by omega)⟩ hl h
    | _ =>
      simp only at h
      by_cases h2 : i + 1 ≤ lim
      · rw [if_pos h2] at h
        exact main _ (resizeNull_get [] i) (hres [] (by simp)) h
      · rw [if_neg h2] at h; simp only [Prod.mk.injEq] at h; rw [← h.1]; exact hj

/-- Updating a component does not affect the others, when they exist. -/
theorem Finder.update_other {lim : Nat} {f g : Finder} {j v j' w : Json F} {r : Ref F} (h : f.update lim j v = (j', .ok r))
    (ha : Apart f g) (hg : g.find j = .ok w) : g.find j' = .ok w := by
  cases f with
  | key k =>
    cases g with
    | index i => exact absurd ha (by simp [Apart])
    | key k' =>
      simp only [Finder.update] at h
      cases j with
      | object m =>
        simp only [Prod.mk.injEq] at h
        rw [← h.1]
        simp only [Finder.find, mapGet_insert] at hg ⊢
        rw [if_neg ha]; exact hg
      | _ => cases hg
  | index i =>
    cases g with
    | key i => exact absurd ha (by simp [Apart])
    | index i' =>
      cases j with
      | array l =>
        have main : ∀ vec : List (Json F), (∃ w, vec[i]? = some w) → vec[i']? = some w →
            (match (Json.array vec).indexMut (.index i) with
              | .ok js => ((js.assign v).1, Out.ok (js.assign v).2)
              | _ => (Json.array l, .panic)) = (j', Out.ok r) → (Finder.index i').find j' = .ok w := by
          rintro vec ⟨u, hu⟩ h' h
          simp only [Json.indexMut, Finder.findMut, hu, Ref.assign, Prod.mk.injEq] at h
          rw [← h.1]
          simp only [Finder.find, List.getElem?_set]
          rw [if_neg ha, h']
        simp only [Finder.find] at hg
        cases hgi : l[i']? with
        | none => rw [hgi] at hg; cases hg
        | some u =>
          rw [hgi] at hg; cases hg
          simp only [Finder.update] at h
          by_cases h1 : i ≥ l.length
          · by_cases h2 : i + 1 ≤ lim
            · rw [if_pos h1, if_pos h2] at h
              refine main _ (resizeNull_get l i) ?_ h
              unfold resizeNull
              rw [List.getElem?_append_left (idx_lt hgi), hgi]
            · rw [if_pos h1, if_neg h2] at h; simp at h
          · rw [if_neg h1] at h
            exact main l ⟨_, List.getElem?_eq_getElem (by omega)⟩ hgi h
      | _ => cases hg

/-! ### Paths -/

theorem Path.find_eq (p : Path) (j : Json F) :
    p.find j = match p.findMut j with | .ok r => .ok r.val | .error e => .error e := by
  induction p generalizing j with
  | last f => exact Finder.find_eq f j
  | cons f p ih =>
    simp only [Path.find, Path.findMut, Finder.find_eq]
    cases f.findMut j with
    | error e => rfl
    | ok r =>
      simp only [ih]
      cases p.findMut r.val <;> rfl

theorem Path.put_get {p : Path} {j : Json F} {r : Ref F} (h : p.findMut j = .ok r) (x : Json F) :
    p.findMut (r.put x) = .ok ⟨x, r.put⟩ := by
  induction p generalizing j r with
  | last f => exact Finder.put_get h x
  | cons f p ih =>
    simp only [Path.findMut] at h
    cases hf : f.findMut j with
    | error e => rw [hf] at h; cases h
    | ok r1 =>
      rw [hf] at h
      simp only at h
      cases hp : p.findMut r1.val with
      | error e => rw [hp] at h; cases h
      | ok r2 =>
        rw [hp] at h
        cases h
        simp only [Path.findMut, Finder.put_get hf, ih hp]

theorem Path.put_val {p : Path} {j : Json F} {r : Ref F} (h : p.findMut j = .ok r) : r.put r.val = j := by
  induction p generalizing j r with
  | last f => exact Finder.put_val h
  | cons f p ih =>
    simp only [Path.findMut] at h
    cases hf : f.findMut j with
    | error e => rw [hf] at h; cases h
    | ok r1 =>
      rw [hf] at h
      simp only at h
      cases hp : p.findMut r1.val with
      | error e => rw [hp] at h; cases h
      | ok r2 =>
        rw [hp] at h
        cases h
        simp only [ih hp, Finder.put_val hf]

/-- The document in which `Path::update` descends after handling the first component, and the reference it descends into. -/
theorem Path.update_step (lim : Nat) (f : Finder) (p : Path) (j v : Json F) :
    (∃ j1 inner, f.findMut j1 = .ok inner ∧
      ((j1 = j ∧ f.find j = .ok inner.val) ∨ ((∃ e, f.find j = .error e) ∧ inner.val = .null ∧ ∃ o, f.update lim j .null = (j1, .ok o))) ∧
      (Path.cons f p).update lim j v = match p.update lim inner.val v with
        | (j2, .ok r) => (inner.put j2, .ok ⟨r.val, fun x => inner.put (r.put x)⟩)
        | (j2, .err e) => (inner.put j2, .err e)
        | (_, .panic) => (j1, .panic)) ∨
    ((Path.cons f p).update lim j v = (j, .panic) ∧ ¬ fits lim f) := by
  simp only [Path.update]
  rw [Finder.find_eq]
  cases hf : f.findMut j with
  | ok inner =>
    left
    exact ⟨j, inner, hf, .inl ⟨rfl, by simp⟩, rfl⟩
  | error e =>
    simp only
    rcases Finder.update_cases lim f j .null with ⟨j', r, h1, h2, h3⟩ | ⟨h1, h2⟩
    · left
      refine ⟨j', ⟨.null, r.put⟩, h3, .inr ⟨⟨e, rfl⟩, rfl, r, h1⟩, ?_⟩
      rw [h1]
      simp only [h2]
      rcases p.update lim .null v with ⟨a, b | c | _⟩ <;> rfl
    · right
      refine ⟨?_, h2⟩
      rw [h1]

/-- After a successful `update` the path leads to the value, and the returned reference is that place. -/
theorem Path.update_get (lim : Nat) (p : Path) (j v j' : Json F) (r : Ref F) (h : p.update lim j v = (j', .ok r)) :
    p.findMut j' = .ok ⟨v, r.put⟩ ∧ r.val = v := by
  induction p generalizing j j' r with
  | last f =>
    simp only [Path.update] at h
    rcases Finder.update_cases lim f j v with ⟨j1, r1, h1, h2, h3⟩ | ⟨h1, h2⟩
    · rw [h1] at h; cases h; exact ⟨h3, h2⟩
    · rw [h1] at h; simp at h
  | cons f p ih =>
    rcases Path.update_step lim f p j v with ⟨j1, inner, hf, _, hu⟩ | ⟨hu, _⟩
    · rw [hu] at h
      cases hp : p.update lim inner.val v with
      | mk j2 o =>
        rw [hp] at h
        cases o with
        | ok r2 =>
          simp only [Prod.mk.injEq, Out.ok.injEq] at h
          obtain ⟨rfl, rfl⟩ := h
          obtain ⟨h1, h2⟩ := ih _ _ _ hp
          refine ⟨?_, h2⟩
          simp only [Path.findMut, Finder.put_get hf, h1]
        | err e => simp at h
        | panic => simp at h
    · rw [hu] at h; simp at h

/-- `update` never returns `Err`, and it succeeds when all indices can be allocated. -/
theorem Path.update_total (lim : Nat) (p : Path) (j v : Json F) :
    (∃ j' r, p.update lim j v = (j', .ok r)) ∨ ((∃ j', p.update lim j v = (j', .panic)) ∧ ¬ ∀ f ∈ comps p, fits lim f) := by
  induction p generalizing j with
  | last f =>
    simp only [Path.update, comps, List.mem_singleton, forall_eq]
    rcases Finder.update_cases lim f j v with ⟨j1, r1, h1, _, _⟩ | ⟨h1, h2⟩
    · exact .inl ⟨j1, r1, h1⟩
    · exact .inr ⟨⟨_, h1⟩, h2⟩
  | cons f p ih =>
    simp only [comps, List.mem_cons, forall_eq_or_imp]
    rcases Path.update_step lim f p j v with ⟨j1, inner, hf, _, hu⟩ | ⟨hu, hn⟩
    · rcases ih inner.val with ⟨j2, r2, h2⟩ | ⟨⟨j2, h2⟩, hn⟩
      · rw [hu, h2]; exact .inl ⟨_, _, rfl⟩
      · rw [hu, h2]; exact .inr ⟨⟨_, rfl⟩, fun h => hn h.2⟩
    · exact .inr ⟨⟨_, hu⟩, fun h => hn h.1⟩

theorem comps_ne_nil (p : Path) : comps p ≠ [] := by cases p <;> simp [comps]

theorem setV_found (f : Finder) (r : List Finder) (hr : r ≠ []) (v x y : Val F) (h : look [f] x = some y) :
    setV (f :: r) v x = place f (setV r v y) x := by
  obtain ⟨g, r, rfl⟩ : ∃ g r', r = g :: r' := by cases r with | nil => exact absurd rfl hr | cons g r => exact ⟨g, r, rfl⟩
  cases f with
  | key k =>
    cases x with
    | obj m =>
      simp only [look] at h
      cases hm : (m k).getLast? with
      | none => rw [hm] at h; cases h
      | some z => rw [hm] at h; cases h; simp [setV, hm, place]
    | _ => cases h
  | index i =>
    cases x with
    | arr l =>
      simp only [look] at h
      cases hm : l[i]? with
      | none => rw [hm] at h; cases h
      | some z =>
        rw [hm] at h; cases h
        simp only [setV, hm, place, setElem, Option.getD_some]
        have := idx_lt hm
        rw [show i - l.length = 0 by omega]
        simp
    | _ => cases h

theorem setV_missing (f : Finder) (r : List Finder) (hr : r ≠ []) (v x : Val F) (h : look [f] x = none) :
    setV (f :: r) v x = place f (setV r v .null) (setV [f] .null x) := by
  obtain ⟨g, r, rfl⟩ : ∃ g r', r = g :: r' := by cases r with | nil => exact absurd rfl hr | cons g r => exact ⟨g, r, rfl⟩
  have upd_upd : ∀ (m : Str → List (Val F)) k a b, upd (upd m k a) k b = upd m k b := by
    intro m k a b; funext q; simp only [upd]; split <;> rfl
  cases f with
  | key k =>
    cases x with
    | obj m =>
      simp only [look] at h
      cases hm : (m k).getLast? with
      | none =>
        have : m k = [] := List.getLast?_eq_none_iff.mp hm
        simp [setV, place, upd_upd, this, upd]
      | some z => rw [hm] at h; cases h
    | _ => simp [setV, place, upd_upd, upd]
  | index i =>
    have key : ∀ (l : List (Val F)) (y : Val F), l.length ≤ i →
        setElem l i y = (setElem l i .null).take i ++ [y] ++ (setElem l i .null).drop (i + 1) := by
      intro l y hl
      have hlen : (List.take i l ++ List.replicate (i - l.length) Val.null).length = i := by simp; omega
      simp only [setElem]
      rw [List.drop_eq_nil_of_le (show l.length ≤ i + 1 by omega), List.append_nil, List.append_nil]
      rw [List.take_left' hlen, List.drop_eq_nil_of_le (by simp only [List.length_append, List.length_singleton] at hlen ⊢; omega)]
      simp
    cases x with
    | arr l =>
      simp only [look] at h
      cases hm : l[i]? with
      | none =>
        have hl : l.length ≤ i := List.getElem?_eq_none_iff.mp hm
        simp only [setV, place, hm, Option.getD_none]
        rw [key l _ hl]
      | some z => rw [hm] at h; cases h
    | _ => simp only [setV, place]; rw [key [] _ (by simp)]

theorem Finder.find_look (f : Finder) (j : Json F) :
    look [f] (absJ j) = match f.find j with | .ok x => some (absJ x) | .error _ => none := by
  cases f with
  | key k =>
    cases j with
    | object m =>
      simp only [absJ, look, Finder.find, mapGet_abs_last]
      cases mapGet k m <;> rfl
    | _ => rfl
  | index i =>
    cases j with
    | array l =>
      simp only [absJ, look, Finder.find, absList_eq, List.getElem?_map]
      cases l[i]? <;> rfl
    | _ => rfl

/-- What `update` does to the document. -/
theorem Path.update_abs (lim : Nat) (p : Path) (j v j' : Json F) (r : Ref F) (h : p.update lim j v = (j', .ok r)) :
    absJ j' = setV (comps p) (absJ v) (absJ j) := by
  induction p generalizing j j' r with
  | last f => exact Finder.update_abs h
  | cons f p ih =>
    rcases Path.update_step lim f p j v with ⟨j1, inner, hf, hc, hu⟩ | ⟨hu, _⟩
    · rw [hu] at h
      cases hp : p.update lim inner.val v with
      | mk j2 o =>
        rw [hp] at h
        cases o with
        | ok r2 =>
          simp only [Prod.mk.injEq, Out.ok.injEq] at h
          obtain ⟨rfl, rfl⟩ := h
          have h2 := ih _ _ _ hp
          rw [(Finder.abs_put hf j2).1, h2, comps]
          rcases hc with ⟨rfl, hfind⟩ | ⟨⟨e, he⟩, hnull, o, ho⟩
          · rw [setV_found f _ (comps_ne_nil p) _ _ (absJ inner.val)]
            rw [Finder.find_look, hfind]
          · rw [setV_missing f _ (comps_ne_nil p), hnull, Finder.update_abs ho]
            · rfl
            · rw [Finder.find_look, he]
        | err e => simp at h
        | panic => simp at h
    · rw [hu] at h; simp at h

theorem Path.update_wf (lim : Nat) (p : Path) (j v : Json F) (hj : WF j) (hv : WF v) : WF (p.update lim j v).1 := by
  induction p generalizing j with
  | last f => exact Finder.update_wf (o := (f.update lim j v).2) rfl hj hv
  | cons f p ih =>
    rcases Path.update_step lim f p j v with ⟨j1, inner, hf, hc, hu⟩ | ⟨hu, _⟩
    · have hj1 : WF j1 := by
        rcases hc with ⟨rfl, _⟩ | ⟨_, _, o, ho⟩
        · exact hj
        · exact Finder.update_wf ho hj trivial
      have hin := Finder.wf_put hf hj1
      have hrec := ih inner.val hin.1
      rw [hu]
      cases hp : p.update lim inner.val v with
      | mk j2 o =>
        rw [hp] at hrec
        cases o with
        | ok r2 => exact hin.2 _ hrec
        | err e => exact hin.2 _ hrec
        | panic => exact hj1
    · rw [hu]; exact hj

/-- Diverging paths are not affected. -/
theorem Path.update_other (lim : Nat) (p q : Path) (j v j' w : Json F) (r : Ref F) (h : p.update lim j v = (j', .ok r))
    (hd : Diverge (comps p) (comps q)) (hq : q.find j = .ok w) : q.find j' = .ok w := by
  induction p generalizing q j j' r with
  | last f =>
    obtain ⟨pre, a, b, s, t, h1, h2, h3⟩ := hd
    cases pre with
    | cons x pre => simp [comps] at h1
    | nil =>
      simp only [comps, List.nil_append, List.cons.injEq] at h1
      obtain ⟨rfl, _⟩ := h1
      cases q with
      | last g =>
        simp only [comps, List.nil_append, List.cons.injEq] at h2
        obtain ⟨rfl, _⟩ := h2
        exact Finder.update_other h h3 hq
      | cons g q =>
        simp only [comps, List.nil_append, List.cons.injEq] at h2
        obtain ⟨rfl, _⟩ := h2
        simp only [Path.find] at hq ⊢
        cases hg : g.find j with
        | error e => rw [hg] at hq; cases hq
        | ok x => rw [hg] at hq; rw [Finder.update_other h h3 hg]; exact hq
  | cons f p ih =>
    rcases Path.update_step lim f p j v with ⟨j1, inner, hf, hc, hu⟩ | ⟨hu, _⟩
    · rw [hu] at h
      cases hp : p.update lim inner.val v with
      | mk j2 o =>
        rw [hp] at h
        cases o with
        | ok r2 =>
          simp only [Prod.mk.injEq, Out.ok.injEq] at h
          obtain ⟨rfl, rfl⟩ := h
          obtain ⟨pre, a, b, s, t, h1, h2, h3⟩ := hd
          cases pre with
          | nil =>
            simp only [comps, List.nil_append, List.cons.injEq] at h1
            obtain ⟨rfl, _⟩ := h1
            -- the first components differ
            have first : ∀ x, b.find j = .ok x → b.find (inner.put j2) = .ok x := by
              intro x hx
              rw [Finder.put_other hf h3]
              rcases hc with ⟨rfl, _⟩ | ⟨_, _, o, ho⟩
              · exact hx
              · exact Finder.update_other ho h3 hx
            cases q with
            | last g =>
              simp only [comps, List.nil_append, List.cons.injEq] at h2
              obtain ⟨rfl, _⟩ := h2
              exact first _ hq
            | cons g q =>
              simp only [comps, List.nil_append, List.cons.injEq] at h2
              obtain ⟨rfl, _⟩ := h2
              simp only [Path.find] at hq ⊢
              cases hg : g.find j with
              | error e => rw [hg] at hq; cases hq
              | ok x => rw [hg] at hq; rw [first x hg]; exact hq
          | cons x pre =>
            simp only [comps, List.cons_append, List.cons.injEq] at h1
            obtain ⟨rfl, h1⟩ := h1
            cases q with
            | last g => simp [comps] at h2
            | cons g q =>
              simp only [comps, List.cons_append, List.cons.injEq] at h2
              obtain ⟨rfl, h2⟩ := h2
              simp only [Path.find] at hq ⊢
              cases hg : g.find j with
              | error e => rw [hg] at hq; cases hq
              | ok y =>
                rw [hg] at hq
                rcases hc with ⟨rfl, hfind⟩ | ⟨⟨e, he⟩, _⟩
                · rw [hg] at hfind
                  cases hfind
                  have hput : g.find (inner.put j2) = .ok j2 := by
                    rw [Finder.find_eq, Finder.put_get hf]
                  rw [hput]
                  exact ih q _ _ _ hp ⟨pre, a, b, s, t, h1, h2, h3⟩ hq
                · rw [hg] at he; cases he
        | err e => simp at h
        | panic => simp at h
    · rw [hu] at h; simp at h

/-! ### find and discard -/

theorem Path.find_look (p : Path) (j : Json F) :
    look (comps p) (absJ j) = match p.find j with | .ok x => some (absJ x) | .error _ => none := by
  have cons_look : ∀ (f : Finder) (r : List Finder) (x : Val F), look (f :: r) x = (look [f] x).bind (look r) := by
    intro f r x
    cases f with
    | key k =>
      cases x with
      | obj m => simp only [look]; cases (m k).getLast? <;> rfl
      | _ => rfl
    | index i =>
      cases x with
      | arr m => simp only [look]; cases m[i]? <;> rfl
      | _ => rfl
  induction p generalizing j with
  | last f => exact Finder.find_look f j
  | cons f p ih =>
    rw [comps, cons_look, Finder.find_look]
    simp only [Path.find]
    cases f.find j with
    | error e => rfl
    | ok x => exact ih x

theorem Path.find_fail (p : Path) (j : Json F) :
    firstFail (comps p) (absJ j) = match p.find j with | .ok _ => none | .error e => some e.kind := by
  induction p generalizing j with
  | last f =>
    cases f with
    | key k =>
      cases j with
      | object m =>
        simp only [comps, absJ, firstFail, Path.find, Finder.find, mapGet_abs_last]
        cases mapGet k m <;> rfl
      | _ => rfl
    | index i =>
      cases j with
      | array l =>
        simp only [comps, absJ, firstFail, Path.find, Finder.find, absList_eq, List.getElem?_map]
        cases l[i]? <;> rfl
      | _ => rfl
  | cons f p ih =>
    cases f with
    | key k =>
      cases j with
      | object m =>
        simp only [comps, absJ, firstFail, Path.find, Finder.find, mapGet_abs_last]
        cases mapGet k m with
        | none => rfl
        | some e => exact ih e.1
      | _ => rfl
    | index i =>
      cases j with
      | array l =>
        simp only [comps, absJ, firstFail, Path.find, Finder.find, absList_eq, List.getElem?_map]
        cases l[i]? with
        | none => rfl
        | some e => exact ih e
      | _ => rfl

/-- `Path::discard` returns what `Path::find` returns, value or error. -/
theorem Path.discard_result (p : Path) (j : Json F) : (p.discard j).2 = p.find j := by
  induction p generalizing j with
  | last f =>
    cases f with
    | key k =>
      cases j with
      | object m => simp only [Path.discard, Finder.discard, Path.find, Finder.find]; cases mapGet k m <;> rfl
      | _ => rfl
    | index i =>
      cases j with
      | array m => simp only [Path.discard, Finder.discard, Path.find, Finder.find]; cases m[i]? <;> rfl
      | _ => rfl
  | cons f p ih =>
    simp only [Path.discard, Path.find]
    rw [Finder.find_eq]
    cases f.findMut j with
    | error e => rfl
    | ok r => exact ih r.val

/-- A failing `discard` changes nothing. -/
theorem Path.discard_fail (p : Path) (j : Json F) (e : Error) (h : p.find j = .error e) : (p.discard j).1 = j := by
  induction p generalizing j with
  | last f =>
    cases f with
    | key k =>
      cases j with
      | object m =>
        simp only [Path.discard, Finder.discard, Path.find, Finder.find] at h ⊢
        cases hg : mapGet k m with
        | none => rfl
        | some p => rw [hg] at h; cases h
      | _ => rfl
    | index i =>
      cases j with
      | array m =>
        simp only [Path.discard, Finder.discard, Path.find, Finder.find] at h ⊢
        cases hg : m[i]? with
        | none => rfl
        | some p => rw [hg] at h; cases h
      | _ => rfl
  | cons f p ih =>
    simp only [Path.discard, Path.find] at h ⊢
    rw [Finder.find_eq] at h
    cases hf : f.findMut j with
    | error e => rfl
    | ok r =>
      rw [hf] at h
      simp only at h ⊢
      rw [ih r.val h, Finder.put_val hf]

theorem delV_cons (f : Finder) (r : List Finder) (hr : r ≠ []) (x y : Val F) (h : look [f] x = some y) :
    delV (f :: r) x = place f (delV r y) x := by
  obtain ⟨g, r, rfl⟩ : ∃ g r', r = g :: r' := by cases r with | nil => exact absurd rfl hr | cons g r => exact ⟨g, r, rfl⟩
  cases f with
  | key k =>
    cases x with
    | obj m =>
      simp only [look] at h
      cases hm : (m k).getLast? with
      | none => rw [hm] at h; cases h
      | some z => rw [hm] at h; cases h; simp [delV, hm, place]
    | _ => cases h
  | index i =>
    cases x with
    | arr l =>
      simp only [look] at h
      cases hm : l[i]? with
      | none => rw [hm] at h; cases h
      | some z => rw [hm] at h; cases h; simp [delV, hm, place]
    | _ => cases h

/-- What a successful `discard` does to the document. -/
theorem Path.discard_abs (p : Path) (j x : Json F) (hw : WF j) (h : p.find j = .ok x) :
    absJ (p.discard j).1 = delV (comps p) (absJ j) ∧ WF (p.discard j).1 := by
  induction p generalizing j with
  | last f =>
    cases f with
    | key k =>
      cases j with
      | object m =>
        simp only [Path.discard, Finder.discard, Path.find, Finder.find] at h ⊢
        cases hg : mapGet k m with
        | none => rw [hg] at h; cases h
        | some p =>
          refine ⟨?_, wf_mapRemove hw k⟩
          simp only [absJ, comps, delV, absMap_remove m hw.1]
      | _ => cases h
    | index i =>
      cases j with
      | array m =>
        simp only [Path.discard, Finder.discard, Path.find, Finder.find] at h ⊢
        cases hg : m[i]? with
        | none => rw [hg] at h; cases h
        | some p =>
          refine ⟨?_, ?_⟩
          · simp only [absJ, comps, delV, absList_eq, List.eraseIdx_eq_take_drop_succ, List.map_append, List.map_take, List.map_drop]
          · rw [wf_array_iff] at hw ⊢
            intro y hy
            exact hw y (List.mem_of_mem_eraseIdx hy)
      | _ => cases h
  | cons f p ih =>
    simp only [Path.discard, Path.find] at h ⊢
    rw [Finder.find_eq] at h
    cases hf : f.findMut j with
    | error e => rw [hf] at h; cases h
    | ok r =>
      rw [hf] at h
      simp only at h ⊢
      have hin := Finder.wf_put hf hw
      obtain ⟨h1, h2⟩ := ih r.val hin.1 h
      have ha := Finder.abs_put hf (p.discard r.val).1
      refine ⟨?_, hin.2 _ h2⟩
      rw [ha.1, h1, comps, delV_cons f _ (comps_ne_nil p) _ _ ha.2]

theorem Path.wf_find (p : Path) (j x : Json F) (hw : WF j) (h : p.find j = .ok x) : WF x := by
  induction p generalizing j with
  | last f =>
    rw [Path.find, Finder.find_eq] at h
    cases hf : f.findMut j with
    | error e => rw [hf] at h; cases h
    | ok r => rw [hf] at h; cases h; exact (Finder.wf_put hf hw).1
  | cons f p ih =>
    rw [Path.find, Finder.find_eq] at h
    cases hf : f.findMut j with
    | error e => rw [hf] at h; cases h
    | ok r => rw [hf] at h; exact ih _ (Finder.wf_put hf hw).1 h

end RJ
