import Verif.Spec.Growth
import Verif.Proof.History
/-
  How documents grow.
-/
set_option linter.unusedSectionVars false
namespace RJ
open Spec
variable {F : Type}

theorem nodes_pos (j : Json F) : 0 < nodes j := by cases j <;> simp [nodes] <;> omega

theorem nodesList_append (l l' : List (Json F)) : nodesList (l ++ l') = nodesList l + nodesList l' := by
  induction l with
  | nil => simp [nodesList]
  | cons x l ih => rw [List.cons_append, nodesList, nodesList, ih]; omega

theorem nodesList_nulls (n : Nat) : nodesList (List.replicate n (.null : Json F)) = n := by
  induction n with
  | zero => rfl
  | succ n ih => rw [List.replicate_succ, nodesList, ih]; simp only [nodes]; omega

theorem nodesList_set {l : List (Json F)} {i : Nat} {x : Json F} (h : l[i]? = some x) (y : Json F) : nodesList (l.set i y) + nodes x = nodesList l + nodes y := by
  induction l generalizing i with
  | nil => cases h
  | cons a l ih =>
    cases i with
    | zero => cases h; rw [List.set_cons_zero, nodesList, nodesList]; omega
    | succ i => rw [List.set_cons_succ, nodesList, nodesList]; have := ih (i := i) h; omega

theorem nodesList_erase {l : List (Json F)} {i : Nat} {x : Json F} (h : l[i]? = some x) : nodesList (l.eraseIdx i) + nodes x = nodesList l := by
  induction l generalizing i with
  | nil => cases h
  | cons a l ih =>
    cases i with
    | zero => cases h; rw [List.eraseIdx_cons_zero, nodesList]; omega
    | succ i => rw [List.eraseIdx_cons_succ, nodesList, nodesList]; have := ih (i := i) h; omega

/-- The values of one entry. -/
def entryNodes (e : Option (Json F × List (Json F))) : Nat :=
  match e with
  | some (x, l) => nodes x + nodesList l
  | none => 0

theorem nodesMap_insert (k : Str) (x : Json F) (l : List (Json F)) (m : Obj F) :
    nodesMap (mapInsert k (x, l) m) + entryNodes (mapGet k m) = nodesMap m + (nodes x + nodesList l) := by
  induction m with
  | nil => simp [mapInsert, mapGet, nodesMap, entryNodes]
  | cons e m ih =>
    obtain ⟨k', y, l'⟩ := e
    rw [mapInsert, mapGet]
    by_cases h : k' = k
    · rw [if_pos h, if_pos h, nodesMap, nodesMap, entryNodes]; omega
    · rw [if_neg h, if_neg h, nodesMap, nodesMap]; omega

theorem nodesMap_remove (k : Str) (m : Obj F) : nodesMap (mapRemove k m) + entryNodes (mapGet k m) = nodesMap m := by
  induction m with
  | nil => simp [mapRemove, mapGet, nodesMap, entryNodes]
  | cons e m ih =>
    obtain ⟨k', y, l'⟩ := e
    rw [mapRemove, mapGet]
    by_cases h : k' = k
    · rw [if_pos h, if_pos h, nodesMap, entryNodes]; omega
    · rw [if_neg h, if_neg h, nodesMap, nodesMap]; omega

theorem nodesMap_objectInsert (k : Str) (x : Json F) (m : Obj F) : nodesMap (objectInsert k x m) = nodesMap m + nodes x := by
  unfold objectInsert
  cases h : mapGet k m with
  | none =>
    have := nodesMap_insert k x [] m
    rw [h] at this
    simp only [entryNodes, nodesList] at this
    dsimp only
    omega
  | some e =>
    obtain ⟨old, l⟩ := e
    have := nodesMap_insert k x (old :: l) m
    rw [h] at this
    simp only [entryNodes, nodesList] at this
    dsimp only
    omega

/-! ### Assigning through references -/

theorem Finder.nodes_put {f : Finder} {j : Json F} {r : Ref F} (h : f.findMut j = .ok r) (x : Json F) : nodes (r.put x) + nodes r.val = nodes j + nodes x := by
  cases f with
  | key k =>
    cases j with
    | object m =>
      simp only [Finder.findMut] at h
      cases hm : mapGet k m with
      | none => rw [hm] at h; cases h
      | some e =>
        obtain ⟨y, l⟩ := e
        rw [hm] at h
        cases h
        have := nodesMap_insert k x l m
        rw [hm] at this
        simp only [entryNodes] at this
        simp only [nodes]
        omega
    | _ => cases h
  | index i =>
    cases j with
    | array l =>
      simp only [Finder.findMut] at h
      cases hm : l[i]? with
      | none => rw [hm] at h; cases h
      | some y =>
        rw [hm] at h
        cases h
        have := nodesList_set hm x
        simp only [nodes]
        omega
    | _ => cases h

theorem Path.nodes_put {p : Path} {j : Json F} {r : Ref F} (h : p.findMut j = .ok r) (x : Json F) : nodes (r.put x) + nodes r.val = nodes j + nodes x := by
  induction p generalizing j r x with
  | last f => exact Finder.nodes_put h x
  | cons f p ih =>
    simp only [Path.findMut] at h
    cases hf : f.findMut j with
    | error e => rw [hf] at h; cases h
    | ok inner =>
      rw [hf] at h
      dsimp only at h
      cases hp : p.findMut inner.val with
      | error e => rw [hp] at h; cases h
      | ok r' =>
        rw [hp] at h
        cases h
        have h1 := ih hp x
        have h2 := Finder.nodes_put hf (r'.put x)
        dsimp only
        omega

theorem indexMut_ok {f : Finder} {j : Json F} {r : Ref F} (h : j.indexMut f = .ok r) : f.findMut j = .ok r := by
  unfold Json.indexMut at h
  cases hf : f.findMut j with
  | error e => rw [hf] at h; cases h
  | ok r' => rw [hf] at h; cases h; rfl

theorem indexAll_nodes {fs : List Finder} {j : Json F} {r : Ref F} (h : j.indexAll fs = .ok r) (x : Json F) : nodes (r.put x) + nodes r.val = nodes j + nodes x := by
  induction fs generalizing j r x with
  | nil => cases h; dsimp only; omega
  | cons f fs ih =>
    rw [Json.indexAll] at h
    cases hf : j.indexMut f with
    | err e => rw [hf] at h; cases h
    | panic => rw [hf] at h; cases h
    | ok inner =>
      rw [hf] at h
      dsimp only at h
      cases hp : inner.val.indexAll fs with
      | err e => rw [hp] at h; cases h
      | panic => rw [hp] at h; cases h
      | ok r' =>
        rw [hp] at h
        cases h
        have h1 := ih hp x
        have h2 := Finder.nodes_put (indexMut_ok hf) (r'.put x)
        dsimp only
        omega

/-! ### Methods -/

theorem method_nodes (m : Method F) (j : Json F) (n : Nat) (hn : ∀ d v, m.puts = some (d, v) → nodes v ≤ n) : nodes (Method.call m j).1 ≤ nodes j + n := by
  cases m with
  | insert k v =>
    have := hn 1 v rfl
    cases j with
    | object o =>
      have h := nodesMap_insert k v [] o
      show nodes (.object (mapInsert k (v, []) o)) ≤ _
      simp only [nodesList] at h
      simp only [nodes]
      omega
    | _ => exact Nat.le_add_right _ _
  | append k v =>
    have := hn 1 v rfl
    cases j with
    | object o =>
      have h := nodesMap_objectInsert k v o
      show nodes (.object (objectInsert k v o)) ≤ _
      simp only [nodes]
      omega
    | _ => exact Nat.le_add_right _ _
  | delete k =>
    cases j with
    | object o =>
      have h := nodesMap_remove k o
      show nodes (.object (mapRemove k o)) ≤ _
      simp only [nodes]
      omega
    | _ => exact Nat.le_add_right _ _
  | merge k => exact Nat.le_add_right _ _
  | push v =>
    have := hn 1 v rfl
    cases j with
    | array l =>
      show nodes (.array (l ++ [v])) ≤ _
      simp only [nodes, nodesList_append, nodesList]
      omega
    | _ => exact Nat.le_add_right _ _
  | replace i v =>
    have := hn 1 v rfl
    cases j with
    | array l =>
      simp only [Method.call, Json.replace]
      cases h : l[i]? with
      | none => exact Nat.le_add_right _ _
      | some x =>
        have h := nodesList_set h v
        simp only [nodes]
        omega
    | _ => exact Nat.le_add_right _ _
  | remove i =>
    cases j with
    | array l =>
      simp only [Method.call, Json.remove]
      by_cases hi : i < l.length
      · rw [if_pos hi]
        have h := nodesList_erase (List.getElem?_eq_getElem hi)
        simp only [nodes]
        omega
      · rw [if_neg hi]; exact Nat.le_add_right _ _
    | _ => exact Nat.le_add_right _ _
  | read => exact Nat.le_add_right _ _
  | assign v =>
    have := hn 0 v rfl
    have := nodes_pos j
    show nodes v ≤ _
    omega

/-! ### `set` -/

theorem resize_nodes (l : List (Json F)) (n : Nat) : nodesList (resizeNull l n) = nodesList l + (n - l.length) := by
  unfold resizeNull
  rw [nodesList_append, nodesList_nulls]

theorem Finder.update_nodes {lim : Nat} {f : Finder} {j v j' : Json F} {r : Ref F} (h : f.update lim j v = (j', .ok r)) :
    nodes j' < nodes j + nodes v + onTheWay [f] := by
  cases f with
  | key k =>
    have key : ∀ m : Obj F, nodes (.object (mapInsert k (v, []) m)) ≤ nodes (.object m) + nodes v := by
      intro m
      have h := nodesMap_insert k v [] m
      simp only [nodesList] at h
      simp only [nodes]
      omega
    simp only [Finder.update, Prod.mk.injEq] at h
    obtain ⟨rfl, -⟩ := h
    have hp := nodes_pos j
    have h0 := key []
    have hnil : nodes (.object [] : Json F) = 1 := by simp [nodes, nodesMap]
    cases j with
    | object m => have := key m; simp only [onTheWay]; omega
    | _ => simp only [onTheWay]; omega
  | index i =>
    have key : ∀ l : List (Json F), i < l.length → ∀ {j' : Json F} {r : Ref F},
        (match (Json.array l).indexMut (.index i) with | .ok js => (let (a, b) := js.assign v; (a, Out.ok b)) | _ => (j, Out.panic)) = (j', Out.ok r) →
        nodes j' < nodes (.array l) + nodes v := by
      intro l hl j' r h
      cases hi : (Json.array l).indexMut (.index i) with
      | ok js =>
        rw [hi] at h
        simp only [Ref.assign, Prod.mk.injEq] at h
        obtain ⟨rfl, -⟩ := h
        have := Finder.nodes_put (indexMut_ok hi) v
        have := nodes_pos js.val
        omega
      | err e => rw [hi] at h; cases h
      | panic => rw [hi] at h; cases h
    have hp := nodes_pos j
    have grown : ∀ (l : List (Json F)), i ≥ l.length → ∀ {j' : Json F} {r : Ref F},
        (match (Json.array (resizeNull l (i + 1))).indexMut (.index i) with | .ok js => (let (a, b) := js.assign v; (a, Out.ok b)) | _ => (j, Out.panic)) = (j', Out.ok r) →
        nodes j' ≤ 1 + nodesList l + nodes v + i := by
      intro l hl j' r h
      have := key _ (by unfold resizeNull; simp; omega) h
      simp only [nodes, resize_nodes] at this
      omega
    simp only [Finder.update] at h
    simp only [onTheWay]
    have fresh : ∀ {j' : Json F} {r : Ref F},
        (match (if i + 1 ≤ lim then some (resizeNull ([] : List (Json F)) (i + 1)) else none : Option (List (Json F))) with
          | none => (j, Out.panic)
          | some vec => match (Json.array vec).indexMut (.index i) with | .ok js => (let (a, b) := js.assign v; (a, Out.ok b)) | _ => (j, Out.panic)) = (j', Out.ok r) →
        nodes j' < nodes j + nodes v + (1 + i + 0) := by
      intro j' r h
      by_cases hl : i + 1 ≤ lim
      · rw [if_pos hl] at h
        dsimp only at h
        have := grown [] (by simp) h
        simp only [nodesList] at this
        omega
      · rw [if_neg hl] at h; cases h
    cases j with
    | array l =>
      dsimp only at h
      by_cases hi : i ≥ l.length
      · rw [if_pos hi] at h
        by_cases hl : i + 1 ≤ lim
        · rw [if_pos hl] at h
          dsimp only at h
          have := grown l hi h
          simp only [nodes]
          omega
        · rw [if_neg hl] at h; cases h
      · rw [if_neg hi] at h
        dsimp only at h
        have := key l (by omega) h
        omega
    | _ => exact fresh h

theorem Path.update_nodes (lim : Nat) (p : Path) (j v j' : Json F) (r : Ref F) (h : p.update lim j v = (j', .ok r)) : nodes j' < nodes j + nodes v + onTheWay (comps p) := by
  induction p generalizing j j' r with
  | last f => exact Finder.update_nodes h
  | cons f p ih =>
    rcases Path.update_step lim f p j v with ⟨j1, inner, hf, hc, hu⟩ | ⟨hu, _⟩
    · rw [hu] at h
      cases hp : p.update lim inner.val v with
      | mk j2 o =>
        rw [hp] at h
        cases o with
        | ok r2 =>
          simp only [Prod.mk.injEq, Out.ok.injEq] at h
          obtain ⟨rfl, rfl⟩ := h
          have h2 := ih _ _ _ hp
          have h3 := Finder.nodes_put hf j2
          have hway : onTheWay (comps (.cons f p)) = onTheWay [f] + onTheWay (comps p) := by cases f <;> simp [comps, onTheWay]
          have h6 : nodes j1 ≤ nodes j + onTheWay [f] := by
            rcases hc with ⟨rfl, _⟩ | ⟨_, _, o, ho⟩
            · omega
            · have := Finder.update_nodes ho
              simp only [nodes] at this
              omega
          omega
        | err e => simp at h
        | panic => simp at h
    · rw [hu] at h; simp at h

/-! ### `del` -/

theorem Finder.discard_nodes (f : Finder) (j : Json F) : nodes (f.discard j).1 ≤ nodes j := by
  cases f with
  | key k =>
    cases j with
    | object m =>
      simp only [Finder.discard]
      cases hm : mapGet k m with
      | none => exact Nat.le_refl _
      | some e =>
        have := nodesMap_remove k m
        simp only [nodes]
        omega
    | _ => exact Nat.le_refl _
  | index i =>
    cases j with
    | array l =>
      simp only [Finder.discard]
      cases hm : l[i]? with
      | none => exact Nat.le_refl _
      | some x =>
        have := nodesList_erase hm
        simp only [nodes]
        omega
    | _ => exact Nat.le_refl _

theorem Path.discard_nodes (p : Path) (j : Json F) : nodes (p.discard j).1 ≤ nodes j := by
  induction p generalizing j with
  | last f => exact f.discard_nodes j
  | cons f p ih =>
    simp only [Path.discard]
    cases hf : f.findMut j with
    | error e => exact Nat.le_refl _
    | ok inner =>
      have h1 := ih inner.val
      have h2 := Finder.nodes_put hf (p.discard inner.val).1
      dsimp only
      omega

/-! ### Levels -/

theorem levels_zero (j : Json F) : ¬ Levels 0 j := fun h => absurd (h 0 j (.self j)) (by omega)

theorem levels_mono {D E : Nat} {j : Json F} (h : Levels D j) (hd : D ≤ E) : Levels E j := fun n x hx => Nat.lt_of_lt_of_le (h n x hx) hd

theorem levels_array (D : Nat) (l : List (Json F)) : Levels (D + 1) (.array l) ↔ ∀ x ∈ l, Levels D x := by
  constructor
  · intro h x hx n y hy
    have := h _ _ (.element n y x l hx hy)
    omega
  · intro h n y hy
    cases hy with
    | self => omega
    | element n _ x _ hx hy => have := h x hx n y hy; omega

theorem levels_object (D : Nat) (m : Obj F) : Levels (D + 1) (.object m) ↔ ∀ e ∈ m, Levels D e.2.1 ∧ ∀ x ∈ e.2.2, Levels D x := by
  constructor
  · rintro h ⟨k, c, l⟩ he
    refine ⟨fun n y hy => ?_, fun x hx n y hy => ?_⟩
    · have := h _ _ (.member n y c m k l he hy); omega
    · have := h _ _ (.older n y x c m k l he hx hy); omega
  · intro h n y hy
    cases hy with
    | self => omega
    | member n _ x _ k l he hy => have := (h _ he).1 n y hy; omega
    | older n _ x c _ k l he hx hy => have := (h _ he).2 x hx n y hy; omega

theorem levels_leaf {j : Json F} (h1 : ∀ m, j ≠ .object m) (h2 : ∀ l, j ≠ .array l) (D : Nat) : Levels (D + 1) j := by
  intro n y hy
  cases hy with
  | self => omega
  | element n _ x l => exact absurd rfl (h2 l)
  | member n _ x m => exact absurd rfl (h1 m)
  | older n _ x c m => exact absurd rfl (h1 m)

theorem levels_null {D : Nat} (h : 0 < D) : Levels D (.null : Json F) := by
  obtain ⟨D, rfl⟩ : ∃ E, D = E + 1 := ⟨D - 1, by omega⟩
  exact levels_leaf (by intro m h; cases h) (by intro m h; cases h) D

theorem levels_pos {D : Nat} {j : Json F} (h : Levels D j) : 0 < D := by
  have := h 0 j (.self j)
  omega

theorem levels_insert {D : Nat} {k : Str} {x : Json F} {l : List (Json F)} {m : Obj F} (hm : Levels (D + 1) (.object m)) (hx : Levels D x) (hl : ∀ y ∈ l, Levels D y) :
    Levels (D + 1) (.object (mapInsert k (x, l) m)) := by
  rw [levels_object] at hm ⊢
  induction m with
  | nil =>
    intro e he
    simp only [mapInsert, List.mem_singleton] at he
    subst he
    exact ⟨hx, hl⟩
  | cons a m ih =>
    obtain ⟨k', v'⟩ := a
    intro e he
    rw [mapInsert] at he
    by_cases hk : k' = k
    · rw [if_pos hk] at he
      rcases List.mem_cons.1 he with rfl | he
      · exact ⟨hx, hl⟩
      · exact hm e (by simp [he])
    · rw [if_neg hk] at he
      rcases List.mem_cons.1 he with rfl | he
      · exact hm _ (by simp)
      · exact ih (fun e he => hm e (by simp [he])) e he

theorem levels_get {D : Nat} {k : Str} {m : Obj F} {x : Json F} {l : List (Json F)} (hm : Levels (D + 1) (.object m)) (h : mapGet k m = some (x, l)) :
    Levels D x ∧ ∀ y ∈ l, Levels D y := (levels_object D m).1 hm _ (mapGet_mem h)

theorem Finder.levels_put {D : Nat} {f : Finder} {j : Json F} {r : Ref F} (h : f.findMut j = .ok r) (hj : Levels (D + 1) j) :
    Levels D r.val ∧ ∀ x, Levels D x → Levels (D + 1) (r.put x) := by
  cases f with
  | key k =>
    cases j with
    | object m =>
      simp only [Finder.findMut] at h
      cases hm : mapGet k m with
      | none => rw [hm] at h; cases h
      | some e =>
        obtain ⟨y, l⟩ := e
        rw [hm] at h
        cases h
        obtain ⟨h1, h2⟩ := levels_get hj hm
        exact ⟨h1, fun x hx => levels_insert hj hx h2⟩
    | _ => cases h
  | index i =>
    cases j with
    | array l =>
      simp only [Finder.findMut] at h
      cases hm : l[i]? with
      | none => rw [hm] at h; cases h
      | some y =>
        rw [hm] at h
        cases h
        rw [levels_array] at hj
        refine ⟨hj y (List.mem_iff_getElem?.2 ⟨i, hm⟩), fun x hx => ?_⟩
        rw [levels_array]
        intro z hz
        rcases List.mem_or_eq_of_mem_set hz with hz | rfl
        · exact hj z hz
        · exact hx
    | _ => cases h

theorem Path.levels_put {D : Nat} {p : Path} {j : Json F} {r : Ref F} (h : p.findMut j = .ok r) (hj : Levels (D + (comps p).length) j) :
    Levels D r.val ∧ ∀ x, Levels D x → Levels (D + (comps p).length) (r.put x) := by
  induction p generalizing j r with
  | last f => exact Finder.levels_put h hj
  | cons f p ih =>
    simp only [Path.findMut] at h
    have e : D + (comps (.cons f p)).length = D + (comps p).length + 1 := by simp [comps]; omega
    rw [e] at hj ⊢
    cases hf : f.findMut j with
    | error e => rw [hf] at h; cases h
    | ok inner =>
      rw [hf] at h
      dsimp only at h
      cases hp : p.findMut inner.val with
      | error e => rw [hp] at h; cases h
      | ok r' =>
        rw [hp] at h
        cases h
        obtain ⟨h1, h2⟩ := Finder.levels_put hf hj
        obtain ⟨h3, h4⟩ := ih hp h1
        exact ⟨h3, fun x hx => h2 _ (h4 x hx)⟩

theorem indexAll_levels {D : Nat} {fs : List Finder} {j : Json F} {r : Ref F} (h : j.indexAll fs = .ok r) (hj : Levels (D + fs.length) j) :
    Levels D r.val ∧ ∀ x, Levels D x → Levels (D + fs.length) (r.put x) := by
  induction fs generalizing j r with
  | nil => cases h; exact ⟨hj, fun x hx => hx⟩
  | cons f fs ih =>
    rw [Json.indexAll] at h
    have e : D + (f :: fs).length = D + fs.length + 1 := by simp; omega
    rw [e] at hj ⊢
    cases hf : j.indexMut f with
    | err e => rw [hf] at h; cases h
    | panic => rw [hf] at h; cases h
    | ok inner =>
      rw [hf] at h
      dsimp only at h
      cases hp : inner.val.indexAll fs with
      | err e => rw [hp] at h; cases h
      | panic => rw [hp] at h; cases h
      | ok r' =>
        rw [hp] at h
        cases h
        obtain ⟨h1, h2⟩ := Finder.levels_put (indexMut_ok hf) hj
        obtain ⟨h3, h4⟩ := ih hp h1
        exact ⟨h3, fun x hx => h2 _ (h4 x hx)⟩

theorem levels_remove {D : Nat} {k : Str} {m : Obj F} (hm : Levels (D + 1) (.object m)) : Levels (D + 1) (.object (mapRemove k m)) := by
  rw [levels_object] at hm ⊢
  exact fun e he => hm e (mapRemove_sub he)

theorem method_levels {D : Nat} (m : Method F) (j : Json F) (hj : Levels D j) (hm : ∀ d v, m.puts = some (d, v) → ∀ n x, Inside n x v → d + n < D) : Levels D (Method.call m j).1 := by
  obtain ⟨D, rfl⟩ : ∃ E, D = E + 1 := ⟨D - 1, by have := levels_pos hj; omega⟩
  have arg : ∀ {v : Json F}, m.puts = some (1, v) → Levels D v := fun h n x hx => by have := hm _ _ h n x hx; omega
  cases m with
  | insert k v =>
    cases j with
    | object o => exact levels_insert hj (arg rfl) (by simp)
    | _ => exact hj
  | append k v =>
    cases j with
    | object o =>
      show Levels (D + 1) (.object (objectInsert k v o))
      unfold objectInsert
      cases h : mapGet k o with
      | none => exact levels_insert hj (arg rfl) (by simp)
      | some e =>
        obtain ⟨old, l⟩ := e
        obtain ⟨h1, h2⟩ := levels_get hj h
        refine levels_insert hj (arg rfl) (fun y hy => ?_)
        rcases List.mem_cons.1 hy with rfl | hy
        · exact h1
        · exact h2 y hy
    | _ => exact hj
  | delete k =>
    cases j with
    | object o => exact levels_remove hj
    | _ => exact hj
  | merge k => exact hj
  | push v =>
    cases j with
    | array l =>
      show Levels (D + 1) (.array (l ++ [v]))
      rw [levels_array] at hj ⊢
      intro x hx
      rcases List.mem_append.1 hx with hx | hx
      · exact hj x hx
      · rw [List.mem_singleton.1 hx]; exact arg rfl
    | _ => exact hj
  | replace i v =>
    cases j with
    | array l =>
      simp only [Method.call, Json.replace]
      cases h : l[i]? with
      | none => exact hj
      | some y =>
        dsimp only
        rw [levels_array] at hj ⊢
        intro z hz
        rcases List.mem_or_eq_of_mem_set hz with hz | rfl
        · exact hj z hz
        · exact arg rfl
    | _ => exact hj
  | remove i =>
    cases j with
    | array l =>
      simp only [Method.call, Json.remove]
      by_cases hi : i < l.length
      · rw [if_pos hi]
        dsimp only
        rw [levels_array] at hj ⊢
        exact fun x hx => hj x ((List.eraseIdx_sublist l i).subset hx)
      · rw [if_neg hi]; exact hj
    | _ => exact hj
  | read => exact hj
  | assign v => exact fun n x hx => by have := hm 0 v rfl n x hx; omega

theorem Finder.update_levels {D lim : Nat} {f : Finder} {j v j' : Json F} {r : Ref F} (h : f.update lim j v = (j', .ok r)) (hj : Levels (D + 1) j) (hv : Levels D v) :
    Levels (D + 1) j' := by
  have hD := levels_pos hv
  cases f with
  | key k =>
    simp only [Finder.update, Prod.mk.injEq] at h
    obtain ⟨rfl, -⟩ := h
    have hnil : Levels (D + 1) (.object [] : Json F) := by rw [levels_object]; simp
    cases j with
    | object m => exact levels_insert hj hv (by simp)
    | _ => exact levels_insert hnil hv (by simp)
  | index i =>
    have key : ∀ l : List (Json F), (∀ x ∈ l, Levels D x) → ∀ {j' : Json F} {r : Ref F},
        (match (Json.array l).indexMut (.index i) with | .ok js => (let (a, b) := js.assign v; (a, Out.ok b)) | _ => (j, Out.panic)) = (j', Out.ok r) →
        Levels (D + 1) j' := by
      intro l hl j' r h
      cases hi : (Json.array l).indexMut (.index i) with
      | ok js =>
        rw [hi] at h
        simp only [Ref.assign, Prod.mk.injEq] at h
        obtain ⟨rfl, -⟩ := h
        exact (Finder.levels_put (indexMut_ok hi) ((levels_array D l).2 hl)).2 v hv
      | err e => rw [hi] at h; cases h
      | panic => rw [hi] at h; cases h
    have pad : ∀ l : List (Json F), (∀ x ∈ l, Levels D x) → ∀ x ∈ resizeNull l (i + 1), Levels D x := by
      intro l hl x hx
      rcases List.mem_append.1 hx with hx | hx
      · exact hl x hx
      · rw [List.eq_of_mem_replicate hx]; exact levels_null hD
    simp only [Finder.update] at h
    have fresh : ∀ {j' : Json F} {r : Ref F},
        (match (if i + 1 ≤ lim then some (resizeNull ([] : List (Json F)) (i + 1)) else none : Option (List (Json F))) with
          | none => (j, Out.panic)
          | some vec => match (Json.array vec).indexMut (.index i) with | .ok js => (let (a, b) := js.assign v; (a, Out.ok b)) | _ => (j, Out.panic)) = (j', Out.ok r) →
        Levels (D + 1) j' := by
      intro j' r h
      by_cases hl : i + 1 ≤ lim
      · rw [if_pos hl] at h
        exact key _ (pad [] (by simp)) h
      · rw [if_neg hl] at h; cases h
    cases j with
    | array l =>
      dsimp only at h
      rw [levels_array] at hj
      by_cases hi : i ≥ l.length
      · rw [if_pos hi] at h
        by_cases hl : i + 1 ≤ lim
        · rw [if_pos hl] at h
          exact key _ (pad l hj) h
        · rw [if_neg hl] at h; cases h
      · rw [if_neg hi] at h
        exact key l hj h
    | _ => exact fresh h

theorem Path.update_levels {D : Nat} (lim : Nat) (p : Path) (j v j' : Json F) (r : Ref F) (h : p.update lim j v = (j', .ok r)) (hj : Levels (D + (comps p).length) j) (hv : Levels D v) :
    Levels (D + (comps p).length) j' := by
  induction p generalizing j j' r with
  | last f => exact Finder.update_levels h hj hv
  | cons f p ih =>
    have e : D + (comps (.cons f p)).length = D + (comps p).length + 1 := by simp [comps]; omega
    rw [e] at hj ⊢
    rcases Path.update_step lim f p j v with ⟨j1, inner, hf, hc, hu⟩ | ⟨hu, _⟩
    · rw [hu] at h
      cases hp : p.update lim inner.val v with
      | mk j2 o =>
        rw [hp] at h
        cases o with
        | ok r2 =>
          simp only [Prod.mk.injEq, Out.ok.injEq] at h
          obtain ⟨rfl, rfl⟩ := h
          have h1 : Levels (D + (comps p).length + 1) j1 := by
            rcases hc with ⟨rfl, _⟩ | ⟨_, _, o, ho⟩
            · exact hj
            · exact Finder.update_levels ho hj (levels_null (by have := levels_pos hv; omega))
          obtain ⟨h3, h4⟩ := Finder.levels_put hf h1
          exact h4 _ (ih _ _ _ hp h3)
        | err e => simp at h
        | panic => simp at h
    · rw [hu] at h; simp at h

theorem Finder.discard_levels {D : Nat} (f : Finder) (j : Json F) (hj : Levels (D + 1) j) : Levels (D + 1) (f.discard j).1 := by
  cases f with
  | key k =>
    cases j with
    | object m =>
      simp only [Finder.discard]
      cases hm : mapGet k m with
      | none => exact hj
      | some e => exact levels_remove hj
    | _ => exact hj
  | index i =>
    cases j with
    | array l =>
      simp only [Finder.discard]
      cases hm : l[i]? with
      | none => exact hj
      | some x =>
        dsimp only
        rw [levels_array] at hj ⊢
        exact fun x hx => hj x ((List.eraseIdx_sublist l i).subset hx)
    | _ => exact hj

theorem Path.discard_levels {D : Nat} (p : Path) (j : Json F) (hj : Levels D j) : Levels D (p.discard j).1 := by
  induction p generalizing D j with
  | last f =>
    obtain ⟨D, rfl⟩ : ∃ E, D = E + 1 := ⟨D - 1, by have := levels_pos hj; omega⟩
    exact f.discard_levels j hj
  | cons f p ih =>
    obtain ⟨D, rfl⟩ : ∃ E, D = E + 1 := ⟨D - 1, by have := levels_pos hj; omega⟩
    simp only [Path.discard]
    cases hf : f.findMut j with
    | error e => exact hj
    | ok inner =>
      obtain ⟨h1, h2⟩ := Finder.levels_put hf hj
      exact h2 _ (ih _ h1)

end RJ
