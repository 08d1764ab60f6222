import Verif.Proof.Flatten
import Verif.Props.Laws
import Verif.Props.Print
/-
  C98: a document can be rebuilt from its leaves.
-/
namespace RJ
open Spec
variable {F : Type}

/-- Calls of `set`, one after the other; `none` if one of them does not return. -/
def setAll (lim : Nat) : List (Str × Json F) → Json F → Option (Json F)
  | [], j => some j
  | c :: t, j => match (j.set lim c.1 c.2) with
    | (j', .ok _) => setAll lim t j'
    | _ => none

theorem rebuild_abs (y : Val F) (hy : Built y y) (hg : ∀ p b, look p y = some b → ∃ q v, LeafAt b q v) (ops : List (List Finder × Val F)) (x : Val F) (hx : Built x y)
    (ho : ∀ c ∈ ops, look c.1 y = some c.2) (hc : ∀ p v, LeafAt y p v → look p x = some v ∨ ∃ c ∈ ops, ∃ t, p = c.1 ++ t) :
    ops.foldl (fun d c => setV c.1 c.2 d) x = y := by
  induction ops generalizing x with
  | nil =>
    refine built_done x y hx hg (fun p v h => ?_)
    rcases hc p v h with h | ⟨c, h, _⟩
    · exact h
    · cases h
  | cons c ops ih =>
    have h1 := ho c List.mem_cons_self
    refine ih _ (built_setV c.1 x y c.2 hx hy h1) (fun d hd => ho d (List.mem_cons_of_mem _ hd)) (fun p v h => ?_)
    rcases hc p v h with h2 | ⟨d, hd, t, rfl⟩
    · exact .inl (leaf_kept p c.1 x y v c.2 h h1 (.inl h2))
    · rcases List.mem_cons.1 hd with rfl | hd
      · exact .inl (leaf_kept _ d.1 x y v d.2 h h1 (.inr ⟨t, rfl⟩))
      · exact .inr ⟨d, hd, t, rfl⟩

theorem look_append_none (fs gs : List Finder) (x : Val F) (h : look fs x = none) : look (fs ++ gs) x = none := by
  induction fs generalizing x with
  | nil => cases h
  | cons f r ih =>
    rw [List.cons_append, look_step]
    rw [look_step] at h
    cases hz : look [f] x with
    | none => rfl
    | some z => rw [hz] at h; exact ih z h

theorem pathText_unique {s : Str} {fs gs : List Finder} (h : PathText s fs) (h' : PathText s gs) : fs = gs := by
  obtain ⟨_, p, hp, rfl⟩ := parsePath_of_text h
  obtain ⟨_, q, hq, rfl⟩ := parsePath_of_text h'
  rw [hp] at hq; cases hq; rfl

/-- Every call that sets a place of a document with short arrays returns. -/
theorem short_index {lim : Nat} {j : Json F} (h : Short lim j) (fs : List Finder) (v : Val F) (hf : look fs (absJ j) = some v) : ∀ i, Finder.index i ∈ fs → i < lim := by
  intro i hi
  obtain ⟨a, b, rfl⟩ := List.append_of_mem hi
  have hz : ∃ z, look a (absJ j) = some z := by
    cases e : look a (absJ j) with
    | none => rw [look_append_none _ _ _ e] at hf; cases hf
    | some z => exact ⟨z, rfl⟩
  obtain ⟨z, hz⟩ := hz
  rw [look_append _ _ _ _ hz] at hf
  cases z with
  | arr l =>
    have := h a l hz
    simp only [look] at hf
    cases e : l[i]? with
    | none => rw [e] at hf; cases hf
    | some w => have := idx_lt e; omega
  | _ => cases hf

theorem setAll_abs (lim : Nat) (j : Json F) (hs : Short lim j) (l : List (Str × Json F)) (j0 : Json F)
    (hl : ∀ c ∈ l, ∃ fs, PathText c.1 fs ∧ look fs (absJ j) = some (absJ c.2)) :
    ∃ (ops : List (List Finder × Val F)) (j' : Json F), (∀ c ∈ ops, look c.1 (absJ j) = some c.2) ∧ (∀ c ∈ l, ∃ fs, PathText c.1 fs ∧ (fs, absJ c.2) ∈ ops) ∧ setAll lim l j0 = some j' ∧ absJ j' = ops.foldl (fun d c => setV c.1 c.2 d) (absJ j0) := by
  induction l generalizing j0 with
  | nil => exact ⟨[], j0, by simp, by simp, rfl, rfl⟩
  | cons c l ih =>
    obtain ⟨fs, h1, h2⟩ := hl c List.mem_cons_self
    obtain ⟨j1, r, h3⟩ := C21_set_succeeds lim c.1 fs h1 (short_index hs fs _ h2) j0 c.2
    obtain ⟨ops, j', h4, h5, h6, h7⟩ := ih j1 (fun d hd => hl d (List.mem_cons_of_mem _ hd))
    refine ⟨(fs, absJ c.2) :: ops, j', ?_, ?_, ?_, ?_⟩
    · intro d hd
      rcases List.mem_cons.1 hd with rfl | hd
      · exact h2
      · exact h4 d hd
    · intro d hd
      rcases List.mem_cons.1 hd with rfl | hd
      · exact ⟨fs, h1, List.mem_cons_self⟩
      · obtain ⟨gs, h8, h9⟩ := h5 d hd; exact ⟨gs, h8, List.mem_cons_of_mem _ h9⟩
    · rw [setAll, h3]; exact h6
    · rw [h7, C23_set_document lim c.1 fs h1 _ _ _ _ h3]; rfl

theorem setAll_wf (lim : Nat) (l : List (Str × Json F)) (j j' : Json F) (hj : WF j) (hl : ∀ c ∈ l, WF c.2) (h : setAll lim l j = some j') : WF j' := by
  induction l generalizing j with
  | nil => cases h; exact hj
  | cons c l ih =>
    rw [setAll] at h
    have hw := C23_set_wf lim c.1 j c.2 hj (hl c List.mem_cons_self)
    generalize j.set lim c.1 c.2 = r at *
    obtain ⟨j1, r⟩ := r
    cases r with
    | ok r => exact ih j1 hw (fun d hd => hl d (List.mem_cons_of_mem _ hd)) h
    | _ => cases h

/-- C98.  Calls of `set` that put parts of a document where they are in that document rebuild it, in whatever order they are made and however often, provided that they
cover all leaves: they all return, and the result is the document.  They may start with anything that has nothing inside, such as `null` or an empty array. -/
theorem C98_rebuild (lim : Nat) (j j0 : Json F) (hd : NoDuplicates (absJ j)) (hs : Short lim j) (h0 : IsLeaf (absJ j0)) (l : List (Str × Json F))
    (hl : ∀ c ∈ l, ∃ x, j.get c.1 = .ok x ∧ SameDoc x c.2)
    (hc : ∀ p v, LeafAt (absJ j) p v → ∃ c ∈ l, ∃ fs t, PathText c.1 fs ∧ p = fs ++ t) :
    ∃ j', setAll lim l j0 = some j' ∧ SameDoc j' j := by
  have hl' : ∀ c ∈ l, ∃ fs, PathText c.1 fs ∧ look fs (absJ j) = some (absJ c.2) := by
    intro c h
    obtain ⟨x, h1, h2⟩ := hl c h
    obtain ⟨fs, hf⟩ : ∃ fs, PathText c.1 fs := by
      by_contra hn
      obtain ⟨e, h3, _⟩ := ((C27_rejected_iff lim c.1 j j).1).mpr hn
      rw [h3] at h1; cases h1
    exact ⟨fs, hf, by rw [get_look hf j x h1, h2]⟩
  obtain ⟨ops, j', h1, h2, h3, h4⟩ := setAll_abs lim j hs l j0 hl'
  refine ⟨j', h3, ?_⟩
  rw [SameDoc, h4]
  refine rebuild_abs _ (built_self j hd) (grounded j) ops _ (.leaf _ _ h0) h1 (fun p v h => .inr ?_)
  obtain ⟨c, hc, fs, t, h5, rfl⟩ := hc p v h
  obtain ⟨gs, h6, h7⟩ := h2 c hc
  exact ⟨_, h7, t, by rw [pathText_unique h5 h6]⟩

theorem leaf_wf (j : Json F) (h : IsLeaf (absJ j)) : WF j := by
  cases j with
  | object m =>
    cases m with
    | nil => exact ⟨by simp, trivial⟩
    | cons e t =>
      have := h e.1
      simp [absMap] at this
  | array l =>
    cases l with
    | nil => trivial
    | cons x t => simp [absJ, IsLeaf, absList] at h
  | _ => trivial

/-- C98, the list of leaves.  `set` with the leaves of a document, each with its path, rebuilds the document from `null` - in any order, and with repetitions.  (Paths are written with the
syntax of the library; a key that ends in a backslash can only be last: C26.) -/
theorem C98_leaves [FloatOps F] (lim : Nat) (j j0 : Json F) (hw : WF j) (hd : NoDuplicates (absJ j)) (hs : Short lim j) (h0 : WF j0) (h0' : IsLeaf (absJ j0))
    (hp : ∀ c ∈ leavesOf j, Writable c.1) (l : List (List Finder × Json F)) (hl : ∀ c, c ∈ l ↔ c ∈ leavesOf j) :
    ∃ j', setAll lim (l.map (fun c => (writePath c.1, c.2))) j0 = some j' ∧ SameDoc j' j ∧ j'.toString = j.toString := by
  obtain ⟨a1, a2⟩ := leavesOf_iff j hw
  obtain ⟨j', h1, h2⟩ := C98_rebuild lim j j0 hd hs h0' (l.map (fun c => (writePath c.1, c.2))) (by
    intro c h
    obtain ⟨d, h1, rfl⟩ := List.mem_map.1 h
    have h2 := (hl d).1 h1
    obtain ⟨x, h3, h4⟩ := look_get (C26_expressible d.1 (hp d h2)) j _ (a1 d.1 d.2 h2).1
    exact ⟨x, h3, h4⟩) (by
    intro p v h
    obtain ⟨w, h1, _⟩ := a2 p v h
    exact ⟨(writePath p, w), List.mem_map.2 ⟨(p, w), (hl _).2 h1, rfl⟩, p, [], C26_expressible p (hp _ h1), by simp⟩)
  refine ⟨j', h1, h2, C04_order_independent j' j (setAll_wf lim _ j0 j' h0 ?_ h1) hw h2⟩
  intro c h
  obtain ⟨d, h3, rfl⟩ := List.mem_map.1 h
  exact leaf_wf d.2 (a1 d.1 d.2 ((hl d).1 h3)).2

theorem path_x : PathText ['x'] [.key ['x']] := by
  have h : PathText (writePath [.key ['x']]) [.key ['x']] := C26_expressible _ (by simp [Writable])
  rwa [show writePath [.key ['x']] = ['x'] by decide] at h

theorem path_0 : PathText ['#', '0'] [.index 0] := by
  have h : PathText (writePath [.index 0]) [.index 0] := C26_expressible _ (by simp [Writable])
  rwa [show writePath [.index 0] = ['#', '0'] by decide +kernel] at h

/-- C98, every document from every other.  Whatever the document `j0` is, `set` of `x`, `set` of `#0` and `del` of `#0` make it `[]`, and the leaves of `j` make it `j`. -/
theorem C98_reachable [FloatOps F] (lim : Nat) (hlim : 0 < lim) (j j0 : Json F) (hw : WF j) (hd : NoDuplicates (absJ j)) (hs : Short lim j) (h0 : WF j0)
    (hp : ∀ c ∈ leavesOf j, Writable c.1) :
    ∃ j1 r1 j2 r2 j3 v j', j0.set lim ['x'] .null = (j1, .ok r1) ∧ j1.set lim ['#', '0'] .null = (j2, .ok r2) ∧ j2.del ['#', '0'] = (j3, .ok v) ∧
      setAll lim ((leavesOf j).map (fun c => (writePath c.1, c.2))) j3 = some j' ∧ SameDoc j' j ∧ j'.toString = j.toString := by
  obtain ⟨j1, r1, h1⟩ := C21_set_succeeds lim _ _ path_x (by simp) j0 .null
  obtain ⟨j2, r2, h2⟩ := C21_set_succeeds lim _ _ path_0 (by simpa using hlim) j1 .null
  have w1 : WF j1 := by have := C23_set_wf lim ['x'] j0 .null h0 trivial; rw [h1] at this; exact this
  have w2 : WF j2 := by have := C23_set_wf lim ['#', '0'] j1 .null w1 trivial; rw [h2] at this; exact this
  have e1 := C23_set_document lim _ _ path_x _ _ _ _ h1
  have e2 := C23_set_document lim _ _ path_0 _ _ _ _ h2
  have e3 : absJ j2 = .arr [.null] := by
    rw [e2, e1]
    generalize absJ j0 = x
    cases x <;> rfl
  obtain ⟨y, hy, _⟩ := look_get path_0 j2 (.null) (by rw [e3]; rfl)
  obtain ⟨d1, d2, d3⟩ := C24_del _ _ path_0 j2 y w2 hy
  have e4 : absJ (j2.del ['#', '0']).1 = .arr [] := by rw [d2, e3]; rfl
  obtain ⟨j', h4, h5, h6⟩ := C98_leaves lim j (j2.del ['#', '0']).1 hw hd hs d3 (by rw [e4]; rfl) hp (leavesOf j) (fun _ => Iff.rfl)
  exact ⟨j1, r1, j2, r2, _, y, j', h1, h2, Prod.ext rfl d1, h4, h5, h6⟩

/-- C98, the empty containers (whose own path cannot be written) are reached too: `set` of `x`, `set` of `#0` and `del` of `#0` make every document `[]`, and `set` of `#0`, `set` of `x` and
`del` of `x` make it `{}`. -/
theorem C98_empty (lim : Nat) (hlim : 0 < lim) (j0 : Json F) (h0 : WF j0) :
    (∃ j1 r1 j2 r2 v j3, j0.set lim ['x'] .null = (j1, .ok r1) ∧ j1.set lim ['#', '0'] .null = (j2, .ok r2) ∧ j2.del ['#', '0'] = (j3, .ok v) ∧ SameDoc j3 (.array [])) ∧
    ∃ j1 r1 j2 r2 v j3, j0.set lim ['#', '0'] .null = (j1, .ok r1) ∧ j1.set lim ['x'] .null = (j2, .ok r2) ∧ j2.del ['x'] = (j3, .ok v) ∧ SameDoc j3 (.object []) := by
  have key : ∀ (s t : Str) (f g : Finder), PathText s [f] → PathText t [g] → (∀ i, Finder.index i ∈ [f] → i < lim) → (∀ i, Finder.index i ∈ [g] → i < lim) → ∀ e : Json F,
      (∀ x : Val F, ∃ y, look [g] (setV [g] .null (setV [f] .null x)) = some y) → (∀ x : Val F, delV [g] (setV [g] .null (setV [f] .null x)) = absJ e) →
      ∃ j1 r1 j2 r2 v j3, j0.set lim s .null = (j1, .ok r1) ∧ j1.set lim t .null = (j2, .ok r2) ∧ j2.del t = (j3, .ok v) ∧ SameDoc j3 e := by
    intro s t f g hs ht hf hg e hl hd
    obtain ⟨j1, r1, h1⟩ := C21_set_succeeds lim _ _ hs hf j0 .null
    obtain ⟨j2, r2, h2⟩ := C21_set_succeeds lim _ _ ht hg j1 .null
    have w1 : WF j1 := by have := C23_set_wf lim s j0 .null h0 trivial; rw [h1] at this; exact this
    have w2 : WF j2 := by have := C23_set_wf lim t j1 .null w1 trivial; rw [h2] at this; exact this
    have e1 := C23_set_document lim _ _ hs _ _ _ _ h1
    have e2 := C23_set_document lim _ _ ht _ _ _ _ h2
    obtain ⟨z, hz⟩ := hl (absJ j0)
    obtain ⟨y, hy, _⟩ := look_get ht j2 z (by rw [e2, e1]; exact hz)
    obtain ⟨d1, d2, _⟩ := C24_del _ _ ht j2 y w2 hy
    refine ⟨j1, r1, j2, r2, y, _, h1, h2, Prod.ext rfl d1, ?_⟩
    rw [SameDoc, d2, e2, e1]
    exact hd _
  refine ⟨key _ _ _ _ path_x path_0 (by simp) (by simpa using hlim) (.array []) (fun x => ⟨_, look_setV_self _ _ _⟩) (fun x => by cases x <;> rfl),
    key _ _ _ _ path_0 path_x (by simpa using hlim) (by simp) (.object []) (fun x => ⟨_, look_setV_self _ _ _⟩) (fun x => ?_)⟩
  obtain ⟨l, hl⟩ : ∃ l, setV [.index 0] .null x = .arr l := by cases x <;> exact ⟨_, rfl⟩
  rw [hl]
  simp only [setV, delV, absJ]
  congr 1
  funext k
  by_cases h : k = ['x'] <;> simp [upd, absMap, h]

/-- C98, leaves tell documents apart.  Two documents without duplicate keys that have the same leaves at the same places are the same document. -/
theorem C98_determined (j j' : Json F) (hw : WF j) (hd : NoDuplicates (absJ j)) (hd' : NoDuplicates (absJ j')) (h : ∀ p v, LeafAt (absJ j) p v ↔ LeafAt (absJ j') p v) : SameDoc j j' := by
  have main : ∀ y : Json F, NoDuplicates (absJ y) → (∀ p v, LeafAt (absJ j) p v ↔ LeafAt (absJ y) p v) →
      ((leavesOf j).map (fun c => (c.1, absJ c.2))).foldl (fun d c => setV c.1 c.2 d) .null = absJ y := by
    intro y hy hl
    obtain ⟨a1, a2⟩ := leavesOf_iff j hw
    refine rebuild_abs _ (built_self y hy) (grounded y) _ _ (.leaf _ _ trivial) ?_ ?_
    · intro c hc
      obtain ⟨d, h1, rfl⟩ := List.mem_map.1 hc
      exact ((hl _ _).1 (a1 d.1 d.2 h1)).1
    · intro p v hp
      obtain ⟨w, h1, rfl⟩ := a2 p v ((hl p v).2 hp)
      exact .inr ⟨_, List.mem_map.2 ⟨(p, w), h1, rfl⟩, [], by simp⟩
  rw [SameDoc, ← main j hd (fun _ _ => Iff.rfl), main j' hd' h]

mutual
/-- A test for the examples: no key has an older value, and no array is longer than `lim`. -/
def plainDoc (lim : Nat) : Json F → Bool
  | .object m => plainMembers lim m
  | .array l => decide (l.length ≤ lim) && plainElems lim l
  | _ => true
/-- The members. -/
def plainMembers (lim : Nat) : List (Str × (Json F × List (Json F))) → Bool
  | [] => true
  | (_, (v, h)) :: t => h.isEmpty && plainDoc lim v && plainMembers lim t
/-- The elements. -/
def plainElems (lim : Nat) : List (Json F) → Bool
  | [] => true
  | x :: t => plainDoc lim x && plainElems lim t
end

theorem plain_member {lim : Nat} {m : Obj F} (h : plainMembers lim m = true) {k : Str} {b : Val F} (hb : (absMap m k).getLast? = some b) : ∃ v, plainDoc lim v = true ∧ b = absJ v := by
  induction m with
  | nil => cases hb
  | cons e t ih =>
    obtain ⟨q, v, l⟩ := e
    simp only [plainMembers, Bool.and_eq_true] at h
    simp only [absMap] at hb
    split at hb
    · simp at hb; exact ⟨v, h.1.2, hb.symm⟩
    · exact ih h.2 hb

theorem plain_one {lim : Nat} {m : Obj F} (h : plainMembers lim m = true) (k : Str) : (absMap m k).length ≤ 1 := by
  induction m with
  | nil => simp [absMap]
  | cons e t ih =>
    obtain ⟨q, v, l⟩ := e
    simp only [plainMembers, Bool.and_eq_true, List.isEmpty_iff] at h
    obtain ⟨⟨rfl, _⟩, h2⟩ := h
    simp only [absMap]
    split
    · simp [absList]
    · exact ih h2

theorem plain_elem {lim : Nat} {l : List (Json F)} (h : plainElems lim l = true) : ∀ x ∈ l, plainDoc lim x = true := by
  induction l with
  | nil => simp
  | cons x t ih =>
    simp only [plainElems, Bool.and_eq_true] at h
    intro y hy
    rcases List.mem_cons.1 hy with rfl | hy
    · exact h.1
    · exact ih h.2 y hy

theorem plain_look (lim : Nat) (p : List Finder) (j : Json F) (h : plainDoc lim j = true) (b : Val F) (hb : look p (absJ j) = some b) : ∃ j', plainDoc lim j' = true ∧ b = absJ j' := by
  induction p generalizing j with
  | nil => cases hb; exact ⟨j, h, rfl⟩
  | cons f r ih =>
    cases f with
    | key k =>
      cases j with
      | object m =>
        simp only [absJ, look] at hb
        cases e : (absMap m k).getLast? with
        | none => rw [e] at hb; cases hb
        | some z =>
          rw [e] at hb
          obtain ⟨v, h1, rfl⟩ := plain_member h e
          exact ih v h1 hb
      | _ => cases hb
    | index i =>
      cases j with
      | array l =>
        simp only [plainDoc, Bool.and_eq_true] at h
        simp only [absJ, look, absList_map, List.getElem?_map] at hb
        cases e : l[i]? with
        | none => rw [e] at hb; cases hb
        | some z =>
          rw [e] at hb
          exact ih z (plain_elem h.2 z (List.mem_of_getElem? e)) hb
      | _ => cases hb

theorem plain_ok (lim : Nat) (j : Json F) (h : plainDoc lim j = true) : NoDuplicates (absJ j) ∧ Short lim j := by
  refine ⟨fun p m hm k => ?_, fun p l hl => ?_⟩
  · obtain ⟨j', h1, h2⟩ := plain_look lim p j h _ hm
    cases j' with
    | object m' => cases h2; exact plain_one h1 k
    | _ => cases h2
  · obtain ⟨j', h1, h2⟩ := plain_look lim p j h _ hl
    cases j' with
    | array l' =>
      cases h2
      simp only [plainDoc, Bool.and_eq_true, decide_eq_true_eq] at h1
      simpa [absList_map] using h1.1
    | _ => cases h2

section examples

example : ∃ j1 r1 j2 r2 v j3, (Json.number 7 : Json Nat).set 10 ['#', '0'] .null = (j1, .ok r1) ∧ j1.set 10 ['x'] .null = (j2, .ok r2) ∧ j2.del ['x'] = (j3, .ok v) ∧ SameDoc j3 (.object []) :=
  (C98_empty 10 (by decide) (.number 7) trivial).2

private def doc : Json Nat := .object [("a".toList, (.array [.number 1, .object [("x.y".toList, (.null, []))], .array []], [])), ("b".toList, (.boolean true, []))]

-- its leaves, and that the theorem applies to them in reverse order, starting with `null`
example : leavesOf doc = [([.key "a".toList, .index 0], .number 1), ([.key "a".toList, .index 1, .key "x.y".toList], .null), ([.key "a".toList, .index 2], .array []), ([.key "b".toList], .boolean true)] := rfl
example : (leavesOf doc).map (fun c => writePath c.1) = ["a.#0".toList, "a.#1.x\\.y".toList, "a.#2".toList, "b".toList] := by decide +kernel
example [FloatOps Nat] : ∃ j', setAll 10 ((leavesOf doc).reverse.map (fun c => (writePath c.1, c.2))) .null = some j' ∧ SameDoc j' doc ∧ j'.toString = doc.toString :=
  C98_leaves 10 doc .null (by simp [doc, WF, WFMap, WFList]) (plain_ok 10 doc rfl).1 (plain_ok 10 doc rfl).2 trivial trivial (by
    have e : leavesOf doc = [([.key "a".toList, .index 0], .number 1), ([.key "a".toList, .index 1, .key "x.y".toList], .null), ([.key "a".toList, .index 2], .array []), ([.key "b".toList], .boolean true)] := rfl
    rw [e]; simp [Writable]) _ (fun c => List.mem_reverse)
-- without the leaf at `b` another document results
example : ((setAll 10 [("a.#1.x\\.y".toList, .null), ("a.#2".toList, .array []), ("a.#0".toList, .number 1)] (.null : Json Nat)).map fun j' => (look [.key "b".toList] (absJ j')).isSome) = some false ∧
    (look [.key "b".toList] (absJ doc)).isSome = true := by
  constructor <;> decide +kernel
-- a duplicate key cannot be rebuilt: the older value is not at any path
example : ¬ NoDuplicates (absJ (.object [("a".toList, (.null, [.boolean true]))] : Json Nat)) := fun h => absurd (h [] _ rfl "a".toList) (by decide)

end examples

end RJ
