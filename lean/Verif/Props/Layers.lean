import Verif.Proof.Layers
import Verif.Props.Flatten
import Verif.Props.Laws
/-
  C100: a document laid over another, leaf by leaf.
-/
namespace RJ
open Spec
variable {F : Type}

theorem setAll_lay (lim : Nat) (l : List (List Finder × Json F)) (j0 : Json F) (hp : ∀ c ∈ l, Writable c.1 ∧ ∀ i, Finder.index i ∈ c.1 → i < lim) :
    ∃ j', setAll lim (l.map (fun c => (writePath c.1, c.2))) j0 = some j' ∧ absJ j' = lay l (absJ j0) := by
  induction l generalizing j0 with
  | nil => exact ⟨j0, rfl, rfl⟩
  | cons c l ih =>
    obtain ⟨h1, h2⟩ := hp c List.mem_cons_self
    obtain ⟨j1, r, h3⟩ := C21_set_succeeds lim _ c.1 (C26_expressible _ h1) h2 j0 c.2
    obtain ⟨j', h4, h5⟩ := ih j1 (fun d hd => hp d (List.mem_cons_of_mem _ hd))
    refine ⟨j', ?_, ?_⟩
    · rw [List.map_cons, setAll, h3]; exact h4
    · rw [h5, C23_set_document lim _ c.1 (C26_expressible _ h1) _ _ _ _ h3]; rfl

/-- C100.  `set` with the leaves of the document `j` - in any order, and with repetitions - lays it over any document: all calls return, and the result is the deep merge, whose
text depends on the two documents only. -/
theorem C100_overlay [FloatOps F] (lim : Nat) (j j0 : Json F) (hw : WF j) (hs : Short lim j) (h0 : WF j0) (hp : ∀ c ∈ leavesOf j, Writable c.1)
    (l : List (List Finder × Json F)) (hl : ∀ c, c ∈ l ↔ c ∈ leavesOf j) :
    ∃ j', setAll lim (l.map (fun c => (writePath c.1, c.2))) j0 = some j' ∧ absJ j' = overlay j (absJ j0) ∧
      ∀ l' : List (List Finder × Json F), (∀ c, c ∈ l' ↔ c ∈ leavesOf j) → ∃ j2, setAll lim (l'.map (fun c => (writePath c.1, c.2))) j0 = some j2 ∧ SameDoc j2 j' ∧ j2.toString = j'.toString := by
  have a1 := (leavesOf_iff j hw).1
  have run : ∀ l : List (List Finder × Json F), (∀ c, c ∈ l ↔ c ∈ leavesOf j) → ∃ j', setAll lim (l.map (fun c => (writePath c.1, c.2))) j0 = some j' ∧ absJ j' = overlay j (absJ j0) ∧ WF j' := by
    intro l hl
    obtain ⟨j', h1, h2⟩ := setAll_lay lim l j0 (fun c hc => ⟨hp c ((hl c).1 hc), short_index hs _ _ (a1 c.1 c.2 ((hl c).1 hc)).1⟩)
    refine ⟨j', h1, ?_, setAll_wf lim _ j0 j' h0 ?_ h1⟩
    · rw [h2, lay_set (fun c hc => a1 c.1 c.2 ((hl c).1 hc)) hl, lay_leaves]
    · intro c h
      obtain ⟨d, h3, rfl⟩ := List.mem_map.1 h
      exact leaf_wf d.2 (a1 d.1 d.2 ((hl d).1 h3)).2
  obtain ⟨j', h1, h2, h3⟩ := run l hl
  refine ⟨j', h1, h2, fun l' hl' => ?_⟩
  obtain ⟨j2, h4, h5, h6⟩ := run l' hl'
  have : SameDoc j2 j' := by rw [SameDoc, h2, h5]
  exact ⟨j2, h4, this, C04_order_independent j2 j' h6 h3 this⟩

/-- C100, what the result has.  Every leaf of the overlay is where it is in the overlay, and what is apart from all of its leaves is as in the base. -/
theorem C100_result (j : Json F) (hw : WF j) (x : Val F) :
    (∀ p v, LeafAt (absJ j) p v → look p (overlay j x) = some v) ∧
    ∀ q z, look q x = some z → (∀ p v, LeafAt (absJ j) p v → Diverge p q) → look q (overlay j x) = some z := by
  obtain ⟨a1, a2⟩ := leavesOf_iff j hw
  rw [← lay_leaves]
  refine ⟨fun p v h => ?_, fun q z hz h => lay_rest (fun c hc => h _ _ (a1 c.1 c.2 hc)) x z hz⟩
  obtain ⟨w, h1, _⟩ := a2 p v h
  exact lay_get (fun c hc => a1 c.1 c.2 hc) h x (.inr ⟨_, h1, rfl⟩)

/-- C100, through the API: `get` after the calls.  Leaves of the overlay win, everything apart from them stays. -/
theorem C100_get [FloatOps F] (lim : Nat) (j j0 : Json F) (hw : WF j) (hs : Short lim j) (h0 : WF j0) (hp : ∀ c ∈ leavesOf j, Writable c.1)
    (l : List (List Finder × Json F)) (hl : ∀ c, c ∈ l ↔ c ∈ leavesOf j) (j' : Json F) (h : setAll lim (l.map (fun c => (writePath c.1, c.2))) j0 = some j') :
    (∀ c ∈ leavesOf j, ∃ y, j'.get (writePath c.1) = .ok y ∧ SameDoc y c.2) ∧
    ∀ s q y, PathText s q → j0.get s = .ok y → (∀ c ∈ leavesOf j, Diverge c.1 q) → ∃ y', j'.get s = .ok y' ∧ SameDoc y' y := by
  obtain ⟨j2, h1, h2, _⟩ := C100_overlay lim j j0 hw hs h0 hp l hl
  rw [h] at h1; cases h1
  obtain ⟨b1, b2⟩ := C100_result j hw (absJ j0)
  obtain ⟨a1, a2⟩ := leavesOf_iff j hw
  refine ⟨fun c hc => ?_, fun s q y hs hy hd => ?_⟩
  · obtain ⟨y, h3, h4⟩ := look_get (C26_expressible _ (hp c hc)) j' _ (by rw [h2]; exact b1 _ _ (a1 c.1 c.2 hc))
    exact ⟨y, h3, h4⟩
  · obtain ⟨y', h3, h4⟩ := look_get hs j' _ (by rw [h2]; exact b2 q _ (get_look hs j0 y hy) (fun p v hpv => by
      obtain ⟨w, hw, _⟩ := a2 p v hpv; exact hd _ hw))
    exact ⟨y', h3, h4⟩

/-- C100, laws.  An overlay laid over the result again changes nothing; overlays whose leaves are at places that part can be laid in either order; a document (without duplicate
keys) laid over itself, or over something with nothing inside, is itself. -/
theorem C100_laws (j : Json F) (hw : WF j) :
    (∀ x, overlay j (overlay j x) = overlay j x) ∧
    (∀ j2 : Json F, WF j2 → (∀ p v q w, LeafAt (absJ j) p v → LeafAt (absJ j2) q w → Diverge p q) → ∀ x, overlay j (overlay j2 x) = overlay j2 (overlay j x)) ∧
    (NoDuplicates (absJ j) → overlay j (absJ j) = absJ j ∧ ∀ x, IsLeaf x → overlay j x = absJ j) := by
  obtain ⟨a1, a2⟩ := leavesOf_iff j hw
  refine ⟨fun x => ?_, fun j2 hw2 h x => ?_, fun hd => ?_⟩
  · rw [← lay_leaves, ← lay_leaves, ← lay_append]
    exact lay_set (y := absJ j) (by
      intro c hc
      rcases List.mem_append.1 hc with hc | hc <;> exact a1 c.1 c.2 hc) (by simp) x
  · rw [← lay_leaves, ← lay_leaves, ← lay_leaves, ← lay_leaves]
    exact lay_comm (fun c hc d hd => h _ _ _ _ (a1 c.1 c.2 hc) ((leavesOf_iff j2 hw2).1 d.1 d.2 hd)) x
  · have e : ∀ x, lay (leavesOf j) x = ((leavesOf j).map (fun c => (c.1, absJ c.2))).foldl (fun d c => setV c.1 c.2 d) x := by
      intro x; rw [lay, List.foldl_map]
    have ho : ∀ c ∈ (leavesOf j).map (fun c => (c.1, absJ c.2)), look c.1 (absJ j) = some c.2 := by
      intro c hc
      obtain ⟨d, h1, rfl⟩ := List.mem_map.1 hc
      exact (a1 d.1 d.2 h1).1
    refine ⟨?_, fun x hx => ?_⟩
    · rw [← lay_leaves, e]
      exact rebuild_abs _ (built_self j hd) (grounded j) _ _ (built_self j hd) ho (fun p v hp => .inl hp.1)
    · rw [← lay_leaves, e]
      refine rebuild_abs _ (built_self j hd) (grounded j) _ _ (.leaf _ _ hx) ho (fun p v hp => ?_)
      obtain ⟨w, h1, rfl⟩ := a2 p v hp
      exact .inr ⟨_, List.mem_map.2 ⟨(p, w), h1, rfl⟩, [], by simp⟩

section examples

-- settings of a user over defaults: {"ui":{"size":12,"bold":false},"dirs":["a","b"]} and {"ui":{"bold":true},"dirs":[null,"c"]}
private def base : Json Nat := .object [("ui".toList, (.object [("size".toList, (.number 12, [])), ("bold".toList, (.boolean false, []))], [])), ("dirs".toList, (.array [.string "a".toList, .string "b".toList], []))]
private def user : Json Nat := .object [("ui".toList, (.object [("bold".toList, (.boolean true, []))], [])), ("dirs".toList, (.array [.null, .string "c".toList], []))]
private def merged : Json Nat := .object [("ui".toList, (.object [("size".toList, (.number 12, [])), ("bold".toList, (.boolean true, []))], [])), ("dirs".toList, (.array [.null, .string "c".toList], []))]

private theorem leaves_user : leavesOf user = [([.key "ui".toList, .key "bold".toList], .boolean true), ([.key "dirs".toList, .index 0], .null), ([.key "dirs".toList, .index 1], .string "c".toList)] := rfl

example [FloatOps Nat] : ∃ j', setAll 10 ((leavesOf user).reverse.map (fun c => (writePath c.1, c.2))) base = some j' ∧ absJ j' = overlay user (absJ base) := by
  obtain ⟨j', h1, h2, _⟩ := C100_overlay 10 user base (by simp [user, WF, WFMap, WFList]) (plain_ok 10 user rfl).2 (by simp [base, WF, WFMap, WFList])
    (by rw [leaves_user]; simp [Writable]) (leavesOf user).reverse (fun c => List.mem_reverse)
  exact ⟨j', h1, h2⟩

example : overlay user (absJ base) = absJ merged := by
  have h1 : ("ui".toList = "dirs".toList) = False := by simp
  have h2 : ("size".toList = "bold".toList) = False := by simp
  simp only [user, base, merged, overlay, overlayMembers, overlayElements, isLeaf, absJ, absMap, absList, List.isEmpty_cons, Bool.false_eq_true, if_false]
  simp only [withMember, withElement, under, look, setElem]
  have h3 : (setV [.key "bold".toList] (.bool true) (.obj fun x => if "size".toList = x then [.num 12] else if "bold".toList = x then [.bool false] else []) : Val Nat) =
      .obj fun x => if "size".toList = x then [.num 12] else if "bold".toList = x then [.bool true] else [] := by
    rw [setV_one]
    simp only [over]
    congr 1
    funext k
    by_cases h : "bold".toList = k
    · subst h; simp [upd]
    · have a := Ne.symm h
      simp only [String.reduceToList] at h a
      simp [upd, h, a]
  congr 1
  funext k
  by_cases h : "ui".toList = k
  · subst h
    simpa [upd] using h3
  · by_cases h' : "dirs".toList = k
    · subst h'; simp [upd]
    · have a := Ne.symm h
      have a' := Ne.symm h'
      simp only [String.reduceToList] at h h' a a'
      simp [upd, h, h', a, a']

-- what is not below a leaf of the overlay: `ui.size`
example : ∀ c ∈ leavesOf user, Diverge c.1 [.key "ui".toList, .key "size".toList] := by
  rw [leaves_user]
  intro c hc
  simp only [List.mem_cons, List.not_mem_nil, or_false] at hc
  rcases hc with rfl | rfl | rfl
  · exact ⟨[.key "ui".toList], .key "bold".toList, .key "size".toList, [], [], rfl, rfl, by show _ ≠ _; decide⟩
  · exact ⟨[], .key "dirs".toList, .key "ui".toList, [.index 0], [.key "size".toList], rfl, rfl, by show _ ≠ _; decide⟩
  · exact ⟨[], .key "dirs".toList, .key "ui".toList, [.index 1], [.key "size".toList], rfl, rfl, by show _ ≠ _; decide⟩

-- overlays with leaves at the same place cannot be exchanged
example : look [.key "a".toList] (overlay (.object [("a".toList, (.number 1, []))] : Json Nat) (overlay (.object [("a".toList, (.number 2, []))] : Json Nat) .null)) = some (.num 1) ∧
    look [.key "a".toList] (overlay (.object [("a".toList, (.number 2, []))] : Json Nat) (overlay (.object [("a".toList, (.number 1, []))] : Json Nat) .null)) = some (.num 2) := by
  constructor <;> rfl
-- an empty object is a leaf: it empties what was there
example : look [.key "a".toList, .key "b".toList] (overlay (.object [("a".toList, (.object [], []))] : Json Nat) (absJ (.object [("a".toList, (.object [("b".toList, (.null, []))], []))] : Json Nat))) = none := rfl

end examples

end RJ
