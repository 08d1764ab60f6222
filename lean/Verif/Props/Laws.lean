import Verif.Proof.Laws
import Verif.Props.History
/-
  C71: the laws that `get`, `set` and `del` obey together.
-/
namespace RJ
open Spec
variable {F : Type}

theorem set_room (lim : Nat) {s : Str} {fs : List Finder} (hs : PathText s fs) (j v : Json F) : (∃ j' r, j.set lim s v = (j', .ok r)) ↔ RoomFor lim fs (absJ j) := by
  obtain ⟨h0, p, hp, rfl⟩ := parsePath_of_text hs
  rw [set_of_text lim j v h0 hp]
  rcases path_room lim p j v with ⟨h1, h2⟩ | ⟨h1, j', h2⟩
  · exact ⟨fun _ => h1, fun _ => h2⟩
  · refine ⟨?_, fun h => absurd h h1⟩
    rintro ⟨j', r, h⟩
    rw [h2] at h
    exact nomatch congrArg Prod.snd h

theorem get_look {s : Str} {fs : List Finder} (hs : PathText s fs) (j x : Json F) (h : j.get s = .ok x) : look fs (absJ j) = some (absJ x) := by
  rcases C25_get s fs hs j with ⟨y, h1, h2, _⟩ | ⟨e, h1, _⟩
  · rw [h1] at h; cases h; exact h2
  · rw [h1] at h; cases h

theorem look_get {s : Str} {fs : List Finder} (hs : PathText s fs) (j : Json F) (d : Val F) (h : look fs (absJ j) = some d) : ∃ x, j.get s = .ok x ∧ absJ x = d := by
  rcases C25_get s fs hs j with ⟨y, h1, h2, _⟩ | ⟨e, h1, h2, _⟩
  · rw [h] at h2; cases h2; exact ⟨y, h1, rfl⟩
  · rw [h] at h2; cases h2

theorem text_ne {s : Str} {fs : List Finder} (hs : PathText s fs) : fs ≠ [] := by
  obtain ⟨h0, p, hp, rfl⟩ := parsePath_of_text hs
  cases p <;> simp [comps]

/-- C71, overwriting.  What was set at or below a place is gone when the place is set: the earlier call might as well not have been made. -/
theorem C71_overwrite (lim : Nat) (s t : Str) (fs gs : List Finder) (hs : PathText s fs) (ht : PathText t (fs ++ gs)) (j v w j1 j2 : Json F) (r1 r2 : Ref F)
    (h1 : j.set lim t w = (j1, .ok r1)) (h2 : j1.set lim s v = (j2, .ok r2)) : ∃ j' r, j.set lim s v = (j', .ok r) ∧ SameDoc j' j2 := by
  have hr := (set_room lim ht j w).mp ⟨_, _, h1⟩
  obtain ⟨j', r, h⟩ := (set_room lim hs j v).mpr (room_prefix lim fs gs _ hr)
  refine ⟨j', r, h, ?_⟩
  rw [SameDoc, C23_set_document lim s fs hs _ _ _ _ h, C23_set_document lim s fs hs _ _ _ _ h2, C23_set_document lim t _ ht _ _ _ _ h1, setV_overwrite _ _ (text_ne hs)]

/-- C71, setting below.  Setting a place and then something below it is setting the place once, to the value changed there. -/
theorem C71_below (lim : Nat) (s t u : Str) (fs gs : List Finder) (hs : PathText s fs) (hu : PathText u gs) (ht : PathText t (fs ++ gs)) (j v w j1 j2 : Json F) (r1 r2 : Ref F)
    (h1 : j.set lim s v = (j1, .ok r1)) (h2 : j1.set lim t w = (j2, .ok r2)) :
    ∃ v' r3 j' r, v.set lim u w = (v', .ok r3) ∧ j.set lim s v' = (j', .ok r) ∧ SameDoc j' j2 := by
  have hr := (set_room lim hs j v).mp ⟨_, _, h1⟩
  have hr2 := (set_room lim ht j1 w).mp ⟨_, _, h2⟩
  have e1 := C23_set_document lim s fs hs _ _ _ _ h1
  rw [e1] at hr2
  obtain ⟨v', r3, h3⟩ := (set_room lim hu v w).mpr (room_below lim fs gs (text_ne hs) _ _ hr2)
  obtain ⟨j', r, h⟩ := (set_room lim hs j v').mpr hr
  refine ⟨v', r3, j', r, h3, h, ?_⟩
  rw [SameDoc, C23_set_document lim s fs hs _ _ _ _ h, C23_set_document lim t _ ht _ _ _ _ h2, e1, setV_below _ _ (text_ne hs), C23_set_document lim u gs hu _ _ _ _ h3]

/-- C71, two places.  `set` at places that part commutes: if it works in one order it works in the other, with the same result. -/
theorem C71_commute (lim : Nat) (s t : Str) (fs gs : List Finder) (hs : PathText s fs) (ht : PathText t gs) (hd : Diverge fs gs) (j v w j1 j2 : Json F) (r1 r2 : Ref F)
    (h1 : j.set lim s v = (j1, .ok r1)) (h2 : j1.set lim t w = (j2, .ok r2)) :
    ∃ j1' r1' j2' r2', j.set lim t w = (j1', .ok r1') ∧ j1'.set lim s v = (j2', .ok r2') ∧ SameDoc j2' j2 := by
  have hr := (set_room lim hs j v).mp ⟨_, _, h1⟩
  have hr2 := (set_room lim ht j1 w).mp ⟨_, _, h2⟩
  have e1 := C23_set_document lim s fs hs _ _ _ _ h1
  rw [e1] at hr2
  obtain ⟨hr3, hr4⟩ := room_swap lim fs gs hd _ (absJ w) _ hr hr2
  obtain ⟨j1', r1', h3⟩ := (set_room lim ht j w).mpr hr3
  have e3 := C23_set_document lim t gs ht _ _ _ _ h3
  rw [← e3] at hr4
  obtain ⟨j2', r2', h4⟩ := (set_room lim hs j1' v).mpr hr4
  refine ⟨j1', r1', j2', r2', h3, h4, ?_⟩
  rw [SameDoc, C23_set_document lim s fs hs _ _ _ _ h4, e3, C23_set_document lim t gs ht _ _ _ _ h2, e1, setV_comm _ _ hd]

/-- C71, get then set.  Setting a place to what is there changes nothing (a key given twice would lose its older values). -/
theorem C71_same (lim : Nat) (s : Str) (fs : List Finder) (hs : PathText s fs) (j x : Json F) (h : j.get s = .ok x) (hq : Sole fs (absJ j)) :
    ∃ j' r, j.set lim s x = (j', .ok r) ∧ SameDoc j' j := by
  have hl := get_look hs j x h
  obtain ⟨j', r, h1⟩ := (set_room lim hs j x).mpr (room_there lim _ _ _ hl)
  exact ⟨j', r, h1, by rw [SameDoc, C23_set_document lim s fs hs _ _ _ _ h1, setV_same _ _ _ hl hq]⟩

/-- C71, set then del.  Deleting a place that was set over something is deleting it before. -/
theorem C71_del_after_set (lim : Nat) (s : Str) (fs : List Finder) (hs : PathText s fs) (j v y j1 : Json F) (r1 : Ref F) (hw : WF j) (hv : WF v)
    (hy : j.get s = .ok y) (h1 : j.set lim s v = (j1, .ok r1)) : (∃ v', (j1.del s).2 = .ok v' ∧ SameDoc v' v) ∧ SameDoc (j1.del s).1 (j.del s).1 := by
  have e1 := C23_set_document lim s fs hs _ _ _ _ h1
  have w1 : WF j1 := by have := C23_set_wf lim s j v hw hv; rw [h1] at this; exact this
  obtain ⟨x, hx, ex⟩ := look_get hs j1 (absJ v) (by rw [e1]; exact look_setV_self _ _ _)
  obtain ⟨d1, d2, _⟩ := C24_del s fs hs j1 x w1 hx
  obtain ⟨_, d3, _⟩ := C24_del s fs hs j y hw hy
  exact ⟨⟨x, d1, ex⟩, by rw [SameDoc, d2, d3, e1, delV_setV _ _ _ _ (text_ne hs) (get_look hs j y hy)]⟩

/-- C71, undo.  Deleting what was just added - a new key, or one more element - returns it and restores the document. -/
theorem C71_undo (lim : Nat) (s : Str) (fs : List Finder) (hs : PathText s fs) (j v j1 : Json F) (r1 : Ref F) (hw : WF j) (hv : WF v)
    (hf : Fresh fs (absJ j)) (h1 : j.set lim s v = (j1, .ok r1)) : (∃ v', (j1.del s).2 = .ok v' ∧ SameDoc v' v) ∧ SameDoc (j1.del s).1 j := by
  have e1 := C23_set_document lim s fs hs _ _ _ _ h1
  have w1 : WF j1 := by have := C23_set_wf lim s j v hw hv; rw [h1] at this; exact this
  obtain ⟨x, hx, ex⟩ := look_get hs j1 (absJ v) (by rw [e1]; exact look_setV_self _ _ _)
  obtain ⟨d1, d2, _⟩ := C24_del s fs hs j1 x w1 hx
  exact ⟨⟨x, d1, ex⟩, by rw [SameDoc, d2, e1, delV_fresh _ _ _ hf]⟩

/-- C71, set and del at places that part (and the deleted one is not an element of the array in which they part): in any order, with the same document and the same value returned. -/
theorem C71_set_del (lim : Nat) (s t : Str) (fs gs : List Finder) (hs : PathText s fs) (ht : PathText t gs) (hi : Independent fs gs) (j v y j1 : Json F) (r1 : Ref F) (hw : WF j) (hv : WF v)
    (hy : j.get t = .ok y) (h1 : j.set lim s v = (j1, .ok r1)) :
    (j1.del t).2 = .ok y ∧ (j.del t).2 = .ok y ∧ ∃ j' r, (j.del t).1.set lim s v = (j', .ok r) ∧ SameDoc j' (j1.del t).1 := by
  have e1 := C23_set_document lim s fs hs _ _ _ _ h1
  have w1 : WF j1 := by have := C23_set_wf lim s j v hw hv; rw [h1] at this; exact this
  have hy1 := C22_diverging_paths lim s t fs gs hs ht (independent_diverge hi) j v j1 y r1 h1 hy
  have hl := get_look ht j y hy
  obtain ⟨d1, d2, _⟩ := C24_del t gs ht j1 y w1 hy1
  obtain ⟨d3, d4, _⟩ := C24_del t gs ht j y hw hy
  have hr := (set_room lim hs j v).mp ⟨_, _, h1⟩
  rw [← room_delV lim fs gs hi _ _ hl, ← d4] at hr
  obtain ⟨j', r, h⟩ := (set_room lim hs _ v).mpr hr
  refine ⟨d1, d3, j', r, h, ?_⟩
  rw [SameDoc, d2, e1, C23_set_document lim s fs hs _ _ _ _ h, d4]
  obtain ⟨pre, a, b, s', t', rfl, rfl, hab, hk⟩ := hi
  exact setV_delV pre a b s' t' hab hk _ _ _ hl

/-- C71, two deletions at places that part: in any order, with the same document and the same values returned. -/
theorem C71_del_del (s t : Str) (fs gs : List Finder) (hs : PathText s fs) (ht : PathText t gs) (hi : Independent fs gs) (hi' : Independent gs fs) (j x y : Json F) (hw : WF j)
    (hx : j.get s = .ok x) (hy : j.get t = .ok y) :
    (∃ x', ((j.del t).1.del s).2 = .ok x' ∧ SameDoc x' x) ∧ (∃ y', ((j.del s).1.del t).2 = .ok y' ∧ SameDoc y' y) ∧ SameDoc ((j.del t).1.del s).1 ((j.del s).1.del t).1 := by
  have lx := get_look hs j x hx
  have ly := get_look ht j y hy
  obtain ⟨_, d1, w1⟩ := C24_del t gs ht j y hw hy
  obtain ⟨_, d2, w2⟩ := C24_del s fs hs j x hw hx
  obtain ⟨x', hx', ex⟩ := look_get hs (j.del t).1 (absJ x) (by rw [d1, look_delV fs gs hi _ _ ly, lx])
  obtain ⟨y', hy', ey⟩ := look_get ht (j.del s).1 (absJ y) (by rw [d2, look_delV gs fs hi' _ _ lx, ly])
  obtain ⟨d3, d4, _⟩ := C24_del s fs hs _ x' w1 hx'
  obtain ⟨d5, d6, _⟩ := C24_del t gs ht _ y' w2 hy'
  refine ⟨⟨x', d3, ex⟩, ⟨y', d5, ey⟩, ?_⟩
  rw [SameDoc, d4, d6, d1, d2]
  obtain ⟨pre, a, b, s', t', h1, h2, hab, hk⟩ := hi
  obtain ⟨pre', a', b', s'', t'', h1', h2', hab', hk'⟩ := hi'
  subst h1 h2
  refine delV_delV pre a b s' t' hab ?_ hk _ _ _ lx ly
  intro hs'
  obtain ⟨e1, e2, e3⟩ := parting_unique hab (apart_symm hab') h1' h2'
  subst e1 e2
  exact hk' (by rw [← e3, hs'])

/-- C71, two elements of one array: after the earlier one is deleted the later one is found one index lower. -/
theorem C71_shift (pre : List Finder) (i n : Nat) (hlt : i < n) (s t u : Str) (hs : PathText s (pre ++ [.index i])) (ht : PathText t (pre ++ [.index n])) (hu : PathText u (pre ++ [.index (n - 1)]))
    (j x y : Json F) (hw : WF j) (hx : j.get s = .ok x) (hy : j.get t = .ok y) :
    (∃ x', ((j.del t).1.del s).2 = .ok x' ∧ SameDoc x' x) ∧ (∃ y', ((j.del s).1.del u).2 = .ok y' ∧ SameDoc y' y) ∧ SameDoc ((j.del t).1.del s).1 ((j.del s).1.del u).1 := by
  have lx := get_look hs j x hx
  have ly := get_look ht j y hy
  obtain ⟨_, d1, w1⟩ := C24_del t _ ht j y hw hy
  obtain ⟨_, d2, w2⟩ := C24_del s _ hs j x hw hx
  obtain ⟨x', hx', ex⟩ := look_get hs (j.del t).1 (absJ x) (by rw [d1, look_before pre i n hlt _ _ ly, lx])
  obtain ⟨y', hy', ey⟩ := look_get hu (j.del s).1 (absJ y) (by rw [d2, look_after pre i n hlt _ _ ly, ly])
  obtain ⟨d3, d4, _⟩ := C24_del s _ hs _ x' w1 hx'
  obtain ⟨d5, d6, _⟩ := C24_del u _ hu _ y' w2 hy'
  refine ⟨⟨x', d3, ex⟩, ⟨y', d5, ey⟩, ?_⟩
  rw [SameDoc, d4, d6, d1, d2, delV_shift pre i n hlt _ _ ly]

section examples

private def doc : Json Nat := .object [("a".toList, (.array [.number 1, .null], [])), ("b".toList, (.boolean true, [.string []]))]

private theorem written (fs : List Finder) (s : Str) (hw : Writable fs) (he : writePath fs = s) : PathText s fs := by
  rw [← he]; exact C26_expressible fs hw

-- overwrite, below, commute: `a.#4.x`, `a`, `#4.x`, `b`
example : PathText "a".toList [.key "a".toList] ∧ PathText "a.#4.x".toList ([.key "a".toList] ++ [.index 4, .key "x".toList]) ∧ PathText "#4.x".toList [.index 4, .key "x".toList] :=
  ⟨written _ _ (by simp [Writable]) (by decide), written _ _ (by simp [Writable]) (by decide), written _ _ (by simp [Writable]) (by decide)⟩
example : ∃ j1 r1 j2 r2, doc.set 10 "a.#4.x".toList .null = (j1, .ok r1) ∧ j1.set 10 "a".toList (.boolean true) = (j2, .ok r2) := ⟨_, _, _, _, rfl, rfl⟩
example : ∃ j1 r1 j2 r2, doc.set 10 "a".toList (.boolean true) = (j1, .ok r1) ∧ j1.set 10 "a.#4.x".toList .null = (j2, .ok r2) := ⟨_, _, _, _, rfl, rfl⟩
example : Diverge [.key "a".toList, .index 4, .key "x".toList] [.key "a".toList, .index 7] := ⟨[.key "a".toList], .index 4, .index 7, [.key "x".toList], [], rfl, rfl, by simp [Apart]⟩
example : ∃ j1 r1 j2 r2, doc.set 10 "a.#4.x".toList .null = (j1, .ok r1) ∧ j1.set 10 "a.#7".toList .null = (j2, .ok r2) := ⟨_, _, _, _, rfl, rfl⟩
-- setting what is there, undoing an addition, deleting after setting
example : WF doc ∧ doc.get "a.#0".toList = .ok (.number 1) := ⟨by simp [doc, WF, WFMap, WFList], rfl⟩
example : Sole [.key "a".toList] (absJ doc) := by
  intro pre k m h1 h2
  cases pre with
  | nil =>
    cases h1
    cases h2
    show (absMap _ "a".toList).length ≤ 1
    decide
  | cons f pre => cases pre <;> cases h1
-- the older value of `b` stands in the way
example : ¬ Sole [.key "b".toList] (absJ doc) := fun h => absurd (h [] "b".toList _ rfl rfl) (by show ¬ (absMap _ "b".toList).length ≤ 1; decide)
example : Fresh [.key "a".toList, .index 2] (absJ doc) := .inr ⟨[.key "a".toList], _, rfl, rfl⟩
example : Fresh [.key "c".toList] (absJ doc) := .inl ⟨[], _, _, rfl, rfl, rfl⟩
example : ∃ j1 r1, doc.set 10 "a.#2".toList .null = (j1, .ok r1) := ⟨_, _, rfl⟩
-- set and del, del and del
example : Independent [.key "a".toList, .index 4] [.key "b".toList] ∧ Independent [.key "b".toList] [.key "a".toList, .index 4] :=
  ⟨⟨[], .key "a".toList, .key "b".toList, [.index 4], [], rfl, rfl, by simp [Apart], fun _ => ⟨_, rfl⟩⟩, ⟨[], .key "b".toList, .key "a".toList, [], [.index 4], rfl, rfl, by simp [Apart], fun h => nomatch h⟩⟩
-- an element of the array in which the paths part is excluded, and for a reason
example : ¬ Independent [.key "a".toList, .index 1] [.key "a".toList, .index 0] := by
  rintro ⟨pre, a, b, s, t, h1, h2, hab, hk⟩
  cases pre with
  | nil => cases h1; cases h2; exact hab rfl
  | cons f pre =>
    cases pre with
    | nil =>
      cases h1; cases h2
      obtain ⟨k, h⟩ := hk rfl
      cases h
    | cons g pre => cases pre <;> cases h1
example : ((doc.del "a.#0".toList).1.del "a.#1".toList).2 ≠ (doc.del "a.#1".toList).2 := fun h => nomatch (h : failS _ _ = Except.ok _)
example : doc.get "a.#0".toList = .ok (.number 1) ∧ doc.get "a.#1".toList = .ok .null ∧ ((doc.del "a.#0".toList).1.del "a.#0".toList).2 = .ok .null := ⟨rfl, rfl, rfl⟩

end examples

end RJ
