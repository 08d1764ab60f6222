import Verif.Proof.Compose
import Verif.Props.Path
/-
  C103: path texts can be joined with a dot.
-/
namespace RJ
open Spec
variable {F : Type}

/-- C103.  Two path texts joined with a dot are a path text, and stand for the components of the one followed by those of the other - unless the first ends in a backslash (which would escape the dot). -/
theorem C103_text (s t : Str) (fs gs : List Finder) (hs : PathText s fs) (ht : PathText t gs) (hb : s.getLast? ≠ some '\\') : PathText (s ++ '.' :: t) (fs ++ gs) := by
  obtain ⟨_, ts, h1, h2⟩ := hs
  obtain ⟨_, us, h3, h4⟩ := ht
  exact ⟨by simp, ts ++ us, pieces_join h1 hb h3, comps_join h2 h4⟩

/-- C103.  The same for the path values that the texts are read as. -/
theorem C103_parse (s t : Str) (fs gs : List Finder) (hs : PathText s fs) (ht : PathText t gs) (hb : s.getLast? ≠ some '\\') :
    ∃ p q, parsePath s = .ok p ∧ parsePath t = .ok q ∧ parsePath (s ++ '.' :: t) = .ok (p.then q) := by
  obtain ⟨_, p, hp, rfl⟩ := parsePath_of_text hs
  obtain ⟨_, q, hq, rfl⟩ := parsePath_of_text ht
  obtain ⟨_, r, hr, e⟩ := parsePath_of_text (C103_text s t _ _ hs ht hb)
  exact ⟨p, q, hp, hq, by rw [hr, comps_inj (e.trans (comps_then p q).symm)]⟩

/-- C103.  `get` with a joined path is `get` after `get`: the same value or the same error (that of the first `get`, if it fails). -/
theorem C103_get (s t : Str) (fs gs : List Finder) (hs : PathText s fs) (ht : PathText t gs) (hb : s.getLast? ≠ some '\\') (j : Json F) :
    j.get (s ++ '.' :: t) = match j.get s with | .ok x => x.get t | .error e => .error e := by
  obtain ⟨p, q, hp, hq, hr⟩ := C103_parse s t fs gs hs ht hb
  rw [get_of_text j (by simp) hr, get_of_text j hs.1 hp, find_then]
  cases p.find j with
  | ok x => exact (get_of_text x ht.1 hq).symm
  | error e => rfl

/-- C103.  `del` with a joined path is `del` on the value that `find_mut` finds, in place; where `find_mut` fails, nothing happens and the error is its error. -/
theorem C103_del (s t : Str) (fs gs : List Finder) (hs : PathText s fs) (ht : PathText t gs) (hb : s.getLast? ≠ some '\\') (j : Json F) (p : Path) (hp : parsePath s = .ok p) :
    (∀ r, p.findMut j = .ok r → j.del (s ++ '.' :: t) = (r.put (r.val.del t).1, (r.val.del t).2)) ∧
    (∀ e, p.findMut j = .error e → j.del (s ++ '.' :: t) = (j, .error e)) := by
  obtain ⟨p', q, hp', hq, hr⟩ := C103_parse s t fs gs hs ht hb
  rw [hp] at hp'
  cases hp'
  constructor
  · intro r h
    rw [del_of_text j (by simp) hr, discard_then, h, del_of_text r.val ht.1 hq]
  · intro e h
    rw [del_of_text j (by simp) hr, discard_then, h]

/-- C103.  `set` with a joined path, where the first part leads somewhere, is `set` on the value that `find_mut` finds, in place: the same result (a reference to the new value, or a panic). -/
theorem C103_set (lim : Nat) (s t : Str) (fs gs : List Finder) (hs : PathText s fs) (ht : PathText t gs) (hb : s.getLast? ≠ some '\\') (j v : Json F) (p : Path) (hp : parsePath s = .ok p)
    (r : Ref F) (h : p.findMut j = .ok r) :
    (∀ y r', r.val.set lim t v = (y, .ok r') → j.set lim (s ++ '.' :: t) v = (r.put y, .ok ⟨r'.val, fun x => r.put (r'.put x)⟩)) ∧
    ((r.val.set lim t v).2 = .panic → (j.set lim (s ++ '.' :: t) v).2 = .panic) := by
  obtain ⟨p', q, hp', hq, hr⟩ := C103_parse s t fs gs hs ht hb
  rw [hp] at hp'
  cases hp'
  rw [set_of_text lim j v (by simp) hr, update_then lim p q j v r h, set_of_text lim r.val v ht.1 hq]
  constructor
  · intro y r' e; rw [e]
  · intro e
    rcases hu : q.update lim r.val v with ⟨y, r3 | e' | _⟩
    · rw [hu] at e; cases e
    · rw [hu] at e; cases e
    · rfl

/-- C103.  `find_mut` with a joined path is `find_mut` after `find_mut`: the same error, or the same value; and writing through the one reference is writing through the other and then through the first. -/
theorem C103_findMut (s t : Str) (fs gs : List Finder) (hs : PathText s fs) (ht : PathText t gs) (hb : s.getLast? ≠ some '\\') (j : Json F) :
    ∃ p q pq, parsePath s = .ok p ∧ parsePath t = .ok q ∧ parsePath (s ++ '.' :: t) = .ok pq ∧
      (∀ e, p.findMut j = .error e → pq.findMut j = .error e) ∧
      (∀ r, p.findMut j = .ok r → (∀ e, q.findMut r.val = .error e → pq.findMut j = .error e) ∧
        ∀ r', q.findMut r.val = .ok r' → ∃ r'', pq.findMut j = .ok r'' ∧ r''.val = r'.val ∧ ∀ x, r''.put x = r.put (r'.put x)) := by
  obtain ⟨p, q, hp, hq, hr⟩ := C103_parse s t fs gs hs ht hb
  refine ⟨p, q, _, hp, hq, hr, ?_, ?_⟩
  · intro e h; rw [findMut_then, h]
  · intro r h
    constructor
    · intro e h'; rw [findMut_then, h]; simp only [h']
    · intro r' h'; rw [findMut_then, h]; simp only [h']; exact ⟨_, rfl, rfl, fun _ => rfl⟩

/-! `a` and `#1`, joined; and `a\`, which cannot be joined: the dot becomes part of the key. -/

theorem path_a : PathText ['a'] [.key ['a']] :=
  C26_expressible [.key ['a']] (by simp [Writable])

theorem path_1 : PathText ['#', '1'] [.index 1] :=
  C26_expressible [.index 1] (by simp [Writable])

example : PathText "a.#1".toList [.key ['a'], .index 1] := C103_text ['a'] ['#', '1'] _ _ path_a path_1 (by decide)

example : parsePath "a\\".toList = .ok (.last (.key ['a', '\\'])) ∧ parsePath ("a\\".toList ++ '.' :: "b".toList) = .ok (.last (.key ['a', '.', 'b'])) := ⟨rfl, rfl⟩

example : (Json.object [(['a'], (.array [.null, .number 5], []))] : Json Nat).get "a.#1".toList = .ok (.number 5) := rfl

end RJ
