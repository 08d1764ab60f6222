import Verif.Proof.PathText
import Verif.Proof.Path
/-
  Joined paths (C103).
-/
namespace RJ
open Spec
variable {F : Type}

theorem pieces_join {s t : Str} {ts us : List Str} (h : Pieces s ts) (hb : s.getLast? ≠ some '\\') (h' : Pieces t us) : Pieces (s ++ '.' :: t) (ts ++ us) := by
  induction h with
  | last hp => exact .cons hp hb h'
  | @cons r w s ws hp hr _ ih =>
    rw [List.append_assoc, List.cons_append, List.cons_append]
    refine .cons hp hr (ih ?_)
    intro e
    refine hb ?_
    cases s with
    | nil => cases e
    | cons c s => simp only [List.getLast?_append, List.getLast?_cons_cons, e, Option.some_or]

theorem comps_join {ts us : List Str} {fs gs : List Finder} (h : CompsOf ts fs) (h' : CompsOf us gs) : CompsOf (ts ++ us) (fs ++ gs) := by
  induction h with
  | nil => exact h'
  | cons a _ ih => exact .cons a ih

/-- One path after the other. -/
def Path.then : Path → Path → Path
  | .last f, q => .cons f q
  | .cons f p, q => .cons f (p.then q)

theorem comps_then (p q : Path) : comps (p.then q) = comps p ++ comps q := by
  induction p with
  | last f => rfl
  | cons f p ih => simp only [Path.then, comps, ih, List.cons_append]

theorem comps_some (p : Path) : comps p ≠ [] := by cases p <;> simp [comps]

theorem comps_inj {p q : Path} (h : comps p = comps q) : p = q := by
  induction p generalizing q with
  | last f =>
    cases q with
    | last g => simp only [comps, List.cons.injEq, and_true] at h; rw [h]
    | cons g q => simp only [comps, List.cons.injEq] at h; exact absurd h.2.symm (comps_some q)
  | cons f p ih =>
    cases q with
    | last g => simp only [comps, List.cons.injEq] at h; exact absurd h.2 (comps_some p)
    | cons g q => simp only [comps, List.cons.injEq] at h; rw [h.1, ih h.2]

theorem find_then (p q : Path) (j : Json F) : (p.then q).find j = match p.find j with | .ok x => q.find x | .error e => .error e := by
  induction p generalizing j with
  | last f =>
    simp only [Path.then, Path.find]
    cases f.find j <;> rfl
  | cons f p ih =>
    simp only [Path.then, Path.find]
    cases f.find j with
    | ok x => exact ih x
    | error e => rfl

theorem findMut_then (p q : Path) (j : Json F) : (p.then q).findMut j =
    match p.findMut j with
    | .ok r =>
      match q.findMut r.val with
      | .ok r' => .ok ⟨r'.val, fun x => r.put (r'.put x)⟩
      | .error e => .error e
    | .error e => .error e := by
  induction p generalizing j with
  | last f =>
    simp only [Path.then, Path.findMut]
    cases f.findMut j with
    | error e => rfl
    | ok r => cases hq : q.findMut r.val <;> simp only [hq]
  | cons f p ih =>
    simp only [Path.then, Path.findMut]
    cases f.findMut j with
    | error e => rfl
    | ok r =>
      simp only [ih]
      cases p.findMut r.val with
      | error e => rfl
      | ok r' =>
        cases hq : q.findMut r'.val with
        | error e => simp only [hq]
        | ok r'' => simp only [hq]

theorem discard_then (p q : Path) (j : Json F) : (p.then q).discard j =
    match p.findMut j with
    | .ok r => (r.put (q.discard r.val).1, (q.discard r.val).2)
    | .error e => (j, .error e) := by
  induction p generalizing j with
  | last f =>
    simp only [Path.then, Path.discard, Path.findMut]
    cases f.findMut j <;> rfl
  | cons f p ih =>
    simp only [Path.then, Path.discard, Path.findMut]
    cases hf : f.findMut j with
    | error e => rfl
    | ok r =>
      simp only [ih]
      cases hp : p.findMut r.val with
      | error e => simp only [Finder.put_val hf]
      | ok r' => rfl

/-- Where the first path leads somewhere. -/
theorem update_then (lim : Nat) (p q : Path) (j v : Json F) (r : Ref F) (h : p.findMut j = .ok r) : (p.then q).update lim j v =
    match q.update lim r.val v with
    | (y, .ok r') => (r.put y, .ok ⟨r'.val, fun x => r.put (r'.put x)⟩)
    | (y, .err e) => (r.put y, .err e)
    | (_, .panic) => (j, .panic) := by
  induction p generalizing j r with
  | last f =>
    have h : f.findMut j = .ok r := h
    have hf : f.find j = .ok r.val := by rw [Finder.find_eq, h]
    simp only [Path.then, Path.update, hf, h]
    rcases q.update lim r.val v with ⟨y, r3 | e | _⟩ <;> rfl
  | cons f p ih =>
    simp only [Path.findMut] at h
    cases hf : f.findMut j with
    | error e => rw [hf] at h; cases h
    | ok r1 =>
      rw [hf] at h
      simp only at h
      cases hp : p.findMut r1.val with
      | error e => rw [hp] at h; cases h
      | ok r2 =>
        rw [hp] at h
        cases h
        have hf' : f.find j = .ok r1.val := by rw [Finder.find_eq, hf]
        simp only [Path.then, Path.update, hf', hf, ih _ _ hp]
        rcases q.update lim r2.val v with ⟨y, r3 | e | _⟩ <;> rfl

end RJ
