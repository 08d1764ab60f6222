import Verif.Proof.Run
import Verif.Proof.PrintRun
import Verif.Proof.JsonEq
import Verif.Proof.HashOrder
/-
  Proofs for C87: the time of `parse` for each level of nesting, and its recursion depth on accepted texts.
-/
set_option linter.unusedSectionVars false
namespace RJ
open Spec

/-! ### What is true of a run, if it ends -/

/-- If the run ends, with these steps, this depth and this result `P` holds. -/
def Sat {α : Type} (P : Nat → Nat → Res α → Prop) (r : Run α) : Prop := ∀ s d x, r = some (s, d, x) → P s d x

section
variable {α β : Type}

theorem Sat.mono {P Q : Nat → Nat → Res α → Prop} {r : Run α} (h : Sat P r) (hpq : ∀ s d x, P s d x → Q s d x) : Sat Q r := fun s d x e => hpq s d x (h s d x e)

theorem sat_done {P : Nat → Nat → Res α → Prop} {x : Res α} (h : P 0 0 x) : Sat P (done x) := by rintro s d y e; cases e; exact h

theorem Sat.pay {P : Nat → Nat → Res α → Prop} {r : Run α} {n : Nat} (h : Sat (fun s d x => P (n + s) d x) r) : Sat P (pay n r) := by
  intro s d x e
  cases r with
  | none => cases e
  | some y => obtain ⟨s', d', x'⟩ := y; cases e; exact h s' d' x' rfl

theorem Sat.deeper {P : Nat → Nat → Res α → Prop} {r : Run α} (h : Sat (fun s d x => P (1 + s) (1 + d) x) r) : Sat P (deeper r) := by
  intro s d x e
  cases r with
  | none => cases e
  | some y => obtain ⟨s', d', x'⟩ := y; cases e; exact h s' d' x' rfl

theorem Sat.andThen {Q : Nat → Nat → Res α → Prop} {P : Nat → Nat → Res β → Prop} {r : Run α} (h : Sat Q r) {k : Res α → Run β}
    (hk : ∀ s d x, Q s d x → Sat (fun s' d' y => P (s + s') (max d d') y) (k x)) : Sat P (andThen r k) := by
  intro s d x e
  cases r with
  | none => cases e
  | some y =>
    obtain ⟨s', d', x'⟩ := y
    unfold RJ.andThen at e
    dsimp only at e
    cases hkx : k x' with
    | none => rw [hkx] at e; cases e
    | some z =>
      obtain ⟨s2, d2, x2⟩ := z
      rw [hkx] at e
      cases e
      exact hk s' d' x' (h s' d' x' rfl) s2 d2 x2 hkx

theorem sat_int {P : Nat → Nat → Res α → Prop} {o : Option Int} {k : Int → Run α} (hk : ∀ i, Sat P (k i)) : Sat P (withInt o k) := by
  cases o with
  | none => rintro s d x h; cases h
  | some i => exact hk i

theorem sat_ite {P : Nat → Nat → Res α → Prop} {c : Prop} [Decidable c] {a b : Run α} (h1 : c → Sat P a) (h2 : ¬ c → Sat P b) : Sat P (if c then a else b) := by
  by_cases h : c
  · rw [if_pos h]; exact h1 h
  · rw [if_neg h]; exact h2 h

end

/-! ### Depths -/

section
variable {F : Type} [FloatOps F]

/-- How many values stand one inside the other. -/
def deepOf (j : Json F) : Nat := j.printRun.depth

/-- The values in an object, replaced ones included. -/
def allVals (m : Obj F) : List (Json F) := m.flatMap (fun e => e.2.1 :: e.2.2)

/-- The depth of the values in an object. -/
def deepObj (m : Obj F) : Nat := largest ((allVals m).map deepOf)

theorem largest_congr {l l' : List Nat} (h : ∀ n, n ∈ l ↔ n ∈ l') : largest l = largest l' :=
  Nat.le_antisymm (largest_le (fun n hn => le_largest ((h n).1 hn))) (largest_le (fun n hn => le_largest ((h n).2 hn)))

theorem largest_append (a b : List Nat) : largest (a ++ b) = max (largest a) (largest b) := by
  induction a with
  | nil => simp [largest]
  | cons x a ih => rw [List.cons_append, largest, largest, ih, Nat.max_assoc]

theorem deep_array (l : List (Json F)) : deepOf (.array l) = 1 + largest (l.map deepOf) := array_depth l

theorem deep_object (m : Obj F) : deepOf (.object m) = 1 + deepObj m := by
  unfold deepOf
  rw [entry_depth]
  congr 1
  refine Nat.le_antisymm (largest_le ?_) (largest_le ?_)
  · intro n hn
    obtain ⟨e, he, rfl⟩ := List.mem_map.1 hn
    have he := (sortByKey_perm m).mem_iff.mp he
    refine largest_le ?_
    intro n hn
    refine le_largest (List.mem_map.2 ?_)
    rcases List.mem_cons.1 hn with rfl | hn
    · exact ⟨e.2.1, List.mem_flatMap.2 ⟨e, he, List.mem_cons_self ..⟩, rfl⟩
    · obtain ⟨r, hr, rfl⟩ := List.mem_map.1 hn
      obtain ⟨x, hx, rfl⟩ := List.mem_map.1 hr
      exact ⟨x, List.mem_flatMap.2 ⟨e, he, List.mem_cons_of_mem _ hx⟩, rfl⟩
  · intro n hn
    obtain ⟨x, hx, rfl⟩ := List.mem_map.1 hn
    obtain ⟨e, he, hx⟩ := List.mem_flatMap.1 hx
    refine Nat.le_trans ?_ (le_largest (List.mem_map.2 ⟨e, (sortByKey_perm m).mem_iff.mpr he, rfl⟩))
    refine le_largest ?_
    rcases List.mem_cons.1 hx with rfl | hx
    · exact List.mem_cons_self ..
    · exact List.mem_cons_of_mem _ (List.mem_map.2 ⟨_, List.mem_map.2 ⟨x, hx, rfl⟩, rfl⟩)

theorem allVals_insert (k : Str) (v : Json F) (m : Obj F) (x : Json F) : x ∈ allVals (objectInsert k v m) ↔ x = v ∨ x ∈ allVals m := by
  have new : ∀ m : Obj F, mapGet k m = none → (x ∈ allVals (mapInsert k (v, []) m) ↔ x = v ∨ x ∈ allVals m) := by
    intro m
    induction m with
    | nil => intro _; simp [mapInsert, allVals]
    | cons e t ih =>
      intro h
      obtain ⟨k', w, l⟩ := e
      rw [mapGet] at h
      split at h
      · cases h
      · rename_i hk
        rw [mapInsert, if_neg hk]
        have := ih h
        unfold allVals at this ⊢
        rw [List.flatMap_cons, List.flatMap_cons, List.mem_append, List.mem_append, this]
        constructor
        · rintro (h | h | h) <;> simp [h]
        · rintro (h | h | h) <;> simp [h]
  have old : ∀ (m : Obj F) (o : Json F) (l : List (Json F)), mapGet k m = some (o, l) → (x ∈ allVals (mapInsert k (v, o :: l) m) ↔ x = v ∨ x ∈ allVals m) := by
    intro m o l
    induction m with
    | nil => intro h; cases h
    | cons e t ih =>
      intro h
      obtain ⟨k', w, l'⟩ := e
      rw [mapGet] at h
      split at h
      · rename_i hk
        cases h
        rw [mapInsert, if_pos hk]
        unfold allVals
        rw [List.flatMap_cons, List.flatMap_cons, List.mem_append, List.mem_append]
        simp only [List.mem_cons, or_assoc]
      · rename_i hk
        rw [mapInsert, if_neg hk]
        have := ih h
        unfold allVals at this ⊢
        rw [List.flatMap_cons, List.flatMap_cons, List.mem_append, List.mem_append, this]
        constructor
        · rintro (h | h | h) <;> simp [h]
        · rintro (h | h | h) <;> simp [h]
  unfold objectInsert
  cases h : mapGet k m with
  | none => exact new m h
  | some p => obtain ⟨o, l⟩ := p; exact old m o l h

theorem deep_insert (k : Str) (v : Json F) (m : Obj F) : deepObj (objectInsert k v m) = max (deepObj m) (deepOf v) := by
  have h1 : deepObj (objectInsert k v m) = largest ((v :: allVals m).map deepOf) := by
    refine largest_congr (fun n => ?_)
    simp only [List.mem_map, allVals_insert, List.mem_cons]
  rw [h1, List.map_cons, largest, Nat.max_comm]
  rfl

theorem deep_pos (j : Json F) : 1 ≤ deepOf j := run_pos j

/-! ### The loops -/

/-- The cost of a call with the text `u`. -/
def Cost (u : Str) (s d : Nat) (x : Res (Json F)) : Prop := s ≤ 2 * d * (u.length + 1) ∧ ∀ j, x = .ok j → d = deepOf j

/-- All calls have this cost. -/
def Linear (rec : Str → Run (Json F)) : Prop := ∀ u : Str, Sat (Cost u) (rec u)

/-- The cost of the loop over the elements of an array. -/
def ArrCost (w : Nat) (n : Nat) (array : List (Json F)) (s d : Nat) (x : Res (Json F)) : Prop :=
  s ≤ n + 2 * d * w ∧ ∀ j, x = .ok j → ∃ l, j = .array (array ++ l) ∧ d = largest (l.map deepOf)

theorem arrCost_le {w w' n n' : Nat} {array : List (Json F)} {s d : Nat} {x : Res (Json F)} (h : ArrCost w n array s d x) (hw : w ≤ w') (hn : n ≤ n') :
    ArrCost w' n' array s d x := by
  refine ⟨?_, h.2⟩
  have := Nat.mul_le_mul_left (2 * d) hw
  have := h.1
  omega

theorem arr_fail {w n : Nat} {array : List (Json F)} {e : Error} : ArrCost w n array 0 0 (.error e) := ⟨by simp, by intro j h; cases h⟩

theorem two_calls {a b d1 d2 : Nat} : 2 * d1 * a + 2 * d2 * b ≤ 2 * (max d1 d2) * (a + b) := by
  have h1 : 2 * d1 * a ≤ 2 * (max d1 d2) * a := Nat.mul_le_mul_right _ (by omega)
  have h2 : 2 * d2 * b ≤ 2 * (max d1 d2) * b := Nat.mul_le_mul_right _ (by omega)
  rw [Nat.mul_add]
  omega

theorem arrRun_cost (add : Arith) {rec : Str → Run (Json F)} (hr : Linear rec) :
    ∀ (n : Nat) (iter : Str) (i j : Int) (inner : Str) (array : List (Json F)), iter.length ≤ n →
      Sat (ArrCost (inner.length + iter.length) (iter.length + 1) array) (arrRun add rec iter i j inner array)
  | _, [], i, j, inner, array, _ => by
    rw [arrRun]; exact Sat.pay (sat_done ⟨by simp, by intro j h; cases h⟩)
  | 0, _ :: _, _, _, _, _, h => by simp at h
  | n + 1, c :: iter, i, j, inner, array, hn => by
    have ih := arrRun_cost add hr n
    have hn' : iter.length ≤ n := by simpa using hn
    rw [arrRun_cons]
    have push : ∀ (i j : Int), Sat (ArrCost (inner.length + (iter.length + 1)) (iter.length + 1) array) (arrRun add rec iter i j (inner ++ [c]) array) := by
      intro i j
      exact (ih iter i j (inner ++ [c]) array hn').mono (fun s d x h => arrCost_le h (by simp; omega) (Nat.le_refl _))
    refine Sat.pay (Sat.mono (P := ArrCost (inner.length + (iter.length + 1)) (iter.length + 1) array) ?_ ?_)
    · refine sat_ite (fun _ => ?_) (fun _ => sat_ite (fun _ => ?_) (fun _ => sat_ite (fun e => ?_) (fun _ => sat_ite (fun e => ?_) (fun _ => sat_ite (fun e => ?_)
        (fun _ => sat_ite (fun e => ?_) (fun _ => sat_ite (fun e => ?_) (fun _ => sat_ite (fun e => ?_) (fun _ => sat_ite (fun _ => ?_) (fun _ => push i j)))))))))
      · refine (hr inner).andThen ?_
        intro s d x hx
        have hm : 2 * d * (inner.length + 1) ≤ 2 * d * (inner.length + (iter.length + 1)) := Nat.mul_le_mul_left _ (by omega)
        have hs := hx.1
        cases x with
        | error e =>
          exact sat_done ⟨by rw [Nat.max_eq_left (Nat.zero_le _)]; omega, by intro j h; cases h⟩
        | ok v =>
          refine Sat.pay (sat_done ⟨by rw [Nat.max_eq_left (Nat.zero_le _)]; omega, ?_⟩)
          intro j h
          cases ht : skipTrail .ParseArrayError iter with
          | error e => rw [ht] at h; cases h
          | ok u =>
            rw [ht] at h
            cases h
            refine ⟨[v], rfl, ?_⟩
            rw [Nat.max_eq_left (Nat.zero_le _), hx.2 v rfl]
            simp [largest]
      · refine sat_ite (fun _ => sat_done arr_fail) (fun _ => sat_ite (fun _ => sat_done arr_fail) (fun _ => ?_))
        refine (hr inner).andThen ?_
        intro s d x hx
        have hs := hx.1
        cases x with
        | error e =>
          have hm : 2 * d * (inner.length + 1) ≤ 2 * d * (inner.length + (iter.length + 1)) := Nat.mul_le_mul_left _ (by omega)
          exact sat_done ⟨by rw [Nat.max_eq_left (Nat.zero_le _)]; omega, by intro j h; cases h⟩
        | ok v =>
          refine (ih iter i j [] (array ++ [v]) hn').mono ?_
          intro s' d' y hy
          refine ⟨?_, ?_⟩
          · have h1 := hy.1
            have h2 := two_calls (a := inner.length + 1) (b := iter.length) (d1 := d) (d2 := d')
            have e : inner.length + 1 + iter.length = inner.length + (iter.length + 1) := by omega
            rw [e] at h2
            simp only [List.length_nil, Nat.zero_add] at h1
            omega
          · intro j hj
            obtain ⟨l, h1, h2⟩ := hy.2 j hj
            refine ⟨v :: l, by rw [h1]; simp, ?_⟩
            rw [List.map_cons, largest, hx.2 v rfl, h2]
      · subst e; exact sat_int (fun j => push i j)
      · subst e; exact sat_int (fun i => push i j)
      · subst e; exact sat_int (fun i => push i j)
      · subst e; exact sat_int (fun i => push i j)
      · subst e; exact sat_int (fun i => push i j)
      · cases iter with
        | nil => exact sat_done arr_fail
        | cons ch iter =>
          subst e
          simp only [List.length_cons] at hn' ⊢
          exact (ih iter i j (inner ++ ['\\', ch]) array (by omega)).mono (fun s d x h => arrCost_le h (by simp; omega) (by omega))
      · exact (ih iter i j inner array hn').mono (fun s d x h => arrCost_le h (by omega) (by omega))
    · intro s d x h
      refine ⟨?_, h.2⟩
      have := h.1
      simp only [List.length_cons]
      omega

/-- The cost of the loop over the members of an object. -/
def ObjCost (w : Nat) (n : Nat) (object : Obj F) (s d : Nat) (x : Res (Json F)) : Prop :=
  s ≤ n + 2 * d * w ∧ ∀ j, x = .ok j → ∃ m, j = .object m ∧ deepObj m = max (deepObj object) d

theorem objCost_le {w w' n n' : Nat} {object : Obj F} {s d : Nat} {x : Res (Json F)} (h : ObjCost w n object s d x) (hw : w ≤ w') (hn : n ≤ n') :
    ObjCost w' n' object s d x := by
  refine ⟨?_, h.2⟩
  have := Nat.mul_le_mul_left (2 * d) hw
  have := h.1
  omega

theorem obj_fail {w n : Nat} {object : Obj F} {e : Error} : ObjCost w n object 0 0 (.error e) := ⟨by simp, by intro j h; cases h⟩

/-- A key and what follows. -/
theorem sat_key {P : Nat → Nat → Res (Json F) → Prop} {u : Str} {rec : Str → Run (Json F)} (hr : Linear rec) {k : Str → Run (Json F)}
    (hf : ∀ s d e, s ≤ 2 * d * (u.length + 1) → P s d (.error e)) (hk : ∀ s key, s ≤ 2 * 1 * (u.length + 1) → Sat (fun s' d' y => P (s + s') (max 1 d') y) (k key)) :
    Sat P (andThen (rec u) (withKey k)) := by
  refine (hr u).andThen ?_
  intro s d x hx
  have bad : ∀ e : Error, Sat (fun s' d' y => P (s + s') (max d d') y) (done (.error e) : Run (Json F)) := by
    intro e
    refine sat_done ?_
    rw [Nat.add_zero, Nat.max_eq_left (Nat.zero_le _)]
    exact hf s d e hx.1
  match x, hx with
  | .error e, hx => exact bad _
  | .ok .null, hx => exact bad _
  | .ok (.boolean _), hx => exact bad _
  | .ok (.number _), hx => exact bad _
  | .ok (.array _), hx => exact bad _
  | .ok (.object _), hx => exact bad _
  | .ok (.string key), hx =>
    have hd : d = 1 := by rw [hx.2 _ rfl]; simp [deepOf, Json.printRun, leafPrint]
    subst hd
    exact hk s key hx.1

theorem objRun_cost (add : Arith) {rec : Str → Run (Json F)} (hr : Linear rec) :
    ∀ (n : Nat) (iter : Str) (i j : Int) (kv : Str × Str) (onKey : Bool) (object : Obj F), iter.length ≤ n →
      Sat (ObjCost (half onKey kv + iter.length) (iter.length + 1) object) (objRun add rec iter i j kv onKey object)
  | _, [], i, j, kv, onKey, object, _ => by
    rw [objRun]; exact Sat.pay (sat_done ⟨by simp, by intro j h; cases h⟩)
  | 0, _ :: _, _, _, _, _, _, h => by simp at h
  | n + 1, c :: iter, i, j, kv, onKey, object, hn => by
    have ih := objRun_cost add hr n
    have hn' : iter.length ≤ n := by simpa using hn
    rw [objRun_cons]
    have push : ∀ (i j : Int), Sat (ObjCost (half onKey kv + (iter.length + 1)) (iter.length + 1) object)
        (objRun add rec iter i j (pushKV onKey kv.1 kv.2 [c]) onKey object) := by
      intro i j
      refine (ih iter i j (pushKV onKey kv.1 kv.2 [c]) onKey object hn').mono (fun s d x h => objCost_le h ?_ (Nat.le_refl _))
      rw [half_push]; simp; omega
    refine Sat.pay (Sat.mono (P := ObjCost (half onKey kv + (iter.length + 1)) (iter.length + 1) object) ?_ ?_)
    · refine sat_ite (fun hc => ?_) (fun _ => sat_ite (fun hc => ?_) (fun _ => sat_ite (fun hc => ?_) (fun _ => sat_ite (fun e => ?_) (fun _ => sat_ite (fun e => ?_) (fun _ =>
          sat_ite (fun e => ?_) (fun _ => sat_ite (fun e => ?_) (fun _ => sat_ite (fun e => ?_) (fun _ => sat_ite (fun e => ?_) (fun _ => sat_ite (fun _ => ?_)
          (fun _ => push i j))))))))))
      · have hk : onKey = false := hc.2.2.2
        subst hk
        have hw : half false kv + (iter.length + 1) = (kv.1.length + 1) + (kv.2.length + 1) + iter.length := by simp [half]; omega
        rw [hw]
        refine sat_key hr ?_ ?_
        · intro s d e hs
          refine ⟨?_, by intro j h; cases h⟩
          have hm : 2 * d * (kv.1.length + 1) ≤ 2 * d * ((kv.1.length + 1) + (kv.2.length + 1) + iter.length) := Nat.mul_le_mul_left _ (by omega)
          omega
        · intro s key hs
          refine (hr kv.2).andThen ?_
          intro s' d x hx
          have hs' := hx.1
          have h2 := two_calls (a := kv.1.length + 1) (b := kv.2.length + 1) (d1 := 1) (d2 := d)
          have hm : 2 * max 1 d * ((kv.1.length + 1) + (kv.2.length + 1)) ≤ 2 * max 1 d * ((kv.1.length + 1) + (kv.2.length + 1) + iter.length) := Nat.mul_le_mul_left _ (by omega)
          cases x with
          | error e => exact sat_done ⟨by rw [Nat.max_eq_left (Nat.zero_le d)]; omega, by intro j h; cases h⟩
          | ok v =>
            refine Sat.pay (sat_done ⟨by rw [Nat.max_eq_left (Nat.zero_le d)]; omega, ?_⟩)
            intro j h
            cases ht : skipTrail .ParseObjectError iter with
            | error e => rw [ht] at h; cases h
            | ok u =>
              rw [ht] at h
              cases h
              refine ⟨_, rfl, ?_⟩
              have hp := deep_pos v
              rw [deep_insert, Nat.max_eq_left (Nat.zero_le d), hx.2 v rfl, Nat.max_eq_right hp]
      · refine sat_ite (fun _ => sat_done obj_fail) (fun _ => sat_ite (fun _ => sat_done obj_fail) (fun _ => ?_))
        have hk : onKey = false := hc.2.2.2
        subst hk
        have hw : half false kv + (iter.length + 1) = (kv.1.length + 1) + (kv.2.length + 1) + iter.length := by simp [half]; omega
        rw [hw]
        refine sat_key hr ?_ ?_
        · intro s d e hs
          refine ⟨?_, by intro j h; cases h⟩
          have hm : 2 * d * (kv.1.length + 1) ≤ 2 * d * ((kv.1.length + 1) + (kv.2.length + 1) + iter.length) := Nat.mul_le_mul_left _ (by omega)
          omega
        · intro s key hs
          refine (hr kv.2).andThen ?_
          intro s' d x hx
          have hs' := hx.1
          have h2 := two_calls (a := kv.1.length + 1) (b := kv.2.length + 1) (d1 := 1) (d2 := d)
          cases x with
          | error e =>
            have hm : 2 * max 1 d * ((kv.1.length + 1) + (kv.2.length + 1)) ≤ 2 * max 1 d * ((kv.1.length + 1) + (kv.2.length + 1) + iter.length) := Nat.mul_le_mul_left _ (by omega)
            exact sat_done ⟨by rw [Nat.max_eq_left (Nat.zero_le d)]; omega, by intro j h; cases h⟩
          | ok v =>
            have hp := deep_pos v
            have hd := hx.2 v rfl
            refine (ih iter i j ([], []) true (objectInsert key v object) hn').mono ?_
            intro s2 d2 y hy
            refine ⟨?_, ?_⟩
            · have h1 := hy.1
              have h3 := two_calls (a := (kv.1.length + 1) + (kv.2.length + 1)) (b := iter.length) (d1 := max 1 d) (d2 := d2)
              rw [Nat.max_assoc] at h3
              simp only [half, List.length_nil, Nat.zero_add, if_true] at h1
              omega
            · intro j hj
              obtain ⟨m, h1, h4⟩ := hy.2 j hj
              refine ⟨m, h1, ?_⟩
              rw [h4, deep_insert, hd]
              omega
      · refine (ih iter i j kv false object hn').mono (fun s d x h => objCost_le h ?_ (by omega))
        cases onKey <;> simp [half] <;> omega
      · subst e; exact sat_int (fun j => push i j)
      · subst e; exact sat_int (fun i => push i j)
      · subst e; exact sat_int (fun i => push i j)
      · subst e; exact sat_int (fun i => push i j)
      · subst e; exact sat_int (fun i => push i j)
      · cases iter with
        | nil => exact sat_done obj_fail
        | cons ch iter =>
          subst e
          simp only [List.length_cons] at hn' ⊢
          refine (ih iter i j (pushKV onKey kv.1 kv.2 ['\\', ch]) onKey object (by omega)).mono (fun s d x h => objCost_le h ?_ (by omega))
          rw [half_push]; simp; omega
      · exact (ih iter i j kv onKey object hn').mono (fun s d x h => objCost_le h (by omega) (by omega))
    · intro s d x h
      refine ⟨?_, h.2⟩
      have := h.1
      simp only [List.length_cons]
      omega

/-! ### `_parse` as a whole -/

theorem null_atom {t : Str} {j : Json F} (h : parseNull t = .ok j) : deepOf j = 1 := by
  unfold parseNull at h
  split at h <;> cases h
  simp [deepOf, Json.printRun, leafPrint]

theorem bool_atom {t : Str} {j : Json F} (h : parseBoolean t = .ok j) : deepOf j = 1 := by
  unfold parseBoolean at h
  split at h
  · cases h; simp [deepOf, Json.printRun, leafPrint]
  · split at h <;> cases h
    simp [deepOf, Json.printRun, leafPrint]

theorem num_atom {t : Str} {j : Json F} (h : parseNumber t = .ok j) : deepOf j = 1 := by
  unfold parseNumber at h
  split at h
  · split at h
    · split at h <;> cases h
      simp [deepOf, Json.printRun, leafPrint]
    · cases h
  · cases h

theorem str_atom {t : Str} {j : Json F} (h : parseString t = .ok j) : deepOf j = 1 := by
  unfold parseString at h
  split at h <;> cases h
  simp [deepOf, Json.printRun, leafPrint]

theorem bodyRun_cost (add : Arith) {rec : Str → Run (Json F)} (hr : Linear rec) (u : Str) : Sat (Cost u) (bodyRun add rec u) := by
  unfold bodyRun
  refine Sat.deeper ?_
  cases u with
  | nil => exact sat_done ⟨by simp, by intro j h; cases h⟩
  | cons c u =>
    simp only [List.head?_cons]
    have lf : ∀ x : Res (Json F), (∀ j, x = .ok j → deepOf j = 1) → Sat (fun s d x => Cost (c :: u) (1 + s) (1 + d) x) (leaf (c :: u) x) := by
      intro x hx
      refine Sat.pay (sat_done ⟨by simp; omega, ?_⟩)
      intro j hj; rw [hx j hj]
    refine sat_ite (fun _ => lf _ (fun j => null_atom)) (fun _ => sat_ite (fun _ => lf _ (fun j => bool_atom)) (fun _ => sat_ite (fun _ => lf _ (fun j => num_atom)) (fun _ =>
      sat_ite (fun _ => lf _ (fun j => str_atom)) (fun _ => sat_ite (fun e => ?_) (fun _ => sat_ite (fun e => ?_) (fun _ => sat_done ⟨by simp; omega, by intro j h; cases h⟩))))))
    · unfold arrayRun
      refine sat_ite (fun _ => sat_done ⟨by simp; omega, ?_⟩) (fun _ => ?_)
      · intro j h; cases h; rw [deep_array]; rfl
      · refine (arrRun_cost add hr u.length u 0 0 [] [] (Nat.le_refl _)).mono ?_
        intro s d x h
        refine ⟨?_, ?_⟩
        · have h1 := h.1
          simp only [List.length_nil, Nat.zero_add, List.length_cons] at h1 ⊢
          have e : 2 * (1 + d) * (u.length + 1 + 1) = 2 * d * u.length + (2 * u.length + 4 * d + 4) := by
            simp only [Nat.mul_add, Nat.add_mul]; omega
          rw [e]; omega
        · intro j hj
          obtain ⟨l, rfl, h2⟩ := h.2 j hj
          rw [List.nil_append, deep_array, h2]
    · unfold objectRun
      refine sat_ite (fun _ => sat_done ⟨by simp; omega, ?_⟩) (fun _ => ?_)
      · intro j h; cases h; rw [deep_object]; rfl
      · refine (objRun_cost add hr u.length u 0 0 ([], []) true [] (Nat.le_refl _)).mono ?_
        intro s d x h
        refine ⟨?_, ?_⟩
        · have h1 := h.1
          simp only [half, List.length_nil, Nat.zero_add, if_true, List.length_cons] at h1 ⊢
          have e : 2 * (1 + d) * (u.length + 1 + 1) = 2 * d * u.length + (2 * u.length + 4 * d + 4) := by
            simp only [Nat.mul_add, Nat.add_mul]; omega
          rw [e]; omega
        · intro j hj
          obtain ⟨m, rfl, h2⟩ := h.2 j hj
          rw [deep_object, h2]
          show 1 + d = 1 + max 0 d
          omega

theorem fuelRun_cost (add : Arith) : ∀ n : Nat, Linear (fuelRun (F := F) add n)
  | 0 => fun _ => sat_done ⟨by simp, by intro j h; cases h⟩
  | n + 1 => fun u => bodyRun_cost add (fuelRun_cost add n) u

/-! ### Values with the same content are equally deep -/

theorem absMap_mem {m : Obj F} {k : Str} {a : Val F} (h : a ∈ absMap m k) : ∃ v l, (k, (v, l)) ∈ m ∧ (absJ v = a ∨ ∃ x ∈ l, absJ x = a) := by
  rw [absMap_eq] at h
  cases hg : mapGet k m with
  | none => rw [hg] at h; cases h
  | some p =>
    obtain ⟨v, l⟩ := p
    rw [hg] at h
    simp only [List.mem_append, List.mem_reverse, List.mem_singleton, absList_eq, List.mem_map] at h
    refine ⟨v, l, mapGet_mem hg, ?_⟩
    rcases h with h | h
    · exact Or.inr h
    · exact Or.inl h.symm

theorem inside_same {n : Nat} {v j : Json F} (h : Inside n v j) : WF j → ∀ j', WF j' → absJ j' = absJ j → ∃ v', Inside n v' j' := by
  induction h with
  | self j => intro _ j' _ _; exact ⟨j', .self j'⟩
  | element n v x l hx _ ih =>
    intro hw j' hw' ha
    obtain ⟨l', rfl, hl⟩ := abs_array ha
    have : absJ x ∈ l'.map absJ := hl ▸ List.mem_map.2 ⟨x, hx, rfl⟩
    obtain ⟨x', hx', e⟩ := List.mem_map.1 this
    obtain ⟨v', hv⟩ := ih ((wf_array_iff l).1 hw x hx) x' ((wf_array_iff l').1 hw' x' hx') e
    exact ⟨v', .element _ _ _ _ hx' hv⟩
  | member n v x m k l hm _ ih =>
    intro hw j' hw' ha
    obtain ⟨m', rfl, hl⟩ := abs_object ha
    have hx := (WFMap_iff m).1 hw.2 k x l hm
    have : absJ x ∈ absMap m' k := by rw [hl, absMap_of_mem hw.1 hm]; simp
    obtain ⟨v0, l0, h0, e⟩ := absMap_mem this
    have h0w := (WFMap_iff m').1 hw'.2 k v0 l0 h0
    rcases e with e | ⟨x', hx', e⟩
    · obtain ⟨v', hv⟩ := ih hx.1 v0 h0w.1 e
      exact ⟨v', .member _ _ _ _ _ _ h0 hv⟩
    · obtain ⟨v', hv⟩ := ih hx.1 x' (h0w.2 x' hx') e
      exact ⟨v', .older _ _ _ _ _ _ _ h0 hx' hv⟩
  | older n v x c m k l hm hxl _ ih =>
    intro hw j' hw' ha
    obtain ⟨m', rfl, hl⟩ := abs_object ha
    have hx := (WFMap_iff m).1 hw.2 k c l hm
    have : absJ x ∈ absMap m' k := by
      rw [hl, absMap_of_mem hw.1 hm]
      simp only [List.mem_append, List.mem_reverse, absList_eq, List.mem_map]
      exact Or.inl ⟨x, hxl, rfl⟩
    obtain ⟨v0, l0, h0, e⟩ := absMap_mem this
    have h0w := (WFMap_iff m').1 hw'.2 k v0 l0 h0
    rcases e with e | ⟨x', hx', e⟩
    · obtain ⟨v', hv⟩ := ih (hx.2 x hxl) v0 h0w.1 e
      exact ⟨v', .member _ _ _ _ _ _ h0 hv⟩
    · obtain ⟨v', hv⟩ := ih (hx.2 x hxl) x' (h0w.2 x' hx') e
      exact ⟨v', .older _ _ _ _ _ _ _ h0 hx' hv⟩

theorem deep_same {j j' : Json F} (hw : WF j) (hw' : WF j') (ha : absJ j' = absJ j) : deepOf j' = deepOf j := by
  have key : ∀ a b : Json F, WF a → WF b → absJ b = absJ a → deepOf a ≤ deepOf b := by
    intro a b ha hb hab
    obtain ⟨v, hv⟩ := deepest a
    obtain ⟨v', hv'⟩ := inside_same hv ha b hb hab
    have := inside_depth hv'
    have := deep_pos a
    unfold deepOf at *
    omega
  exact Nat.le_antisymm (key j' j hw' hw ha.symm) (key j j' hw hw' ha)

end
end RJ
