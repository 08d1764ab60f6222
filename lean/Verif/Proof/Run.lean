import Verif.Spec.Run
import Verif.Proof.Fuel
import Verif.Proof.Trim
/-
  The counted parser: same results, bounds on steps and depth.
-/
set_option linter.unusedSectionVars false
namespace RJ
open Spec

theorem checked_exact : Exact32 checked := by
  intro x hx; unfold checked; rw [if_pos hx]

theorem wrapping_exact : Exact32 wrapping := by
  intro x hx
  unfold wrapping InRange at *
  rw [Int.emod_eq_of_lt (by omega) (by omega)]
  congr 1; omega

/-! ### Results -/

/-- The run ends with this result. -/
def Ends {α : Type} (r : Run α) (x : Res α) : Prop := ∃ s d, r = some (s, d, x)

section
variable {α β : Type}

theorem ends_done (x : Res α) : Ends (done x) x := ⟨0, 0, rfl⟩

theorem Ends.pay {r : Run α} {x : Res α} (h : Ends r x) (n : Nat) : Ends (pay n r) x := by
  obtain ⟨s, d, rfl⟩ := h; exact ⟨_, _, rfl⟩

theorem Ends.deeper {r : Run α} {x : Res α} (h : Ends r x) : Ends (deeper r) x := by
  obtain ⟨s, d, rfl⟩ := h; exact ⟨_, _, rfl⟩

theorem Ends.andThen {r : Run α} {x : Res α} (h : Ends r x) {k : Res α → Run β} {y : Res β} (hk : Ends (k x) y) : Ends (andThen r k) y := by
  obtain ⟨s, d, rfl⟩ := h
  obtain ⟨s', d', hk⟩ := hk
  refine ⟨s + s', max d d', ?_⟩
  simp only [RJ.andThen, hk, Option.map_some]

theorem ends_int {o : Option Int} {i : Int} (h : o = some i) {k : Int → Run α} {x : Res α} (hk : Ends (k i) x) : Ends (withInt o k) x := by
  subst h; exact hk

end

/-! ### Bounds -/

/-- If the run ends, it takes at most `S` steps and is at most `D` deep. -/
def Within {α : Type} (S D : Nat) (r : Run α) : Prop := ∀ s d x, r = some (s, d, x) → s ≤ S ∧ d ≤ D

section
variable {α β : Type}

theorem within_done (x : Res α) (S D : Nat) : Within S D (done x) := by
  rintro s d y h; cases h; exact ⟨Nat.zero_le _, Nat.zero_le _⟩

theorem within_none (S D : Nat) : Within S D (none : Run α) := by rintro s d y h; cases h

theorem Within.mono {S D S' D' : Nat} {r : Run α} (h : Within S D r) (hS : S ≤ S') (hD : D ≤ D') : Within S' D' r := by
  intro s d x e
  obtain ⟨h1, h2⟩ := h s d x e
  exact ⟨Nat.le_trans h1 hS, Nat.le_trans h2 hD⟩

theorem Within.pay {S D : Nat} {r : Run α} (h : Within S D r) (n : Nat) : Within (n + S) D (pay n r) := by
  intro s d x e
  cases r with
  | none => cases e
  | some y =>
    obtain ⟨s', d', x'⟩ := y
    cases e
    have := h s' d' x' rfl
    exact ⟨by dsimp only; omega, this.2⟩

theorem Within.deeper {S D : Nat} {r : Run α} (h : Within S D r) : Within (1 + S) (1 + D) (deeper r) := by
  intro s d x e
  cases r with
  | none => cases e
  | some y =>
    obtain ⟨s', d', x'⟩ := y
    cases e
    have := h s' d' x' rfl
    exact ⟨by dsimp only; omega, by dsimp only; omega⟩

theorem Within.andThen {S S' D : Nat} {r : Run α} (h : Within S D r) {k : Res α → Run β} (hk : ∀ x, Within S' D (k x)) : Within (S + S') D (andThen r k) := by
  intro s d x e
  cases r with
  | none => cases e
  | some y =>
    obtain ⟨s', d', x'⟩ := y
    have h1 := h s' d' x' rfl
    unfold RJ.andThen at e
    dsimp only at e
    cases hkx : k x' with
    | none => rw [hkx] at e; cases e
    | some z =>
      obtain ⟨s2, d2, x2⟩ := z
      rw [hkx] at e
      cases e
      have h2 := hk x' s2 d2 x2 hkx
      exact ⟨by dsimp only; omega, by dsimp only; omega⟩

theorem within_int {S D : Nat} {o : Option Int} {k : Int → Run α} (hk : ∀ i, Within S D (k i)) : Within S D (withInt o k) := by
  cases o with
  | none => exact within_none S D
  | some i => exact hk i

theorem within_ite {S D : Nat} {c : Prop} [Decidable c] {a b : Run α} (h1 : c → Within S D a) (h2 : ¬ c → Within S D b) : Within S D (if c then a else b) := by
  by_cases h : c
  · rw [if_pos h]; exact h1 h
  · rw [if_neg h]; exact h2 h

theorem ends_ite {c : Prop} [Decidable c] {a b : Run α} {x y : Res α} (h1 : c → Ends a x) (h2 : ¬ c → Ends b y) : Ends (if c then a else b) (if c then x else y) := by
  by_cases h : c
  · rw [if_pos h, if_pos h]; exact h1 h
  · rw [if_neg h, if_neg h]; exact h2 h

end

section
variable {F : Type}

theorem arrRun_cons (add : Arith) (rec : Str → Run (Json F)) (c : Char) (iter : Str) (i j : Int) (inner : Str) (array : List (Json F)) :
    arrRun add rec (c :: iter) i j inner array = pay 1 (
    if c = ']' ∧ i = 0 ∧ j = 0 then andThen (rec inner) (arrEnd iter array)
    else if c = ',' ∧ i = 0 ∧ j = 0 then
      if inner = [] then done (fail .ParseArrayError "invalid empty element.")
      else if iter.head? = some ']' then done (fail .ParseArrayError "invalid trailing comma.")
      else andThen (rec inner) (fun x => match x with
        | .error e => done (.error e)
        | .ok v => arrRun add rec iter i j [] (array ++ [v]))
    else if c = '"' then withInt (add (quoteStep j)) (fun j => arrRun add rec iter i j (inner ++ ['"']) array)
    else if c = '[' then withInt (add (i + 1)) (fun i => arrRun add rec iter i j (inner ++ ['[']) array)
    else if c = ']' then withInt (add (i - 1)) (fun i => arrRun add rec iter i j (inner ++ [']']) array)
    else if c = '{' then withInt (add (i + 1)) (fun i => arrRun add rec iter i j (inner ++ ['{']) array)
    else if c = '}' then withInt (add (i - 1)) (fun i => arrRun add rec iter i j (inner ++ ['}']) array)
    else if c = '\\' then
      match iter with
      | [] => done (fail .ParseArrayError "missing escaped character.")
      | ch :: iter => arrRun add rec iter i j (inner ++ ['\\', ch]) array
    else if i = 0 ∧ j = 0 ∧ isWs c then arrRun add rec iter i j inner array
    else arrRun add rec iter i j (inner ++ [c]) array) := by
  rw [arrRun.eq_def]; rfl

theorem objRun_cons (add : Arith) (rec : Str → Run (Json F)) (c : Char) (iter : Str) (i j : Int) (kv : Str × Str) (onKey : Bool) (object : Obj F) :
    objRun add rec (c :: iter) i j kv onKey object = pay 1 (
    if c = '}' ∧ i = 0 ∧ j = 0 ∧ onKey = false then
      andThen (rec kv.1) (withKey (fun key => andThen (rec kv.2) (objEnd iter key object)))
    else if c = ',' ∧ i = 0 ∧ j = 0 ∧ onKey = false then
      if kv.1 = [] ∨ kv.2 = [] then done (fail .ParseObjectError "invalid empty member.")
      else if iter.head? = some '}' then done (fail .ParseObjectError "invalid trailing comma.")
      else andThen (rec kv.1) (withKey (fun key => andThen (rec kv.2) (fun x => match x with
        | .error e => done (.error e)
        | .ok v => objRun add rec iter i j ([], []) true (objectInsert key v object))))
    else if c = ':' ∧ i = 0 ∧ j = 0 then objRun add rec iter i j kv false object
    else if c = '"' then withInt (add (quoteStep j)) (fun j => objRun add rec iter i j (pushKV onKey kv.1 kv.2 ['"']) onKey object)
    else if c = '[' then withInt (add (i + 1)) (fun i => objRun add rec iter i j (pushKV onKey kv.1 kv.2 ['[']) onKey object)
    else if c = ']' then withInt (add (i - 1)) (fun i => objRun add rec iter i j (pushKV onKey kv.1 kv.2 [']']) onKey object)
    else if c = '{' then withInt (add (i + 1)) (fun i => objRun add rec iter i j (pushKV onKey kv.1 kv.2 ['{']) onKey object)
    else if c = '}' then withInt (add (i - 1)) (fun i => objRun add rec iter i j (pushKV onKey kv.1 kv.2 ['}']) onKey object)
    else if c = '\\' then
      match iter with
      | [] => done (fail .ParseObjectError "missing escaped character.")
      | ch :: iter => objRun add rec iter i j (pushKV onKey kv.1 kv.2 ['\\', ch]) onKey object
    else if i = 0 ∧ j = 0 ∧ isWs c then objRun add rec iter i j kv onKey object
    else objRun add rec iter i j (pushKV onKey kv.1 kv.2 [c]) onKey object) := by
  rw [objRun.eq_def]; rfl

/-- The counters stay in range while `iter` is read. -/
def Room (i j : Int) (iter : Str) : Prop := -2 ^ 31 ≤ i - iter.length ∧ i + iter.length < 2 ^ 31 ∧ (j = 0 ∨ j = 1)

theorem Room.up {i j : Int} {c : Char} {iter : Str} (h : Room i j (c :: iter)) : InRange (i + 1) ∧ Room (i + 1) j iter := by
  unfold Room InRange at *; simp only [List.length_cons] at h; omega
theorem Room.down {i j : Int} {c : Char} {iter : Str} (h : Room i j (c :: iter)) : InRange (i - 1) ∧ Room (i - 1) j iter := by
  unfold Room InRange at *; simp only [List.length_cons] at h; omega
theorem Room.same {i j : Int} {c : Char} {iter : Str} (h : Room i j (c :: iter)) : Room i j iter := by
  unfold Room at *; simp only [List.length_cons] at h; omega
theorem Room.quote {i j : Int} {c : Char} {iter : Str} (h : Room i j (c :: iter)) : InRange (quoteStep j) ∧ Room i (quoteStep j) iter := by
  unfold Room InRange quoteStep at *; simp only [List.length_cons] at h; split <;> omega

theorem arrRun_ends {add : Arith} (ha : Exact32 add) {rec : Str → Run (Json F)} {rec' : Str → Res (Json F)} {N : Nat} (hr : ∀ u : Str, u.length < N → Ends (rec u) (rec' u)) :
    ∀ (n : Nat) (iter : Str) (i j : Int) (inner : Str) (array : List (Json F)), iter.length ≤ n → iter.length + inner.length ≤ N → Room i j iter →
      Ends (arrRun add rec iter i j inner array) (arrLoop rec' iter i j inner array)
  | _, [], i, j, inner, array, _, _, _ => by
    rw [arrRun, arrLoop]; exact (ends_done _).pay 1
  | 0, _ :: _, _, _, _, _, h, _, _ => by simp at h
  | n + 1, c :: iter, i, j, inner, array, hn, hN, hroom => by
    have ih := arrRun_ends ha hr n
    have hn' : iter.length ≤ n := by simpa using hn
    simp only [List.length_cons] at hN
    rw [arrRun_cons, arrLoop_cons]
    refine Ends.pay ?_ 1
    refine ends_ite (fun _ => ?_) (fun _ => ends_ite (fun hc => ?_) (fun _ => ends_ite (fun _ => ?_) (fun _ => ends_ite (fun _ => ?_) (fun _ => ends_ite (fun _ => ?_)
      (fun _ => ends_ite (fun _ => ?_) (fun _ => ends_ite (fun _ => ?_) (fun _ => ends_ite (fun _ => ?_) (fun _ => ends_ite (fun _ => ?_) (fun _ => ?_)))))))))
    · refine (hr inner (by omega)).andThen ?_
      cases rec' inner with
      | error e => exact ends_done _
      | ok v => exact (ends_done _).pay _
    · refine ends_ite (fun _ => ends_done _) (fun _ => ends_ite (fun _ => ends_done _) (fun _ => ?_))
      refine (hr inner (by omega)).andThen ?_
      cases rec' inner with
      | error e => exact ends_done _
      | ok v => exact ih iter i j [] _ hn' (by simp; omega) hroom.same
    · exact ends_int (ha _ hroom.quote.1) (ih _ _ _ _ _ hn' (by simp; omega) hroom.quote.2)
    · exact ends_int (ha _ hroom.up.1) (ih _ _ _ _ _ hn' (by simp; omega) hroom.up.2)
    · exact ends_int (ha _ hroom.down.1) (ih _ _ _ _ _ hn' (by simp; omega) hroom.down.2)
    · exact ends_int (ha _ hroom.up.1) (ih _ _ _ _ _ hn' (by simp; omega) hroom.up.2)
    · exact ends_int (ha _ hroom.down.1) (ih _ _ _ _ _ hn' (by simp; omega) hroom.down.2)
    · cases iter with
      | nil => exact ends_done _
      | cons d iter =>
        simp only [List.length_cons] at hN hn'
        exact ih _ _ _ _ _ (by omega) (by simp; omega) hroom.same.same
    · exact ih _ _ _ _ _ hn' (by omega) hroom.same
    · exact ih _ _ _ _ _ hn' (by simp; omega) hroom.same

theorem objRun_ends {add : Arith} (ha : Exact32 add) {rec : Str → Run (Json F)} {rec' : Str → Res (Json F)} {N : Nat} (hr : ∀ u : Str, u.length < N → Ends (rec u) (rec' u)) :
    ∀ (n : Nat) (iter : Str) (i j : Int) (kv : Str × Str) (onKey : Bool) (object : Obj F), iter.length ≤ n → iter.length + (kv.1.length + kv.2.length) ≤ N → Room i j iter →
      Ends (objRun add rec iter i j kv onKey object) (objLoop rec' iter i j kv onKey object)
  | _, [], i, j, kv, onKey, object, _, _, _ => by
    rw [objRun, objLoop]; exact (ends_done _).pay 1
  | 0, _ :: _, _, _, _, _, _, h, _, _ => by simp at h
  | n + 1, c :: iter, i, j, kv, onKey, object, hn, hN, hroom => by
    have ih := objRun_ends ha hr n
    have hn' : iter.length ≤ n := by simpa using hn
    simp only [List.length_cons] at hN
    have hp := pushKV_length onKey kv.1 kv.2
    rw [objRun_cons, objLoop_cons]
    refine Ends.pay ?_ 1
    refine ends_ite (fun _ => ?_) (fun _ => ends_ite (fun hc => ?_) (fun _ => ends_ite (fun _ => ?_) (fun _ => ends_ite (fun _ => ?_) (fun _ => ends_ite (fun _ => ?_) (fun _ => ends_ite (fun _ => ?_)
      (fun _ => ends_ite (fun _ => ?_) (fun _ => ends_ite (fun _ => ?_) (fun _ => ends_ite (fun _ => ?_) (fun _ => ends_ite (fun _ => ?_) (fun _ => ?_))))))))))
    · refine (hr kv.1 (by omega)).andThen ?_
      match hk : rec' kv.1 with
      | .error e => exact ends_done _
      | .ok .null => exact ends_done _
      | .ok (.boolean _) => exact ends_done _
      | .ok (.number _) => exact ends_done _
      | .ok (.array _) => exact ends_done _
      | .ok (.object _) => exact ends_done _
      | .ok (.string key) =>
        refine (hr kv.2 (by omega)).andThen ?_
        dsimp only
        cases rec' kv.2 with
        | error e => exact ends_done _
        | ok v => exact (ends_done _).pay _
    · refine ends_ite (fun _ => ends_done _) (fun _ => ends_ite (fun _ => ends_done _) (fun _ => ?_))
      refine (hr kv.1 (by omega)).andThen ?_
      match hk : rec' kv.1 with
      | .error e => exact ends_done _
      | .ok .null => exact ends_done _
      | .ok (.boolean _) => exact ends_done _
      | .ok (.number _) => exact ends_done _
      | .ok (.array _) => exact ends_done _
      | .ok (.object _) => exact ends_done _
      | .ok (.string key) =>
        refine (hr kv.2 (by omega)).andThen ?_
        dsimp only
        cases rec' kv.2 with
        | error e => exact ends_done _
        | ok v => exact ih iter i j ([], []) true _ hn' (by simp; omega) hroom.same
    · exact ih _ _ _ _ _ _ hn' (by omega) hroom.same
    · exact ends_int (ha _ hroom.quote.1) (ih _ _ _ _ _ _ hn' (by rw [hp]; simp; omega) hroom.quote.2)
    · exact ends_int (ha _ hroom.up.1) (ih _ _ _ _ _ _ hn' (by rw [hp]; simp; omega) hroom.up.2)
    · exact ends_int (ha _ hroom.down.1) (ih _ _ _ _ _ _ hn' (by rw [hp]; simp; omega) hroom.down.2)
    · exact ends_int (ha _ hroom.up.1) (ih _ _ _ _ _ _ hn' (by rw [hp]; simp; omega) hroom.up.2)
    · exact ends_int (ha _ hroom.down.1) (ih _ _ _ _ _ _ hn' (by rw [hp]; simp; omega) hroom.down.2)
    · cases iter with
      | nil => exact ends_done _
      | cons d iter =>
        simp only [List.length_cons] at hN hn'
        exact ih _ _ _ _ _ _ (by omega) (by rw [hp]; simp; omega) hroom.same.same
    · exact ih _ _ _ _ _ _ hn' (by omega) hroom.same
    · exact ih _ _ _ _ _ _ hn' (by rw [hp]; simp; omega) hroom.same

/-! ### Bounds of the loops -/

theorem opens_append (a b : Str) : opens (a ++ b) = opens a + opens b := by simp [opens]
theorem opens_cons (c : Char) (s : Str) : opens (c :: s) = opens [c] + opens s := opens_append [c] s
theorem opens_open {c : Char} (h : c = '[' ∨ c = '{') : opens [c] = 1 := by simp [opens, h]

/-- The bound for a recursive call. -/
def Cheap (rec : Str → Run (Json F)) : Prop := ∀ u : Str, Within ((u.length + 1) ^ 2) (opens u + 1) (rec u)

theorem sq_add (a b c : Nat) : a ^ 2 + b ^ 2 ≤ (a + b + c) ^ 2 := by
  have h : (a + b + c) ^ 2 = a ^ 2 + b ^ 2 + (2 * a * b + c * (2 * a + 2 * b + c)) := by
    simp only [Nat.pow_two, Nat.mul_add, Nat.add_mul, Nat.mul_comm, Nat.mul_left_comm, Nat.mul_assoc, Nat.mul_two, Nat.two_mul]; omega
  omega

theorem sq_mono {a b : Nat} (h : a ≤ b) : a ^ 2 ≤ b ^ 2 := Nat.pow_le_pow_left h 2

theorem arrRun_within (add : Arith) {rec : Str → Run (Json F)} (hr : Cheap rec) :
    ∀ (n : Nat) (iter : Str) (i j : Int) (inner : Str) (array : List (Json F)), iter.length ≤ n →
      Within (iter.length + 1 + (inner.length + iter.length) ^ 2) (opens inner + opens iter + 1) (arrRun add rec iter i j inner array)
  | _, [], i, j, inner, array, _ => by
    rw [arrRun]; exact ((within_done _ 0 _).pay 1).mono (by simp) (Nat.le_refl _)
  | 0, _ :: _, _, _, _, _, h => by simp at h
  | n + 1, c :: iter, i, j, inner, array, hn => by
    have ih := arrRun_within add hr n
    have hn' : iter.length ≤ n := by simpa using hn
    have ho := opens_cons c iter
    rw [arrRun_cons]
    -- a character is kept
    have push : ∀ (i j : Int), Within (iter.length + 1 + (inner.length + (iter.length + 1)) ^ 2) (opens inner + opens (c :: iter) + 1)
        (arrRun add rec iter i j (inner ++ [c]) array) := by
      intro i j
      refine (ih iter i j (inner ++ [c]) array hn').mono ?_ ?_
      · have : (inner ++ [c]).length + iter.length = inner.length + (iter.length + 1) := by simp; omega
        rw [this]; exact Nat.le_refl _
      · rw [opens_append]; omega
    refine ((?_ : Within (iter.length + 1 + (inner.length + (iter.length + 1)) ^ 2) (opens inner + opens (c :: iter) + 1) _).pay 1).mono
      (by simp only [List.length_cons]; omega) (Nat.le_refl _)
    refine within_ite (fun _ => ?_) (fun _ => within_ite (fun _ => ?_) (fun _ => within_ite (fun e => ?_) (fun _ => within_ite (fun e => ?_) (fun _ => within_ite (fun e => ?_)
      (fun _ => within_ite (fun e => ?_) (fun _ => within_ite (fun e => ?_) (fun _ => within_ite (fun e => ?_) (fun _ => within_ite (fun _ => ?_) (fun _ => push i j)))))))))
    · refine (((hr inner).mono (Nat.le_refl _) (by omega)).andThen (S' := iter.length) ?_).mono ?_ (Nat.le_refl _)
      · rintro (e | v)
        · exact within_done _ _ _
        · exact (within_done _ 0 _).pay _
      · have := sq_mono (a := inner.length + 1) (b := inner.length + (iter.length + 1)) (by omega)
        omega
    · refine within_ite (fun _ => within_done _ _ _) (fun _ => within_ite (fun _ => within_done _ _ _) (fun _ => ?_))
      refine (((hr inner).mono (Nat.le_refl _) (by omega)).andThen (S' := iter.length + 1 + iter.length ^ 2) ?_).mono ?_ (Nat.le_refl _)
      · rintro (e | v)
        · exact within_done _ _ _
        · exact (ih iter i j [] (array ++ [v]) hn').mono (by simp) (by simp only [opens, List.filter_nil, List.length_nil] at *; omega)
      · have := sq_add (inner.length + 1) iter.length 0
        have e : inner.length + 1 + iter.length + 0 = inner.length + (iter.length + 1) := by omega
        rw [e] at this
        omega
    · subst e; exact within_int (fun j => push i j)
    · subst e; exact within_int (fun i => push i j)
    · subst e; exact within_int (fun i => push i j)
    · subst e; exact within_int (fun i => push i j)
    · subst e; exact within_int (fun i => push i j)
    · cases iter with
      | nil => exact within_done _ _ _
      | cons d iter =>
        subst e
        simp only [List.length_cons] at hn' ⊢
        refine (ih iter i j (inner ++ ['\\', d]) array (by omega)).mono ?_ ?_
        · have := sq_mono (a := (inner ++ ['\\', d]).length + iter.length) (b := inner.length + (iter.length + 1 + 1)) (by simp; omega)
          omega
        · have h1 : opens (inner ++ ['\\', d]) = opens inner + (opens ['\\'] + opens [d]) := by rw [opens_append, opens_cons]
          have h2 := opens_cons d iter
          omega
    · refine (ih iter i j inner array hn').mono ?_ (by omega)
      have := sq_mono (a := inner.length + iter.length) (b := inner.length + (iter.length + 1)) (by omega)
      omega

/-- The weight of the two halves of a member. -/
def half (onKey : Bool) (kv : Str × Str) : Nat := kv.1.length + kv.2.length + (if onKey then 0 else 1)

theorem opens_push (onKey : Bool) (k v t : Str) : opens (pushKV onKey k v t).1 + opens (pushKV onKey k v t).2 = opens k + opens v + opens t := by
  cases onKey <;> simp only [pushKV, opens_append, if_true, Bool.false_eq_true, if_false] <;> omega

theorem half_push (onKey : Bool) (kv : Str × Str) (t : Str) : half onKey (pushKV onKey kv.1 kv.2 t) = half onKey kv + t.length := by
  have := pushKV_length onKey kv.1 kv.2 t
  unfold half; omega

theorem within_key {S D : Nat} {k : Str → Run (Json F)} (h : ∀ key, Within S D (k key)) (x : Res (Json F)) : Within S D (withKey k x) := by
  match x with
  | .error e => exact within_done _ _ _
  | .ok .null => exact within_done _ _ _
  | .ok (.boolean _) => exact within_done _ _ _
  | .ok (.number _) => exact within_done _ _ _
  | .ok (.array _) => exact within_done _ _ _
  | .ok (.object _) => exact within_done _ _ _
  | .ok (.string key) => exact h key

theorem objRun_within (add : Arith) {rec : Str → Run (Json F)} (hr : Cheap rec) :
    ∀ (n : Nat) (iter : Str) (i j : Int) (kv : Str × Str) (onKey : Bool) (object : Obj F), iter.length ≤ n →
      Within (iter.length + 1 + (half onKey kv + iter.length) ^ 2) (opens kv.1 + opens kv.2 + opens iter + 1) (objRun add rec iter i j kv onKey object)
  | _, [], i, j, kv, onKey, object, _ => by
    rw [objRun]; exact ((within_done _ 0 _).pay 1).mono (by simp) (Nat.le_refl _)
  | 0, _ :: _, _, _, _, _, _, h => by simp at h
  | n + 1, c :: iter, i, j, kv, onKey, object, hn => by
    have ih := objRun_within add hr n
    have hn' : iter.length ≤ n := by simpa using hn
    have ho := opens_cons c iter
    rw [objRun_cons]
    have push : ∀ (i j : Int), Within (iter.length + 1 + (half onKey kv + (iter.length + 1)) ^ 2) (opens kv.1 + opens kv.2 + opens (c :: iter) + 1)
        (objRun add rec iter i j (pushKV onKey kv.1 kv.2 [c]) onKey object) := by
      intro i j
      refine (ih iter i j (pushKV onKey kv.1 kv.2 [c]) onKey object hn').mono ?_ ?_
      · rw [half_push]
        have : half onKey kv + [c].length + iter.length = half onKey kv + (iter.length + 1) := by simp; omega
        rw [this]; exact Nat.le_refl _
      · rw [opens_push]; omega
    refine ((?_ : Within (iter.length + 1 + (half onKey kv + (iter.length + 1)) ^ 2) (opens kv.1 + opens kv.2 + opens (c :: iter) + 1) _).pay 1).mono
      (by simp only [List.length_cons]; omega) (Nat.le_refl _)
    refine within_ite (fun hc => ?_) (fun _ => within_ite (fun hc => ?_) (fun _ => within_ite (fun hc => ?_) (fun _ => within_ite (fun e => ?_) (fun _ => within_ite (fun e => ?_) (fun _ => within_ite (fun e => ?_)
        (fun _ => within_ite (fun e => ?_) (fun _ => within_ite (fun e => ?_) (fun _ => within_ite (fun e => ?_) (fun _ => within_ite (fun _ => ?_) (fun _ => push i j))))))))))
    · have hk : onKey = false := hc.2.2.2
      subst hk
      refine (((hr kv.1).mono (Nat.le_refl _) (by omega)).andThen (S' := (kv.2.length + 1) ^ 2 + iter.length) (within_key ?_)).mono ?_ (Nat.le_refl _)
      · intro key
        refine ((hr kv.2).mono (Nat.le_refl _) (by omega)).andThen (S' := iter.length) ?_
        rintro (e | v)
        · exact within_done _ _ _
        · exact (within_done _ 0 _).pay _
      · have := sq_add (kv.1.length + 1) (kv.2.length + 1) iter.length
        have e : kv.1.length + 1 + (kv.2.length + 1) + iter.length = half false kv + (iter.length + 1) := by simp [half]; omega
        rw [e] at this
        omega
    · refine within_ite (fun _ => within_done _ _ _) (fun _ => within_ite (fun _ => within_done _ _ _) (fun _ => ?_))
      have hk : onKey = false := hc.2.2.2
      subst hk
      refine (((hr kv.1).mono (Nat.le_refl _) (by omega)).andThen (S' := (kv.2.length + 1) ^ 2 + (iter.length + 1 + iter.length ^ 2)) (within_key ?_)).mono ?_ (Nat.le_refl _)
      · intro key
        refine ((hr kv.2).mono (Nat.le_refl _) (by omega)).andThen (S' := iter.length + 1 + iter.length ^ 2) ?_
        rintro (e | v)
        · exact within_done _ _ _
        · exact (ih iter i j ([], []) true _ hn').mono (by simp [half]) (by simp only [opens, List.filter_nil, List.length_nil] at *; omega)
      · have h1 := sq_add (kv.1.length + 1) (kv.2.length + 1) 0
        have h2 := sq_add (kv.1.length + 1 + (kv.2.length + 1) + 0) iter.length 0
        have e : kv.1.length + 1 + (kv.2.length + 1) + 0 + iter.length + 0 = half false kv + (iter.length + 1) := by simp [half]; omega
        rw [e] at h2
        omega
    · refine (ih iter i j kv false object hn').mono ?_ (by omega)
      have := sq_mono (a := half false kv + iter.length) (b := half onKey kv + (iter.length + 1)) (by cases onKey <;> simp [half] <;> omega)
      omega
    · subst e; exact within_int (fun j => push i j)
    · subst e; exact within_int (fun i => push i j)
    · subst e; exact within_int (fun i => push i j)
    · subst e; exact within_int (fun i => push i j)
    · subst e; exact within_int (fun i => push i j)
    · cases iter with
      | nil => exact within_done _ _ _
      | cons d iter =>
        subst e
        simp only [List.length_cons] at hn' ⊢
        refine (ih iter i j (pushKV onKey kv.1 kv.2 ['\\', d]) onKey object (by omega)).mono ?_ ?_
        · rw [half_push]
          have := sq_mono (a := half onKey kv + ['\\', d].length + iter.length) (b := half onKey kv + (iter.length + 1 + 1)) (by simp; omega)
          omega
        · rw [opens_push]
          have h1 : opens ['\\', d] = opens ['\\'] + opens [d] := opens_cons _ _
          have h2 := opens_cons d iter
          omega
    · refine (ih iter i j kv onKey object hn').mono ?_ (by omega)
      have := sq_mono (a := half onKey kv + iter.length) (b := half onKey kv + (iter.length + 1)) (by omega)
      omega

end

/-! ### `_parse` as a whole -/

section
variable {F : Type} [FloatOps F]

theorem bodyRun_ends {add : Arith} (ha : Exact32 add) {rec : Str → Run (Json F)} {rec' : Str → Res (Json F)} (u : Str) (hu : u.length < 2 ^ 31)
    (hr : ∀ v : Str, v.length < u.length → Ends (rec v) (rec' v)) : Ends (bodyRun add rec u) (parseBody rec' u) := by
  unfold bodyRun parseBody
  refine Ends.deeper ?_
  cases u with
  | nil => exact ends_done _
  | cons c u =>
    simp only [List.head?_cons]
    simp only [List.length_cons] at hu hr
    have room : Room 0 0 u := by unfold Room; omega
    refine ends_ite (fun _ => (ends_done _).pay _) (fun _ => ends_ite (fun _ => (ends_done _).pay _) (fun _ => ends_ite (fun _ => (ends_done _).pay _) (fun _ =>
      ends_ite (fun _ => (ends_done _).pay _) (fun _ => ends_ite (fun _ => ?_) (fun _ => ends_ite (fun _ => ?_) (fun _ => ends_done _))))))
    · unfold arrayRun parseArray
      refine ends_ite (fun _ => ends_done _) (fun _ => ?_)
      exact arrRun_ends ha (N := u.length) (fun v hv => hr v (by omega)) u.length u 0 0 [] [] (Nat.le_refl _) (by simp) room
    · unfold objectRun parseObject
      refine ends_ite (fun _ => ends_done _) (fun _ => ?_)
      exact objRun_ends ha (N := u.length) (fun v hv => hr v (by omega)) u.length u 0 0 ([], []) true [] (Nat.le_refl _) (by simp) room

theorem fuelRun_ends {add : Arith} (ha : Exact32 add) : ∀ (n : Nat) (u : Str), u.length < 2 ^ 31 →
    Ends (fuelRun (F := F) add n u) (parseFuel (fail .InvalidJson "unreachable") n u)
  | 0, _, _ => ends_done _
  | n + 1, u, hu => bodyRun_ends ha u hu (fun v hv => fuelRun_ends ha n v (by omega))

theorem bodyRun_within (add : Arith) {rec : Str → Run (Json F)} (hr : Cheap rec) (u : Str) : Within ((u.length + 1) ^ 2) (opens u + 1) (bodyRun add rec u) := by
  unfold bodyRun
  cases u with
  | nil => exact ((within_done _ 0 0).deeper).mono (by simp) (by simp)
  | cons c u =>
    simp only [List.head?_cons, List.length_cons]
    have ho := opens_cons c u
    have hsq : (u.length + 1 + 1) ^ 2 = (u.length) ^ 2 + 4 * u.length + 4 := by
      simp only [Nat.pow_two, Nat.mul_add, Nat.add_mul, Nat.mul_comm]; omega
    have lf : ∀ x : Res (Json F), Within (u.length + 2) 0 (leaf (c :: u) x) := by
      intro x
      exact ((within_done x 0 0).pay _).mono (by simp) (Nat.le_refl _)
    refine ((?_ : Within (u.length + 2 + u.length ^ 2) (opens (c :: u)) _).deeper).mono (by omega) (by omega)
    refine within_ite (fun _ => (lf _).mono (by omega) (by omega)) (fun _ => within_ite (fun _ => (lf _).mono (by omega) (by omega)) (fun _ =>
      within_ite (fun _ => (lf _).mono (by omega) (by omega)) (fun _ => within_ite (fun _ => (lf _).mono (by omega) (by omega)) (fun _ =>
      within_ite (fun e => ?_) (fun _ => within_ite (fun e => ?_) (fun _ => within_done _ _ _))))))
    · have h1 := opens_open (c := c) (Or.inl e)
      unfold arrayRun
      refine within_ite (fun _ => within_done _ _ _) (fun _ => ?_)
      refine (arrRun_within add hr u.length u 0 0 [] [] (Nat.le_refl _)).mono ?_ ?_
      · simp only [List.length_nil, Nat.zero_add]; omega
      · have : opens [] = 0 := rfl
        omega
    · have h1 := opens_open (c := c) (Or.inr e)
      unfold objectRun
      refine within_ite (fun _ => within_done _ _ _) (fun _ => ?_)
      refine (objRun_within add hr u.length u 0 0 ([], []) true [] (Nat.le_refl _)).mono ?_ ?_
      · simp only [half, List.length_nil, Nat.zero_add, if_true]; omega
      · have : opens [] = 0 := rfl
        dsimp only
        omega

theorem fuelRun_within (add : Arith) : ∀ n : Nat, Cheap (fuelRun (F := F) add n)
  | 0 => fun _ => within_done _ _ _
  | n + 1 => fun u => bodyRun_within add (fuelRun_within add n) u

/-! ### Nested arrays -/

theorem pay_pay {α : Type} (a b : Nat) (r : Run α) : pay a (pay b r) = pay (a + b) r := by
  cases r with
  | none => rfl
  | some x => simp [pay, Nat.add_assoc]

theorem pay_zero {α : Type} (r : Run α) : pay 0 r = r := by
  cases r with
  | none => rfl
  | some x => simp [pay]

theorem arrRun_open (add : Arith) (rec : Str → Run (Json F)) (rest : Str) (i : Int) (inner : Str) (array : List (Json F)) :
    arrRun add rec ('[' :: rest) i 0 inner array = pay 1 (withInt (add (i + 1)) (fun i => arrRun add rec rest i 0 (inner ++ ['[']) array)) := by
  rw [arrRun_cons, if_neg (by simp), if_neg (by simp), if_neg (by decide), if_pos rfl]

theorem arrRun_opens {add : Arith} (ha : Exact32 add) (rec : Str → Run (Json F)) (rest : Str) (array : List (Json F)) : ∀ (m : Nat) (i : Int) (inner : Str), 0 ≤ i → i + m < 2 ^ 31 →
    arrRun add rec (List.replicate m '[' ++ rest) i 0 inner array = pay m (arrRun add rec rest (i + m) 0 (inner ++ List.replicate m '[') array)
  | 0, i, inner, _, _ => by simp [pay_zero]
  | m + 1, i, inner, h0, h => by
    rw [List.replicate_succ, List.cons_append, arrRun_open, ha (i + 1) (by unfold InRange; omega)]
    dsimp only [withInt]
    rw [arrRun_opens ha rec rest array m (i + 1) _ (by omega) (by omega), pay_pay]
    have e1 : i + 1 + (m : Int) = i + ((m + 1 : Nat) : Int) := by omega
    rw [e1, Nat.add_comm 1 m]
    simp

theorem arrRun_overflow (rec : Str → Run (Json F)) (array : List (Json F)) : ∀ (m : Nat) (i : Int) (inner : Str), 0 ≤ i → i < 2 ^ 31 → 2 ^ 31 ≤ i + m →
    arrRun checked rec (List.replicate m '[') i 0 inner array = none
  | 0, i, inner, _, h1, h => by omega
  | m + 1, i, inner, h0, h1, h => by
    rw [List.replicate_succ, arrRun_open]
    by_cases hi : InRange (i + 1)
    · rw [checked_exact _ hi]
      dsimp only [withInt]
      rw [arrRun_overflow rec array m (i + 1) _ (by omega) hi.2 (by omega)]
      rfl
    · have : checked (i + 1) = none := by unfold checked; rw [if_neg hi]
      rw [this]; rfl

theorem arrRun_plain (add : Arith) (rec : Str → Run (Json F)) (c : Char) (h : c = 'n' ∨ c = 'u' ∨ c = 'l') (rest : Str) (i : Int) (inner : Str) (array : List (Json F)) :
    arrRun add rec (c :: rest) i 0 inner array = pay 1 (arrRun add rec rest i 0 (inner ++ [c]) array) := by
  rw [arrRun_cons]
  rcases h with rfl | rfl | rfl <;>
  rw [if_neg (by simp), if_neg (by simp), if_neg (by decide), if_neg (by decide), if_neg (by decide), if_neg (by decide), if_neg (by decide), if_neg (by decide), if_neg (by rintro ⟨-, -, h⟩; revert h; decide)]

theorem arrRun_null (add : Arith) (rec : Str → Run (Json F)) (rest : Str) (i : Int) (inner : Str) (array : List (Json F)) :
    arrRun add rec ("null".toList ++ rest) i 0 inner array = pay 4 (arrRun add rec rest i 0 (inner ++ "null".toList) array) := by
  have e : "null".toList = ['n', 'u', 'l', 'l'] := by decide +kernel
  rw [e]
  simp only [List.cons_append, List.nil_append]
  rw [arrRun_plain _ _ _ (by simp), arrRun_plain _ _ _ (by simp), arrRun_plain _ _ _ (by simp), arrRun_plain _ _ _ (by simp)]
  simp only [pay_pay, List.append_assoc, List.cons_append, List.nil_append]

theorem arrRun_closes {add : Arith} (ha : Exact32 add) (rec : Str → Run (Json F)) (rest : Str) (array : List (Json F)) : ∀ (m : Nat) (inner : Str), m < 2 ^ 31 →
    arrRun add rec (List.replicate m ']' ++ rest) m 0 inner array = pay m (arrRun add rec rest 0 0 (inner ++ List.replicate m ']') array)
  | 0, inner, _ => by simp [pay_zero]
  | m + 1, inner, h => by
    have e1 : ((m + 1 : Nat) : Int) - 1 = m := by omega
    rw [List.replicate_succ, List.cons_append, arrRun_cons, if_neg (by rintro ⟨-, h, -⟩; omega), if_neg (by rintro ⟨-, h, -⟩; omega), if_neg (by decide), if_neg (by decide), if_pos rfl,
      e1, ha m (by unfold InRange; omega)]
    dsimp only [withInt]
    rw [arrRun_closes ha rec rest array m _ (by omega), pay_pay, Nat.add_comm 1 m]
    simp

theorem arrRun_close (add : Arith) (rec : Str → Run (Json F)) (rest : Str) (inner : Str) (array : List (Json F)) :
    arrRun add rec (']' :: rest) 0 0 inner array = pay 1 (andThen (rec inner) (arrEnd rest array)) := by
  rw [arrRun_cons, if_pos ⟨rfl, rfl, rfl⟩]

theorem nest_succ (k : Nat) : nest (k + 1) = '[' :: (nest k ++ [']']) := by
  unfold nest
  rw [List.replicate_succ, List.replicate_succ']
  simp

theorem nested_run {add : Arith} (ha : Exact32 add) : ∀ (n k : Nat), k < n → k < 2 ^ 31 →
    fuelRun (F := F) add n (nest k) = some (k * k + 5 * k + 6, k + 1, .ok (nestVal k))
  | 0, _, h, _ => absurd h (Nat.not_lt_zero _)
  | n + 1, 0, _, _ => by
    have e : nest 0 = "null".toList := by simp [nest]
    rw [e]
    show bodyRun add _ "null".toList = _
    have h1 : ("null".toList).head? = some 'n' := by decide +kernel
    have h2 : ("null".toList).length = 4 := by decide +kernel
    unfold bodyRun
    rw [h1]
    dsimp only
    rw [if_pos rfl]
    unfold leaf parseNull
    rw [if_pos rfl, h2]
    rfl
  | n + 1, k + 1, hn, hk => by
    have ih := nested_run ha n k (by omega) (by omega)
    show bodyRun add (fuelRun add n) (nest (k + 1)) = _
    rw [nest_succ]
    unfold bodyRun
    simp only [List.head?_cons]
    rw [if_neg (by decide), if_neg (by decide), if_neg (by decide), if_neg (by decide), if_pos trivial]
    unfold arrayRun
    simp only [List.drop_one, List.tail_cons]
    have hh : (nest k ++ [']']).head? ≠ some ']' := by
      have hn0 : ("null".toList).head? = some 'n' := by decide +kernel
      cases k with
      | zero =>
        have e : nest 0 = "null".toList := by simp [nest]
        rw [e, List.head?_append, hn0]; decide
      | succ k => rw [nest_succ]; simp
    rw [if_neg hh]
    have run : arrRun add (fuelRun (F := F) add n) (nest k ++ [']']) 0 0 [] [] = pay (k + (4 + (k + 1))) (andThen (fuelRun add n (nest k)) (arrEnd [] [])) := by
      have e : nest k ++ [']'] = List.replicate k '[' ++ ("null".toList ++ (List.replicate k ']' ++ [']'])) := by simp [nest]
      rw [e, arrRun_opens ha _ _ _ k 0 [] (by omega) (by omega), arrRun_null, Int.zero_add, arrRun_closes ha _ _ _ k _ (by omega), arrRun_close]
      simp only [pay_pay, List.nil_append]
      rfl
    rw [run, ih]
    simp only [andThen, arrEnd, skipTrail, done, pay, deeper, Option.map_some, List.nil_append, List.length_nil]
    congr 2
    · simp only [Nat.add_mul, Nat.mul_add]; omega
    · congr 1; omega

theorem nest_trim (k : Nat) : trimWs (nest k) = nest k := by
  cases k with
  | zero => decide +kernel
  | succ k =>
    rw [nest_succ]
    exact trimWs_self '[' _ (by unfold IsWs; decide) ('[' :: nest k) ']' (by unfold IsWs; decide) (by simp)

theorem nest_length (k : Nat) : (nest k).length = 2 * k + 4 := by
  have h2 : ("null".toList).length = 4 := by decide +kernel
  unfold nest
  simp only [List.length_append, List.length_replicate, h2]
  omega

theorem nest_opens (k : Nat) : opens (nest k) = k := by
  have h : opens ("null".toList) = 0 := by decide +kernel
  unfold nest
  rw [opens_append, opens_append, h]
  simp [opens]

end
end RJ
