import Verif.Proof.History
import Verif.Spec.Laws
/-
  Algebra of `setV` and `delV`.
-/
set_option linter.unusedSectionVars false
namespace RJ
open Spec
variable {F : Type}

/-- The value at a component, `null` if there is none. -/
def child (f : Finder) (d : Val F) : Val F := (look [f] d).getD .null

/-- Component `f` gets the value `y`; older values of a key stay. -/
def grow : Finder → Val F → Val F → Val F
  | .key k, y, .obj m => .obj (upd m k ((m k).dropLast ++ [y]))
  | .key k, y, _ => .obj (upd (fun _ => []) k [y])
  | .index i, y, .arr l => .arr (setElem l i y)
  | .index i, y, _ => .arr (setElem [] i y)

/-- The same; older values of a key go. -/
def over : Finder → Val F → Val F → Val F
  | .key k, y, .obj m => .obj (upd m k [y])
  | f, y, d => grow f y d

theorem setV_one (f : Finder) (v d : Val F) : setV [f] v d = over f v d := by
  cases f <;> cases d <;> rfl

theorem setV_more (f : Finder) (r : List Finder) (hr : r ≠ []) (v d : Val F) : setV (f :: r) v d = grow f (setV r v (child f d)) d := by
  obtain ⟨g, r, rfl⟩ : ∃ g r', r = g :: r' := by cases r with | nil => exact absurd rfl hr | cons g r => exact ⟨g, r, rfl⟩
  cases f with
  | key k =>
    cases d with
    | obj m =>
      have : child (.key k) (.obj m) = ((m k).getLast?).getD .null := by
        unfold child; simp only [look]; cases (m k).getLast? <;> rfl
      rw [this]; rfl
    | _ => rfl
  | index i =>
    cases d with
    | arr l =>
      have : child (.index i) (.arr l) = (l[i]?).getD .null := by
        unfold child; simp only [look]; cases l[i]? <;> rfl
      rw [this]; rfl
    | _ => rfl

/-! ### Elements -/

theorem setElem_get (l : List (Val F)) (i n : Nat) (x : Val F) :
    (setElem l i x)[n]? = if n = i then some x else if n < l.length then l[n]? else if n < i then some .null else none := by
  unfold setElem
  by_cases h1 : n = i
  · subst h1
    rw [if_pos rfl, List.append_assoc, List.getElem?_append_right (by simp; omega)]
    simp [show n - (min n l.length + (n - l.length)) = 0 by omega]
  · rw [if_neg h1]
    by_cases h2 : n < l.length
    · rw [if_pos h2]
      by_cases h3 : n < i
      · rw [List.append_assoc, List.append_assoc, List.getElem?_append_left (by simp; omega), List.getElem?_take, if_pos h3]
      · rw [List.getElem?_append_right (by simp; omega)]
        simp only [List.length_append, List.length_take, List.length_replicate, List.length_singleton, List.getElem?_drop]
        congr 1; omega
    · rw [if_neg h2]
      by_cases h3 : n < i
      · rw [if_pos h3, List.append_assoc, List.getElem?_append_left (by simp; omega), List.getElem?_append_right (by simp; omega), List.getElem?_replicate, if_pos (by simp; omega)]
      · rw [if_neg h3, List.getElem?_eq_none (by simp; omega)]

theorem setElem_length (l : List (Val F)) (i : Nat) (x : Val F) : (setElem l i x).length = max l.length (i + 1) := by
  unfold setElem; simp; omega

theorem setElem_twice (l : List (Val F)) (i : Nat) (x y : Val F) : setElem (setElem l i x) i y = setElem l i y := by
  apply List.ext_getElem?
  intro n
  rw [setElem_get, setElem_get, setElem_get, setElem_length]
  by_cases h1 : n = i
  · rw [if_pos h1, if_pos h1]
  · simp only [if_neg h1]
    by_cases h2 : n < l.length
    · rw [if_pos (by omega), if_pos h2]
    · by_cases h3 : n < i
      · rw [if_pos (by omega)]
      · rw [if_neg (by omega), if_neg h2]

theorem setElem_comm (l : List (Val F)) (i i' : Nat) (x y : Val F) (h : i ≠ i') : setElem (setElem l i x) i' y = setElem (setElem l i' y) i x := by
  apply List.ext_getElem?
  intro n
  simp only [setElem_get, setElem_length]
  by_cases h1 : n = i
  · have : n ≠ i' := by omega
    simp only [if_pos h1, if_neg this]
    rw [if_pos (by omega)]
  · by_cases h2 : n = i'
    · simp only [if_neg h1, if_pos h2]
      rw [if_pos (by omega)]
    · simp only [if_neg h1, if_neg h2]
      by_cases h3 : n < l.length
      · simp only [if_pos h3, if_pos (show n < max l.length (i + 1) by omega), if_pos (show n < max l.length (i' + 1) by omega)]
      · simp only [if_neg h3]
        by_cases h4 : n < i
        · simp only [if_pos h4, if_pos (show n < max l.length (i + 1) by omega)]
          by_cases h5 : n < i'
          · simp only [if_pos h5, ite_self]
          · simp only [if_neg h5, if_neg (show ¬ n < max l.length (i' + 1) by omega)]
        · simp only [if_neg h4, if_neg (show ¬ n < max l.length (i + 1) by omega)]
          by_cases h5 : n < i'
          · simp only [if_pos h5, if_pos (show n < max l.length (i' + 1) by omega)]
          · simp only [if_neg h5, if_neg (show ¬ n < max l.length (i' + 1) by omega)]

theorem setElem_same (l : List (Val F)) (i : Nat) (x : Val F) (h : l[i]? = some x) : setElem l i x = l := by
  apply List.ext_getElem?
  intro n
  rw [setElem_get]
  have hi := idx_lt h
  by_cases h1 : n = i
  · rw [if_pos h1, h1, h]
  · rw [if_neg h1]
    by_cases h2 : n < l.length
    · rw [if_pos h2]
    · rw [if_neg h2, if_neg (by omega), List.getElem?_eq_none (by omega)]

/-! ### Histories of keys -/

theorem upd_upd {β : Type} (m : Str → β) (k : Str) (a b : β) : upd (upd m k a) k b = upd m k b := by
  funext q; simp only [upd]; by_cases h : q = k <;> simp [h]

theorem upd_comm {β : Type} (m : Str → β) (k k' : Str) (a b : β) (h : k ≠ k') : upd (upd m k a) k' b = upd (upd m k' b) k a := by
  funext q
  simp only [upd]
  by_cases h1 : q = k
  · subst h1; simp [h]
  · by_cases h2 : q = k'
    · subst h2; simp [h1]
    · simp [h1, h2]

theorem upd_self {β : Type} (m : Str → β) (k : Str) (a : β) (h : m k = a) : upd m k a = m := by
  funext q; simp only [upd]; by_cases h1 : q = k
  · subst h1; simp [h]
  · simp [h1]

theorem upd_at {β : Type} (m : Str → β) (k : Str) (a : β) : upd m k a k = a := by simp [upd]
theorem upd_off {β : Type} (m : Str → β) (k q : Str) (a : β) (h : q ≠ k) : upd m k a q = m q := by simp [upd, h]

/-! ### One component -/

theorem look_grow (f : Finder) (y d : Val F) : look [f] (grow f y d) = some y := by
  cases f with
  | key k => cases d <;> simp [grow, look, upd_at]
  | index i => cases d <;> simp only [grow, look, setElem_get, if_true]

theorem look_over (f : Finder) (y d : Val F) : look [f] (over f y d) = some y := by
  cases f with
  | key k => cases d <;> simp [over, grow, look, upd_at]
  | index i => exact look_grow (.index i) y d

theorem child_grow (f : Finder) (y d : Val F) : child f (grow f y d) = y := by rw [child, look_grow]; rfl
theorem child_over (f : Finder) (y d : Val F) : child f (over f y d) = y := by rw [child, look_over]; rfl

theorem grow_grow (f : Finder) (x y d : Val F) : grow f x (grow f y d) = grow f x d := by
  cases f with
  | key k => cases d <;> simp [grow, upd_at, upd_upd]
  | index i => cases d <;> simp only [grow, setElem_twice]

theorem grow_over (f : Finder) (x y d : Val F) : grow f x (over f y d) = over f x d := by
  cases f with
  | key k => cases d <;> simp [over, grow, upd_at, upd_upd]
  | index i => exact grow_grow (.index i) x y d

theorem over_grow (f : Finder) (x y d : Val F) : over f x (grow f y d) = over f x d := by
  cases f with
  | key k => cases d <;> simp [over, grow, upd_upd]
  | index i => exact grow_grow (.index i) x y d

theorem over_over (f : Finder) (x y d : Val F) : over f x (over f y d) = over f x d := by
  cases f with
  | key k => cases d <;> simp [over, grow, upd_upd]
  | index i => exact grow_grow (.index i) x y d

theorem child_apart {f g : Finder} (h : Apart f g) (y d : Val F) : child g (grow f y d) = child g d ∧ child g (over f y d) = child g d := by
  cases f with
  | key k =>
    cases g with
    | index _ => exact absurd h id
    | key k' =>
      have h : k ≠ k' := h
      have h' : k' ≠ k := fun e => h e.symm
      cases d <;> simp [child, grow, over, look, upd_off _ _ _ _ h']
  | index i =>
    cases g with
    | key _ => exact absurd h id
    | index i' =>
      have h : i ≠ i' := h
      have main : ∀ l : List (Val F), child (.index i') (.arr (setElem l i y)) = ((l[i']?).getD .null) := by
        intro l
        unfold child
        simp only [look, setElem_get, if_neg (fun e : i' = i => h e.symm)]
        by_cases h2 : i' < l.length
        · rw [if_pos h2, List.getElem?_eq_getElem h2]
        · rw [if_neg h2, List.getElem?_eq_none (by omega)]
          by_cases h3 : i' < i
          · rw [if_pos h3]; rfl
          · rw [if_neg h3]
      have both : child (.index i') (grow (.index i) y d) = child (.index i') d := by
        cases d with
        | arr l =>
          rw [grow, main]
          unfold child; simp only [look]; cases l[i']? <;> rfl
        | _ => show child _ (.arr (setElem [] i y)) = _; rw [main]; rfl
      exact ⟨both, both⟩

theorem apart_symm {f g : Finder} (h : Apart f g) : Apart g f := by
  cases f <;> cases g <;> first | exact absurd h id | exact fun e => h e.symm

/-- One of the two ways to write a component. -/
def put (b : Bool) (f : Finder) (y d : Val F) : Val F := if b then over f y d else grow f y d

theorem put_comm {f g : Finder} (h : Apart f g) (a b : Bool) (x y d : Val F) : put a f x (put b g y d) = put b g y (put a f x d) := by
  cases f with
  | key k =>
    cases g with
    | index _ => exact absurd h id
    | key k' =>
      have h : k ≠ k' := h
      have h' : k' ≠ k := fun e => h e.symm
      cases d <;> cases a <;> cases b <;> simp [put, over, grow, upd_off _ _ _ _ h, upd_off _ _ _ _ h', upd_comm _ _ _ _ _ h']
  | index i =>
    cases g with
    | key _ => exact absurd h id
    | index i' =>
      have h : i ≠ i' := h
      have e : ∀ (b : Bool) (i : Nat) (y d : Val F), put b (.index i) y d = grow (.index i) y d := by
        intro b i y d; cases b <;> rfl
      simp only [e]
      cases d <;> simp only [grow] <;> rw [setElem_comm _ _ _ _ _ h]

theorem put_put (f : Finder) (a b : Bool) (x y d : Val F) : put a f x (put b f y d) = put (a || b) f x d := by
  cases a <;> cases b <;> simp only [put, if_true, Bool.false_eq_true, if_false, Bool.or_true, Bool.or_false, grow_grow, grow_over, over_grow, over_over]

theorem child_put (f : Finder) (b : Bool) (y d : Val F) : child f (put b f y d) = y := by
  cases b
  · exact child_grow f y d
  · exact child_over f y d

theorem child_put_apart {f g : Finder} (h : Apart f g) (b : Bool) (y d : Val F) : child g (put b f y d) = child g d := by
  cases b
  · exact (child_apart h y d).1
  · exact (child_apart h y d).2

theorem setV_cons (f : Finder) (r : List Finder) (v d : Val F) : setV (f :: r) v d = put r.isEmpty f (setV r v (child f d)) d := by
  cases r with
  | nil => rw [setV_one]; rfl
  | cons g r => rw [setV_more f _ (by simp)]; rfl

/-! ### Laws of `set` -/

/-- What was set below a place is lost when the place is set. -/
theorem setV_overwrite (p q : List Finder) (hp : p ≠ []) (v w d : Val F) : setV p v (setV (p ++ q) w d) = setV p v d := by
  induction p generalizing d with
  | nil => exact absurd rfl hp
  | cons f p ih =>
    rw [List.cons_append, setV_cons, setV_cons, setV_cons, put_put, child_put]
    cases p with
    | nil => simp [setV]
    | cons g p =>
      rw [ih (by simp)]
      simp

/-- Setting a place and then something below it is setting the place once. -/
theorem setV_below (p q : List Finder) (hp : p ≠ []) (v w d : Val F) : setV (p ++ q) w (setV p v d) = setV p (setV q w v) d := by
  induction p generalizing d with
  | nil => exact absurd rfl hp
  | cons f p ih =>
    rw [List.cons_append, setV_cons, setV_cons, setV_cons, put_put, child_put]
    cases p with
    | nil =>
      simp only [List.nil_append, setV]
      cases q <;> rfl
    | cons g p =>
      rw [ih (by simp)]
      simp

/-- `set` at places that part in any order. -/
theorem setV_comm (p q : List Finder) (h : Diverge p q) (v w d : Val F) : setV p v (setV q w d) = setV q w (setV p v d) := by
  obtain ⟨pre, a, b, s, t, rfl, rfl, hab⟩ := h
  induction pre generalizing d with
  | nil =>
    simp only [List.nil_append]
    rw [setV_cons a, setV_cons b, setV_cons b, setV_cons a, child_put_apart (apart_symm hab), child_put_apart hab, put_comm hab]
  | cons f pre ih =>
    simp only [List.cons_append]
    have e1 : (pre ++ a :: s).isEmpty = false := by cases pre <;> rfl
    have e2 : (pre ++ b :: t).isEmpty = false := by cases pre <;> rfl
    rw [setV_cons f, setV_cons f, setV_cons f, setV_cons f, e1, e2, child_put, child_put, put_put, put_put, ih]

theorem grow_same (f : Finder) (x d : Val F) (h : look [f] d = some x) : grow f x d = d := by
  cases f with
  | key k =>
    cases d with
    | obj m =>
      simp only [look] at h
      cases hm : (m k).getLast? with
      | none => rw [hm] at h; cases h
      | some z =>
        rw [hm] at h; cases h
        simp only [grow]
        rw [upd_self]
        exact (List.dropLast_append_getLast? x (by rw [hm]; rfl)).symm
    | _ => cases h
  | index i =>
    cases d with
    | arr l =>
      simp only [look] at h
      cases hm : l[i]? with
      | none => rw [hm] at h; cases h
      | some z =>
        rw [hm] at h; cases h
        simp only [grow, setElem_same l i x hm]
    | _ => cases h

/-- Setting what is there changes nothing. -/
theorem setV_same (p : List Finder) (x d : Val F) (h : look p d = some x) (hs : Sole p d) : setV p x d = d := by
  induction p generalizing d with
  | nil => simp only [look, Option.some.injEq] at h; rw [setV]; exact h.symm
  | cons f p ih =>
    rw [look_step] at h
    cases hf : look [f] d with
    | none => rw [hf] at h; cases h
    | some z =>
      rw [hf] at h
      have h : look p z = some x := h
      have hc : child f d = z := by rw [child, hf]; rfl
      rw [setV_cons, hc, ih z h]
      · cases p with
        | nil =>
          cases f with
          | index i => exact grow_same _ _ _ hf
          | key k =>
            cases d with
            | obj m =>
              have h1 := hs [] k m rfl rfl
              have h2 := grow_same _ _ _ hf
              show over (.key k) z (.obj m) = .obj m
              simp only [grow, over] at h2 ⊢
              have e : (m k).dropLast = [] := by
                apply List.eq_nil_of_length_eq_zero
                rw [List.length_dropLast]; omega
              rw [e] at h2
              exact h2
            | _ => cases hf
        | cons g p => exact grow_same _ _ _ hf
      · intro pre k m hp hl
        refine hs (f :: pre) k m (by rw [hp]; rfl) ?_
        rw [look_step, hf]; exact hl

/-! ### `del` -/

theorem place_put (f : Finder) (x d z : Val F) (h : look [f] d = some z) : place f x d = grow f x d := by
  cases f with
  | key k =>
    cases d with
    | obj m => rfl
    | _ => cases h
  | index i =>
    cases d with
    | arr l =>
      simp only [look] at h
      cases hm : l[i]? with
      | none => rw [hm] at h; cases h
      | some z =>
        have hi := idx_lt hm
        simp only [place, grow, setElem]
        rw [show i - l.length = 0 by omega]; simp
    | _ => cases h

theorem delV_more (f : Finder) (r : List Finder) (hr : r ≠ []) (d z : Val F) (h : look [f] d = some z) : delV (f :: r) d = grow f (delV r z) d := by
  rw [delV_cons f r hr d z h, place_put f _ d z h]

/-- The last component removed. -/
theorem delV_put (f : Finder) (b : Bool) (x d z : Val F) (h : look [f] d = some z) : delV [f] (put b f x d) = delV [f] d := by
  cases f with
  | key k =>
    cases d with
    | obj m => cases b <;> simp [put, over, grow, delV, upd_upd]
    | _ => cases h
  | index i =>
    cases d with
    | arr l =>
      simp only [look] at h
      cases hm : l[i]? with
      | none => rw [hm] at h; cases h
      | some z =>
        have hi := idx_lt hm
        have e : put b (.index i) x (.arr l) = .arr (setElem l i x) := by cases b <;> rfl
        rw [e]
        simp only [delV, setElem, show i - l.length = 0 by omega, List.replicate_zero, List.append_nil]
        congr 1
        have h1 : (l.take i).length = i := by simp; omega
        rw [List.append_assoc, List.take_append_of_le_length (by omega), List.drop_append, List.drop_of_length_le (by omega)]
        simp [h1, List.take_take]
    | _ => cases h

/-- Deleting what was just set over something is deleting that. -/
theorem delV_setV (p : List Finder) (v d y : Val F) (hp : p ≠ []) (h : look p d = some y) : delV p (setV p v d) = delV p d := by
  induction p generalizing d with
  | nil => exact absurd rfl hp
  | cons f p ih =>
    rw [look_step] at h
    cases hf : look [f] d with
    | none => rw [hf] at h; cases h
    | some z =>
      rw [hf] at h
      have h : look p z = some y := h
      have hc : child f d = z := by rw [child, hf]; rfl
      cases p with
      | nil => rw [setV_cons]; exact delV_put f _ _ _ z hf
      | cons g p =>
        rw [setV_cons, hc]
        show delV (f :: g :: p) (grow f _ d) = _
        rw [delV_more f _ (by simp) _ _ (look_grow f _ d), delV_more f _ (by simp) d z hf, grow_grow, ih z (by simp) h]

/-- Deleting what was just added restores the document. -/
theorem delV_fresh (p : List Finder) (v d : Val F) (h : Fresh p d) : delV p (setV p v d) = d := by
  have main : ∀ (pre : List Finder) (f : Finder) (d x : Val F), look pre d = some x → delV [f] (setV [f] v x) = x → delV (pre ++ [f]) (setV (pre ++ [f]) v d) = d := by
    intro pre f
    induction pre with
    | nil => intro d x h hx; simp only [look, Option.some.injEq] at h; subst h; exact hx
    | cons g pre ih =>
      intro d x h hx
      rw [look_step] at h
      cases hg : look [g] d with
      | none => rw [hg] at h; cases h
      | some z =>
        rw [hg] at h
        have hc : child g d = z := by rw [child, hg]; rfl
        rw [List.cons_append, setV_more g _ (by simp), hc, delV_more g _ (by simp) _ _ (look_grow g _ d), grow_grow, ih z x h hx]
        exact grow_same g z d hg
  rcases h with ⟨pre, k, m, rfl, hl, hk⟩ | ⟨pre, l, rfl, hl⟩
  · refine main pre (.key k) d _ hl ?_
    rw [setV_one]
    simp only [over, delV, upd_upd]
    rw [upd_self m k _ hk]
  · refine main pre (.index l.length) d _ hl ?_
    rw [setV_one]
    simp [over, grow, delV, setElem]

/-! ### `del` and other places -/

/-- What is at a path after a member apart from it was removed from an object. -/
theorem child_del_key {k k' : Str} (h : k ≠ k') (d : Val F) : look [.key k] (delV [.key k'] d) = look [.key k] d := by
  cases d <;> simp [delV, look, upd_off _ _ _ _ h]

theorem put_del_key {k k' : Str} (h : k ≠ k') (a : Bool) (x d z : Val F) (hz : look [.key k'] d = some z) :
    put a (.key k) x (delV [.key k'] d) = delV [.key k'] (put a (.key k) x d) := by
  cases d with
  | obj m => cases a <;> simp [put, over, grow, delV, upd_off _ _ _ _ h, upd_comm _ _ _ _ _ h]
  | _ => cases hz

theorem look_put_apart {f g : Finder} (h : Apart f g) (b : Bool) (y d z : Val F) (hz : look [g] d = some z) : look [g] (put b f y d) = some z := by
  cases f with
  | key k =>
    cases g with
    | index _ => exact absurd h id
    | key k' =>
      have h' : k' ≠ k := fun e => h e.symm
      cases d with
      | obj m => cases b <;> simpa [put, grow, over, look, upd_off _ _ _ _ h'] using hz
      | _ => cases hz
  | index i =>
    cases g with
    | key _ => exact absurd h id
    | index i' =>
      have e : put b (.index i) y d = grow (.index i) y d := by cases b <;> rfl
      rw [e]
      cases d with
      | arr l =>
        simp only [look] at hz
        cases hm : l[i']? with
        | none => rw [hm] at hz; cases hz
        | some w =>
          rw [hm] at hz
          simp only [grow, look, setElem_get, if_neg (fun e : i' = i => h e.symm), if_pos (idx_lt hm), hm]
          exact hz
      | _ => cases hz

/-- `set` and `del` at places that part, in any order; an element removed from the array in which they part would shift the other place. -/
theorem setV_delV (pre : List Finder) (a b : Finder) (s t : List Finder) (hab : Apart a b) (hk : t = [] → ∃ k, b = .key k)
    (v d y : Val F) (hy : look (pre ++ b :: t) d = some y) :
    setV (pre ++ a :: s) v (delV (pre ++ b :: t) d) = delV (pre ++ b :: t) (setV (pre ++ a :: s) v d) := by
  induction pre generalizing d with
  | nil =>
    simp only [List.nil_append] at hy ⊢
    rw [look_step] at hy
    cases hb : look [b] d with
    | none => rw [hb] at hy; cases hy
    | some z =>
      have hc : ∀ x, look [b] (put s.isEmpty a x d) = some z := fun x => look_put_apart hab _ x d z hb
      cases t with
      | nil =>
        obtain ⟨k', rfl⟩ := hk rfl
        cases a with
        | index _ => exact absurd hab id
        | key k =>
          have hn : k ≠ k' := hab
          rw [setV_cons, setV_cons]
          have e : child (.key k) (delV [.key k'] d) = child (.key k) d := by rw [child, child_del_key hn]; rfl
          rw [e, put_del_key hn _ _ d z hb]
      | cons g t =>
        rw [setV_cons, setV_cons, delV_more b _ (by simp) d z hb, delV_more b _ (by simp) _ z (hc _)]
        have e1 : grow b (delV (g :: t) z) d = put false b (delV (g :: t) z) d := rfl
        rw [e1, child_put_apart (apart_symm hab), put_comm hab]
        rfl
  | cons f pre ih =>
    simp only [List.cons_append] at hy ⊢
    rw [look_step] at hy
    cases hf : look [f] d with
    | none => rw [hf] at hy; cases hy
    | some z =>
      rw [hf] at hy
      have hc : child f d = z := by rw [child, hf]; rfl
      rw [delV_more f _ (by simp) d z hf, setV_more f _ (by simp), setV_more f _ (by simp), child_grow, grow_grow, hc,
        delV_more f _ (by simp) _ _ (look_grow f _ d), grow_grow, ih z hy]

/-- Two removals at places that part, in any order. -/
theorem delV_delV (pre : List Finder) (a b : Finder) (s t : List Finder) (hab : Apart a b) (hs : s = [] → ∃ k, a = .key k) (ht : t = [] → ∃ k, b = .key k)
    (d x y : Val F) (hx : look (pre ++ a :: s) d = some x) (hy : look (pre ++ b :: t) d = some y) :
    delV (pre ++ a :: s) (delV (pre ++ b :: t) d) = delV (pre ++ b :: t) (delV (pre ++ a :: s) d) := by
  induction pre generalizing d with
  | nil =>
    simp only [List.nil_append] at hx hy ⊢
    rw [look_step] at hx hy
    cases ha : look [a] d with
    | none => rw [ha] at hx; cases hx
    | some w =>
      cases hb : look [b] d with
      | none => rw [hb] at hy; cases hy
      | some z =>
        have pa : ∀ u, look [a] (grow b u d) = some w := fun u => look_put_apart (apart_symm hab) false u d w ha
        have pb : ∀ u, look [b] (grow a u d) = some z := fun u => look_put_apart hab false u d z hb
        cases s with
        | nil =>
          obtain ⟨k, rfl⟩ := hs rfl
          cases b with
          | index _ => exact absurd hab id
          | key k' =>
            have hn : k ≠ k' := hab
            have hn' : k' ≠ k := fun e => hn e.symm
            cases t with
            | nil =>
              cases d with
              | obj m => simp only [delV, upd_comm _ _ _ _ _ hn]
              | _ => cases ha
            | cons g t =>
              rw [delV_more (.key k') _ (by simp) d z hb, delV_more (.key k') (g :: t) (by simp) (delV [.key k] d) z (by rw [child_del_key hn', hb])]
              exact (put_del_key hn' false _ d w ha).symm
        | cons f s =>
          cases t with
          | nil =>
            obtain ⟨k', rfl⟩ := ht rfl
            cases a with
            | index _ => exact absurd hab id
            | key k =>
              have hn : k ≠ k' := hab
              rw [delV_more (.key k) _ (by simp) d w ha, delV_more (.key k) _ (by simp) (delV [.key k'] d) w (by rw [child_del_key hn, ha])]
              exact put_del_key hn false _ d z hb
          | cons g t =>
            rw [delV_more b _ (by simp) d z hb, delV_more a _ (by simp) d w ha, delV_more a _ (by simp) _ w (pa _), delV_more b _ (by simp) _ z (pb _)]
            exact put_comm hab false false _ _ d
  | cons f pre ih =>
    simp only [List.cons_append] at hx hy ⊢
    rw [look_step] at hx hy
    cases hf : look [f] d with
    | none => rw [hf] at hy; cases hy
    | some z =>
      rw [hf] at hx hy
      rw [delV_more f _ (by simp) d z hf, delV_more f _ (by simp) d z hf, delV_more f _ (by simp) _ _ (look_grow f _ d), delV_more f _ (by simp) _ _ (look_grow f _ d),
        grow_grow, grow_grow, ih z hx hy]

/-- Removing two elements of one array: after the first removal the later element has moved down by one. -/
theorem delV_shift (pre : List Finder) (i n : Nat) (h : i < n) (d x : Val F) (hx : look (pre ++ [.index n]) d = some x) :
    delV (pre ++ [.index i]) (delV (pre ++ [.index n]) d) = delV (pre ++ [.index (n - 1)]) (delV (pre ++ [.index i]) d) := by
  induction pre generalizing d with
  | nil =>
    simp only [List.nil_append] at hx ⊢
    cases d with
    | arr l =>
      simp only [look] at hx
      cases hm : l[n]? with
      | none => rw [hm] at hx; cases hx
      | some w =>
        have hn := idx_lt hm
        simp only [delV]
        congr 1
        apply List.ext_getElem?
        intro m
        simp only [List.getElem?_append, List.getElem?_take, List.getElem?_drop, List.length_append, List.length_take, List.length_drop]
        grind
    | _ => cases hx
  | cons f pre ih =>
    simp only [List.cons_append] at hx ⊢
    rw [look_step] at hx
    cases hf : look [f] d with
    | none => rw [hf] at hx; cases hx
    | some z =>
      rw [hf] at hx
      rw [delV_more f _ (by simp) d z hf, delV_more f _ (by simp) d z hf, delV_more f _ (by simp) _ _ (look_grow f _ d), delV_more f _ (by simp) _ _ (look_grow f _ d),
        grow_grow, grow_grow, ih z hx]

/-! ### Room -/

theorem room_child (lim : Nat) (f : Finder) (r : List Finder) (d : Val F) : RoomFor lim (f :: r) d ↔ RoomFor lim [f] d ∧ RoomFor lim r (child f d) := room_cons lim f r d

theorem room_have (lim : Nat) (f : Finder) (d z : Val F) (h : look [f] d = some z) : RoomFor lim [f] d := by simp only [RoomFor, h]

theorem room_put (lim : Nat) (f : Finder) (b : Bool) (x d : Val F) : RoomFor lim [f] (put b f x d) := by
  refine room_have lim f _ x ?_
  cases b
  · exact look_grow f x d
  · exact look_over f x d

theorem room_there (lim : Nat) (p : List Finder) (d x : Val F) (h : look p d = some x) : RoomFor lim p d := by
  induction p generalizing d with
  | nil => trivial
  | cons f p ih =>
    rw [look_step] at h
    cases hf : look [f] d with
    | none => rw [hf] at h; cases h
    | some z =>
      rw [hf] at h
      rw [room_child, child, hf]
      exact ⟨room_have lim f d z hf, ih z h⟩

theorem room_prefix (lim : Nat) (p q : List Finder) (d : Val F) (h : RoomFor lim (p ++ q) d) : RoomFor lim p d := by
  induction p generalizing d with
  | nil => trivial
  | cons f p ih =>
    rw [List.cons_append, room_child] at h
    rw [room_child]
    exact ⟨h.1, ih _ h.2⟩

theorem room_below (lim : Nat) (p q : List Finder) (hp : p ≠ []) (v d : Val F) (h : RoomFor lim (p ++ q) (setV p v d)) : RoomFor lim q v := by
  induction p generalizing d with
  | nil => exact absurd rfl hp
  | cons f p ih =>
    rw [List.cons_append, room_child, setV_cons, child_put] at h
    cases p with
    | nil => exact h.2
    | cons g p => exact ih (by simp) _ h.2

theorem room_replaced (lim : Nat) (p : List Finder) (v d : Val F) (h : RoomFor lim p d) : RoomFor lim p (setV p v d) := by
  induction p generalizing d with
  | nil => trivial
  | cons f p ih =>
    rw [room_child] at h
    rw [setV_cons, room_child, child_put]
    exact ⟨room_put lim f _ _ d, ih _ h.2⟩

theorem room_swap (lim : Nat) (p q : List Finder) (hd : Diverge p q) (v w d : Val F) (h1 : RoomFor lim p d) (h2 : RoomFor lim q (setV p v d)) :
    RoomFor lim q d ∧ RoomFor lim p (setV q w d) := by
  obtain ⟨pre, a, b, s, t, rfl, rfl, hab⟩ := hd
  induction pre generalizing d with
  | nil =>
    simp only [List.nil_append] at h1 h2 ⊢
    rw [room_child] at h1
    rw [setV_cons, room_child, child_put_apart hab] at h2
    rw [setV_cons, room_child, room_child lim a, child_put_apart (apart_symm hab)]
    have keep : ∀ (c e : Finder), Apart c e → ∀ (b : Bool) (x : Val F), RoomFor lim [e] d → RoomFor lim [e] (put b c x d) := by
      intro c e hce b x h
      cases he : look [e] d with
      | some z => exact room_have lim e _ z (look_put_apart hce b x d z he)
      | none =>
        simp only [RoomFor, he] at h
        simp only [RoomFor]
        cases look [e] (put b c x d) with
        | some _ => trivial
        | none => exact h
    refine ⟨⟨?_, h2.2⟩, keep b a (apart_symm hab) _ _ h1.1, h1.2⟩
    cases hb : look [b] d with
    | some z => exact room_have lim b d z hb
    | none =>
      cases b with
      | key k => simp only [RoomFor, hb, and_self]
      | index n =>
        cases a with
        | key _ => exact absurd hab id
        | index i =>
          have hin : i ≠ n := hab
          simp only [RoomFor, hb, and_true]
          have h3 := h2.1
          have h4 := h1.1
          simp only [RoomFor, and_true] at h3 h4
          by_cases hn : n < lim
          · exact hn
          · exfalso
            have e : ∀ x, put s.isEmpty (.index i) x d = grow (.index i) x d := by intro x; cases s.isEmpty <;> rfl
            rw [e] at h3
            have hcmp : n < i ∨ i < n := by omega
            cases d with
            | arr l =>
              simp only [look] at hb
              have hl : l.length ≤ n := by
                cases hm : l[n]? with
                | none => exact List.getElem?_eq_none_iff.mp hm
                | some z => rw [hm] at hb; cases hb
              simp only [look, grow, setElem_get, if_neg (fun e : n = i => hin e.symm), if_neg (show ¬ n < l.length by omega)] at h3
              rcases hcmp with hc | hc
              · simp only [look, List.getElem?_eq_none (show l.length ≤ i by omega)] at h4
                omega
              · rw [if_neg (by omega)] at h3
                exact hn h3
            | _ =>
              simp only [look, grow, setElem_get, if_neg (fun e : n = i => hin e.symm), List.length_nil, if_neg (Nat.not_lt_zero n)] at h3
              rcases hcmp with hc | hc
              · simp only [look] at h4
                omega
              · rw [if_neg (by omega)] at h3
                exact hn h3
  | cons f pre ih =>
    simp only [List.cons_append] at h1 h2 ⊢
    rw [room_child] at h1
    rw [setV_cons, room_child, child_put] at h2
    rw [setV_cons, room_child, room_child lim f (pre ++ a :: s), child_put]
    obtain ⟨h3, h4⟩ := ih (child f d) h1.2 h2.2
    exact ⟨⟨h1.1, h3⟩, room_put lim f _ _ d, h4⟩

/-! ### What stays when something is removed -/

/-- Reads at the divergence: `b :: t` removed, `a` untouched. -/
theorem del_apart {a b : Finder} (t : List Finder) (hab : Apart a b) (hk : t = [] → ∃ k, b = .key k) (d y : Val F) (hy : look (b :: t) d = some y) :
    (∀ x, look [a] d = some x → look [a] (delV (b :: t) d) = some x) ∧ (look [a] d = none → look [a] (delV (b :: t) d) = none) := by
  rw [look_step] at hy
  cases hb : look [b] d with
  | none => rw [hb] at hy; cases hy
  | some z =>
    cases t with
    | nil =>
      obtain ⟨k', rfl⟩ := hk rfl
      cases a with
      | index _ => exact absurd hab id
      | key k =>
        rw [child_del_key hab]
        exact ⟨fun _ h => h, fun h => h⟩
    | cons g t =>
      rw [delV_more b _ (by simp) d z hb]
      refine ⟨fun x h => look_put_apart (apart_symm hab) false _ d x h, fun h => ?_⟩
      cases b with
      | key k' =>
        cases a with
        | index _ => exact absurd hab id
        | key k =>
          have hn : k ≠ k' := hab
          cases d with
          | obj m => simpa [grow, look, upd_off _ _ _ _ hn] using h
          | _ => cases hb
      | index n =>
        cases a with
        | key _ => exact absurd hab id
        | index i =>
          have hn : i ≠ n := hab
          cases d with
          | arr l =>
            simp only [look] at h hb
            cases hm : l[n]? with
            | none => rw [hm] at hb; cases hb
            | some w =>
              have hl := idx_lt hm
              cases hi : l[i]? with
              | some _ => rw [hi] at h; cases h
              | none =>
                have := List.getElem?_eq_none_iff.mp hi
                simp only [grow, look, setElem_get, if_neg hn, if_neg (show ¬ i < l.length by omega), if_neg (show ¬ i < n by omega)]
          | _ => cases hb

theorem look_delV (p q : List Finder) (h : Independent p q) (d y : Val F) (hy : look q d = some y) : look p (delV q d) = look p d := by
  obtain ⟨pre, a, b, s, t, rfl, rfl, hab, hk⟩ := h
  induction pre generalizing d with
  | nil =>
    obtain ⟨h1, h2⟩ := del_apart t hab hk d y hy
    simp only [List.nil_append]
    rw [look_step a s, look_step a s d]
    cases ha : look [a] d with
    | some x => rw [h1 x ha]
    | none => rw [h2 ha]
  | cons f pre ih =>
    simp only [List.cons_append] at hy ⊢
    rw [look_step] at hy
    cases hf : look [f] d with
    | none => rw [hf] at hy; cases hy
    | some z =>
      rw [hf] at hy
      rw [delV_more f _ (by simp) d z hf, look_step f, look_step f _ d, look_grow, hf]
      exact ih z hy

theorem room_delV (lim : Nat) (p q : List Finder) (h : Independent p q) (d y : Val F) (hy : look q d = some y) : RoomFor lim p (delV q d) ↔ RoomFor lim p d := by
  obtain ⟨pre, a, b, s, t, rfl, rfl, hab, hk⟩ := h
  induction pre generalizing d with
  | nil =>
    obtain ⟨h1, h2⟩ := del_apart t hab hk d y hy
    simp only [List.nil_append, RoomFor]
    cases ha : look [a] d with
    | some x => simp only [h1 x ha]
    | none => simp only [h2 ha]
  | cons f pre ih =>
    simp only [List.cons_append] at hy ⊢
    rw [look_step] at hy
    cases hf : look [f] d with
    | none => rw [hf] at hy; cases hy
    | some z =>
      rw [hf] at hy
      rw [delV_more f _ (by simp) d z hf]
      simp only [RoomFor, look_grow, hf]
      exact ih z hy

theorem look_setV_diverge (p q : List Finder) (h : Diverge p q) (v d y : Val F) (hy : look q d = some y) : look q (setV p v d) = some y := by
  obtain ⟨pre, a, b, s, t, rfl, rfl, hab⟩ := h
  induction pre generalizing d with
  | nil =>
    simp only [List.nil_append] at hy ⊢
    rw [look_step] at hy ⊢
    cases hb : look [b] d with
    | none => rw [hb] at hy; cases hy
    | some z => rw [setV_cons, look_put_apart hab _ _ d z hb, ← hb]; exact hy
  | cons f pre ih =>
    simp only [List.cons_append] at hy ⊢
    rw [look_step] at hy
    cases hf : look [f] d with
    | none => rw [hf] at hy; cases hy
    | some z =>
      rw [hf] at hy
      have hc : child f d = z := by rw [child, hf]; rfl
      rw [setV_more f _ (by simp), look_step, look_grow, hc]
      exact ih z hy

theorem look_setV_self (p : List Finder) (v d : Val F) : look p (setV p v d) = some v := by
  induction p generalizing d with
  | nil => rfl
  | cons f p ih =>
    rw [setV_cons, look_step]
    have : look [f] (put p.isEmpty f (setV p v (child f d)) d) = some (setV p v (child f d)) := by
      cases p.isEmpty
      · exact look_grow _ _ _
      · exact look_over _ _ _
    rw [this]
    exact ih _

theorem independent_diverge {p q : List Finder} (h : Independent p q) : Diverge p q := by
  obtain ⟨pre, a, b, s, t, h1, h2, h3, _⟩ := h
  exact ⟨pre, a, b, s, t, h1, h2, h3⟩

theorem apart_ne {f : Finder} (h : Apart f f) : False := by cases f <;> exact h rfl

/-- Two paths part in one place only. -/
theorem parting_unique {pre pre' : List Finder} {a b a' b' : Finder} {s t s' t' : List Finder} (h : Apart a b) (h' : Apart a' b')
    (h1 : pre ++ b :: t = pre' ++ b' :: t') (h2 : pre ++ a :: s = pre' ++ a' :: s') : a = a' ∧ b = b' ∧ s = s' := by
  induction pre generalizing pre' with
  | nil =>
    cases pre' with
    | nil =>
      simp only [List.nil_append, List.cons.injEq] at h1 h2
      exact ⟨h2.1, h1.1, h2.2⟩
    | cons g pre' =>
      simp only [List.nil_append, List.cons_append, List.cons.injEq] at h1 h2
      obtain ⟨rfl, _⟩ := h1
      obtain ⟨rfl, _⟩ := h2
      exact (apart_ne h).elim
  | cons f pre ih =>
    cases pre' with
    | nil =>
      simp only [List.nil_append, List.cons_append, List.cons.injEq] at h1 h2
      obtain ⟨rfl, _⟩ := h1
      obtain ⟨rfl, _⟩ := h2
      exact (apart_ne h').elim
    | cons g pre' =>
      simp only [List.cons_append, List.cons.injEq] at h1 h2
      exact ih h1.2 h2.2

/-- The earlier element stays where it is. -/
theorem look_before (pre : List Finder) (i n : Nat) (h : i < n) (d x : Val F) (hx : look (pre ++ [.index n]) d = some x) :
    look (pre ++ [.index i]) (delV (pre ++ [.index n]) d) = look (pre ++ [.index i]) d := by
  induction pre generalizing d with
  | nil =>
    simp only [List.nil_append] at hx ⊢
    cases d with
    | arr l =>
      simp only [look] at hx
      cases hm : l[n]? with
      | none => rw [hm] at hx; cases hx
      | some w =>
        have hn := idx_lt hm
        simp only [delV, look]
        rw [List.getElem?_append_left (by simp; omega), List.getElem?_take, if_pos h]
    | _ => cases hx
  | cons f pre ih =>
    simp only [List.cons_append] at hx ⊢
    rw [look_step] at hx
    cases hf : look [f] d with
    | none => rw [hf] at hx; cases hx
    | some z =>
      rw [hf] at hx
      rw [delV_more f _ (by simp) d z hf, look_step f, look_step f _ d, look_grow, hf]
      exact ih z hx

/-- The later element moves down by one. -/
theorem look_after (pre : List Finder) (i n : Nat) (h : i < n) (d x : Val F) (hx : look (pre ++ [.index n]) d = some x) :
    look (pre ++ [.index (n - 1)]) (delV (pre ++ [.index i]) d) = look (pre ++ [.index n]) d := by
  induction pre generalizing d with
  | nil =>
    simp only [List.nil_append] at hx ⊢
    cases d with
    | arr l =>
      simp only [look] at hx
      cases hm : l[n]? with
      | none => rw [hm] at hx; cases hx
      | some w =>
        have hn := idx_lt hm
        simp only [delV, look]
        rw [List.getElem?_append_right (by simp; omega), List.getElem?_drop, List.length_take, show i + 1 + (n - 1 - min i l.length) = n by omega]
    | _ => cases hx
  | cons f pre ih =>
    simp only [List.cons_append] at hx ⊢
    rw [look_step] at hx
    cases hf : look [f] d with
    | none => rw [hf] at hx; cases hx
    | some z =>
      rw [hf] at hx
      rw [delV_more f _ (by simp) d z hf, look_step f, look_step f _ d, look_grow, hf]
      exact ih z hx

end RJ
