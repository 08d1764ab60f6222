import Verif.Spec.Store
import Verif.Props.TextHistory
/-
  Places that part do not see one another.
-/
namespace RJ
open Spec
variable {I F : Type}

theorem look_put_other {a b : Finder} (h : Apart a b) (t : List Finder) (ht : t = [] → ∃ k, b = .key k) (o : Bool) (y d : Val F) :
    look (b :: t) (put o a y d) = look (b :: t) d := by
  rw [look_step, look_step b t d]
  cases hb : look [b] d with
  | some z => rw [look_put_apart h o y d z hb]
  | none =>
    have hc : child b (put o a y d) = .null := by rw [child_put_apart h, child, hb]; rfl
    cases hl : look [b] (put o a y d) with
    | none => rfl
    | some z =>
      have hz : z = .null := by rw [child, hl] at hc; exact hc
      subst hz
      cases t with
      | cons g t => cases g <;> rfl
      | nil =>
        exfalso
        obtain ⟨k, rfl⟩ := ht rfl
        cases a with
        | index i => exact h
        | key k' =>
          have hne : k ≠ k' := fun e => h e.symm
          cases d with
          | obj m =>
            have e : look [.key k] (put o (.key k') y (.obj m)) = look [.key k] (.obj m) := by cases o <;> simp [put, over, grow, look, upd_off _ _ _ _ hne]
            rw [e, hb] at hl; cases hl
          | _ => cases o <;> simp [put, over, grow, look, upd_off _ _ _ _ hne] at hl

/-- What is at a place that ends in a key is not changed by `set` elsewhere, nor does something appear there. -/
theorem look_setV_other (p q : List Finder) (h : Diverge p q) (hq : ∃ pre k, q = pre ++ [.key k]) (v d : Val F) : look q (setV p v d) = look q d := by
  obtain ⟨pre, a, b, s, t, rfl, rfl, hab⟩ := h
  have hb : t = [] → ∃ k, b = .key k := by
    rintro rfl
    obtain ⟨pre', k, e⟩ := hq
    exact ⟨k, by have := congrArg List.getLast? e; simpa using this⟩
  clear hq
  induction pre generalizing d with
  | nil => rw [List.nil_append, List.nil_append, setV_cons]; exact look_put_other hab t hb _ _ _
  | cons f pre ih =>
    rw [List.cons_append, List.cons_append, setV_cons, look_step, look_step f _ d]
    have : look [f] (put (pre ++ a :: s).isEmpty f (setV (pre ++ a :: s) v (child f d)) d) = some (setV (pre ++ a :: s) v (child f d)) := by
      cases (pre ++ a :: s).isEmpty
      · exact look_grow f _ d
      · exact look_over f _ d
    rw [this, Option.bind_some, ih, child]
    cases look [f] d with
    | some z => rfl
    | none =>
      show look (pre ++ b :: t) .null = none
      cases pre with
      | nil => cases b <;> rfl
      | cons g pre => cases g <;> rfl

theorem look_delV_self (q : List Finder) (hq : ∃ pre k, q = pre ++ [.key k]) (d y : Val F) (h : look q d = some y) : look q (delV q d) = none := by
  obtain ⟨pre, k, rfl⟩ := hq
  have := firstFail_delV pre k d y h
  revert this
  generalize delV (pre ++ [.key k]) d = e
  generalize pre ++ [Finder.key k] = q
  clear h
  induction q generalizing e with
  | nil => intro h; cases h
  | cons f q ih =>
    intro h
    cases f with
    | key k =>
      cases e with
      | obj m =>
        simp only [firstFail] at h
        simp only [look]
        cases hm : (m k).getLast? with
        | none => rfl
        | some z => rw [hm] at h; exact ih _ h
      | _ => rfl
    | index k =>
      cases e with
      | arr m =>
        simp only [firstFail] at h
        simp only [look]
        cases hm : m[k]? with
        | none => rfl
        | some z => rw [hm] at h; exact ih _ h
      | _ => rfl

theorem diverge_symm {p q : List Finder} (h : Diverge p q) : Diverge q p := by
  obtain ⟨pre, a, b, s, t, h1, h2, h3⟩ := h
  exact ⟨pre, b, a, t, s, h2, h1, apart_symm h3⟩

theorem independent_of {p q : List Finder} (h : Diverge p q) (hq : ∃ pre k, q = pre ++ [.key k]) : Independent p q := by
  obtain ⟨pre, a, b, s, t, rfl, rfl, hab⟩ := h
  refine ⟨pre, a, b, s, t, rfl, rfl, hab, ?_⟩
  rintro rfl
  obtain ⟨pre', k, e⟩ := hq
  exact ⟨k, by have := congrArg List.getLast? e; simpa using this⟩

variable [FloatOps F] [LawfulFloat F]

/-- One call. -/
theorem store_step {lim : Nat} {P : Slots I} (hP : P.Ok lim) (c : StoreCall I F) (hc : ∀ i v, c = .set i v → Printable v) (s : Str) (j : Json F) (hs : Json.parse s = .ok j)
    (hj : Printable j) : ∃ s' j', Json.parse s' = .ok j' ∧ Printable j' ∧ (TextCall.run lim (c.text P) s).2 ≠ .panic ∧ (TextCall.run lim (c.text P) s).1 = s' ∧
      StoreStep (fun i => look (P.comps i) (absJ j)) c (TextCall.run lim (c.text P) s).2 (fun i => look (P.comps i) (absJ j')) := by
  have hcp : (c.text P).Printable := by
    cases c with
    | set i v =>
      refine ⟨hc i v rfl, fun fs k h1 h2 => ?_⟩
      obtain ⟨h3, _, _, h4⟩ := hP.1 i
      rw [C27_unambiguous _ _ _ h1 h3] at h2
      exact h4 k h2
    | _ => trivial
  obtain ⟨h1, h2⟩ := text_step_same lim (c.text P) hcp s j j hs hj rfl
  have hpr := call_printable lim (c.text P) hcp j hj
  cases c with
  | get i =>
    refine ⟨s, j, hs, hj, ?_, rfl, ?_⟩
    · rw [h1]; show sawValue (j.get (P.path i)) ≠ .panic; cases j.get (P.path i) <;> exact fun h => nomatch h
    · rw [h1]
      show StoreStep _ _ (sawValue (j.get (P.path i))) _
      rcases C25_get _ _ (hP.1 i).1 j with ⟨x, h3, h4, _⟩ | ⟨e, h3, h4, _⟩ <;> rw [h3]
      · exact .get i _ h4
      · exact .get_none i _ h4
  | set i v =>
    obtain ⟨k1, k2, k3, k4⟩ := hP.1 i
    obtain ⟨j1, r, h3⟩ := C21_set_succeeds lim _ _ k1 k3 j v
    have hr : Call.run lim (StoreCall.text P (.set i v)).call j = (j1, .value (absJ r.val)) := by
      simp only [StoreCall.text, TextCall.call, Call.run]
      rw [h3]
    rw [hr] at h1 h2 hpr
    obtain ⟨⟨j2, h4, h5⟩, _⟩ := h2 (by simp)
    refine ⟨_, j2, h4, same_printable j1 j2 h5 hpr _ h4, by rw [h1]; simp [TextCall.seen, StoreCall.text], rfl, ?_⟩
    rw [h1]
    have hd := C23_set_document lim _ _ k1 _ _ _ _ h3
    have hd : absJ j2 = setV (P.comps i) (absJ v) (absJ j) := by rw [← h5]; exact hd
    refine .set i v _ ?_ ?_
    · show look _ (absJ j2) = _
      rw [hd, look_setV_self]
    · intro n hn
      show look _ (absJ j2) = _
      rw [hd]
      exact look_setV_other _ _ (hP.2 i n (Ne.symm hn)) (hP.1 n).2.1 _ _
  | del i =>
    obtain ⟨k1, k2, k3, k4⟩ := hP.1 i
    have hr : Call.run lim (StoreCall.text P (.del i)).call j = ((j.del (P.path i)).1, sawValue (j.del (P.path i)).2) := rfl
    rw [hr] at h1 h2 hpr
    obtain ⟨c1, c2⟩ := C25_del (P.path i) j
    rw [c1] at h1 h2
    obtain ⟨⟨j2, h4, h5⟩, _⟩ := h2 (by cases j.get (P.path i) <;> exact fun h => nomatch h)
    refine ⟨_, j2, h4, same_printable _ j2 h5 hpr _ h4, ?_, rfl, ?_⟩
    · rw [h1]; cases j.get (P.path i) <;> exact fun h => nomatch h
    · rw [h1]
      rcases C25_get _ _ k1 j with ⟨x, h3, h6, _⟩ | ⟨e, h3, h6, _⟩ <;> rw [h3]
      · obtain ⟨_, h7, _⟩ := C24_del _ _ k1 j x hj.1 h3
        have h5 : delV (P.comps i) (absJ j) = absJ j2 := by rw [← h7]; exact h5
        refine .del i _ h6 _ ?_ ?_
        · show look _ (absJ j2) = _
          rw [← h5]
          exact look_delV_self _ k2 _ _ h6
        · intro n hn
          show look _ (absJ j2) = _
          rw [← h5]
          exact look_delV _ _ (independent_of (hP.2 n i hn) k2) _ _ h6
      · have : absJ j2 = absJ j := by rw [← h5]; dsimp only; rw [c2 e h3]
        rw [this]
        exact .del_none i _ h6

end RJ
