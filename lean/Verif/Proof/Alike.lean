import Verif.Spec.Alike
import Verif.Proof.Laws
import Mathlib.Data.List.Forall2
/-
  The specification of histories does not look at numbers (C101).
-/
namespace RJ
open Spec
variable {F : Type} {R : F → F → Prop}

theorem veqL_all {l l' : List (Val F)} : VEqL R l l' ↔ List.Forall₂ (VEq R) l l' := by
  induction l generalizing l' with
  | nil => exact ⟨fun h => by cases h; exact .nil, fun h => by cases h; exact .nil⟩
  | cons x t ih => exact ⟨fun h => by cases h with | cons a b => exact .cons a (ih.1 b), fun h => by cases h with | cons a b => exact .cons a (ih.2 b)⟩

theorem all_get {α β : Type} {S : α → β → Prop} {l : List α} {l' : List β} (h : List.Forall₂ S l l') (i : Nat) : Option.Rel S l[i]? l'[i]? := by
  induction h generalizing i with
  | nil => exact .none
  | cons a _ ih =>
    cases i with
    | zero => exact .some a
    | succ i => simpa using ih i

theorem all_append {α β : Type} {S : α → β → Prop} {l t : List α} {l' t' : List β} (h : List.Forall₂ S l l') (h' : List.Forall₂ S t t') : List.Forall₂ S (l ++ t) (l' ++ t') := by
  induction h with
  | nil => exact h'
  | cons a _ ih => exact .cons a ih

theorem all_last {α β : Type} {S : α → β → Prop} {l : List α} {l' : List β} (h : List.Forall₂ S l l') : Option.Rel S l.getLast? l'.getLast? := by
  rw [List.getLast?_eq_getElem?, List.getLast?_eq_getElem?, h.length_eq]
  exact all_get h _

theorem all_init {α β : Type} {S : α → β → Prop} {l : List α} {l' : List β} (h : List.Forall₂ S l l') : List.Forall₂ S l.dropLast l'.dropLast := by
  rw [List.dropLast_eq_take, List.dropLast_eq_take, h.length_eq]
  exact List.forall₂_take _ h

theorem all_same {α β : Type} {S : α → β → Prop} {x : α} {y : β} (h : S x y) (n : Nat) : List.Forall₂ S (List.replicate n x) (List.replicate n y) := by
  induction n with
  | zero => exact .nil
  | succ n ih => exact .cons h ih

theorem alike_upd {m m' : Str → List (Val F)} (h : ∀ k, VEqL R (m k) (m' k)) (k : Str) {l l' : List (Val F)} (hl : VEqL R l l') : ∀ q, VEqL R (upd m k l q) (upd m' k l' q) := by
  intro q
  by_cases e : q = k
  · subst e; simpa [upd] using hl
  · simpa [upd, e] using h q

theorem veqL_append {l l' t t' : List (Val F)} (h : VEqL R l l') (h' : VEqL R t t') : VEqL R (l ++ t) (l' ++ t') := veqL_all.2 (all_append (veqL_all.1 h) (veqL_all.1 h'))
theorem veqL_one {x y : Val F} (h : VEq R x y) : VEqL R [x] [y] := .cons h .nil
theorem veqL_init {l l' : List (Val F)} (h : VEqL R l l') : VEqL R l.dropLast l'.dropLast := veqL_all.2 (all_init (veqL_all.1 h))
theorem veqL_take {l l' : List (Val F)} (h : VEqL R l l') (n : Nat) : VEqL R (l.take n) (l'.take n) := veqL_all.2 (List.forall₂_take n (veqL_all.1 h))
theorem veqL_drop {l l' : List (Val F)} (h : VEqL R l l') (n : Nat) : VEqL R (l.drop n) (l'.drop n) := veqL_all.2 (List.forall₂_drop n (veqL_all.1 h))
theorem veqL_length {l l' : List (Val F)} (h : VEqL R l l') : l.length = l'.length := (veqL_all.1 h).length_eq
theorem veqL_nil {l l' : List (Val F)} (h : VEqL R l l') : l = [] ↔ l' = [] := by cases h <;> simp
theorem veqL_nulls (n : Nat) : VEqL R (List.replicate n (.null : Val F)) (List.replicate n .null) := veqL_all.2 (all_same .null n)

theorem alike_setElem {l l' : List (Val F)} (h : VEqL R l l') (i : Nat) {x y : Val F} (hx : VEq R x y) : VEqL R (setElem l i x) (setElem l' i y) := by
  rw [setElem, setElem, veqL_length h]
  exact veqL_append (veqL_append (veqL_append (veqL_take h _) (veqL_nulls _)) (veqL_one hx)) (veqL_drop h _)

theorem alike_look1 (f : Finder) {d d' : Val F} (h : VEq R d d') : Option.Rel (VEq R) (look [f] d) (look [f] d') := by
  cases f with
  | key k =>
    cases h with
    | obj hm =>
      have := all_last (veqL_all.1 (hm k))
      simp only [look]
      revert this
      rename_i m m'
      cases (m k).getLast? <;> cases (m' k).getLast? <;> intro h <;> cases h
      · exact .none
      · exact .some (by assumption)
    | _ => exact .none
  | index i =>
    cases h with
    | arr hl =>
      have := all_get (veqL_all.1 hl) i
      simp only [look]
      revert this
      rename_i l l'
      cases l[i]? <;> cases l'[i]? <;> intro h <;> cases h
      · exact .none
      · exact .some (by assumption)
    | _ => exact .none

theorem alike_look (fs : List Finder) {d d' : Val F} (h : VEq R d d') : Option.Rel (VEq R) (look fs d) (look fs d') := by
  induction fs generalizing d d' with
  | nil => exact .some h
  | cons f r ih =>
    rw [look_step f r d, look_step f r d']
    have h1 := alike_look1 f h
    revert h1
    cases look [f] d <;> cases look [f] d' <;> intro h1 <;> cases h1
    · exact .none
    · exact ih (by assumption)

theorem alike_some {fs : List Finder} {d d' x : Val F} (h : VEq R d d') (hx : look fs d = some x) : ∃ x', look fs d' = some x' ∧ VEq R x x' := by
  have := alike_look fs h
  rw [hx] at this
  cases e : look fs d' with
  | none => rw [e] at this; cases this
  | some x' => rw [e] at this; cases this with | some h => exact ⟨x', rfl, h⟩

theorem alike_none {fs : List Finder} {d d' : Val F} (h : VEq R d d') (hx : look fs d = none) : look fs d' = none := by
  have := alike_look fs h
  rw [hx] at this
  cases e : look fs d' with
  | none => rfl
  | some x' => rw [e] at this; cases this

theorem alike_child (f : Finder) {d d' : Val F} (h : VEq R d d') : VEq R (child f d) (child f d') := by
  have := alike_look1 f h
  unfold child
  revert this
  cases look [f] d <;> cases look [f] d' <;> intro h <;> cases h
  · exact .null
  · assumption

theorem alike_grow (f : Finder) {d d' y y' : Val F} (hy : VEq R y y') (h : VEq R d d') : VEq R (grow f y d) (grow f y' d') := by
  cases f with
  | key k =>
    cases h with
    | obj hm => exact .obj (alike_upd hm k (veqL_append (veqL_init (hm k)) (veqL_one hy)))
    | _ => exact .obj (alike_upd (fun _ => .nil) k (veqL_one hy))
  | index i =>
    cases h with
    | arr hl => exact .arr (alike_setElem hl i hy)
    | _ => exact .arr (alike_setElem .nil i hy)

theorem alike_over (f : Finder) {d d' y y' : Val F} (hy : VEq R y y') (h : VEq R d d') : VEq R (over f y d) (over f y' d') := by
  cases f with
  | key k =>
    cases h with
    | obj hm => exact .obj (alike_upd hm k (veqL_one hy))
    | _ => exact .obj (alike_upd (fun _ => .nil) k (veqL_one hy))
  | index i =>
    cases h with
    | arr hl => exact .arr (alike_setElem hl i hy)
    | _ => exact .arr (alike_setElem .nil i hy)

theorem alike_setV (fs : List Finder) {d d' v v' : Val F} (hv : VEq R v v') (h : VEq R d d') : VEq R (setV fs v d) (setV fs v' d') := by
  induction fs generalizing d d' with
  | nil => exact hv
  | cons f r ih =>
    rw [setV_cons, setV_cons]
    have := ih (alike_child f h)
    unfold put
    split
    · exact alike_over f this h
    · exact alike_grow f this h

theorem alike_place (f : Finder) {d d' y y' : Val F} (hy : VEq R y y') (h : VEq R d d') : VEq R (place f y d) (place f y' d') := by
  cases f with
  | key k =>
    cases h with
    | obj hm => exact .obj (alike_upd hm k (veqL_append (veqL_init (hm k)) (veqL_one hy)))
    | arr hl => exact .arr hl
    | str s => exact .str s
    | num hr => exact .num hr
    | bool b => exact .bool b
    | null => exact .null
  | index i =>
    cases h with
    | arr hl => exact .arr (veqL_append (veqL_append (veqL_take hl _) (veqL_one hy)) (veqL_drop hl _))
    | obj hm => exact .obj hm
    | str s => exact .str s
    | num hr => exact .num hr
    | bool b => exact .bool b
    | null => exact .null

theorem alike_delV {fs : List Finder} {d d' x : Val F} (h : VEq R d d') (hx : look fs d = some x) : VEq R (delV fs d) (delV fs d') := by
  induction fs generalizing d d' with
  | nil => exact h
  | cons f r ih =>
    by_cases hr : r = []
    · subst hr
      cases f with
      | key k =>
        cases h with
        | obj hm => exact .obj (alike_upd hm k .nil)
        | _ => cases hx
      | index i =>
        cases h with
        | arr hl => exact .arr (veqL_append (veqL_take hl _) (veqL_drop hl _))
        | _ => cases hx
    · rw [look_step] at hx
      cases e : look [f] d with
      | none => rw [e] at hx; cases hx
      | some z =>
        rw [e] at hx
        obtain ⟨z', e', hz⟩ := alike_some h e
        rw [delV_more f r hr d z e, delV_more f r hr d' z' e']
        exact alike_grow f (ih hz hx) h

theorem alike_change (fs : List Finder) {d d' y y' : Val F} (hy : VEq R y y') (h : VEq R d d') : VEq R (change fs y d) (change fs y' d') := by
  induction fs generalizing d d' with
  | nil => exact hy
  | cons f r ih =>
    simp only [change]
    cases e : look [f] d with
    | none => rw [alike_none h e]; exact h
    | some z =>
      obtain ⟨z', e', hz⟩ := alike_some h e
      rw [e']
      exact alike_place f (ih hz) h

theorem alike_kind {d d' : Val F} (h : VEq R d d') : kindWord d = kindWord d' := by cases h <;> rfl

theorem alike_fault (fs : List Finder) {d d' : Val F} (h : VEq R d d') : fault fs d = fault fs d' := by
  induction fs generalizing d d' with
  | nil => rfl
  | cons f r ih =>
    simp only [fault]
    cases e : look [f] d with
    | none => rw [alike_none h e]; cases f <;> cases h <;> rfl
    | some z =>
      obtain ⟨z', e', hz⟩ := alike_some h e
      rw [e']
      exact ih hz

theorem alike_room (lim : Nat) (fs : List Finder) {d d' : Val F} (h : VEq R d d') : RoomFor lim fs d ↔ RoomFor lim fs d' := by
  induction fs generalizing d d' with
  | nil => exact Iff.rfl
  | cons f r ih =>
    simp only [RoomFor]
    cases e : look [f] d with
    | none => rw [alike_none h e]
    | some z =>
      obtain ⟨z', e', hz⟩ := alike_some h e
      rw [e']
      exact ih hz

theorem alike_method {m m' : Method F} (hm : MethodAlike R m m') {d d' : Val F} (h : VEq R d d') : VEq R (m.spec d).1 (m'.spec d').1 ∧ SawAlike R (m.spec d).2 (m'.spec d').2 := by
  cases hm with
  | insert k hv =>
    cases h with
    | obj ho => exact ⟨.obj (alike_upd ho k (veqL_one hv)), .ok⟩
    | arr hl => exact ⟨.arr hl, .error _⟩
    | str s => exact ⟨.str s, .error _⟩
    | num hr => exact ⟨.num hr, .error _⟩
    | bool b => exact ⟨.bool b, .error _⟩
    | null => exact ⟨.null, .error _⟩
  | append k hv =>
    cases h with
    | obj ho => exact ⟨.obj (alike_upd ho k (veqL_append (ho k) (veqL_one hv))), .ok⟩
    | arr hl => exact ⟨.arr hl, .error _⟩
    | str s => exact ⟨.str s, .error _⟩
    | num hr => exact ⟨.num hr, .error _⟩
    | bool b => exact ⟨.bool b, .error _⟩
    | null => exact ⟨.null, .error _⟩
  | delete k =>
    cases h with
    | obj ho => exact ⟨.obj (alike_upd ho k .nil), .ok⟩
    | arr hl => exact ⟨.arr hl, .error _⟩
    | str s => exact ⟨.str s, .error _⟩
    | num hr => exact ⟨.num hr, .error _⟩
    | bool b => exact ⟨.bool b, .error _⟩
    | null => exact ⟨.null, .error _⟩
  | merge k =>
    cases h with
    | obj ho =>
      refine ⟨.obj ho, ?_⟩
      simp only [Method.spec]
      by_cases e : ‹Str → List (Val F)› k = []
      · rw [if_pos, if_pos]
        · exact .error _
        · first | exact e | exact (veqL_nil (ho k)).1 e
        · first | exact e | exact (veqL_nil (ho k)).2 e
      · rw [if_neg, if_neg]
        · exact .values (ho k)
        · first | exact e | exact fun h => e ((veqL_nil (ho k)).2 h)
        · first | exact e | exact fun h => e ((veqL_nil (ho k)).1 h)
    | arr hl => exact ⟨.arr hl, .error _⟩
    | str s => exact ⟨.str s, .error _⟩
    | num hr => exact ⟨.num hr, .error _⟩
    | bool b => exact ⟨.bool b, .error _⟩
    | null => exact ⟨.null, .error _⟩
  | push hv =>
    cases h with
    | arr hl => exact ⟨.arr (veqL_append hl (veqL_one hv)), .ok⟩
    | obj ho => exact ⟨.obj ho, .error _⟩
    | str s => exact ⟨.str s, .error _⟩
    | num hr => exact ⟨.num hr, .error _⟩
    | bool b => exact ⟨.bool b, .error _⟩
    | null => exact ⟨.null, .error _⟩
  | replace i hv =>
    cases h with
    | arr hl =>
      simp only [Method.spec, veqL_length hl]
      split
      · exact ⟨.arr (veqL_append (veqL_append (veqL_take hl _) (veqL_one hv)) (veqL_drop hl _)), .ok⟩
      · exact ⟨.arr hl, .error _⟩
    | obj ho => exact ⟨.obj ho, .error _⟩
    | str s => exact ⟨.str s, .error _⟩
    | num hr => exact ⟨.num hr, .error _⟩
    | bool b => exact ⟨.bool b, .error _⟩
    | null => exact ⟨.null, .error _⟩
  | remove i =>
    cases h with
    | arr hl =>
      simp only [Method.spec, veqL_length hl]
      split
      · exact ⟨.arr (veqL_append (veqL_take hl _) (veqL_drop hl _)), .ok⟩
      · exact ⟨.arr hl, .panic⟩
    | obj ho => exact ⟨.obj ho, .error _⟩
    | str s => exact ⟨.str s, .error _⟩
    | num hr => exact ⟨.num hr, .error _⟩
    | bool b => exact ⟨.bool b, .error _⟩
    | null => exact ⟨.null, .error _⟩
  | read => exact ⟨h, .value h⟩
  | assign hv => exact ⟨hv, .ok⟩

/-- One call. -/
theorem alike_step {lim : Nat} {c c' : Call F} (hc : CallAlike R c c') {d d' e : Val F} (h : VEq R d d') {o : Saw F} (hs : Step lim c d e o) :
    ∃ e' o', Step lim c' d' e' o' ∧ VEq R e e' ∧ SawAlike R o o' := by
  cases hs with
  | get hl hx => cases hc; obtain ⟨x', h1, h2⟩ := alike_some h hx; exact ⟨_, _, .get hl h1, h, .value h2⟩
  | getFault hl hx => cases hc; exact ⟨_, _, .getFault hl (alike_fault _ h ▸ hx), h, .error _⟩
  | getBad hb => cases hc; exact ⟨_, _, .getBad hb, h, .error _⟩
  | set hl hr => cases hc with | set _ hv => exact ⟨_, _, .set hl ((alike_room lim _ h).1 hr), alike_setV _ hv h, .value hv⟩
  | setPanic hl hr => cases hc with | set _ hv => exact ⟨_, _, .setPanic hl (fun h' => hr ((alike_room lim _ h).2 h')), h, .panic⟩
  | setBad hb => cases hc with | set _ hv => exact ⟨_, _, .setBad hb, h, .error _⟩
  | del hl hx => cases hc; obtain ⟨x', h1, h2⟩ := alike_some h hx; exact ⟨_, _, .del hl h1, alike_delV h hx, .value h2⟩
  | delFault hl hx => cases hc; exact ⟨_, _, .delFault hl (alike_fault _ h ▸ hx), h, .error _⟩
  | delBad hb => cases hc; exact ⟨_, _, .delBad hb, h, .error _⟩
  | direct => cases hc with | direct hm => exact ⟨_, _, .direct, alike_method hm h⟩
  | via hx =>
    cases hc with
    | via _ _ hm =>
      obtain ⟨x', h1, h2⟩ := alike_some h hx
      obtain ⟨h3, h4⟩ := alike_method hm h2
      exact ⟨_, _, .via h1, alike_change _ h3 h, h4⟩
  | viaFault hx => cases hc; exact ⟨_, _, .viaFault (alike_fault _ h ▸ hx), h, .error _⟩
  | index hx =>
    cases hc with
    | index _ _ hm =>
      obtain ⟨x', h1, h2⟩ := alike_some h hx
      obtain ⟨h3, h4⟩ := alike_method hm h2
      exact ⟨_, _, .index h1, alike_change _ h3 h, h4⟩
  | indexPanic hx => cases hc; exact ⟨_, _, .indexPanic (alike_fault _ h ▸ hx), h, .panic⟩

/-- A history. -/
theorem alike_history {lim : Nat} {cs cs' : List (Call F)} (hc : List.Forall₂ (CallAlike R) cs cs') {d d' : Val F} (h : VEq R d d') {os : List (Saw F)} {r : Option (Val F)}
    (hs : History lim cs d os r) : ∃ os' r', History lim cs' d' os' r' ∧ List.Forall₂ (SawAlike R) os os' ∧ Option.Rel (VEq R) r r' := by
  induction hs generalizing cs' d' with
  | nil => cases hc; exact ⟨_, _, .nil, .nil, .some h⟩
  | panic hp =>
    cases hc with
    | cons h1 h2 =>
      obtain ⟨e', o', h3, _, h5⟩ := alike_step h1 h hp
      cases h5
      exact ⟨_, _, .panic h3, .cons .panic .nil, .none⟩
  | step hp hne _ ih =>
    cases hc with
    | cons h1 h2 =>
      obtain ⟨e', o', h3, h4, h5⟩ := alike_step h1 h hp
      obtain ⟨os', r', h6, h7, h8⟩ := ih h2 h4
      refine ⟨_, _, .step h3 ?_ h6, .cons h5 h7, h8⟩
      rintro rfl
      cases h5
      exact hne rfl

theorem alike_collect {α : Type} {S : α → α → Prop} {l l' : List (Res α)} (h : List.Forall₂ (ResAlike S) l l') : ResAlike (List.Forall₂ S) (collect l) (collect l') := by
  induction h with
  | nil => exact .ok .nil
  | cons a _ ih =>
    cases a with
    | error e => exact .error e
    | ok hx =>
      simp only [collect]
      revert ih
      generalize collect _ = r
      generalize collect _ = r'
      intro ih
      cases ih with
      | ok hl => exact .ok (.cons hx hl)
      | error e => exact .error e

/-- Documents that are alike have the same shape. -/
theorem alike_shape {j j' : Json F} (h : VEq R (absJ j) (absJ j')) :
    (j = .null ∧ j' = .null) ∨ (∃ b, j = .boolean b ∧ j' = .boolean b) ∨ (∃ s, j = .string s ∧ j' = .string s) ∨ (∃ f g, j = .number f ∧ j' = .number g ∧ R f g) ∨
    (∃ l l', j = .array l ∧ j' = .array l' ∧ List.Forall₂ (fun a b => VEq R (absJ a) (absJ b)) l l') ∨ (∃ m m', j = .object m ∧ j' = .object m') := by
  cases j <;> cases j' <;> simp only [absJ] at h <;> cases h
  case object => exact .inr (.inr (.inr (.inr (.inr ⟨_, _, rfl, rfl⟩))))
  case array l l' h =>
    refine .inr (.inr (.inr (.inr (.inl ⟨_, _, rfl, rfl, ?_⟩))))
    have h := veqL_all.1 h
    induction l generalizing l' with
    | nil => cases l' with
      | nil => exact .nil
      | cons _ _ => simp only [absList] at h; cases h
    | cons x l ihl =>
      cases l' with
      | nil => simp only [absList] at h; cases h
      | cons y l' =>
        simp only [absList] at h
        cases h with
        | cons a b => exact .cons a (ihl _ (veqL_all.2 b) b)
  case string => exact .inr (.inr (.inl ⟨_, rfl, rfl⟩))
  case number h => exact .inr (.inr (.inr (.inl ⟨_, _, rfl, rfl, h⟩)))
  case boolean => exact .inr (.inl ⟨_, rfl, rfl⟩)
  case null => exact .inl ⟨rfl, rfl⟩

theorem alike_kindName {j j' : Json F} (h : VEq R (absJ j) (absJ j')) : j.kindName = j'.kindName := by
  rcases alike_shape h with ⟨rfl, rfl⟩ | ⟨b, rfl, rfl⟩ | ⟨s, rfl, rfl⟩ | ⟨f, g, rfl, rfl, hf⟩ | ⟨l, l', rfl, rfl, hl⟩ | ⟨m, m', rfl, rfl⟩
  all_goals rfl

theorem alike_convertErr {α : Type} {S : α → α → Prop} {j j' : Json F} (h : VEq R (absJ j) (absJ j')) (w : String) : ResAlike S (convertErr j w : Res α) (convertErr j' w) := by
  unfold convertErr
  rw [alike_kindName h]
  exact .error _

theorem alike_some_dec {α : Type} {S : α → α → Prop} {dec : Json F → Res α} (j j' : Json F) (hj : j ≠ .null) (hj' : j' ≠ .null)
    (h : ResAlike S (dec j) (dec j')) : ResAlike (Option.Rel S) (decOption dec j) (decOption dec j') := by
  have e : ∀ j : Json F, j ≠ .null → decOption dec j = match dec j with | .ok x => .ok (some x) | .error e => .error e := by
    intro j hj
    cases j <;> first | exact absurd rfl hj | rfl
  rw [e j hj, e j' hj']
  revert h
  generalize dec j = r
  generalize dec j' = r'
  intro h
  cases h with
  | ok hx => exact .ok (.some hx)
  | error e => exact .error e

/-- Decoding, at types without `f32`, maps and `Json`. -/
theorem alike_dec [FloatOps F] (hR : ∀ f g lo hi, R f g → FloatOps.toInt lo hi f = FloatOps.toInt lo hi g) (t : Ty) (hp : Plain t) (hn : NoF32 t) :
    ∀ j j' : Json F, VEq R (absJ j) (absJ j') → ResAlike (AlikeAt R t) (t.dec j) (t.dec j') := by
  induction t with
  | json => exact hp.elim
  | pairs κ t _ => exact hp.elim
  | map κ t _ => exact hp.elim
  | f32 => exact hn.elim
  | string =>
    intro j j' h
    have he := fun w => alike_convertErr (α := Ty.T F .string) (S := AlikeAt R .string) h w
    rcases alike_shape h with ⟨rfl, rfl⟩ | ⟨b, rfl, rfl⟩ | ⟨s, rfl, rfl⟩ | ⟨f, g, rfl, rfl, hf⟩ | ⟨l, l', rfl, rfl, hl⟩ | ⟨m, m', rfl, rfl⟩
    · exact he _
    · exact he _
    · exact .ok rfl
    · exact he _
    · exact he _
    · exact he _
  | bool =>
    intro j j' h
    have he := fun w => alike_convertErr (α := Ty.T F .bool) (S := AlikeAt R .bool) h w
    rcases alike_shape h with ⟨rfl, rfl⟩ | ⟨b, rfl, rfl⟩ | ⟨s, rfl, rfl⟩ | ⟨f, g, rfl, rfl, hf⟩ | ⟨l, l', rfl, rfl, hl⟩ | ⟨m, m', rfl, rfl⟩
    · exact he _
    · exact .ok rfl
    · exact he _
    · exact he _
    · exact he _
    · exact he _
  | f64 =>
    intro j j' h
    have he := fun w => alike_convertErr (α := Ty.T F .f64) (S := AlikeAt R .f64) h w
    rcases alike_shape h with ⟨rfl, rfl⟩ | ⟨b, rfl, rfl⟩ | ⟨s, rfl, rfl⟩ | ⟨f, g, rfl, rfl, hf⟩ | ⟨l, l', rfl, rfl, hl⟩ | ⟨m, m', rfl, rfl⟩
    · exact he _
    · exact he _
    · exact he _
    · exact .ok hf
    · exact he _
    · exact he _
  | int name lo hi =>
    intro j j' h
    have he := fun w => alike_convertErr (α := Ty.T F (.int name lo hi)) (S := AlikeAt R (.int name lo hi)) h w
    rcases alike_shape h with ⟨rfl, rfl⟩ | ⟨b, rfl, rfl⟩ | ⟨s, rfl, rfl⟩ | ⟨f, g, rfl, rfl, hf⟩ | ⟨l, l', rfl, rfl, hl⟩ | ⟨m, m', rfl, rfl⟩
    · exact he _
    · exact he _
    · exact he _
    · exact .ok (hR _ _ _ _ hf)
    · exact he _
    · exact he _
  | option t ih =>
    intro j j' h
    have h1 := ih hp hn j j' h
    rcases alike_shape h with ⟨rfl, rfl⟩ | ⟨b, rfl, rfl⟩ | ⟨s, rfl, rfl⟩ | ⟨f, g, rfl, rfl, hf⟩ | ⟨l, l', rfl, rfl, hl⟩ | ⟨m, m', rfl, rfl⟩
    · exact .ok .none
    · exact alike_some_dec _ _ (by intro h; cases h) (by intro h; cases h) h1
    · exact alike_some_dec _ _ (by intro h; cases h) (by intro h; cases h) h1
    · exact alike_some_dec _ _ (by intro h; cases h) (by intro h; cases h) h1
    · exact alike_some_dec _ _ (by intro h; cases h) (by intro h; cases h) h1
    · exact alike_some_dec _ _ (by intro h; cases h) (by intro h; cases h) h1
  | vec t ih =>
    intro j j' h
    have he := fun w => alike_convertErr (α := Ty.T F (.vec t)) (S := AlikeAt R (.vec t)) h w
    rcases alike_shape h with ⟨rfl, rfl⟩ | ⟨b, rfl, rfl⟩ | ⟨s, rfl, rfl⟩ | ⟨f, g, rfl, rfl, hf⟩ | ⟨l, l', rfl, rfl, hl⟩ | ⟨m, m', rfl, rfl⟩
    · exact he _
    · exact he _
    · exact he _
    · exact he _
    · refine alike_collect ?_
      clear h he
      induction hl with
      | nil => exact .nil
      | cons a _ ihl => exact .cons (ih hp hn _ _ a) ihl
    · exact he _

end RJ
