import Verif.Spec.Place
import Verif.Proof.Share
/-
  A part of a document, in its place and alone (C104).
-/
namespace RJ
open Spec
variable {F : Type}

theorem means_ne {l : Loc} {fs : List Finder} (h : l.Means fs) : fs ≠ [] := by
  cases l with
  | text s =>
    obtain ⟨h0, p, hp, rfl⟩ := parsePath_of_text h
    cases p <;> simp [comps]
  | path f r => rw [show fs = f :: r from h]; simp

theorem moved_wf {B : List Finder} {c c' : Call F} (h : Moved B c c') : c.WF ↔ c'.WF := by cases h <;> exact Iff.rfl

/-- A call on the part does in its place what it does alone. -/
theorem moved_step {lim : Nat} {B : List Finder} {d z : Val F} (hz : look B d = some z) {c c' : Call F} (hm : Moved B c c') {y e : Val F} {o : Saw F} (h : Step lim c y e o) :
    Step lim c' (change B y d) (change B e d) o := by
  cases hm with
  | get h1 h2 =>
    cases h with
    | get a b => cases means_unique h1 a; exact .get h2 (by rw [at_look hz]; exact b)
    | getFault a b => cases means_unique h1 a; exact .getFault h2 (by rw [at_fault hz]; exact b)
    | getBad a => exact (badPath_noText a ⟨_, h1⟩).elim
  | set v h1 h2 =>
    cases h with
    | set a b =>
      cases means_unique h1 a
      have := Step.set (v := v) h2 ((at_room lim hz _ _).2 b)
      cases hf : ‹List Finder› with
      | nil => exact (means_ne h1 hf).elim
      | cons g t => rw [hf, at_setV hz] at this; exact this
    | setPanic a b => cases means_unique h1 a; exact .setPanic h2 (fun h' => b ((at_room lim hz _ _).1 h'))
    | setBad a => exact (badPath_noText a ⟨_, h1⟩).elim
  | del h1 h2 =>
    cases h with
    | del a b =>
      cases means_unique h1 a
      have := Step.del (lim := lim) h2 ((at_look hz _ _).trans b)
      cases hf : ‹List Finder› with
      | nil => exact (means_ne h1 hf).elim
      | cons g t => rw [hf] at b; rw [hf, at_delV hz _ _ _ _ b] at this; exact this
    | delFault a b => cases means_unique h1 a; exact .delFault h2 (by rw [at_fault hz]; exact b)
    | delBad a => exact (badPath_noText a ⟨_, h1⟩).elim
  | via m h1 =>
    cases h with
    | via a =>
      have := Step.via (lim := lim) (m := m) (d := change B y d) (by rw [h1]; exact (at_look hz _ _).trans a)
      rw [h1, at_change hz] at this
      exact this
    | viaFault a => exact .viaFault (by rw [h1, at_fault hz]; exact a)
  | index m h1 =>
    cases h with
    | index a =>
      have := Step.index (lim := lim) (m := m) (d := change B y d) (by rw [h1]; exact (at_look hz _ _).trans a)
      rw [h1, at_change hz] at this
      exact this
    | indexPanic a => exact .indexPanic (by rw [h1, at_fault hz]; exact a)
  | owner m h1 =>
    cases h with
    | direct =>
      have := Step.via (lim := lim) (m := m) (d := change B y d) (by rw [h1]; exact at_same hz _)
      rw [h1, at_twice hz] at this
      exact this
  | ownerIndex m h1 =>
    cases h with
    | direct =>
      have := Step.index (lim := lim) (m := m) (d := change B y d) (by rw [h1]; exact at_same hz _)
      rw [h1, at_twice hz] at this
      exact this

/-- The converse: what a moved call does comes from what the call does on the part. -/
theorem moved_back {lim : Nat} {B : List Finder} {d z : Val F} (hz : look B d = some z) {c c' : Call F} (hm : Moved B c c') {y e : Val F} {o : Saw F} (h : Step lim c' (change B y d) e o) :
    ∃ x, Step lim c y x o ∧ e = change B x d := by
  have key : ∀ {x}, Step lim c y x o → ∃ x, Step lim c y x o ∧ e = change B x d := fun hs => ⟨_, hs, (step_unique h (moved_step hz hm hs)).1⟩
  cases hm with
  | get h1 h2 =>
    cases h with
    | get a b => cases means_unique h2 a; rw [at_look hz] at b; exact key (.get h1 b)
    | getFault a b => cases means_unique h2 a; rw [at_fault hz] at b; exact key (.getFault h1 b)
    | getBad a => exact (badPath_noText a ⟨_, h2⟩).elim
  | set v h1 h2 =>
    cases h with
    | set a b => cases means_unique h2 a; exact key (.set h1 ((at_room lim hz _ _).1 b))
    | setPanic a b => cases means_unique h2 a; exact key (.setPanic h1 (fun h' => b ((at_room lim hz _ _).2 h')))
    | setBad a => exact (badPath_noText a ⟨_, h2⟩).elim
  | del h1 h2 =>
    cases h with
    | del a b => cases means_unique h2 a; rw [at_look hz] at b; exact key (.del h1 b)
    | delFault a b => cases means_unique h2 a; rw [at_fault hz] at b; exact key (.delFault h1 b)
    | delBad a => exact (badPath_noText a ⟨_, h2⟩).elim
  | via m h1 =>
    cases h with
    | via a => rw [h1, at_look hz] at a; exact key (.via a)
    | viaFault a => rw [h1, at_fault hz] at a; exact key (.viaFault a)
  | index m h1 =>
    cases h with
    | index a => rw [h1, at_look hz] at a; exact key (.index a)
    | indexPanic a => rw [h1, at_fault hz] at a; exact key (.indexPanic a)
  | owner m h1 =>
    cases h with
    | via a =>
      rw [h1, at_same hz] at a
      cases a
      exact key .direct
    | viaFault a => rw [h1] at a; exact (fault_no (at_same hz y) a).elim
  | ownerIndex m h1 =>
    cases h with
    | index a =>
      rw [h1, at_same hz] at a
      cases a
      exact key .direct
    | indexPanic a => rw [h1] at a; exact (fault_no (at_same hz y) a).elim

/-- A history of the part alone is a history of the whole. -/
theorem moved_history {lim : Nat} {B : List Finder} {d z : Val F} (hz : look B d = some z) {cs cs' : List (Call F)} (hm : List.Forall₂ (Moved B) cs cs') {y : Val F} {os : List (Saw F)}
    {r : Option (Val F)} (h : History lim cs y os r) : History lim cs' (change B y d) os (r.map (fun e => change B e d)) := by
  induction h generalizing cs' with
  | nil => cases hm; exact .nil
  | panic h1 => cases hm with | cons h2 _ => exact .panic (moved_step hz h2 h1)
  | step h1 hne _ ih => cases hm with | cons h2 h3 => exact .step (moved_step hz h2 h1) hne (ih h3)

/-! ### Places that part -/

theorem part_look {P Q : List Finder} (h : Diverge P Q) (y d : Val F) : look Q (change P y d) = look Q d := by
  obtain ⟨pre, a, b, s, t, rfl, rfl, hab⟩ := h
  induction pre generalizing d with
  | nil =>
    simp only [List.nil_append, change]
    cases e : look [a] d with
    | none => rfl
    | some x =>
      simp only [place_put a _ d x e]
      rw [look_step b t (grow _ _ _), look_step b t d]
      congr 1
      have hba := apart_symm hab
      cases a <;> cases b <;> simp only [Apart] at hab hba <;> cases d <;> first | (simp only [look] at e; cases e; done) | (simp [grow, look, upd, hba]; done) | skip
      next i k l =>
        have h1 : i < l.length := by
          by_contra h
          simp only [look, List.getElem?_eq_none (Nat.le_of_not_lt h)] at e
          cases e
        simp only [grow, look]
        rw [setElem_get, if_neg hba]
        by_cases h2 : k < l.length
        · rw [if_pos h2]
        · rw [if_neg h2, if_neg (by omega), List.getElem?_eq_none (Nat.le_of_not_lt h2)]
  | cons g pre ih =>
    simp only [List.cons_append, change]
    cases e : look [g] d with
    | none => rfl
    | some x =>
      simp only [place_put g _ d x e]
      rw [look_step g _ (grow _ _ _), look_step g _ d, look_grow, e]
      exact ih x

theorem part_comm {P Q : List Finder} (h : Diverge P Q) {d z w : Val F} (hz : look P d = some z) (hw : look Q d = some w) (x y : Val F) :
    change P x (change Q y d) = change Q y (change P x d) := by
  obtain ⟨pre, a, b, s, t, rfl, rfl, hab⟩ := h
  induction pre generalizing d with
  | nil =>
    simp only [List.nil_append] at hz hw ⊢
    rw [look_step] at hz hw
    cases e1 : look [a] d with
    | none => rw [e1] at hz; cases hz
    | some u =>
      cases e2 : look [b] d with
      | none => rw [e2] at hw; cases hw
      | some v =>
        have f1 : ∀ q, look [a] (grow b q d) = some u := fun q => look_put_apart (apart_symm hab) false q d u e1
        have f2 : ∀ q, look [b] (grow a q d) = some v := fun q => look_put_apart hab false q d v e2
        simp only [change, e1, e2, place_put a _ d u e1, place_put b _ d v e2, f1, f2]
        rw [place_put a _ _ _ (f1 _), place_put b _ _ _ (f2 _)]
        exact put_comm hab false false _ _ d
  | cons g pre ih =>
    simp only [List.cons_append] at hz hw ⊢
    rw [look_step] at hz hw
    cases e : look [g] d with
    | none => rw [e] at hz; cases hz
    | some u =>
      rw [e] at hz hw
      simp only [change, e, place_put g _ d u e, look_grow]
      rw [place_put g _ _ _ (look_grow g _ d), place_put g _ _ _ (look_grow g _ d), grow_grow, grow_grow, ih hz hw]

/-! ### Clients at places that part -/

theorem diverge_ne {P Q : List Finder} (h : Diverge P Q) : P ≠ Q := by
  rintro rfl
  obtain ⟨pre, a, b, s, t, h1, h2, h3⟩ := h
  obtain ⟨h4, _⟩ := List.cons.inj (List.append_cancel_left (h1.symm.trans h2))
  subst h4
  exact apart_ne h3

/-- The places are there and part. -/
def Parted (L : List (List Finder)) (d : Val F) : Prop := (∀ P ∈ L, ∃ z, look P d = some z) ∧ ∀ P ∈ L, ∀ Q ∈ L, P ≠ Q → Diverge P Q

theorem set_look {L : List (List Finder)} {d : Val F} (h : Parted L d) {P : List Finder} (hP : P ∈ L) (y : Val F) {Q : List Finder} (hQ : Q ∈ L) :
    look Q (change P y d) = if Q = P then some y else look Q d := by
  by_cases e : Q = P
  · subst e
    obtain ⟨z, hz⟩ := h.1 Q hQ
    rw [if_pos rfl, at_same hz]
  · rw [if_neg e, part_look (h.2 P hP Q hQ (fun h => e h.symm))]

theorem set_change {L : List (List Finder)} {d : Val F} (h : Parted L d) {P : List Finder} (hP : P ∈ L) (y : Val F) : Parted L (change P y d) := by
  refine ⟨fun Q hQ => ?_, h.2⟩
  rw [set_look h hP y hQ]
  by_cases e : Q = P
  · exact ⟨y, by rw [if_pos e]⟩
  · rw [if_neg e]; exact h.1 Q hQ

theorem set_tail {P : List Finder} {L : List (List Finder)} {d : Val F} (h : Parted (P :: L) d) : Parted L d :=
  ⟨fun Q hQ => h.1 Q (List.mem_cons_of_mem _ hQ), fun Q hQ R hR => h.2 Q (List.mem_cons_of_mem _ hQ) R (List.mem_cons_of_mem _ hR)⟩

/-- `d` with the values of `e` at the places `L`. -/
def rebuild (L : List (List Finder)) (e d : Val F) : Val F := L.foldr (fun P acc => change P ((look P e).getD .null) acc) d

theorem rebuild_set {K : List (List Finder)} (L : List (List Finder)) (hL : ∀ P ∈ L, P ∈ K) (e : Val F) {d : Val F} (h : Parted K d) : Parted K (rebuild L e d) := by
  induction L with
  | nil => exact h
  | cons P L ih => exact set_change (ih fun Q hQ => hL Q (List.mem_cons_of_mem _ hQ)) (hL P List.mem_cons_self) _

theorem rebuild_self (L : List (List Finder)) (e : Val F) (h : Parted L e) : rebuild L e e = e := by
  induction L with
  | nil => rfl
  | cons P L ih =>
    obtain ⟨z, hz⟩ := h.1 P List.mem_cons_self
    show change P _ (rebuild L e e) = e
    rw [ih (set_tail h), hz]
    exact at_self hz

theorem rebuild_off {K : List (List Finder)} (L : List (List Finder)) (hL : ∀ P ∈ L, P ∈ K) {Q : List Finder} (hQ : Q ∈ K) (hn : Q ∉ L) (y e d : Val F) (h : Parted K d) :
    rebuild L e (change Q y d) = change Q y (rebuild L e d) := by
  induction L with
  | nil => rfl
  | cons P L ih =>
    have hP := hL P List.mem_cons_self
    have hL' := fun R hR => hL R (List.mem_cons_of_mem _ hR)
    have hs := rebuild_set L hL' e h
    obtain ⟨z, hz⟩ := hs.1 P hP
    obtain ⟨w, hw⟩ := hs.1 Q hQ
    show change P _ (rebuild L e (change Q y d)) = change Q y (change P _ (rebuild L e d))
    rw [ih hL' (fun h => hn (List.mem_cons_of_mem _ h))]
    exact part_comm (h.2 P hP Q hQ (fun h => hn (h ▸ List.mem_cons_self))) hz hw _ _

theorem rebuild_on {K : List (List Finder)} (L : List (List Finder)) (hL : ∀ P ∈ L, P ∈ K) (hd : L.Nodup) {Q : List Finder} (hQ : Q ∈ L) (y e d : Val F) (h : Parted K d) :
    rebuild L e (change Q y d) = rebuild L e d := by
  induction L with
  | nil => cases hQ
  | cons P L ih =>
    have hL' := fun R hR => hL R (List.mem_cons_of_mem _ hR)
    obtain ⟨hd1, hd2⟩ := List.nodup_cons.1 hd
    show change P _ (rebuild L e (change Q y d)) = change P _ (rebuild L e d)
    by_cases hp : Q = P
    · subst hp
      rw [rebuild_off L hL' (hL Q List.mem_cons_self) hd1 _ _ _ h]
      obtain ⟨z, hz⟩ := (rebuild_set L hL' e h).1 Q (hL Q List.mem_cons_self)
      exact at_twice hz _ _
    · rcases List.mem_cons.1 hQ with h1 | h1
      · exact (hp h1).elim
      · rw [ih hL' hd2 h1]

/-- The clients' places are among `L`; each keeps to its own. -/
def OnPlaces (L : List (List Finder)) (s : Rota F) : Prop := ∀ p ∈ s, p.1 ∈ L ∧ ∃ c, Moved p.1 c p.2

/-- A schedule changes nothing but what is at the places. -/
theorem rota_rebuild {lim : Nat} {L : List (List Finder)} (hd : L.Nodup) (s : Rota F) (hs : OnPlaces L s) {d e : Val F} (h : Parted L d) {os : List (Saw F)}
    (hh : History lim s.calls d os (some e)) : Parted L e ∧ rebuild L e d = e ∧ ∀ P ∈ L, (∀ p ∈ s, p.1 ≠ P) → look P e = look P d := by
  induction s generalizing d os with
  | nil => cases hh; exact ⟨h, rebuild_self L _ h, fun _ _ _ => rfl⟩
  | cons p s ih =>
    obtain ⟨Q, c'⟩ := p
    cases hh with
    | step h1 hne h2 =>
      obtain ⟨hQ, c, hm⟩ := hs _ List.mem_cons_self
      obtain ⟨z, hz⟩ := h.1 Q hQ
      rw [show d = change Q z d from (at_self hz).symm] at h1
      obtain ⟨x, _, rfl⟩ := moved_back hz hm h1
      obtain ⟨h4, h5, h6⟩ := ih (fun p hp => hs p (List.mem_cons_of_mem _ hp)) (set_change h hQ x) h2
      refine ⟨h4, by rw [← rebuild_on L (fun _ h => h) hd hQ x e d h]; exact h5, fun P hP hn => ?_⟩
      rw [h6 P hP (fun p hp => hn p (List.mem_cons_of_mem _ hp)), set_look h hQ x hP, if_neg (fun e => hn _ List.mem_cons_self e.symm)]

/-- One client of a schedule that ends sees what it would see alone, also in another document with the same value at its place. -/
theorem rota_alone {lim : Nat} {L : List (List Finder)} (s : Rota F) (hs : OnPlaces L s) {P : List Finder} (hP : P ∈ L) {d e d₁ y : Val F} (h : Parted L d)
    (h1 : look P d = some y) (h2 : look P d₁ = some y) {os : List (Saw F)} (hh : History lim s.calls d os (some e)) :
    ∃ x, look P e = some x ∧ History lim (s.callsAt P) d₁ (s.seenAt P os) (some (change P x d₁)) := by
  induction s generalizing d d₁ y os with
  | nil => cases hh; exact ⟨y, h1, by rw [at_self h2]; exact .nil⟩
  | cons p s ih =>
    obtain ⟨Q, c'⟩ := p
    cases hh with
    | step h3 hne h4 =>
      obtain ⟨hQ, c, hm⟩ := hs _ List.mem_cons_self
      have hs' : OnPlaces L s := fun p hp => hs p (List.mem_cons_of_mem _ hp)
      obtain ⟨z, hz⟩ := h.1 Q hQ
      rw [show d = change Q z d from (at_self hz).symm] at h3
      obtain ⟨x, h5, rfl⟩ := moved_back hz hm h3
      have h6 := set_look h hQ x hP
      by_cases hb : Q = P
      · subst hb
        cases h1.symm.trans hz
        rw [if_pos rfl] at h6
        obtain ⟨w, h7, h8⟩ := ih hs' (set_change h hQ x) h6 (at_same h2 x) h4
        refine ⟨w, h7, ?_⟩
        rw [at_twice h2] at h8
        simp only [Rota.callsAt, Rota.seenAt, List.zip_cons_cons, List.filter_cons, decide_true, if_true, List.map_cons]
        have h9 := moved_step h2 hm h5
        rw [at_self h2] at h9
        exact .step h9 hne h8
      · rw [if_neg (fun e => hb e.symm)] at h6
        obtain ⟨w, h7, h8⟩ := ih hs' (set_change h hQ x) (h6.trans h1) h2 h4
        refine ⟨w, h7, ?_⟩
        simp only [Rota.callsAt, Rota.seenAt, List.zip_cons_cons, List.filter_cons, hb, decide_false, Bool.false_eq_true, if_false]
        exact h8

/-- A schedule that ends in a panic: one client panics alone as well. -/
theorem rota_panic {lim : Nat} {L : List (List Finder)} (s : Rota F) (hs : OnPlaces L s) {d : Val F} (h : Parted L d) {os : List (Saw F)} (hh : History lim s.calls d os none) :
    ∃ P ∈ L, ∃ y, look P d = some y ∧ ∀ d₁, look P d₁ = some y → ∃ os', History lim (s.callsAt P) d₁ os' none := by
  induction s generalizing d os with
  | nil => cases hh
  | cons p s ih =>
    obtain ⟨Q, c'⟩ := p
    obtain ⟨hQ, c, hm⟩ := hs _ List.mem_cons_self
    obtain ⟨z, hz⟩ := h.1 Q hQ
    cases hh with
    | panic h1 =>
      rw [show d = change Q z d from (at_self hz).symm] at h1
      obtain ⟨x, h5, _⟩ := moved_back hz hm h1
      refine ⟨Q, hQ, z, hz, fun d₁ h2 => ⟨[.panic], ?_⟩⟩
      simp only [Rota.callsAt, List.filter_cons, decide_true, if_true, List.map_cons]
      have h9 := moved_step h2 hm h5
      rw [at_self h2] at h9
      exact .panic h9
    | step h1 hne h2 =>
      rw [show d = change Q z d from (at_self hz).symm] at h1
      obtain ⟨x, h5, rfl⟩ := moved_back hz hm h1
      obtain ⟨P, hP, y, h3, h4⟩ := ih (fun p hp => hs p (List.mem_cons_of_mem _ hp)) (set_change h hQ x) h2
      rw [set_look h hQ x hP] at h3
      by_cases hb : P = Q
      · subst hb
        rw [if_pos rfl] at h3
        cases h3
        refine ⟨P, hP, z, hz, fun d₁ h6 => ?_⟩
        obtain ⟨os', h7⟩ := h4 _ (at_same h6 x)
        simp only [Rota.callsAt, List.filter_cons, decide_true, if_true, List.map_cons]
        have h9 := moved_step h6 hm h5
        rw [at_self h6] at h9
        exact ⟨_ :: os', .step h9 hne h7⟩
      · rw [if_neg hb] at h3
        refine ⟨P, hP, y, h3, fun d₁ h6 => ?_⟩
        obtain ⟨os', h7⟩ := h4 _ h6
        simp only [Rota.callsAt, List.filter_cons, show ¬ Q = P from fun e => hb e.symm, decide_false, Bool.false_eq_true, if_false]
        exact ⟨os', h7⟩

theorem rebuild_rest (L : List (List Finder)) (e d : Val F) {Q : List Finder} (hQ : ∀ P ∈ L, Diverge P Q) : look Q (rebuild L e d) = look Q d := by
  induction L with
  | nil => rfl
  | cons P L ih =>
    show look Q (change P _ (rebuild L e d)) = look Q d
    rw [part_look (hQ P List.mem_cons_self), ih fun R hR => hQ R (List.mem_cons_of_mem _ hR)]

end RJ
