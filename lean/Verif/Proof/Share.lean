import Verif.Spec.Share
import Verif.Proof.Laws
/-
  A call below a member looks at that member only and changes that member only (C102).
-/
namespace RJ
open Spec
variable {F : Type}

theorem upd_kept (m : Str → List (Val F)) (a : Str) : upd m a (m a) = m := by
  funext q
  by_cases h : q = a
  · subst h; simp [upd]
  · simp [upd, h]

theorem share_look1 {m m' : Str → List (Val F)} {a : Str} (h : m' a = m a) : look [.key a] (.obj m') = look [.key a] (.obj m) := by
  simp only [look, h]

theorem share_look {m m' : Str → List (Val F)} {a : Str} (h : m' a = m a) (r : List Finder) : look (.key a :: r) (.obj m') = look (.key a :: r) (.obj m) := by
  simp only [look, h]

theorem share_fault {m m' : Str → List (Val F)} {a : Str} (h : m' a = m a) (r : List Finder) : fault (.key a :: r) (.obj m') = fault (.key a :: r) (.obj m) := by
  simp only [fault, share_look1 h, complaint]

theorem share_room (lim : Nat) {m m' : Str → List (Val F)} {a : Str} (h : m' a = m a) (r : List Finder) : RoomFor lim (.key a :: r) (.obj m') ↔ RoomFor lim (.key a :: r) (.obj m) := by
  simp only [RoomFor, share_look1 h]

theorem share_setV (r : List Finder) (v : Val F) (m : Str → List (Val F)) (a : Str) :
    ∃ l, ∀ m', m' a = m a → setV (.key a :: r) v (.obj m') = .obj (upd m' a l) := by
  cases r with
  | nil => exact ⟨_, fun m' h => rfl⟩
  | cons f r => exact ⟨_, fun m' h => by rw [setV, h]; intro h; cases h⟩

theorem share_delV (r : List Finder) (m : Str → List (Val F)) (a : Str) :
    ∃ l, ∀ m', m' a = m a → delV (.key a :: r) (.obj m') = .obj (upd m' a l) := by
  cases r with
  | nil => exact ⟨_, fun m' h => rfl⟩
  | cons f r =>
    cases e : (m a).getLast? with
    | none =>
      refine ⟨m a, fun m' h => ?_⟩
      rw [delV, h, e, ← h, upd_kept]
      all_goals simp
    | some x =>
      refine ⟨(m a).dropLast ++ [delV (f :: r) x], fun m' h => ?_⟩
      rw [delV, h, e]
      all_goals simp

theorem share_change (r : List Finder) (y : Val F) (m : Str → List (Val F)) (a : Str) :
    ∃ l, ∀ m', m' a = m a → change (.key a :: r) y (.obj m') = .obj (upd m' a l) := by
  cases e : (m a).getLast? with
  | none =>
    refine ⟨m a, fun m' h => ?_⟩
    simp only [change, look, h, e]
    rw [← h, upd_kept]
  | some x =>
    refine ⟨(m a).dropLast ++ [change r y x], fun m' h => ?_⟩
    simp only [change, look, h, e, place]

theorem share_method {a : Str} {c : Method F} (hc : OfKey a c) (m : Str → List (Val F)) :
    ∃ l, ∀ m', m' a = m a → c.spec (.obj m') = (.obj (upd m' a l), (c.spec (.obj m)).2) := by
  cases hc with
  | insert v => exact ⟨_, fun m' h => rfl⟩
  | append v => exact ⟨m a ++ [absJ v], fun m' h => by simp only [Method.spec, h]⟩
  | delete => exact ⟨_, fun m' h => rfl⟩
  | merge => exact ⟨m a, fun m' h => by simp only [Method.spec, h]; rw [← h, upd_kept]⟩

/-! ### Below a place -/

/-- The document with `y` at the place `B`. -/
theorem at_look {B : List Finder} {d z : Val F} (hz : look B d = some z) (y : Val F) (r : List Finder) : look (B ++ r) (change B y d) = look r y := by
  induction B generalizing d with
  | nil => rfl
  | cons f t ih =>
    rw [look_step] at hz
    cases e : look [f] d with
    | none => rw [e] at hz; cases hz
    | some x =>
      rw [e] at hz
      simp only [change, e, List.cons_append]
      rw [place_put f _ d x e, look_step, look_grow]
      exact ih hz

theorem at_change {B : List Finder} {d z : Val F} (hz : look B d = some z) (y w : Val F) (r : List Finder) : change (B ++ r) w (change B y d) = change B (change r w y) d := by
  induction B generalizing d with
  | nil => rfl
  | cons f t ih =>
    rw [look_step] at hz
    cases e : look [f] d with
    | none => rw [e] at hz; cases hz
    | some x =>
      rw [e] at hz
      simp only [change, e, List.cons_append, place_put f _ d x e, look_grow]
      rw [place_put f _ _ _ (look_grow f _ d), grow_grow, ih hz]

theorem at_setV {B : List Finder} {d z : Val F} (hz : look B d = some z) (y v : Val F) (f : Finder) (r : List Finder) :
    setV (B ++ f :: r) v (change B y d) = change B (setV (f :: r) v y) d := by
  induction B generalizing d with
  | nil => rfl
  | cons g t ih =>
    rw [look_step] at hz
    cases e : look [g] d with
    | none => rw [e] at hz; cases hz
    | some x =>
      rw [e] at hz
      simp only [change, e, List.cons_append, place_put g _ d x e]
      rw [setV_more g _ (by simp), child_grow, grow_grow, ih hz]

theorem at_delV {B : List Finder} {d z : Val F} (hz : look B d = some z) (y w : Val F) (f : Finder) (r : List Finder) (hw : look (f :: r) y = some w) :
    delV (B ++ f :: r) (change B y d) = change B (delV (f :: r) y) d := by
  induction B generalizing d with
  | nil => rfl
  | cons g t ih =>
    rw [look_step] at hz
    cases e : look [g] d with
    | none => rw [e] at hz; cases hz
    | some x =>
      rw [e] at hz
      simp only [change, e, List.cons_append, place_put g _ d x e]
      rw [delV_more g _ (by simp) _ _ (look_grow g _ d), grow_grow, ih hz]

theorem at_fault {B : List Finder} {d z : Val F} (hz : look B d = some z) (y : Val F) (r : List Finder) : fault (B ++ r) (change B y d) = fault r y := by
  induction B generalizing d with
  | nil => rfl
  | cons f t ih =>
    rw [look_step] at hz
    cases e : look [f] d with
    | none => rw [e] at hz; cases hz
    | some x =>
      rw [e] at hz
      simp only [change, e, List.cons_append, place_put f _ d x e, fault, look_grow]
      exact ih hz

theorem at_room (lim : Nat) {B : List Finder} {d z : Val F} (hz : look B d = some z) (y : Val F) (r : List Finder) : RoomFor lim (B ++ r) (change B y d) ↔ RoomFor lim r y := by
  induction B generalizing d with
  | nil => exact Iff.rfl
  | cons f t ih =>
    rw [look_step] at hz
    cases e : look [f] d with
    | none => rw [e] at hz; cases hz
    | some x =>
      rw [e] at hz
      simp only [change, e, List.cons_append, place_put f _ d x e, RoomFor, look_grow]
      exact ih hz

theorem at_self {B : List Finder} {d z : Val F} (hz : look B d = some z) : change B z d = d := by
  induction B generalizing d with
  | nil => cases hz; rfl
  | cons f t ih =>
    rw [look_step] at hz
    cases e : look [f] d with
    | none => rw [e] at hz; cases hz
    | some x =>
      rw [e] at hz
      simp only [change, e, place_put f _ d x e]
      rw [ih hz, grow_same f x d e]

theorem at_same {B : List Finder} {d z : Val F} (hz : look B d = some z) (y : Val F) : look B (change B y d) = some y := by
  have := at_look hz y []
  rwa [List.append_nil] at this

theorem at_inj {B : List Finder} {d z : Val F} (hz : look B d = some z) {y y' : Val F} (h : change B y d = change B y' d) : y = y' := by
  have h1 := at_same hz y
  rw [h, at_same hz y'] at h1
  exact (Option.some.inj h1).symm

theorem at_twice {B : List Finder} {d z : Val F} (hz : look B d = some z) (y w : Val F) : change B w (change B y d) = change B w d := by
  have := at_change hz y w []
  rwa [List.append_nil] at this

/-- One call: what it returns and what becomes of its member depend on the member only; the rest stays. -/
theorem share_step {lim : Nat} {B : List Finder} {d z : Val F} (hz : look B d = some z) {a : Str} {c : Call F} (hb : Below B a c) {m : Str → List (Val F)} {e : Val F} {o : Saw F}
    (h : Step lim c (change B (.obj m) d) e o) :
    ∃ l, e = change B (.obj (upd m a l)) d ∧ ∀ m', m' a = m a → Step lim c (change B (.obj m') d) (change B (.obj (upd m' a l)) d) o := by
  have stay : ∀ {c : Call F} {o : Saw F}, (∀ m', m' a = m a → Step lim c (change B (.obj m') d) (change B (.obj m') d) o) →
      ∃ l, change B (.obj m) d = change B (.obj (upd m a l)) d ∧ ∀ m', m' a = m a → Step lim c (change B (.obj m') d) (change B (.obj (upd m' a l)) d) o :=
    fun hs => ⟨m a, by rw [upd_kept], fun m' h => by rw [← h, upd_kept]; exact hs m' h⟩
  have lk : ∀ r m', m' a = m a → look (B ++ .key a :: r) (change B (.obj m') d) = look (B ++ .key a :: r) (change B (.obj m) d) := by
    intro r m' h; rw [at_look hz, at_look hz, share_look h]
  have ft : ∀ r m', m' a = m a → fault (B ++ .key a :: r) (change B (.obj m') d) = fault (B ++ .key a :: r) (change B (.obj m) d) := by
    intro r m' h; rw [at_fault hz, at_fault hz, share_fault h]
  have rm : ∀ r m', m' a = m a → (RoomFor lim (B ++ .key a :: r) (change B (.obj m') d) ↔ RoomFor lim (B ++ .key a :: r) (change B (.obj m) d)) := by
    intro r m' h; rw [at_room lim hz, at_room lim hz, share_room lim h]
  have owner : ∀ {c : Method F}, OfKey a c → ∃ l, ∀ m', m' a = m a → change B (c.spec (.obj m')).1 (change B (.obj m') d) = change B (.obj (upd m' a l)) d ∧ (c.spec (.obj m')).2 = (c.spec (.obj m)).2 := by
    intro c hc
    obtain ⟨l, hl⟩ := share_method hc m
    exact ⟨l, fun m' h => ⟨by rw [hl m' h, at_twice hz], by rw [hl m' h]⟩⟩
  have nofault : ∀ {m' : Str → List (Val F)} {e : Error}, fault B (change B (.obj m') d) = some e → False := fun h => fault_no (at_same hz _) h
  cases hb with
  | get hm =>
    cases h with
    | get h1 h2 => cases means_unique hm h1; exact stay fun m' h => .get hm (by rw [lk _ _ h]; exact h2)
    | getFault h1 h2 => cases means_unique hm h1; exact stay fun m' h => .getFault hm (by rw [ft _ _ h]; exact h2)
    | getBad h1 => exact (badPath_noText h1 ⟨_, hm⟩).elim
  | set v hm =>
    cases h with
    | set h1 h2 =>
      cases means_unique hm h1
      obtain ⟨l, hl⟩ := share_setV _ (absJ v) m a
      refine ⟨l, by rw [at_setV hz, hl m rfl], fun m' h => ?_⟩
      have := Step.set (v := v) hm ((rm _ m' h).2 h2)
      rw [at_setV hz, hl m' h] at this
      exact this
    | setPanic h1 h2 => cases means_unique hm h1; exact stay fun m' h => .setPanic hm (fun h' => h2 ((rm _ _ h).1 h'))
    | setBad h1 => exact (badPath_noText h1 ⟨_, hm⟩).elim
  | del hm =>
    cases h with
    | del h1 h2 =>
      cases means_unique hm h1
      obtain ⟨l, hl⟩ := share_delV _ m a
      have h3 := h2
      rw [at_look hz] at h3
      refine ⟨l, by rw [at_delV hz _ _ _ _ h3, hl m rfl], fun m' h => ?_⟩
      have := Step.del (lim := lim) hm ((lk _ m' h).trans h2)
      rw [at_delV hz _ _ _ _ ((share_look h _).trans h3), hl m' h] at this
      exact this
    | delFault h1 h2 => cases means_unique hm h1; exact stay fun m' h => .delFault hm (by rw [ft _ _ h]; exact h2)
    | delBad h1 => exact (badPath_noText h1 ⟨_, hm⟩).elim
  | via c hm =>
    cases h with
    | via h1 =>
      rename_i x
      obtain ⟨l, hl⟩ := share_change _ (c.spec x).1 m a
      refine ⟨l, by rw [hm, at_change hz, hl m rfl], fun m' h => ?_⟩
      have := Step.via (lim := lim) (m := c) (d := change B (.obj m') d) (by rw [hm] at h1 ⊢; exact (lk _ m' h).trans h1)
      rw [hm, at_change hz, hl m' h] at this
      exact this
    | viaFault h1 => exact stay fun m' h => .viaFault (by rw [hm] at h1 ⊢; rw [ft _ _ h]; exact h1)
  | index c hm =>
    cases h with
    | index h1 =>
      rename_i x
      obtain ⟨l, hl⟩ := share_change _ (c.spec x).1 m a
      refine ⟨l, by rw [hm, at_change hz, hl m rfl], fun m' h => ?_⟩
      have := Step.index (lim := lim) (m := c) (d := change B (.obj m') d) (by rw [hm] at h1 ⊢; exact (lk _ m' h).trans h1)
      rw [hm, at_change hz, hl m' h] at this
      exact this
    | indexPanic h1 => exact stay fun m' h => .indexPanic (by rw [hm] at h1 ⊢; rw [ft _ _ h]; exact h1)
  | viaOwner hm hc =>
    obtain ⟨l, hl⟩ := owner hc
    cases h with
    | via h1 =>
      rw [hm, at_same hz] at h1
      cases h1
      refine ⟨l, by rw [hm]; exact (hl m rfl).1, fun m' h => ?_⟩
      have := Step.via (lim := lim) (m := ‹Method F›) (d := change B (.obj m') d) (by rw [hm]; exact at_same hz _)
      rw [hm, (hl m' h).1, (hl m' h).2] at this
      exact this
    | viaFault h1 => rw [hm] at h1; exact (nofault h1).elim
  | indexOwner hm hc =>
    obtain ⟨l, hl⟩ := owner hc
    cases h with
    | index h1 =>
      rw [hm, at_same hz] at h1
      cases h1
      refine ⟨l, by rw [hm]; exact (hl m rfl).1, fun m' h => ?_⟩
      have := Step.index (lim := lim) (m := ‹Method F›) (d := change B (.obj m') d) (by rw [hm]; exact at_same hz _)
      rw [hm, (hl m' h).1, (hl m' h).2] at this
      exact this
    | indexPanic h1 => rw [hm] at h1; exact (nofault h1).elim
  | direct hB hc =>
    subst hB
    cases h with
    | direct =>
      obtain ⟨l, hl⟩ := share_method hc m
      refine ⟨l, by simp only [change]; rw [hl m rfl], fun m' h => ?_⟩
      have := Step.direct (lim := lim) (m := ‹Method F›) (d := .obj m')
      rw [hl m' h] at this
      exact this

/-- A whole schedule, seen by one client: what it would see alone; its member is what it would be alone. -/
theorem share_alone {lim : Nat} {B : List Finder} {d z : Val F} (hz : look B d = some z) (a : Str) (s : Schedule F) (hs : ∀ p ∈ s, Below B p.1 p.2) {m m₁ : Str → List (Val F)} (hm : m₁ a = m a)
    {os : List (Saw F)} {e : Val F} (h : History lim (callsOf s) (change B (.obj m) d) os (some e)) :
    ∃ n n₁, e = change B (.obj n) d ∧ History lim (callsBy a s) (change B (.obj m₁) d) (seenBy a s os) (some (change B (.obj n₁) d)) ∧ n₁ a = n a ∧ (∀ q, q ≠ a → n₁ q = m₁ q) ∧
      (∀ q, (∀ p ∈ s, p.1 ≠ q) → n q = m q) := by
  induction s generalizing m m₁ os with
  | nil =>
    cases h
    exact ⟨m, m₁, rfl, .nil, hm, fun _ _ => rfl, fun _ _ => rfl⟩
  | cons p s ih =>
    obtain ⟨b, c⟩ := p
    cases h with
    | step h1 hne h2 =>
      obtain ⟨l, rfl, hl⟩ := share_step hz (hs (b, c) List.mem_cons_self) h1
      have ih := fun {m₁} hm => ih (m₁ := m₁) (fun p hp => hs p (List.mem_cons_of_mem _ hp)) hm h2
      by_cases hb : b = a
      · subst hb
        obtain ⟨n, n₁, e1, e2, e3, e4, e5⟩ := ih (m₁ := upd m₁ b l) (by simp [upd])
        refine ⟨n, n₁, e1, ?_, e3, ?_, ?_⟩
        · simp only [callsBy, seenBy, List.zip_cons_cons, List.filter_cons, decide_true, if_true, List.map_cons]
          exact .step (hl m₁ hm) hne e2
        · intro q hq; rw [e4 q hq]; simp [upd, hq]
        · intro q hq
          rw [e5 q (fun p hp => hq p (List.mem_cons_of_mem _ hp))]
          have : q ≠ b := fun h => hq (b, c) List.mem_cons_self h.symm
          simp [upd, this]
      · have hab : a ≠ b := fun h => hb h.symm
        obtain ⟨n, n₁, e1, e2, e3, e4, e5⟩ := ih (m₁ := m₁) (by simp [upd, hab, hm])
        refine ⟨n, n₁, e1, ?_, e3, e4, ?_⟩
        · simp only [callsBy, seenBy, List.zip_cons_cons, List.filter_cons, hb, decide_false, Bool.false_eq_true, if_false]
          exact e2
        · intro q hq
          rw [e5 q (fun p hp => hq p (List.mem_cons_of_mem _ hp))]
          have : q ≠ b := fun h => hq (b, c) List.mem_cons_self h.symm
          simp [upd, this]

/-- A schedule that ends in a panic: one client panics alone as well. -/
theorem share_panic {lim : Nat} {B : List Finder} {d z : Val F} (hz : look B d = some z) (s : Schedule F) (hs : ∀ p ∈ s, Below B p.1 p.2) {m : Str → List (Val F)} {os : List (Saw F)}
    (h : History lim (callsOf s) (change B (.obj m) d) os none) :
    ∃ a, ∀ m₁, m₁ a = m a → ∃ os', History lim (callsBy a s) (change B (.obj m₁) d) os' none := by
  induction s generalizing m os with
  | nil => cases h
  | cons p s ih =>
    obtain ⟨b, c⟩ := p
    cases h with
    | panic h1 =>
      obtain ⟨l, _, hl⟩ := share_step hz (hs (b, c) List.mem_cons_self) h1
      refine ⟨b, fun m₁ hm => ⟨[.panic], ?_⟩⟩
      simp only [callsBy, List.filter_cons, decide_true, if_true, List.map_cons]
      exact .panic (hl m₁ hm)
    | step h1 hne h2 =>
      obtain ⟨l, rfl, hl⟩ := share_step hz (hs (b, c) List.mem_cons_self) h1
      obtain ⟨a, ha⟩ := ih (fun p hp => hs p (List.mem_cons_of_mem _ hp)) h2
      refine ⟨a, fun m₁ hm => ?_⟩
      by_cases hb : b = a
      · subst hb
        obtain ⟨os', h3⟩ := ha (upd m₁ b l) (by simp [upd])
        refine ⟨‹Saw F› :: os', ?_⟩
        simp only [callsBy, List.filter_cons, decide_true, if_true, List.map_cons]
        exact .step (hl m₁ hm) hne h3
      · have hab : a ≠ b := fun h => hb h.symm
        obtain ⟨os', h3⟩ := ha m₁ (by simp [upd, hab, hm])
        refine ⟨os', ?_⟩
        simp only [callsBy, List.filter_cons, hb, decide_false, Bool.false_eq_true, if_false]
        exact h3

end RJ
