import Verif.Proof.Share
import Verif.Props.History
/-
  C102: clients that work below different members do not disturb one another.
-/
namespace RJ
open Spec
variable {F : Type}

theorem callsOf_wf {B : List Finder} {s : Schedule F} (hs : Orderly B s) : ∀ c ∈ callsOf s, c.WF := by
  intro c hc
  obtain ⟨p, hp, rfl⟩ := List.mem_map.1 hc
  exact (hs p hp).2

theorem callsBy_wf {B : List Finder} {s : Schedule F} (hs : Orderly B s) (a : Str) : ∀ c ∈ callsBy a s, c.WF := by
  intro c hc
  obtain ⟨p, hp, rfl⟩ := List.mem_map.1 hc
  exact (hs p (List.mem_filter.1 hp).1).2

/-- C102.  A call below the member `a` of an object at the place `B`: what it returns, and what becomes of that member, depend on that member only (all its values), not on the rest of the document; the other members and
everything outside the object stay. -/
theorem C102_member (lim : Nat) (B : List Finder) (a : Str) (c : Call F) (hb : Below B a c) (hc : c.WF) (j j' : Json F) (hj : WF j) (hj' : WF j') (m m' : Str → List (Val F))
    (e : look B (absJ j) = some (.obj m)) (e' : absJ j' = change B (.obj m') (absJ j)) (h : m a = m' a) :
    (Call.run lim c j).2 = (Call.run lim c j').2 ∧
    ((Call.run lim c j).2 ≠ .panic → ∃ n n', absJ (Call.run lim c j).1 = change B (.obj n) (absJ j) ∧ absJ (Call.run lim c j').1 = change B (.obj n') (absJ j) ∧
      n a = n' a ∧ ∀ q, q ≠ a → n q = m q ∧ n' q = m' q) := by
  obtain ⟨⟨d, h1, h2⟩, _⟩ := run_step lim c j hj hc
  obtain ⟨⟨d', h1', h2'⟩, _⟩ := run_step lim c j' hj' hc
  have h1 : Step lim c (change B (.obj m) (absJ j)) d (Call.run lim c j).2 := by rw [at_self e]; exact h1
  rw [e'] at h1'
  obtain ⟨l, hd, hl⟩ := share_step e hb h1
  obtain ⟨hd', ho⟩ := step_unique (hl m' h.symm) h1'
  refine ⟨ho, fun hp => ⟨upd m a l, upd m' a l, ?_, ?_, by simp [upd], fun q hq => by simp [upd, hq]⟩⟩
  · rw [← h2 hp, hd]
  · rw [← h2' (ho ▸ hp), ← hd']

/-- C102.  Clients that work on one object (at the place `B` of a document), each below its own member, taking turns in any way: if no call panics, each client sees exactly what it would see if it were alone, its member
ends as it would end if it were alone, and members nobody works on and everything outside the object stay. -/
theorem C102_alone (lim : Nat) (B : List Finder) (s : Schedule F) (hs : Orderly B s) (j : Json F) (hj : WF j) (m : Str → List (Val F)) (e : look B (absJ j) = some (.obj m)) (f : Json F)
    (h : (runAll lim (callsOf s) j).2 = some f) :
    ∃ n, absJ f = change B (.obj n) (absJ j) ∧ (∀ q, (∀ p ∈ s, p.1 ≠ q) → n q = m q) ∧
      ∀ a, ∃ g n', (runAll lim (callsBy a s) j) = (seenBy a s (runAll lim (callsOf s) j).1, some g) ∧ absJ g = change B (.obj n') (absJ j) ∧ n' a = n a ∧ ∀ q, q ≠ a → n' q = m q := by
  have h1 := (C70_history lim (callsOf s) j hj (callsOf_wf hs)).1
  rw [h] at h1
  have h1 : History lim (callsOf s) (change B (.obj m) (absJ j)) (runAll lim (callsOf s) j).1 (some (absJ f)) := by rw [at_self e]; exact h1
  have key := fun a => share_alone e a s (fun p hp => (hs p hp).1) (m₁ := m) rfl h1
  obtain ⟨n, _, hn, _, _, _, hq⟩ := key []
  refine ⟨n, hn, hq, fun a => ?_⟩
  obtain ⟨n₀, n', h3, h4, h5, h6, _⟩ := key a
  rw [hn] at h3
  have h3 := Val.obj.inj (at_inj e h3)
  subst h3
  have h7 := (C70_history lim (callsBy a s) j hj (callsBy_wf hs a)).1
  rw [at_self e] at h4
  obtain ⟨h8, h9⟩ := history_unique h4 h7
  cases hg : (runAll lim (callsBy a s) j).2 with
  | none => rw [hg] at h9; cases h9
  | some g =>
    rw [hg] at h9
    refine ⟨g, n', ?_, (Option.some.inj h9).symm, h5, h6⟩
    exact Prod.ext h8.symm hg

/-- C102.  The schedule does not matter: if the clients make the same calls, each in its own order, but take turns differently, then either both runs panic, or each client sees the same and the document in the end is the
same (and prints the same). -/
theorem C102_schedules [FloatOps F] (lim : Nat) (B : List Finder) (s s' : Schedule F) (hs : Orderly B s) (hs' : Orderly B s') (hw : SameWork s s') (j : Json F) (hj : WF j) (m : Str → List (Val F))
    (e : look B (absJ j) = some (.obj m)) :
    ((runAll lim (callsOf s) j).2 = none ∧ (runAll lim (callsOf s') j).2 = none) ∨
    ∃ f f', (runAll lim (callsOf s) j).2 = some f ∧ (runAll lim (callsOf s') j).2 = some f' ∧ absJ f = absJ f' ∧ f.toString = f'.toString ∧
      ∀ a, seenBy a s (runAll lim (callsOf s) j).1 = seenBy a s' (runAll lim (callsOf s') j).1 := by
  have no : ∀ {s s' : Schedule F}, Orderly B s → Orderly B s' → SameWork s s' → (runAll lim (callsOf s) j).2 = none → ∀ f, (runAll lim (callsOf s') j).2 = some f → False := by
    intro s s' hs hs' hw h1 f h2
    have h3 := (C70_history lim (callsOf s) j hj (callsOf_wf hs)).1
    rw [h1] at h3
    have h3 : History lim (callsOf s) (change B (.obj m) (absJ j)) (runAll lim (callsOf s) j).1 none := by rw [at_self e]; exact h3
    obtain ⟨a, ha⟩ := share_panic e s (fun p hp => (hs p hp).1) h3
    obtain ⟨os, h4⟩ := ha m rfl
    have h5 := (C70_history lim (callsOf s') j hj (callsOf_wf hs')).1
    rw [h2] at h5
    have h5 : History lim (callsOf s') (change B (.obj m) (absJ j)) (runAll lim (callsOf s') j).1 (some (absJ f)) := by rw [at_self e]; exact h5
    obtain ⟨n, n₁, _, h6, _⟩ := share_alone e a s' (fun p hp => (hs' p hp).1) (m₁ := m) rfl h5
    rw [hw a] at h4
    obtain ⟨_, h7⟩ := history_unique h4 h6
    cases h7
  cases h1 : (runAll lim (callsOf s) j).2 with
  | none =>
    cases h2 : (runAll lim (callsOf s') j).2 with
    | none => exact .inl ⟨rfl, rfl⟩
    | some f' => exact (no hs hs' hw h1 f' h2).elim
  | some f =>
    cases h2 : (runAll lim (callsOf s') j).2 with
    | none => exact (no hs' hs (fun a => (hw a).symm) h2 f h1).elim
    | some f' =>
      obtain ⟨n, hn, _, h3⟩ := C102_alone lim B s hs j hj m e f h1
      obtain ⟨n', hn', _, h3'⟩ := C102_alone lim B s' hs' j hj m e f' h2
      have both : ∀ a, n a = n' a ∧ seenBy a s (runAll lim (callsOf s) j).1 = seenBy a s' (runAll lim (callsOf s') j).1 := by
        intro a
        obtain ⟨g, k, h4, h5, h6, _⟩ := h3 a
        obtain ⟨g', k', h4', h5', h6', _⟩ := h3' a
        rw [hw a, h4'] at h4
        simp only [Prod.mk.injEq, Option.some.injEq] at h4
        obtain ⟨h7, rfl⟩ := h4
        rw [h5] at h5'
        have h5' := Val.obj.inj (at_inj e h5')
        subst h5'
        exact ⟨by rw [← h6, ← h6'], h7.symm⟩
      have eq : absJ f = absJ f' := by rw [hn, hn', show n = n' from funext fun a => (both a).1]
      have w := (C70_history lim (callsOf s) j hj (callsOf_wf hs)).2 f h1
      have w' := (C70_history lim (callsOf s') j hj (callsOf_wf hs')).2 f' h2
      exact .inr ⟨f, f', rfl, rfl, eq, C04_order_independent f f' w w' eq, fun a => (both a).2⟩

/-- C102.  Rollback: whatever is done below a member, one call undoes it.  If the member had one value, `set` with that value (as `get` gave it before) brings the whole document back; if there was no such member, `del` does. -/
theorem C102_rollback [FloatOps F] (lim : Nat) (B : List Finder) (a : Str) (cs : List (Call F)) (hb : ∀ c ∈ cs, Below B a c ∧ c.WF) (j : Json F) (hj : WF j) (m : Str → List (Val F))
    (e : look B (absJ j) = some (.obj m)) (f : Json F) (h : (runAll lim cs j).2 = some f) (l : Loc) (hl : l.Means (B ++ [.key a])) :
    (∀ x, WF x → m a = [absJ x] → (Call.run lim (.set l x) f).2 = .value (absJ x) ∧ absJ (Call.run lim (.set l x) f).1 = absJ j ∧ (Call.run lim (.set l x) f).1.toString = j.toString) ∧
    (m a = [] → absJ (Call.run lim (.del l) f).1 = absJ j ∧ (Call.run lim (.del l) f).1.toString = j.toString) := by
  have ec : callsOf (cs.map (fun c => (a, c))) = cs := by
    simp only [callsOf, List.map_map]
    exact List.map_id'' (fun _ => rfl) cs
  have ho : Orderly B (cs.map (fun c => (a, c))) := by
    intro p hp
    obtain ⟨c, hc, rfl⟩ := List.mem_map.1 hp
    exact hb c hc
  obtain ⟨n, h1, h2, _⟩ := C102_alone lim B _ ho j hj m e f (by rw [ec]; exact h)
  have h2 : ∀ q, q ≠ a → n q = m q := by
    intro q hq
    refine h2 q fun p hp => ?_
    obtain ⟨c, _, rfl⟩ := List.mem_map.1 hp
    exact fun h => hq h.symm
  have back : ∀ y, m a = y → upd n a y = m := by
    intro y hy
    funext q
    by_cases hq : q = a
    · subst hq; simp [upd, hy]
    · simp [upd, hq, h2 q hq]
  have wf := (C70_history lim cs j hj (fun c hc => (hb c hc).2)).2 f h
  constructor
  · intro x hx hm
    obtain ⟨⟨d, h3, h4⟩, h5⟩ := run_step lim (.set l x) f wf hx
    rw [h1] at h3
    have h6 : Step lim (.set l x) (change B (.obj n) (absJ j)) _ _ := Step.set (v := x) hl ((at_room lim e _ _).2 (by simp only [RoomFor]; split <;> trivial))
    obtain ⟨h7, h8⟩ := step_unique h6 h3
    have h9 : absJ (Call.run lim (.set l x) f).1 = absJ j := by
      rw [← h4 (by rw [← h8]; intro h; cases h), ← h7, at_setV e]
      simp only [setV]
      rw [back _ hm, at_self e]
    exact ⟨h8.symm, h9, C04_order_independent _ _ h5 hj h9⟩
  · intro hm
    obtain ⟨⟨d, h3, h4⟩, h5⟩ := run_step lim (.del l) f wf trivial
    rw [h1] at h3
    have h9 : absJ (Call.run lim (.del l) f).1 = absJ j := by
      cases hk : (n a).getLast? with
      | some w =>
        have hw : look [.key a] (.obj n) = some w := by simp only [look, hk]
        have h6 : Step lim (.del l) (change B (.obj n) (absJ j)) _ _ := Step.del hl (by rw [at_look e]; exact hw)
        obtain ⟨h7, h8⟩ := step_unique h6 h3
        rw [← h4 (by rw [← h8]; intro h; cases h), ← h7, at_delV e _ _ _ _ hw]
        simp only [delV]
        rw [back _ hm, at_self e]
      | none =>
        have hw : fault [.key a] (.obj n) = some (noKey a) := by simp only [fault, look, hk, complaint]
        have h6 : Step lim (.del l) (change B (.obj n) (absJ j)) _ _ := Step.delFault hl (by rw [at_fault e]; exact hw)
        obtain ⟨h7, h8⟩ := step_unique h6 h3
        have hn : n a = [] := List.getLast?_eq_none_iff.1 hk
        have hnm : n = m := by
          funext q
          by_cases hq : q = a
          · subst hq; rw [hn, hm]
          · exact h2 q hq
        rw [← h4 (by rw [← h8]; intro h; cases h), ← h7, hnm, at_self e]
    exact ⟨h9, C04_order_independent _ _ h5 hj h9⟩

/-! Two clients, below `a` and below `b` of the object at `p`, and two schedules of their calls (indexed paths, a failing `get`, a method that fails). -/

def clientA : List (Call Nat) :=
  [.set (.path (.key ['p']) [.key ['a'], .index 2]) (.boolean true), .get (.path (.key ['p']) [.key ['a'], .index 0]), .via (.key ['p']) [.key ['a']] (.push (.number 7))]
def clientB : List (Call Nat) := [.via (.key ['p']) [] (.append ['b'] .null), .get (.path (.key ['p']) [.key ['b'], .key ['x']]), .del (.path (.key ['p']) [.key ['b']]), .index (.key ['p']) [] (.merge ['b'])]

def scheduleOne : Schedule Nat := clientA.map (['a'], ·) ++ clientB.map (['b'], ·)
def scheduleTwo : Schedule Nat :=
  [(['b'], .via (.key ['p']) [] (.append ['b'] .null)), (['a'], .set (.path (.key ['p']) [.key ['a'], .index 2]) (.boolean true)), (['b'], .get (.path (.key ['p']) [.key ['b'], .key ['x']])),
   (['b'], .del (.path (.key ['p']) [.key ['b']])), (['a'], .get (.path (.key ['p']) [.key ['a'], .index 0])), (['b'], .index (.key ['p']) [] (.merge ['b'])),
   (['a'], .via (.key ['p']) [.key ['a']] (.push (.number 7)))]

theorem schedules_orderly : Orderly [.key ['p']] scheduleOne ∧ Orderly [.key ['p']] scheduleTwo := by
  constructor <;>
  · intro p hp
    simp only [scheduleOne, scheduleTwo, clientA, clientB, List.map_cons, List.map_nil, List.cons_append, List.nil_append, List.mem_cons, List.not_mem_nil, or_false] at hp
    rcases hp with rfl | rfl | rfl | rfl | rfl | rfl | rfl <;>
      first
      | exact ⟨.set _ rfl, trivial⟩
      | exact ⟨.get rfl, trivial⟩
      | exact ⟨.del rfl, trivial⟩
      | exact ⟨.via _ rfl, trivial⟩
      | exact ⟨.viaOwner rfl (.append _), trivial⟩
      | exact ⟨.indexOwner rfl .merge, trivial⟩

theorem schedules_same : SameWork scheduleOne scheduleTwo := by
  intro a
  by_cases h1 : ['a'] = a
  · subst h1; rfl
  · by_cases h2 : ['b'] = a
    · subst h2; rfl
    · simp [callsBy, scheduleOne, scheduleTwo, clientA, clientB, h1, h2]

/-- `{"p": {"b": 1}, "z": null}` -/
def shared : Json Nat := .object [(['p'], (.object [(['b'], (.number 1, []))], [])), (['z'], (.null, []))]

example : (∃ m, look [.key ['p']] (absJ shared) = some (.obj m)) ∧ (runAll 100 (callsOf scheduleOne) shared).1 =
    [.value (.bool true), .value .null, .ok, .ok, .error (complaint (.key ['x']) (.null : Val Nat)), .value .null, .error (noKey ['b'])] := ⟨⟨_, rfl⟩, rfl⟩

example : (runAll 100 (callsOf scheduleTwo) shared).2 =
    some (.object [(['p'], (.object [(['a'], (.array [.null, .null, .boolean true, .number 7], []))], [])), (['z'], (.null, []))]) := rfl

/-- Beside `C102_rollback`: `clientB` is undone by setting `p/b` to `1` again. -/
example : (∀ c ∈ clientB, Below [.key ['p']] ['b'] c ∧ c.WF) ∧ (∃ m, look [.key ['p']] (absJ shared) = some (.obj m) ∧ m ['b'] = [absJ (.number 1)]) ∧
    ∃ f, (runAll 100 clientB shared).2 = some f ∧ absJ f ≠ absJ shared := by
  refine ⟨?_, ⟨_, rfl, rfl⟩, _, rfl, ?_⟩
  · intro c hc
    exact schedules_orderly.1 (['b'], c) (by simp only [scheduleOne, List.mem_append, List.mem_map]; exact .inr ⟨c, hc, rfl⟩)
  · intro h
    have := congrArg (look [.key ['p'], .key ['b']]) h
    exact absurd this (by intro h; cases h)

end RJ
