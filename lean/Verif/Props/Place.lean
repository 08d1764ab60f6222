import Verif.Proof.Place
import Verif.Props.History
import Mathlib.Data.List.Dedup
/-
  C104: a part of a document does in its place what it does alone; clients at places that part do not disturb one another.
-/
namespace RJ
open Spec
variable {F : Type}

/-- C104.  A history of calls on the value at a place `B`, made through the whole document (the paths with `B` in front, the value's own methods through `find_mut`), is the same history on that value alone:
the same values, errors (with their messages) and panics, and the document in the end is the old one with the value's end at `B`. -/
theorem C104_inside (lim : Nat) (B : List Finder) (cs cs' : List (Call F)) (hm : List.Forall₂ (Moved B) cs cs') (hc : ∀ c ∈ cs, c.WF) (j z : Json F) (hj : WF j) (hz : WF z)
    (e : look B (absJ j) = some (absJ z)) :
    (runAll lim cs' j).1 = (runAll lim cs z).1 ∧ (runAll lim cs' j).2.map absJ = (runAll lim cs z).2.map (fun f => change B (absJ f) (absJ j)) := by
  have hc' : ∀ c ∈ cs', c.WF := by
    clear e
    induction hm with
    | nil => exact fun c h => by cases h
    | cons h1 _ ih =>
      intro c h
      rcases List.mem_cons.1 h with rfl | h
      · exact (moved_wf h1).1 (hc _ List.mem_cons_self)
      · exact ih (fun c h => hc c (List.mem_cons_of_mem _ h)) c h
  have h1 := moved_history e hm (C70_history lim cs z hz hc).1
  rw [at_self e] at h1
  obtain ⟨h2, h3⟩ := history_unique (C70_history lim cs' j hj hc').1 h1
  refine ⟨h2, h3.trans ?_⟩
  cases (runAll lim cs z).2 <;> rfl

/-! ### Clients -/

def places (s : Rota F) : List (List Finder) := (s.map Prod.fst).dedup

theorem mem_places {s : Rota F} {P : List Finder} : P ∈ places s ↔ ∃ p ∈ s, p.1 = P := by simp only [places, List.mem_dedup, List.mem_map]

theorem tidy_parted {s : Rota F} {d : Val F} (h : s.Tidy d) : Parted (places s) d := by
  constructor
  · intro P hP
    obtain ⟨p, hp, rfl⟩ := mem_places.1 hP
    exact h.there p hp
  · intro P hP Q hQ hne
    obtain ⟨p, hp, rfl⟩ := mem_places.1 hP
    obtain ⟨q, hq, rfl⟩ := mem_places.1 hQ
    exact h.part p hp q hq hne

theorem tidy_on {s : Rota F} {d : Val F} (h : s.Tidy d) : OnPlaces (places s) s := fun p hp => ⟨mem_places.2 ⟨p, hp, rfl⟩, h.own p hp⟩

theorem tidy_calls {s : Rota F} {d : Val F} (h : s.Tidy d) : ∀ c ∈ s.calls, c.WF := by
  intro c hc
  obtain ⟨p, hp, rfl⟩ := List.mem_map.1 hc
  exact h.wf p hp

theorem tidy_callsAt {s : Rota F} {d : Val F} (h : s.Tidy d) (P : List Finder) : ∀ c ∈ s.callsAt P, c.WF := by
  intro c hc
  obtain ⟨p, hp, rfl⟩ := List.mem_map.1 hc
  exact h.wf p (List.mem_filter.1 hp).1

/-- C104.  Clients at places that part take turns, and no call panics: each sees exactly what it would see alone and leaves at its place what it would leave alone; and wherever else one looks, nothing has changed. -/
theorem C104_alone (lim : Nat) (s : Rota F) (j : Json F) (hj : WF j) (hs : s.Tidy (absJ j)) (f : Json F) (h : (runAll lim s.calls j).2 = some f) :
    (∀ p ∈ s, ∃ g, runAll lim (s.callsAt p.1) j = (s.seenAt p.1 (runAll lim s.calls j).1, some g) ∧ look p.1 (absJ g) = look p.1 (absJ f) ∧
      ∀ Q, Diverge p.1 Q → look Q (absJ g) = look Q (absJ j)) ∧
    ∀ Q, (∀ p ∈ s, Diverge p.1 Q) → look Q (absJ f) = look Q (absJ j) := by
  have h1 := (C70_history lim s.calls j hj (tidy_calls hs)).1
  rw [h] at h1
  constructor
  · intro p hp
    obtain ⟨y, hy⟩ := hs.there p hp
    obtain ⟨x, h2, h3⟩ := rota_alone s (tidy_on hs) (mem_places.2 ⟨p, hp, rfl⟩) (tidy_parted hs) hy hy h1
    obtain ⟨h4, h5⟩ := history_unique (C70_history lim _ j hj (tidy_callsAt hs p.1)).1 h3
    cases h6 : (runAll lim (s.callsAt p.1) j).2 with
    | none => rw [h6] at h5; cases h5
    | some g =>
      rw [h6] at h5
      have h5 : absJ g = change p.1 x (absJ j) := Option.some.inj h5
      refine ⟨g, Prod.ext h4 h6, ?_, fun Q hQ => ?_⟩
      · rw [h5, at_same hy, h2]
      · rw [h5, part_look hQ]
  · intro Q hQ
    obtain ⟨_, h2, _⟩ := rota_rebuild (List.nodup_dedup _) s (tidy_on hs) (tidy_parted hs) h1
    rw [← h2]
    exact rebuild_rest _ _ _ fun P hP => by
      obtain ⟨p, hp, rfl⟩ := mem_places.1 hP
      exact hQ p hp

theorem same_places {s s' : Rota F} (hw : s.SameWork s') {P : List Finder} (h : P ∈ places s) : P ∈ places s' := by
  obtain ⟨p, hp, rfl⟩ := mem_places.1 h
  have h1 : p.2 ∈ s.callsAt p.1 := List.mem_map.2 ⟨p, List.mem_filter.2 ⟨hp, by simp⟩, rfl⟩
  rw [hw p.1] at h1
  obtain ⟨q, hq, _⟩ := List.mem_map.1 h1
  obtain ⟨hq1, hq2⟩ := List.mem_filter.1 hq
  exact mem_places.2 ⟨q, hq1, by simpa using hq2⟩

/-- C104.  The clients' turns do not matter: two schedules of the same work either both end in a panic, or show every client the same and end in the same document, with the same text. -/
theorem C104_schedules [FloatOps F] (lim : Nat) (s s' : Rota F) (hw : s.SameWork s') (j : Json F) (hj : WF j) (hs : s.Tidy (absJ j)) (hs' : s'.Tidy (absJ j)) :
    ((runAll lim s.calls j).2 = none ∧ (runAll lim s'.calls j).2 = none) ∨
    ∃ f f', (runAll lim s.calls j).2 = some f ∧ (runAll lim s'.calls j).2 = some f' ∧ absJ f = absJ f' ∧ f.toString = f'.toString ∧
      ∀ P, s.seenAt P (runAll lim s.calls j).1 = s'.seenAt P (runAll lim s'.calls j).1 := by
  have no : ∀ {s s' : Rota F}, s.Tidy (absJ j) → s'.Tidy (absJ j) → s.SameWork s' → (runAll lim s.calls j).2 = none → ∀ f, (runAll lim s'.calls j).2 = some f → False := by
    intro s s' hs hs' hw h1 f h2
    have h3 := (C70_history lim s.calls j hj (tidy_calls hs)).1
    rw [h1] at h3
    obtain ⟨P, hP, y, hy, h4⟩ := rota_panic s (tidy_on hs) (tidy_parted hs) h3
    obtain ⟨os, h5⟩ := h4 _ hy
    have h6 := (C70_history lim s'.calls j hj (tidy_calls hs')).1
    rw [h2] at h6
    obtain ⟨x, _, h7⟩ := rota_alone s' (tidy_on hs') (same_places hw hP) (tidy_parted hs') hy hy h6
    rw [hw P] at h5
    have := (history_unique h5 h7).2
    cases this
  cases h1 : (runAll lim s.calls j).2 with
  | none =>
    cases h2 : (runAll lim s'.calls j).2 with
    | none => exact .inl ⟨rfl, rfl⟩
    | some f' => exact (no hs hs' hw h1 f' h2).elim
  | some f =>
    cases h2 : (runAll lim s'.calls j).2 with
    | none => exact (no hs' hs (fun P => (hw P).symm) h2 f h1).elim
    | some f' =>
      have g1 := (C70_history lim s.calls j hj (tidy_calls hs))
      have g2 := (C70_history lim s'.calls j hj (tidy_calls hs'))
      have w := g1.2 f h1
      have w' := g2.2 f' h2
      have g1 := g1.1
      have g2 := g2.1
      rw [h1] at g1
      rw [h2] at g2
      have both : ∀ P ∈ places s, look P (absJ f) = look P (absJ f') ∧ s.seenAt P (runAll lim s.calls j).1 = s'.seenAt P (runAll lim s'.calls j).1 := by
        intro P hP
        obtain ⟨y, hy⟩ := (tidy_parted hs).1 P hP
        obtain ⟨x, h3, h4⟩ := rota_alone s (tidy_on hs) hP (tidy_parted hs) hy hy g1
        obtain ⟨x', h3', h4'⟩ := rota_alone s' (tidy_on hs') (same_places hw hP) (tidy_parted hs') hy hy g2
        rw [hw P] at h4
        obtain ⟨h5, h6⟩ := history_unique h4 h4'
        rw [at_inj hy (Option.some.inj h6)] at h3
        exact ⟨h3.trans h3'.symm, h5⟩
      have hon : OnPlaces (places s) s' := fun p hp => ⟨same_places (fun P => (hw P).symm) (mem_places.2 ⟨p, hp, rfl⟩), hs'.own p hp⟩
      obtain ⟨_, r1, _⟩ := rota_rebuild (List.nodup_dedup _) s (tidy_on hs) (tidy_parted hs) g1
      obtain ⟨_, r2, _⟩ := rota_rebuild (List.nodup_dedup _) s' hon (tidy_parted hs) g2
      have eq : absJ f = absJ f' := by
        rw [← r1, ← r2]
        have : ∀ L : List (List Finder), (∀ P ∈ L, look P (absJ f) = look P (absJ f')) → rebuild L (absJ f) (absJ j) = rebuild L (absJ f') (absJ j) := by
          intro L hL
          induction L with
          | nil => rfl
          | cons P L ih =>
            simp only [rebuild, List.foldr_cons, hL P List.mem_cons_self]
            exact congrArg _ (ih fun Q hQ => hL Q (List.mem_cons_of_mem _ hQ))
        exact this _ fun P hP => (both P hP).1
      refine .inr ⟨f, f', rfl, rfl, eq, C04_order_independent f f' w w' eq, fun P => ?_⟩
      by_cases hP : P ∈ places s
      · exact (both P hP).2
      · have none_seen : ∀ (t : Rota F) (os : List (Saw F)), P ∉ places t → t.seenAt P os = [] := by
          intro t os hn
          simp only [Rota.seenAt, List.map_eq_nil_iff, List.filter_eq_nil_iff]
          rintro ⟨p, o⟩ hp
          have := (List.of_mem_zip hp).1
          simp only [decide_eq_true_eq]
          exact fun e => hn (mem_places.2 ⟨p, this, e⟩)
        rw [none_seen s _ hP, none_seen s' _ (fun h => hP (same_places (fun P => (hw P).symm) h))]

/-! Three clients, at the elements `0` and `1` of the array `p` and at the key `z`, in two orders (a failing `get`, a method that fails, a `set` that creates what is missing). -/

def atZero : List (Call Nat) := [.via (.key ['p']) [.index 0] (.push (.number 7)), .get (.path (.key ['p']) [.index 0, .index 5]), .via (.key ['p']) [.index 0, .index 0] (.assign .null)]
def atOne : List (Call Nat) := [.set (.path (.key ['p']) [.index 1, .key ['x'], .index 1]) (.boolean true), .del (.path (.key ['p']) [.index 1, .key ['y']])]
def atZ : List (Call Nat) := [.via (.key ['z']) [] (.insert ['k'] (.number 3))]

def rotaOne : Rota Nat := atZero.map ([.key ['p'], .index 0], ·) ++ atOne.map ([.key ['p'], .index 1], ·) ++ atZ.map ([.key ['z']], ·)
def rotaTwo : Rota Nat := atZ.map ([.key ['z']], ·) ++ atOne.map ([.key ['p'], .index 1], ·) ++ atZero.map ([.key ['p'], .index 0], ·)

/-- `{"p": [[1], {"y": 2}], "z": null}` -/
def parts : Json Nat := .object [(['p'], (.array [.array [.number 1], .object [(['y'], (.number 2, []))]], [])), (['z'], (.null, []))]

theorem rota_tidy : rotaOne.Tidy (absJ parts) ∧ rotaTwo.Tidy (absJ parts) := by
  have own : ∀ p, (p ∈ rotaOne ∨ p ∈ rotaTwo) → (∃ z, look p.1 (absJ parts) = some z) ∧ (p.1 = [.key ['p'], .index 0] ∨ p.1 = [.key ['p'], .index 1] ∨ p.1 = [.key ['z']]) ∧ (∃ c, Moved p.1 c p.2) ∧ p.2.WF := by
    intro p hp
    simp only [rotaOne, rotaTwo, atZero, atOne, atZ, List.map_cons, List.map_nil, List.cons_append, List.nil_append, List.mem_cons, List.not_mem_nil, or_false] at hp
    rcases hp with (rfl | rfl | rfl | rfl | rfl | rfl) | (rfl | rfl | rfl | rfl | rfl | rfl) <;>
      first
      | exact ⟨⟨_, rfl⟩, by simp, ⟨_, .owner _ rfl⟩, trivial⟩
      | exact ⟨⟨_, rfl⟩, by simp, ⟨_, .via (f := .index 0) (r := []) _ rfl⟩, trivial⟩
      | exact ⟨⟨_, rfl⟩, by simp, ⟨_, .get (l := .path (.index 5) []) rfl rfl⟩, trivial⟩
      | exact ⟨⟨_, rfl⟩, by simp, ⟨_, .set (l := .path (.key ['x']) [.index 1]) _ rfl rfl⟩, trivial⟩
      | exact ⟨⟨_, rfl⟩, by simp, ⟨_, .del (l := .path (.key ['y']) []) rfl rfl⟩, trivial⟩
  have part : ∀ P Q : List Finder, (P = [.key ['p'], .index 0] ∨ P = [.key ['p'], .index 1] ∨ P = [.key ['z']]) → (Q = [.key ['p'], .index 0] ∨ Q = [.key ['p'], .index 1] ∨ Q = [.key ['z']]) →
      P ≠ Q → Diverge P Q := by
    rintro P Q (rfl | rfl | rfl) (rfl | rfl | rfl) hne <;>
      first
      | exact (hne rfl).elim
      | exact ⟨[.key ['p']], _, _, _, _, rfl, rfl, by simp [Apart]⟩
      | exact ⟨[], _, _, _, _, rfl, rfl, by simp [Apart]⟩
  constructor
  · exact ⟨fun p h => (own p (.inl h)).1, fun p h q h' => part _ _ (own p (.inl h)).2.1 (own q (.inl h')).2.1, fun p h => (own p (.inl h)).2.2.1, fun p h => (own p (.inl h)).2.2.2⟩
  · exact ⟨fun p h => (own p (.inr h)).1, fun p h q h' => part _ _ (own p (.inr h)).2.1 (own q (.inr h')).2.1, fun p h => (own p (.inr h)).2.2.1, fun p h => (own p (.inr h)).2.2.2⟩

theorem rota_same : rotaOne.SameWork rotaTwo := by
  intro P
  by_cases h1 : [.key ['p'], .index 0] = P
  · subst h1; rfl
  · by_cases h2 : [.key ['p'], .index 1] = P
    · subst h2; rfl
    · by_cases h3 : [.key ['z']] = P
      · subst h3; rfl
      · simp [Rota.callsAt, rotaOne, rotaTwo, atZero, atOne, atZ, h1, h2, h3]

example : (runAll 100 rotaOne.calls parts).1 =
    [.ok, .error (outOfRange 5), .ok, .value (.bool true), .value (.num 2), .error (wrongKind "object".toList (.null : Val Nat))] := rfl

example : (runAll 100 rotaTwo.calls parts).2 =
    some (.object [(['p'], (.array [.array [.null, .number 7], .object [(['x'], (.array [.null, .boolean true], []))]], [])), (['z'], (.null, []))]) := rfl

/-- Beside `C104_inside`: the calls of the first client, on the array `[1]` alone. -/
example : List.Forall₂ (Moved [.key ['p'], .index 0]) [.direct (.push (.number 7)), .get (.path (.index 5) []), .via (.index 0) [] (.assign .null)] atZero ∧
    look [.key ['p'], .index 0] (absJ parts) = some (absJ (.array [.number 1] : Json Nat)) ∧
    runAll 100 [.direct (.push (.number 7)), .get (.path (.index 5) []), .via (.index 0) [] (.assign .null)] (.array [.number 1] : Json Nat) =
      ([.ok, .error (outOfRange 5), .ok], some (.array [.null, .number 7])) :=
  ⟨.cons (.owner _ rfl) (.cons (.get rfl rfl) (.cons (.via _ rfl) .nil)), rfl, rfl⟩

/-- And the hypotheses of `C104_alone` and `C104_schedules`. -/
example : rotaOne.Tidy (absJ parts) ∧ rotaTwo.Tidy (absJ parts) ∧ rotaOne.SameWork rotaTwo ∧ rotaOne ≠ rotaTwo :=
  ⟨rota_tidy.1, rota_tidy.2, rota_same, fun h => by have := congrArg (fun s => (s.head?.map (·.1))) h; revert this; decide⟩

end RJ
