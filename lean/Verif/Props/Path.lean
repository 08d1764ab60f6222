import Verif.Proof.PathText
/-
  C20-C28: paths.
-/
set_option linter.unusedSectionVars false
namespace RJ
open Spec
variable {F : Type}

/-! ### Small bridges -/

theorem parsePath_of_text {s : Str} {fs : List Finder} (h : PathText s fs) : s ≠ [] ∧ ∃ p, parsePath s = .ok p ∧ comps p = fs := by
  obtain ⟨h0, ts, h1, h2⟩ := h
  refine ⟨h0, ?_⟩
  rcases parsePath_spec s with ⟨p, ts', hp, h1', h2', _⟩ | ⟨e, ts', _, _, h1', _, h2'⟩
  · have : ts = ts' := by rw [← cut_pieces h1, ← cut_pieces h1']
    subst this
    exact ⟨p, hp, ((h2' fs).mp h2).symm⟩
  · have : ts = ts' := by rw [← cut_pieces h1, ← cut_pieces h1']
    subst this
    exact absurd h2 (h2' fs)

theorem text_of_parsePath {s : Str} {p : Path} (h0 : s ≠ []) (h : parsePath s = .ok p) : PathText s (comps p) := by
  rcases parsePath_spec s with ⟨p', ts, hp, h1, h2, _⟩ | ⟨e, ts, he, _⟩
  · rw [h] at hp; cases hp
    exact ⟨h0, ts, h1, (h2 _).mpr rfl⟩
  · rw [h] at he; cases he

theorem no_text {s : Str} (h : ¬ ∃ fs, PathText s fs) : s = [] ∨ ∃ e, parsePath s = .error e ∧ e.kind = .PathSyntaxError := by
  by_cases h0 : s = []
  · exact .inl h0
  · right
    rcases parsePath_spec s with ⟨p', ts, hp, _⟩ | ⟨e, ts, he, hk, _⟩
    · exact absurd ⟨_, text_of_parsePath h0 hp⟩ h
    · exact ⟨e, he, hk⟩

theorem get_of_text {s : Str} {p : Path} (j : Json F) (h0 : s ≠ []) (hp : parsePath s = .ok p) : j.get s = p.find j := by
  simp only [Json.get, if_neg h0, hp]

theorem del_of_text {s : Str} {p : Path} (j : Json F) (h0 : s ≠ []) (hp : parsePath s = .ok p) : j.del s = p.discard j := by
  simp only [Json.del, if_neg h0, hp]

theorem set_of_text {s : Str} {p : Path} (lim : Nat) (j v : Json F) (h0 : s ≠ []) (hp : parsePath s = .ok p) :
    j.set lim s v = p.update lim j v := by
  simp only [Json.set, if_neg h0, hp]

theorem set_ok_text {lim : Nat} {s : Str} {j v j' : Json F} {r : Ref F} (h : j.set lim s v = (j', .ok r)) :
    s ≠ [] ∧ ∃ p, parsePath s = .ok p ∧ p.update lim j v = (j', .ok r) := by
  unfold Json.set at h
  split at h
  · simp [fail, Out.ofRes] at h
  · rename_i h0
    refine ⟨h0, ?_⟩
    cases hp : parsePath s with
    | ok p => rw [hp] at h; exact ⟨p, rfl, h⟩
    | error e => rw [hp] at h; simp at h

/-! ### C27, C26: path syntax -/

/-- **C27, components.** Every text is split in exactly one way into dot separated components. -/
theorem C27_components (s : Str) : ∃ ts, Pieces s ts ∧ ∀ ts', Pieces s ts' → ts' = ts := by
  obtain ⟨t, r, h⟩ := pieces_exist s.length s (Nat.le_refl _)
  exact ⟨_, h, fun ts' h' => by rw [← cut_pieces h, ← cut_pieces h']⟩

/-- **C27, meaning is unique.** -/
theorem C27_unambiguous (s : Str) (fs gs : List Finder) (h : PathText s fs) (h' : PathText s gs) : fs = gs := by
  obtain ⟨_, p, hp, rfl⟩ := parsePath_of_text h
  obtain ⟨_, q, hq, rfl⟩ := parsePath_of_text h'
  rw [hp] at hq; cases hq; rfl

/-- **C27, accepted paths.** A text with components `ts` stands for a list of keys and indices iff it is not empty and no
component is `#` followed by something else than an unsigned 64-bit integer. -/
theorem C27_accepted_iff (s : Str) (ts : List Str) (h : Pieces s ts) :
    (∃ fs, PathText s fs) ↔ s ≠ [] ∧ ∀ t ∈ ts, ¬ BadComp t := by
  have same : ∀ ts', Pieces s ts' → ts' = ts := fun ts' h' => by rw [← cut_pieces h, ← cut_pieces h']
  constructor
  · rintro ⟨fs, h0, ts', h1, h2⟩
    cases same ts' h1
    refine ⟨h0, ?_⟩
    rcases parsePath_spec s with ⟨p, ts', _, h1', _, h3⟩ | ⟨e, ts', _, _, h1', _, h2'⟩
    · cases same ts' h1'; exact h3
    · cases same ts' h1'; exact absurd h2 (h2' fs)
  · rintro ⟨h0, hb⟩
    rcases parsePath_spec s with ⟨p, ts', _, h1', h2, h3⟩ | ⟨e, ts', _, _, h1', ⟨t, ht, hbt⟩, h2'⟩
    · cases same ts' h1'; exact ⟨_, h0, ts, h, (h2 _).mpr rfl⟩
    · cases same ts' h1'; exact absurd hbt (hb t ht)

/-- **C27, rejected paths.** `get`, `del` and `set` fail with `PathSyntaxError` exactly on the texts that stand for no path, and
then the document is unchanged. -/
theorem C27_rejected_iff (lim : Nat) (s : Str) (j v : Json F) :
    ((∃ e, j.get s = .error e ∧ e.kind = .PathSyntaxError) ↔ ¬ ∃ fs, PathText s fs) ∧
    ((∃ e, j.del s = (j, .error e) ∧ e.kind = .PathSyntaxError) ↔ ¬ ∃ fs, PathText s fs) ∧
    ((∃ e, j.set lim s v = (j, .err e) ∧ e.kind = .PathSyntaxError) ↔ ¬ ∃ fs, PathText s fs) := by
  by_cases ht : ∃ fs, PathText s fs
  · obtain ⟨fs, ht⟩ := ht
    obtain ⟨h0, p, hp, rfl⟩ := parsePath_of_text ht
    have hne : ∀ e, p.find j = .error e → e.kind ≠ .PathSyntaxError := by
      intro e he hk
      have := Path.find_fail p j
      rw [he] at this
      simp only [hk] at this
      have key : ∀ (fs : List Finder) (x : Val F), firstFail fs x ≠ some .PathSyntaxError := by
        intro fs
        induction fs with
        | nil => intro x; simp [firstFail]
        | cons f r ih =>
          intro x
          cases f with
          | key k =>
            cases x with
            | obj m => simp only [firstFail]; cases (m k).getLast? with
              | none => simp
              | some y => exact ih y
            | _ => simp [firstFail]
          | index i =>
            cases x with
            | arr m => simp only [firstFail]; cases m[i]? with
              | none => simp
              | some y => exact ih y
            | _ => simp [firstFail]
      exact key _ _ this
    rw [get_of_text j h0 hp, del_of_text j h0 hp, set_of_text lim j v h0 hp]
    refine ⟨⟨?_, fun h => absurd ⟨_, ht⟩ h⟩, ⟨?_, fun h => absurd ⟨_, ht⟩ h⟩, ⟨?_, fun h => absurd ⟨_, ht⟩ h⟩⟩
    · rintro ⟨e, h, hk⟩; exact absurd hk (hne e h)
    · rintro ⟨e, h, hk⟩
      have := Path.discard_result p j
      rw [h] at this
      exact absurd hk (hne e this.symm)
    · rintro ⟨e, h, _⟩
      rcases Path.update_total lim p j v with ⟨j', r, h'⟩ | ⟨⟨j', h'⟩, _⟩
      · rw [h] at h'; simp at h'
      · rw [h] at h'; simp at h'
  · rcases no_text ht with rfl | ⟨e, he, hk⟩
    · exact ⟨⟨fun _ => ht, fun _ => ⟨_, rfl, rfl⟩⟩, ⟨fun _ => ht, fun _ => ⟨_, rfl, rfl⟩⟩, ⟨fun _ => ht, fun _ => ⟨_, rfl, rfl⟩⟩⟩
    · by_cases h0 : s = []
      · subst h0
        exact ⟨⟨fun _ => ht, fun _ => ⟨_, rfl, rfl⟩⟩, ⟨fun _ => ht, fun _ => ⟨_, rfl, rfl⟩⟩, ⟨fun _ => ht, fun _ => ⟨_, rfl, rfl⟩⟩⟩
      · simp only [Json.get, Json.del, Json.set, if_neg h0, he]
        exact ⟨⟨fun _ => ht, fun _ => ⟨e, rfl, hk⟩⟩, ⟨fun _ => ht, fun _ => ⟨e, rfl, hk⟩⟩, ⟨fun _ => ht, fun _ => ⟨e, rfl, hk⟩⟩⟩

/-- **C26.** Every list of keys and indices except those with a non-last key ending in a backslash (and those with an
index of more than 64 bits) can be written with the documented escapes. -/
theorem C26_expressible (fs : List Finder) (h : Writable fs) : PathText (writePath fs) fs := writePath_spec fs h

/-- **C26, converse.** A list with a non-last key ending in a backslash cannot be written at all. -/
theorem C26_inexpressible (fs : List Finder) (h : ¬ Writable fs) (s : Str) : ¬ PathText s fs := by
  rintro ⟨_, ts, h1, h2⟩
  exact h (pathText_writable h1 h2)

/-- **C26, use.** `get` with the written path reads the value at that list of keys and indices. -/
theorem C26_get_written (fs : List Finder) (h : Writable fs) (j : Json F) :
    look fs (absJ j) = match j.get (writePath fs) with | .ok x => some (absJ x) | .error _ => none := by
  obtain ⟨h0, p, hp, rfl⟩ := parsePath_of_text (writePath_spec fs h)
  rw [get_of_text j h0 hp]; exact Path.find_look p j

/-! ### C25 -/

/-- **C25, get.** `get` succeeds iff all components exist; else the error kind is that of the first failing component. -/
theorem C25_get (s : Str) (fs : List Finder) (h : PathText s fs) (j : Json F) :
    (∃ x, j.get s = .ok x ∧ look fs (absJ j) = some (absJ x) ∧ firstFail fs (absJ j) = none) ∨
    (∃ e, j.get s = .error e ∧ look fs (absJ j) = none ∧ firstFail fs (absJ j) = some e.kind) := by
  obtain ⟨h0, p, hp, rfl⟩ := parsePath_of_text h
  rw [get_of_text j h0 hp, Path.find_look, Path.find_fail]
  cases p.find j with
  | ok x => exact .inl ⟨x, rfl, rfl, rfl⟩
  | error e => exact .inr ⟨e, rfl, rfl, rfl⟩

/-- **C25, del.** `del` returns what `get` returns - value or error - and if it fails, the document is unchanged. -/
theorem C25_del (s : Str) (j : Json F) :
    (j.del s).2 = j.get s ∧ ∀ e, j.get s = .error e → (j.del s).1 = j := by
  unfold Json.get Json.del
  split
  · exact ⟨rfl, fun _ _ => rfl⟩
  · cases parsePath s with
    | error e => exact ⟨rfl, fun _ _ => rfl⟩
    | ok p => exact ⟨Path.discard_result p j, fun e he => Path.discard_fail p j e he⟩

/-! ### C20 -/

/-- **C20.** After a successful `set`, `get` with the same path returns the value set; the returned reference refers to
it, and whatever is assigned through the reference is what `get` returns then. -/
theorem C20_get_after_set (lim : Nat) (s : Str) (j v j' : Json F) (r : Ref F) (h : j.set lim s v = (j', .ok r)) :
    j'.get s = .ok v ∧ r.val = v ∧ r.put v = j' ∧ ∀ x, (r.put x).get s = .ok x := by
  obtain ⟨h0, p, hp, hu⟩ := set_ok_text h
  obtain ⟨h1, h2⟩ := Path.update_get lim p j v j' r hu
  rw [get_of_text j' h0 hp, Path.find_eq, h1]
  refine ⟨rfl, h2, Path.put_val h1, fun x => ?_⟩
  rw [get_of_text _ h0 hp, Path.find_eq]
  have := Path.put_get h1 x
  simp only at this
  rw [this]

/-! ### C21 -/

/-- **C21.** `set` succeeds on every document for every path whose indices can be allocated. -/
theorem C21_set_succeeds (lim : Nat) (s : Str) (fs : List Finder) (h : PathText s fs) (hi : ∀ i, Finder.index i ∈ fs → i < lim)
    (j v : Json F) : ∃ j' r, j.set lim s v = (j', .ok r) := by
  obtain ⟨h0, p, hp, rfl⟩ := parsePath_of_text h
  rw [set_of_text lim j v h0 hp]
  rcases Path.update_total lim p j v with h | ⟨_, hn⟩
  · exact h
  · exfalso
    apply hn
    intro f hf
    cases f with
    | key k => trivial
    | index i => exact hi i hf

/-- **C21, errors.** `set` returns `Err` only for a text that is not a path. -/
theorem C21_error_only_for_syntax (lim : Nat) (s : Str) (j v j' : Json F) (e : Error) (h : j.set lim s v = (j', .err e)) :
    (¬ ∃ fs, PathText s fs) ∧ e.kind = .PathSyntaxError ∧ j' = j := by
  by_cases ht : ∃ fs, PathText s fs
  · obtain ⟨fs, ht⟩ := ht
    obtain ⟨h0, p, hp, rfl⟩ := parsePath_of_text ht
    rw [set_of_text lim j v h0 hp] at h
    rcases Path.update_total lim p j v with ⟨j', r, h'⟩ | ⟨⟨j', h'⟩, _⟩
    · rw [h] at h'; simp at h'
    · rw [h] at h'; simp at h'
  · obtain ⟨e', h', hk⟩ := ((C27_rejected_iff lim s j v).2.2).mpr ht
    rw [h] at h'; cases h'
    exact ⟨ht, hk, rfl⟩

/-- All arrays of a document are at most `lim` long (they are, if `lim` is the largest possible length). -/
def Short (lim : Nat) (j : Json F) : Prop := ∀ fs l, look fs (absJ j) = some (.arr l) → l.length ≤ lim

theorem look_append (fs gs : List Finder) (x y : Val F) (h : look fs x = some y) : look (fs ++ gs) x = look gs y := by
  induction fs generalizing x with
  | nil => cases h; rfl
  | cons f r ih =>
    cases f with
    | key k =>
      cases x with
      | obj m =>
        simp only [look, List.cons_append] at h ⊢
        cases hm : (m k).getLast? with
        | none => rw [hm] at h; cases h
        | some z => rw [hm] at h; exact ih z h
      | _ => cases h
    | index i =>
      cases x with
      | arr m =>
        simp only [look, List.cons_append] at h ⊢
        cases hm : m[i]? with
        | none => rw [hm] at h; cases h
        | some z => rw [hm] at h; exact ih z h
      | _ => cases h

theorem update_panics (lim : Nat) (p : Path) (j v : Json F) (hs : Short lim j) (hp : ¬ ∀ f ∈ comps p, fits lim f) :
    ∃ j', p.update lim j v = (j', .panic) := by
  have single : ∀ (f : Finder) (j v : Json F), Short lim j → ¬ fits lim f → f.update lim j v = (j, .panic) := by
    intro f j v hs hf
    cases f with
    | key k => exact absurd trivial hf
    | index i =>
      simp only [fits] at hf
      have h2 : ¬ i + 1 ≤ lim := by omega
      cases j with
      | array l =>
        have : l.length ≤ lim := by
          have := hs [] (absList l) rfl
          rw [absList_eq, List.length_map] at this
          exact this
        simp only [Finder.update, if_pos (show i ≥ l.length by omega), if_neg h2]
      | _ => simp only [Finder.update, if_neg h2]
  induction p generalizing j with
  | last f =>
    simp only [comps, List.mem_singleton, forall_eq] at hp
    exact ⟨j, single f j v hs hp⟩
  | cons f p ih =>
    simp only [comps, List.mem_cons, forall_eq_or_imp] at hp
    by_cases hf : fits lim f
    · rcases Path.update_step lim f p j v with ⟨j1, inner, hfm, hc, hu⟩ | ⟨hu, _⟩
      · have hin : Short lim inner.val := by
          rcases hc with ⟨rfl, hfind⟩ | ⟨_, hnull, _⟩
          · intro fs l hl
            have h1 : look [f] (absJ j1) = some (absJ inner.val) := by rw [Finder.find_look, hfind]
            have := look_append [f] fs _ _ h1
            exact hs ([f] ++ fs) l (by rw [this, hl])
          · rw [hnull]
            intro fs l hl
            cases fs with
            | nil => cases hl
            | cons g fs => cases g <;> cases hl
        obtain ⟨j2, h2⟩ := ih inner.val hin (fun h => hp ⟨hf, h⟩)
        rw [hu, h2]; exact ⟨_, rfl⟩
      · exact ⟨_, hu⟩
    · -- the first component does not fit: it is not found and cannot be created
      have hnf : ∃ e, f.find j = .error e := by
        cases f with
        | key k => exact absurd trivial hf
        | index i =>
          simp only [fits] at hf
          cases j with
          | array l =>
            have : l.length ≤ lim := by
              have := hs [] (absList l) rfl
              rw [absList_eq, List.length_map] at this
              exact this
            simp only [Finder.find, List.getElem?_eq_none (show l.length ≤ i by omega)]
            exact ⟨_, rfl⟩
          | _ => exact ⟨_, rfl⟩
      obtain ⟨e, he⟩ := hnf
      refine ⟨j, ?_⟩
      simp only [Path.update, he, single f j .null hs hf]

/-- **C21, the remaining case.** An index at or beyond the largest possible array length (e.g. `#18446744073709551615`)
makes `set` panic, on every document. -/
theorem C21_huge_index_panics (lim : Nat) (s : Str) (fs : List Finder) (h : PathText s fs) (i : Nat) (hi : Finder.index i ∈ fs)
    (hl : lim ≤ i) (j v : Json F) (hs : Short lim j) : (j.set lim s v).2 = .panic := by
  obtain ⟨h0, p, hp, rfl⟩ := parsePath_of_text h
  rw [set_of_text lim j v h0 hp]
  obtain ⟨j', h'⟩ := update_panics lim p j v hs (fun hall => by have := hall _ hi; simp only [fits] at this; omega)
  rw [h']

/-! ### C22, C23 -/

/-- **C22.** What `get` returned for a path that parts from the path of `set` is unchanged. -/
theorem C22_diverging_paths (lim : Nat) (s t : Str) (fs gs : List Finder) (hs : PathText s fs) (ht : PathText t gs)
    (hd : Diverge fs gs) (j v j' w : Json F) (r : Ref F) (h : j.set lim s v = (j', .ok r)) (hw : j.get t = .ok w) :
    j'.get t = .ok w := by
  obtain ⟨h0, p, hp, rfl⟩ := parsePath_of_text hs
  obtain ⟨h0', q, hq, rfl⟩ := parsePath_of_text ht
  rw [set_of_text lim j v h0 hp] at h
  rw [get_of_text _ h0' hq] at hw ⊢
  exact Path.update_other lim p q j v j' w r h hd hw

/-- **C23.** The document after `set` is `setV` of the document before: padded arrays, replaced scalars, created intermediate
components, and (C22) kept older duplicates of the keys on the way. -/
theorem C23_set_document (lim : Nat) (s : Str) (fs : List Finder) (hs : PathText s fs) (j v j' : Json F) (r : Ref F)
    (h : j.set lim s v = (j', .ok r)) : absJ j' = setV fs (absJ v) (absJ j) := by
  obtain ⟨h0, p, hp, rfl⟩ := parsePath_of_text hs
  rw [set_of_text lim j v h0 hp] at h
  exact Path.update_abs lim p j v j' r h

/-- `set` keeps the representation invariant. -/
theorem C23_set_wf (lim : Nat) (s : Str) (j v : Json F) (hj : WF j) (hv : WF v) : WF (j.set lim s v).1 := by
  unfold Json.set
  split
  · exact hj
  · cases parsePath s with
    | error e => exact hj
    | ok p => exact Path.update_wf lim p j v hj hv

/-- **C22, duplicates.** `set` below key `k` keeps the older values of `k`, and all values of other keys. -/
theorem C22_older_duplicates (lim : Nat) (s : Str) (k : Str) (f : Finder) (fs : List Finder) (hs : PathText s (.key k :: f :: fs))
    (m : Obj F) (v j' : Json F) (r : Ref F) (h : (Json.object m).set lim s v = (j', .ok r)) :
    ∃ m', j' = .object m' ∧ (absMap m' k).dropLast = (absMap m k).dropLast ∧ ∀ q, q ≠ k → absMap m' q = absMap m q := by
  have := C23_set_document lim s _ hs _ _ _ _ h
  cases j' with
  | object m' =>
    simp only [absJ, setV, Val.obj.injEq] at this
    refine ⟨m', rfl, ?_, ?_⟩
    · rw [this]; simp [upd]
    · intro q hq; rw [this]; simp [upd, hq]
  | _ => simp [absJ, setV] at this

/-- **C23, reading aid.** Padding: setting an index beyond the end of an array appends `null`s and then the value. -/
theorem C23_padding (lim : Nat) (s : Str) (i : Nat) (hs : PathText s [.index i]) (l : List (Json F)) (hl : l.length ≤ i)
    (v j' : Json F) (r : Ref F) (h : (Json.array l).set lim s v = (j', .ok r)) :
    absJ j' = absJ (.array (l ++ List.replicate (i - l.length) .null ++ [v])) := by
  rw [C23_set_document lim s _ hs _ _ _ _ h]
  simp only [absJ, setV, setElem, absList_eq, List.length_map, List.map_append, List.map_replicate, List.map_cons, List.map_nil]
  rw [List.take_of_length_le (by simpa using hl), List.drop_eq_nil_of_le (by simp; omega)]
  simp

/-- **C23, reading aid.** A value that is not an object is replaced by an object with just the new member. -/
theorem C23_replaces_scalar (lim : Nat) (s : Str) (k : Str) (hs : PathText s [.key k]) (j v j' : Json F) (r : Ref F)
    (hj : ∀ m, j ≠ .object m) (h : j.set lim s v = (j', .ok r)) : absJ j' = absJ (.object [(k, (v, []))]) := by
  rw [C23_set_document lim s _ hs _ _ _ _ h]
  cases j with
  | object m => exact absurd rfl (hj m)
  | _ =>
    simp only [absJ, setV, Val.obj.injEq]
    funext q
    simp only [upd, absMap, absList]
    by_cases hq : q = k
    · subst hq; simp
    · rw [if_neg hq, if_neg (fun h => hq h.symm)]

/-! ### C24 -/

/-- **C24.** A successful `del` returns the value `get` returned and removes exactly it. -/
theorem C24_del (s : Str) (fs : List Finder) (hs : PathText s fs) (j x : Json F) (hw : WF j) (h : j.get s = .ok x) :
    (j.del s).2 = .ok x ∧ absJ (j.del s).1 = delV fs (absJ j) ∧ WF (j.del s).1 := by
  obtain ⟨h0, p, hp, rfl⟩ := parsePath_of_text hs
  rw [get_of_text j h0 hp] at h
  rw [del_of_text j h0 hp]
  exact ⟨by rw [Path.discard_result, h], Path.discard_abs p j x hw h⟩

theorem firstFail_delV (pre : List Finder) (k : Str) (x y : Val F) (h : look (pre ++ [.key k]) x = some y) :
    firstFail (pre ++ [.key k]) (delV (pre ++ [.key k]) x) = some .MissingKey := by
  induction pre generalizing x with
  | nil =>
    cases x with
    | obj m => simp [delV, firstFail, upd]
    | _ => cases h
  | cons f r ih =>
    have hne : r ++ [Finder.key k] ≠ [] := by simp
    generalize hrest : r ++ [Finder.key k] = rest at *
    cases f with
    | key q =>
      cases x with
      | obj m =>
        simp only [List.cons_append, hrest, look] at h
        cases hm : (m q).getLast? with
        | none => rw [hm] at h; cases h
        | some z =>
          rw [hm] at h
          rw [List.cons_append, hrest, delV_cons (.key q) rest hne _ z (by simp [look, hm])]
          simp only [place, firstFail, upd, if_true, List.getLast?_append, List.getLast?_singleton, Option.some_or]
          exact ih z h
      | _ => cases h
    | index i =>
      cases x with
      | arr l =>
        simp only [List.cons_append, hrest, look] at h
        cases hm : l[i]? with
        | none => rw [hm] at h; cases h
        | some z =>
          rw [hm] at h
          rw [List.cons_append, hrest, delV_cons (.index i) rest hne _ z (by simp [look, hm])]
          have hi := idx_lt hm
          have : (l.take i ++ [delV rest z] ++ l.drop (i + 1))[i]? = some (delV rest z) := by
            rw [List.append_assoc, List.getElem?_append_right (by simp; omega)]
            simp [show i - min i l.length = 0 by omega]
          simp only [place, firstFail, this]
          exact ih z h
      | _ => cases h

/-- **C24, afterwards.** After deleting a key (the last component is a key), `get` with the same path fails with `MissingKey`. -/
theorem C24_then_missing (s : Str) (pre : List Finder) (k : Str) (hs : PathText s (pre ++ [.key k])) (j x : Json F) (hw : WF j)
    (h : j.get s = .ok x) : ∃ e, (j.del s).1.get s = .error e ∧ e.kind = .MissingKey := by
  obtain ⟨_, h2, _⟩ := C24_del s _ hs j x hw h
  have hl : look (pre ++ [.key k]) (absJ j) = some (absJ x) := by
    rcases C25_get s _ hs j with ⟨y, h', hy, _⟩ | ⟨e, h', _⟩
    · rw [h] at h'; cases h'; exact hy
    · rw [h] at h'; cases h'
  have hf := firstFail_delV pre k _ _ hl
  rw [← h2] at hf
  rcases C25_get s _ hs (j.del s).1 with ⟨y, _, _, h'⟩ | ⟨e, h', _, hk⟩
  · rw [hf] at h'; cases h'
  · refine ⟨e, h', ?_⟩
    rw [hf] at hk; exact (Option.some.inj hk).symm

/-! ### C28 -/

/-- **C28.** `js[f]` is the value `find` returns; it panics iff `find` fails.  The same for the mutable form. -/
theorem C28_index (f : Finder) (j : Json F) :
    (∀ x, j.index f = .ok x ↔ (Path.last f).find j = .ok x) ∧
    (j.index f = .panic ↔ ∃ e, (Path.last f).find j = .error e) ∧
    (∀ x, (∃ r, j.indexMut f = .ok r ∧ r.val = x) ↔ (Path.last f).find j = .ok x) ∧
    (j.indexMut f = .panic ↔ ∃ e, (Path.last f).find j = .error e) := by
  simp only [Json.index, Json.indexMut, Path.find, Finder.find_eq]
  cases f.findMut j with
  | error e => simp
  | ok r => simp

/-- **C28, assignment.** `js[f] = x` changes exactly the addressed value. -/
theorem C28_assign (f : Finder) (j : Json F) (r : Ref F) (h : j.indexMut f = .ok r) (x : Json F) :
    absJ (r.put x) = place f (absJ x) (absJ j) ∧ (r.put x).index f = .ok x ∧
    ∀ g, Apart f g → (r.put x).index g = j.index g := by
  have hf : f.findMut j = .ok r := by
    unfold Json.indexMut at h
    cases hm : f.findMut j with
    | error e => rw [hm] at h; cases h
    | ok r' => rw [hm] at h; cases h; rfl
  refine ⟨(Finder.abs_put hf x).1, ?_, fun g hg => ?_⟩
  · simp only [Json.index, Finder.find_eq, Finder.put_get hf x]
  · simp only [Json.index, Finder.put_other hf hg x]

/-! ### Concrete cases -/

section examples

private def doc : Json Nat := .object [("a".toList, (.array [.number 1, .null], [.boolean true])), ("b".toList, (.string [], []))]

-- `a.#3.\#x` stands for key `a`, index 3, key `#x`
example : PathText "a.#3.\\#x".toList [.key "a".toList, .index 3, .key "#x".toList] := by
  have := C26_expressible [.key "a".toList, .index 3, .key "#x".toList] (by simp [Writable])
  have he : writePath [.key "a".toList, .index 3, .key "#x".toList] = "a.#3.\\#x".toList := by decide
  rw [← he]; exact this
example : ∃ j' r, doc.set 10 "a.#3".toList (.boolean true) = (j', .ok r) := ⟨_, _, rfl⟩
example : (doc.set 10 "a.#3".toList (.boolean true)).1.get "a.#3".toList = .ok (.boolean true) := rfl
example : (doc.set 10 "a.#10".toList (.boolean true)).2 = .panic := rfl
example : doc.get "a.#0".toList = .ok (.number 1) := rfl
example : Diverge [.key "a".toList, .index 3] [.key "a".toList, .index 0] := ⟨[.key "a".toList], .index 3, .index 0, [], [], rfl, rfl, by simp [Apart]⟩
example : (doc.del "a".toList).1.get "a".toList = missingKey "a".toList := rfl
example : WF doc := by simp [doc, WF, WFMap, WFList]
example : ¬ Writable [.key "a\\".toList, .key "b".toList] := by simp [Writable]
example : BadComp "#x".toList := ⟨"x".toList, rfl, by
  rintro ⟨n, sg, ds, h, hs, _, hd, _⟩
  have : 'x' ∈ ds := by
    rcases hs with rfl | rfl
    · simp at h; simp [← h]
    · simp at h
  exact absurd (hd _ this) (by unfold IsDigit; decide)⟩
example : ∃ r, doc.indexMut (.key "a".toList) = .ok r := ⟨_, rfl⟩
example : Short 10 doc := by
  have : ∀ (j : Json Nat) fs l, look fs (absJ j) = some (.arr l) → j = doc → l.length ≤ 10 := by
    intro j fs l h hj
    subst hj
    match fs with
    | [] => cases h
    | .index i :: _ => cases h
    | .key k :: r =>
      simp only [doc, absJ, look, absMap, absList] at h
      by_cases h1 : "a".toList = k
      · rw [if_pos h1] at h
        simp only [List.reverse_cons, List.reverse_nil, List.nil_append, List.getLast?_append, List.getLast?_singleton, Option.some_or] at h
        match r with
        | [] => cases h; decide
        | .key _ :: _ => cases h
        | .index 0 :: r' => cases r' with
          | nil => cases h
          | cons f r' => cases f <;> cases h
        | .index 1 :: r' => cases r' with
          | nil => cases h
          | cons f r' => cases f <;> cases h
        | .index (i + 2) :: _ => cases h
      · rw [if_neg h1] at h
        by_cases h2 : "b".toList = k
        · rw [if_pos h2] at h
          cases r with
          | nil => cases h
          | cons f r => cases f <;> cases h
        · rw [if_neg h2] at h; cases h
  exact fun fs l h => this doc fs l h rfl

end examples

end RJ
