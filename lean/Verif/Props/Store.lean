import Verif.Proof.Store
import Verif.Props.Nested
/-
  C93: a JSON text as a store.
-/
namespace RJ
open Spec
variable {I F : Type} [FloatOps F]

/-- What `json::get::<Json>` shows at the places of a text: the value, or an error where the map has none. -/
def Contents (P : Slots I) (s : Str) (m : I → Option (Val F)) : Prop :=
  ∀ i, (∀ v, m i = some v → ∃ x : Json F, getText .json s (P.path i) = .ok x ∧ absJ x = v) ∧ (m i = none → ∃ e, (getText .json s (P.path i) : Res (Json F)) = .error e)

theorem getText_json (s p : Str) (j : Json F) (hs : Json.parse s = .ok j) : (getText .json s p : Res (Json F)) = j.get p := by
  unfold getText
  rw [hs]
  dsimp only
  cases j.get p <;> rfl

theorem contents_iff {lim : Nat} {P : Slots I} (hP : P.Ok lim) (s : Str) (j : Json F) (hs : Json.parse s = .ok j) (m : I → Option (Val F)) :
    Contents P s m ↔ ∀ i, m i = look (P.comps i) (absJ j) := by
  constructor
  · intro h i
    obtain ⟨h1, h2⟩ := h i
    rcases C25_get _ _ (hP.1 i).1 j with ⟨x, h3, h4, _⟩ | ⟨e, h3, h4, _⟩ <;> rw [h4]
    · cases hm : m i with
      | none => obtain ⟨e, he⟩ := h2 hm; rw [getText_json s _ j hs, h3] at he; cases he
      | some v => obtain ⟨y, he, rfl⟩ := h1 v hm; rw [getText_json s _ j hs, h3] at he; cases he; rfl
    · cases hm : m i with
      | none => rfl
      | some v => obtain ⟨y, he, rfl⟩ := h1 v hm; rw [getText_json s _ j hs, h3] at he; cases he
  · intro h i
    rw [h i]
    rcases C25_get _ _ (hP.1 i).1 j with ⟨x, h3, h4, _⟩ | ⟨e, h3, h4, _⟩ <;> rw [h4, getText_json s _ j hs, h3]
    · exact ⟨fun v hv => ⟨x, rfl, Option.some.inj hv⟩, fun h => (nomatch h)⟩
    · exact ⟨fun v hv => (nomatch hv), fun _ => ⟨e, rfl⟩⟩

/-- **C93, contents.** Every accepted text has contents, and only one. -/
theorem C93_contents {lim : Nat} {P : Slots I} (hP : P.Ok lim) (s : Str) (j : Json F) (hs : Json.parse s = .ok j) :
    ∃ m : I → Option (Val F), Contents P s m ∧ ∀ m', Contents P s m' → m' = m :=
  ⟨fun i => look (P.comps i) (absJ j), (contents_iff hP s j hs _).2 (fun _ => rfl), fun m' h => funext ((contents_iff hP s j hs m').1 h)⟩

variable [LawfulFloat F]

theorem store_run {lim : Nat} {P : Slots I} (hP : P.Ok lim) (cs : List (StoreCall I F)) (hc : ∀ i v, .set i v ∈ cs → Printable v) (s : Str) (j : Json F) (hs : Json.parse s = .ok j)
    (hj : Printable j) : ∃ os s' j', runTexts lim (cs.map (StoreCall.text P)) s = (os, some s') ∧ Json.parse s' = .ok j' ∧ Printable j' ∧
      StoreRun cs (fun i => look (P.comps i) (absJ j)) os (fun i => look (P.comps i) (absJ j')) := by
  induction cs generalizing s j with
  | nil => exact ⟨[], s, j, rfl, hs, hj, .done _⟩
  | cons c cs ih =>
    obtain ⟨s1, j1, h1, h2, h3, h4, h5⟩ := store_step hP c (fun i v e => hc i v (by rw [e]; exact List.mem_cons_self)) s j hs hj
    obtain ⟨os, s', j', h6, h7, h8, h9⟩ := ih (fun i v h => hc i v (List.mem_cons_of_mem _ h)) s1 j1 h1 h2
    refine ⟨_, s', j', ?_, h7, h8, .call h5 h9⟩
    rw [List.map_cons, (runTexts_cons lim _ _ s).2 h3, h4, h6]

/-- **C93.** A JSON text is a store: whatever the calls of `json::get`, `json::set` and `json::del` at its places are, and in whatever order, none panics, and their results and the contents in the
end are those of a plain map.  What else is in the document, and which other places there are, plays no role. -/
theorem C93_store {lim : Nat} {P : Slots I} (hP : P.Ok lim) (cs : List (StoreCall I F)) (hc : ∀ i v, .set i v ∈ cs → Printable v) (s : Str) (j : Json F) (hs : Json.parse s = .ok j)
    (hj : Printable j) (m : I → Option (Val F)) (hm : Contents P s m) :
    ∃ os s' m', runTexts lim (cs.map (StoreCall.text P)) s = (os, some s') ∧ StoreRun cs m os m' ∧ Contents P s' m' ∧ ∃ j' : Json F, Json.parse s' = .ok j' ∧ Printable j' := by
  obtain ⟨os, s', j', h1, h2, h3, h4⟩ := store_run hP cs hc s j hs hj
  rw [← show m = fun i => look (P.comps i) (absJ j) from funext ((contents_iff hP s j hs m).1 hm)] at h4
  exact ⟨os, s', _, h1, h4, (contents_iff hP s' j' h2 _).2 (fun _ => rfl), j', h2, h3⟩

omit [FloatOps F] [LawfulFloat F] in
theorem storeStep_other {m m' : I → Option (Val F)} {c : StoreCall I F} {o : Saw F} (h : StoreStep m c o m') (i : I) (hw : ¬ c.Writes i) : m' i = m i := by
  cases h with
  | set n v _ _ h' => exact h' i (fun e => hw e.symm)
  | del n v _ _ _ h' => exact h' i (fun e => hw e.symm)
  | _ => rfl

omit [FloatOps F] [LawfulFloat F] in
/-- **C93, plain maps.** What a plain map holds after the calls: the value of the last `set` at the place; nothing, if it was deleted last; else what it held before. -/
theorem C93_map {cs : List (StoreCall I F)} {m m' : I → Option (Val F)} {os : List (Saw F)} (h : StoreRun cs m os m') (i : I) :
    ((∀ c ∈ cs, ¬ c.Writes i) → m' i = m i) ∧
    (∀ a v b, cs = a ++ .set i v :: b → (∀ c ∈ b, ¬ c.Writes i) → m' i = some (absJ v)) ∧
    (∀ a b, cs = a ++ .del i :: b → (∀ c ∈ b, ¬ c.Writes i) → m' i = none) := by
  induction h with
  | done m => exact ⟨fun _ => rfl, fun a v b e => absurd e (by simp), fun a b e => absurd e (by simp)⟩
  | @call c cs m m1 m' o os h hs ih =>
    obtain ⟨i1, i2, i3⟩ := ih
    refine ⟨fun hw => ?_, fun a v b e hw => ?_, fun a b e hw => ?_⟩
    · rw [i1 (fun c hc => hw c (List.mem_cons_of_mem _ hc)), storeStep_other h i (hw c List.mem_cons_self)]
    · cases a with
      | nil =>
        cases e
        rw [i1 hw]
        cases h with
        | set _ _ _ h _ => exact h
      | cons x a =>
        cases e
        exact i2 a v b rfl hw
    · cases a with
      | nil =>
        cases e
        rw [i1 hw]
        cases h with
        | del _ _ _ _ h _ => exact h
        | del_none _ _ h => exact h
      | cons x a =>
        cases e
        exact i3 a b rfl hw

/-- The value last set at a place is there in the end. -/
theorem store_last {lim : Nat} {P : Slots I} (hP : P.Ok lim) (a b : List (StoreCall I F)) (i : I) (v : Json F) (hc : ∀ i' v', .set i' v' ∈ a ++ .set i v :: b → Printable v') (s : Str) (j : Json F)
    (hs : Json.parse s = .ok j) (hj : Printable j) (hb : ∀ c ∈ b, ¬ c.Writes i) :
    ∃ os s' j' x, runTexts lim ((a ++ .set i v :: b).map (StoreCall.text P)) s = (os, some s') ∧ Json.parse s' = .ok j' ∧ j'.get (P.path i) = .ok x ∧ WF x ∧ absJ x = absJ v := by
  obtain ⟨os, s', j', h1, h2, h3, h4⟩ := store_run hP _ hc s j hs hj
  have h5 := (C93_map h4 i).2.1 a v b rfl hb
  obtain ⟨x, h6, h7⟩ := look_get (hP.1 i).1 j' _ h5
  obtain ⟨h0, p, hp, _⟩ := parsePath_of_text (hP.1 i).1
  exact ⟨os, s', j', x, h1, h2, h6, Path.wf_find p j' x h3.1 (by rw [← get_of_text j' h0 hp]; exact h6), h7⟩

/-- **C93, typed.** `json::get::<T>` gives the value that was last stored with `json::set` at the place, for every built-in type `T`, whatever was stored at the other places in between. -/
theorem C93_typed [LawfulCast F] {lim : Nat} {P : Slots I} (hP : P.Ok lim) (a b : List (StoreCall I F)) (i : I) (t : Ty) (hl : Invertible t) (x : t.T F) (hg : Good t x) (hf : FiniteVals t x)
    (hb : Strs Balanced t x) (hc : ∀ i' v', .set i' v' ∈ a ++ b → Printable v') (s : Str) (j : Json F) (hs : Json.parse s = .ok j) (hj : Printable j) (hw : ∀ c ∈ b, ¬ c.Writes i) :
    ∃ os s' y, runTexts lim ((a ++ .set i (t.enc x) :: b).map (StoreCall.text P)) s = (os, some s') ∧ getText t s' (P.path i) = .ok y ∧ Same t y x := by
  have hx : Printable (t.enc x) := ⟨wf_enc t x hg, finite_enc t x hg hf, strs_enc Balanced t x hb⟩
  obtain ⟨os, s', j', z, h1, h2, h3, h4, h5⟩ := store_last hP a b i (t.enc x) (fun i' v' h => by
    rcases List.mem_append.1 h with h | h
    · exact hc i' v' (List.mem_append_left _ h)
    · rcases List.mem_cons.1 h with h | h
      · cases h; exact hx
      · exact hc i' v' (List.mem_append_right _ h)) s j hs hj hw
  obtain ⟨y, h6, h7⟩ := dec_enc t hl x hg z h4 h5
  refine ⟨os, s', y, h1, ?_, h7⟩
  unfold getText
  rw [h2]
  simp only [h3]
  exact h6

/-- **C93, derived types.** The same for every type of a program with derived structs. -/
theorem C93_derived [LawfulCast F] {lim : Nat} {P : Slots I} (hP : P.Ok lim) (a b : List (StoreCall I F)) (i : I) {Q : Program F} {decl : Q.N → Struct} (hD : Declared Q decl)
    (hI : ∀ n, ∀ f ∈ (decl n).kept, InvertibleN Q (Q.fieldTy n f.name)) {t : Q.Ty} (ht : InvertibleN Q t) {x : Q.Val} (h : HasTy Q decl t x)
    (hx : Within Q decl (fun x => FloatOps.isFinite x = true) Balanced t x) (hc : ∀ i' v', .set i' v' ∈ a ++ b → Printable v') (s : Str) (j : Json F) (hs : Json.parse s = .ok j)
    (hj : Printable j) (hw : ∀ c ∈ b, ¬ c.Writes i) :
    ∃ os s' z y, runTexts lim ((a ++ .set i (Q.enc t x) :: b).map (StoreCall.text P)) s = (os, some s') ∧ getText .json s' (P.path i) = .ok z ∧ Q.dec t z = .ok y ∧ Back Q decl t x y := by
  have hfin : AllNum (fun x => FloatOps.isFinite x = true) (Q.enc t x) :=
    parts_encN hD (parts_num (fun x => FloatOps.isFinite x = true)) (fun _ h _ => h) (fun _ _ => trivial) (fun _ => trivial) (fun _ h => h) (fun n h1 h2 => LawfulCast.ofInt_finite n h1 h2)
      (fun _ _ => trivial) h hx
  have hbal : AllStr Balanced (Q.enc t x) :=
    parts_encN hD (parts_str _) (fun _ _ h => h) (fun _ h => h) (fun _ => trivial) (fun _ _ => trivial) (fun _ _ _ => trivial) (fun _ h => h) h hx
  obtain ⟨os, s', j', z, h1, h2, h3, h4, h5⟩ := store_last hP a b i (Q.enc t x) (fun i' v' h' => by
    rcases List.mem_append.1 h' with h' | h'
    · exact hc i' v' (List.mem_append_left _ h')
    · rcases List.mem_cons.1 h' with h' | h'
      · cases h'; exact ⟨wf_encN hD h, hfin, hbal⟩
      · exact hc i' v' (List.mem_append_right _ h')) s j hs hj hw
  obtain ⟨y, h6, h7⟩ := dec_encN hD hI h ht z h4 h5
  exact ⟨os, s', z, y, h1, (getText_json s' _ j' h2).trans h3, h6, h7⟩

/-! ### A store -/

/-- `user.name`, `user.tags.#0.id`, `user.tags.#1.id`. -/
def sampleSlots : Slots (Fin 3) where
  comps := fun i => [[.key "user".toList, .key "name".toList], [.key "user".toList, .key "tags".toList, .index 0, .key "id".toList],
    [.key "user".toList, .key "tags".toList, .index 1, .key "id".toList]][i]
  path := fun i => ["user.name".toList, "user.tags.#0.id".toList, "user.tags.#1.id".toList][i]

/-- Beside C93: these places are places of a store. -/
theorem sampleSlots_ok : sampleSlots.Ok 10 := by
  have hp : ∀ i, PathText (sampleSlots.path i) (sampleSlots.comps i) := by
    intro i
    have h1 : ∀ i, Writable (sampleSlots.comps i) ∧ writePath (sampleSlots.comps i) = sampleSlots.path i := by
      intro i
      match i with
      | 0 => exact ⟨by simp [sampleSlots, Writable], by decide⟩
      | 1 => exact ⟨by simp [sampleSlots, Writable], by decide⟩
      | 2 => exact ⟨by simp [sampleSlots, Writable], by decide⟩
    rw [← (h1 i).2]
    exact C26_expressible _ (h1 i).1
  refine ⟨fun i => ⟨hp i, ?_, ?_, ?_⟩, ?_⟩
  · match i with
    | 0 => exact ⟨[.key "user".toList], "name".toList, rfl⟩
    | 1 => exact ⟨[.key "user".toList, .key "tags".toList, .index 0], "id".toList, rfl⟩
    | 2 => exact ⟨[.key "user".toList, .key "tags".toList, .index 1], "id".toList, rfl⟩
  · intro n h
    match i with
    | 0 => simp [sampleSlots] at h
    | 1 => simp [sampleSlots] at h; omega
    | 2 => simp [sampleSlots] at h; omega
  · intro k h
    show bracketNet k = 0
    match i with
    | 0 => simp [sampleSlots] at h; rcases h with rfl | rfl <;> decide
    | 1 => simp [sampleSlots] at h; rcases h with rfl | rfl | rfl <;> decide
    | 2 => simp [sampleSlots] at h; rcases h with rfl | rfl | rfl <;> decide
  · have d01 : Diverge (sampleSlots.comps 0) (sampleSlots.comps 1) := ⟨[.key "user".toList], _, _, _, _, rfl, rfl, by simp [Apart]⟩
    have d02 : Diverge (sampleSlots.comps 0) (sampleSlots.comps 2) := ⟨[.key "user".toList], _, _, _, _, rfl, rfl, by simp [Apart]⟩
    have d12 : Diverge (sampleSlots.comps 1) (sampleSlots.comps 2) := ⟨[.key "user".toList, .key "tags".toList], _, _, _, _, rfl, rfl, by simp [Apart]⟩
    intro i j h
    match i, j with
    | 0, 0 => exact absurd rfl h
    | 1, 1 => exact absurd rfl h
    | 2, 2 => exact absurd rfl h
    | 0, 1 => exact d01
    | 0, 2 => exact d02
    | 1, 2 => exact d12
    | 1, 0 => exact diverge_symm d01
    | 2, 0 => exact diverge_symm d02
    | 2, 1 => exact diverge_symm d12

/-- Beside C93: a text that is accepted and printable, a value that is. -/
example : (Json.parse "{\"x\": [1]}".toList : Res (Json F64)).isOk = true ∧ (Json.parse "{}".toList : Res (Json F)) = .ok (.object []) ∧ Printable (.object [] : Json F) ∧
    Printable (.string "a".toList : Json F) := by
  refine ⟨by decide +kernel, rfl, ⟨by simp [WF, WFMap], by simp [AllNum, AllNumMap], by simp [AllStr, AllStrMap]⟩, ⟨trivial, trivial, show bracketNet _ = 0 by decide⟩⟩

/-- A history on it: two values stored, one read, one removed, one not found. -/
example : (runTexts 10 (([.set 0 (.string "a".toList), .set 2 .null, .get 0, .del 0, .get 0, .get 1] : List (StoreCall (Fin 3) F64)).map (StoreCall.text sampleSlots)) "{}".toList).2 =
    some "{\"user\": {\"tags\": [null, {\"id\": null}]}}".toList := by decide +kernel

end RJ
