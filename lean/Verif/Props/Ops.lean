import Verif.Proof.Map
/-
  C17-C19, C45: objects as multimaps, arrays as lists.
-/
set_option linter.unusedSectionVars false
namespace RJ
open Spec
variable {F : Type}

/-! ### C17 -/

/-- Call the method an `ObjOp` stands for. -/
def ObjOp.call (op : ObjOp F) (j : Json F) : Json F × Res Unit :=
  match op with
  | .insert k v => j.insert k v
  | .append k v => j.append k v
  | .delete k => j.delete k

/-- Call several methods one after the other; the results in order. -/
def callAll : List (ObjOp F) → Json F → Json F × List (Res Unit)
  | [], j => (j, [])
  | op :: ops, j =>
    let (j1, r) := ObjOp.call op j
    let (j2, rs) := callAll ops j1
    (j2, r :: rs)

theorem call_step (op : ObjOp F) (m : Obj F) (hw : WF (.object m)) (ho : op.WF) :
    ∃ m', ObjOp.call op (.object m) = (.object m', .ok ()) ∧ WF (.object m') ∧ absMap m' = op.spec (absMap m) := by
  cases op with
  | insert k v =>
    refine ⟨mapInsert k (v, []) m, rfl, wf_mapInsert hw _ _ ⟨ho, by simp⟩, ?_⟩
    rw [absMap_insert]; simp [ObjOp.spec, absList]
  | append k v =>
    refine ⟨objectInsert k v m, rfl, wf_objectInsert hw _ _ ho, ?_⟩
    rw [absMap_append]; rfl
  | delete k =>
    refine ⟨mapRemove k m, rfl, wf_mapRemove hw k, ?_⟩
    rw [absMap_remove m hw.1]; rfl

/-- **C17.** Every sequence of `insert`/`append`/`delete` calls on an object succeeds and leaves an object whose histories are
those of the abstract multimap. -/
theorem C17_multimap (ops : List (ObjOp F)) (m : Obj F) (hw : WF (.object m)) (ho : ∀ op ∈ ops, op.WF) :
    ∃ m', (callAll ops (.object m)).1 = .object m' ∧ (∀ r ∈ (callAll ops (.object m)).2, r = .ok ()) ∧
      WF (.object m') ∧ absMap m' = ops.foldl (fun a op => op.spec a) (absMap m) := by
  induction ops generalizing m with
  | nil => exact ⟨m, rfl, by simp [callAll], hw, rfl⟩
  | cons op ops ih =>
    obtain ⟨m1, h1, hw1, ha1⟩ := call_step op m hw (ho op (by simp))
    obtain ⟨m2, h2, hr2, hw2, ha2⟩ := ih m1 hw1 (fun o h => ho o (by simp [h]))
    refine ⟨m2, ?_, ?_, hw2, ?_⟩
    · simp only [callAll, h1]; exact h2
    · intro r hr
      simp only [callAll, h1, List.mem_cons] at hr
      rcases hr with rfl | hr
      · rfl
      · exact hr2 r hr
    · rw [ha2, ha1]; rfl

/-- **C17, lookups.** `index_and_merge` returns the history of the key - all values in insertion order - and
`MissingKey` iff there is none. -/
theorem C17_index_and_merge (m : Obj F) (k : Str) :
    (absMap m k = [] ∧ ∃ e, (Json.object m).indexAndMerge k = .error e ∧ e.kind = .MissingKey) ∨
    (absMap m k ≠ [] ∧ ∃ vs, (Json.object m).indexAndMerge k = .ok vs ∧ vs.map absJ = absMap m k) := by
  rw [absMap_hist]
  simp only [Json.indexAndMerge]
  cases h : mapGet k m with
  | none => exact .inl ⟨rfl, ⟨.MissingKey, _⟩, rfl, rfl⟩
  | some p =>
    obtain ⟨v, l⟩ := p
    refine .inr ⟨by simp [hist], _, rfl, ?_⟩
    simp [hist, absList_eq]

/-- **C17, lookups.** Reading a key returns the newest value of its history. -/
theorem C17_find_is_newest (m : Obj F) (k : Str) (v : Json F) (h : (Finder.key k).find (.object m) = .ok v) :
    (absMap m k).getLast? = some (absJ v) := by
  rw [mapGet_abs_last]
  unfold Finder.find at h
  simp only at h
  cases hg : mapGet k m with
  | none => rw [hg] at h; cases h
  | some p => rw [hg] at h; cases h; rfl

-- a history with duplicates, replacement and deletion
example : ((callAll [.append "a".toList .null, .append "b".toList (.boolean true), .append "a".toList (.string []),
      .insert "b".toList .null, .append "c".toList .null, .delete "c".toList] (.object [] : Json Nat)).1.indexAndMerge "a".toList)
    = .ok [.null, .string []] := rfl

/-! ### C18 -/

/-- What a caller sees of a `Result`. -/
def seenRes : Res Unit → Seen
  | .ok _ => .ok
  | .error e => .error e.kind

/-- What a caller sees of an operation that may panic. -/
def seenOut : Out Unit → Seen
  | .ok _ => .ok
  | .err e => .error e.kind
  | .panic => .panic

/-- Call the method an `ArrOp` stands for. -/
def ArrOp.call (op : ArrOp F) (j : Json F) : Json F × Seen :=
  match op with
  | .push v => let (j, r) := j.push v; (j, seenRes r)
  | .replace i v => let (j, r) := j.replace i v; (j, seenRes r)
  | .remove i => let (j, r) := j.remove i; (j, seenOut r)

/-- Call several methods one after the other (a caller may catch a panic and go on). -/
def callAllArr : List (ArrOp F) → Json F → Json F × List Seen
  | [], j => (j, [])
  | op :: ops, j =>
    let (j1, r) := ArrOp.call op j
    let (j2, rs) := callAllArr ops j1
    (j2, r :: rs)

/-- The abstract list after several operations, and what the caller sees. -/
def specAll : List (ArrOp F) → List (Json F) → List (Json F) × List Seen
  | [], l => (l, [])
  | op :: ops, l =>
    let (l1, r) := op.spec l
    let (l2, rs) := specAll ops l1
    (l2, r :: rs)

theorem arrCall_step (op : ArrOp F) (l : List (Json F)) :
    ArrOp.call op (.array l) = (.array (op.spec l).1, (op.spec l).2) := by
  cases op with
  | push v => rfl
  | replace i v =>
    simp only [ArrOp.call, Json.replace, ArrOp.spec]
    by_cases h : i < l.length
    · rw [if_pos h, List.getElem?_eq_getElem h]
      simp only [seenRes]
      rw [List.set_eq_take_append_cons_drop, if_pos h]
      simp
    · rw [if_neg h, List.getElem?_eq_none (by omega)]
      rfl
  | remove i =>
    simp only [ArrOp.call, Json.remove, ArrOp.spec]
    by_cases h : i < l.length
    · rw [if_pos h, if_pos h, List.eraseIdx_eq_take_drop_succ]
      rfl
    · rw [if_neg h, if_neg h]; rfl

/-- **C18.** Every sequence of `push`/`replace`/`remove` calls on an array does to its contents, and reports, what the list
specification says. -/
theorem C18_list (ops : List (ArrOp F)) (l : List (Json F)) :
    callAllArr ops (.array l) = (.array (specAll ops l).1, (specAll ops l).2) := by
  induction ops generalizing l with
  | nil => rfl
  | cons op ops ih => simp only [callAllArr, arrCall_step, ih, specAll]

example : callAllArr [.push .null, .push (.boolean true), .replace 1 (.string []), .remove 0, .replace 5 .null, .remove 9]
    (.array [] : Json Nat) = (.array [.string []], [.ok, .ok, .ok, .ok, .error .IndexOutOfRange, .panic]) := rfl

/-! ### C19 -/

/-- **C19.** Object operations on anything but an object: `InvalidValueKind`, nothing changes. -/
theorem C19_object_ops (op : ObjOp F) (j : Json F) (h : ∀ m, j ≠ .object m) :
    ∃ e, ObjOp.call op j = (j, .error e) ∧ e.kind = .InvalidValueKind := by
  cases j with
  | object m => exact absurd rfl (h m)
  | _ => cases op <;> exact ⟨_, rfl, rfl⟩

/-- **C19.** Array operations on anything but an array: `InvalidValueKind`, nothing changes. -/
theorem C19_array_ops (op : ArrOp F) (j : Json F) (h : ∀ l, j ≠ .array l) :
    ArrOp.call op j = (j, .error .InvalidValueKind) := by
  cases j with
  | array m => exact absurd rfl (h m)
  | _ => cases op <;> rfl

/-- **C19.** `index_and_merge` on anything but an object. -/
theorem C19_index_and_merge (j : Json F) (k : Str) (h : ∀ m, j ≠ .object m) :
    ∃ e, j.indexAndMerge k = .error e ∧ e.kind = .InvalidValueKind := by
  cases j with
  | object m => exact absurd rfl (h m)
  | _ => exact ⟨_, rfl, rfl⟩

/-! ### C45 -/

/-- **C45.** `object!{k => v, ..}` is an object; the history of a key is the list of the values given for it, in order. -/
theorem C45_object_macro (kvs : List (Str × Json F)) :
    ∃ m, objectMacro kvs = .object m ∧
      ∀ k, absMap m k = (kvs.filter (fun p => p.1 = k)).map (fun p => absJ p.2) := by
  suffices h : ∀ m0 : Obj F, ∃ m, kvs.foldl (fun j kv => (j.append kv.1 kv.2).1) (Json.object m0) = .object m ∧
      ∀ k, absMap m k = absMap m0 k ++ (kvs.filter (fun p => p.1 = k)).map (fun p => absJ p.2) by
    obtain ⟨m, h1, h2⟩ := h []
    exact ⟨m, h1, fun k => by rw [h2 k]; rfl⟩
  induction kvs with
  | nil => intro m0; exact ⟨m0, rfl, by simp⟩
  | cons kv kvs ih =>
    intro m0
    obtain ⟨m, h1, h2⟩ := ih (objectInsert kv.1 kv.2 m0)
    refine ⟨m, h1, ?_⟩
    intro k
    rw [h2, absMap_objectInsert]
    by_cases h : kv.1 = k <;> simp [h]

/-- **C45.** The object is well formed. -/
theorem C45_object_macro_wf (kvs : List (Str × Json F)) (h : ∀ p ∈ kvs, WF p.2) : WF (objectMacro kvs) := by
  suffices h : ∀ m0 : Obj F, WF (.object m0) → WF (kvs.foldl (fun j kv => (j.append kv.1 kv.2).1) (Json.object m0)) from
    h [] ⟨by simp, trivial⟩
  induction kvs with
  | nil => intro m0 h0; exact h0
  | cons kv kvs ih =>
    intro m0 h0
    exact ih (fun p hp => h p (by simp [hp])) _ (wf_objectInsert h0 _ _ (h kv (by simp)))

/-- **C45.** `array![..]` is the array of the encoded expressions in order. -/
theorem C45_array_macro (es : List (Json F)) : arrayMacro es = .array es := by
  suffices h : ∀ acc, es.foldl (fun v e => v ++ [e]) acc = acc ++ es by
    simp [arrayMacro, h]
  induction es with
  | nil => simp
  | cons e es ih => intro acc; simp [ih]

end RJ
