import Verif.Proof.Sort
import Verif.Proof.JsonInd
/-
  `to_string` prints the text of a valid RFC 8259 syntax tree that denotes the value.
-/
set_option linter.unusedSectionVars false
namespace RJ
open Spec

/-- Comma separated elements; every element but the first is preceded by a space. -/
def mkElems (w : Str) : Cst → List Cst → Elems
  | x, [] => .one w x []
  | x, y :: t => .cons w x [] (mkElems [' '] y t)

/-- Comma separated members, `"key": value`. -/
def mkMembers (w : Str) : Str × Cst → List (Str × Cst) → Members
  | p, [] => .one w (escapeItems p.1) [] [' '] p.2 []
  | p, q :: t => .cons w (escapeItems p.1) [] [' '] p.2 [] (mkMembers [' '] q t)

/-- Text of one printed member. -/
def memberText (p : Str × Str) : Str := escape p.1 ++ ": ".toList ++ p.2

theorem mkElems_text (w : Str) (x : Cst) (t : List Cst) :
    (mkElems w x t).text = w ++ joinComma ((x :: t).map Cst.text) := by
  induction t generalizing w x with
  | nil => simp [mkElems, Elems.text, joinComma]
  | cons y t ih =>
    simp only [mkElems, Elems.text, List.map_cons, joinComma]
    rw [ih]
    simp

theorem mkMembers_text (w : Str) (p : Str × Cst) (t : List (Str × Cst)) :
    (mkMembers w p t).text = w ++ joinComma ((p :: t).map (fun q => memberText (q.1, q.2.text))) := by
  induction t generalizing w p with
  | nil => simp [mkMembers, Members.text, joinComma, memberText, escape_eq]
  | cons q t ih =>
    simp only [mkMembers, Members.text, List.map_cons, joinComma]
    rw [ih]
    simp [memberText, escape_eq]

theorem wsNil : WsStr [] := by intro c hc; cases hc
theorem wsSpace : WsStr [' '] := by intro c hc; simp at hc; subst hc; exact .inl rfl

theorem escapeItems_valid (s : Str) : ∀ i ∈ escapeItems s, i.Valid := strVal_valid (strVal_escape s)

theorem mkElems_valid (w : Str) (hw : WsStr w) (x : Cst) (t : List Cst) (h : ∀ y ∈ x :: t, y.Valid) :
    (mkElems w x t).Valid := by
  induction t generalizing w x with
  | nil => exact ⟨hw, h x (by simp), wsNil⟩
  | cons y t ih => exact ⟨hw, h x (by simp), wsNil, ih _ wsSpace y (fun z hz => h z (by simp at hz ⊢; exact .inr hz))⟩

theorem mkMembers_valid (w : Str) (hw : WsStr w) (p : Str × Cst) (t : List (Str × Cst))
    (h : ∀ y ∈ p :: t, y.2.Valid) : (mkMembers w p t).Valid := by
  induction t generalizing w p with
  | nil => exact ⟨hw, escapeItems_valid _, wsNil, wsSpace, h p (by simp), wsNil⟩
  | cons q t ih =>
    exact ⟨⟨hw, escapeItems_valid _, wsNil, wsSpace, h p (by simp), wsNil⟩,
      ih _ wsSpace q (fun z hz => h z (by simp at hz ⊢; exact .inr hz))⟩

theorem mkElems_plain (w : Str) (x : Cst) (t : List Cst) :
    (mkElems w x t).Plain ↔ ∀ y ∈ x :: t, y.Plain := by
  induction t generalizing w x with
  | nil => simp [mkElems, Elems.Plain]
  | cons y t ih => simp only [mkElems, Elems.Plain, ih]; simp

theorem mkMembers_plain (w : Str) (p : Str × Cst) (t : List (Str × Cst)) :
    (mkMembers w p t).Plain ↔ ∀ y ∈ p :: t, Balanced y.1 ∧ y.2.Plain := by
  induction t generalizing w p with
  | nil => simp [mkMembers, Members.Plain, rawBrackets_escape, Balanced]
  | cons q t ih => simp only [mkMembers, Members.Plain, ih, rawBrackets_escape, Balanced]; simp

variable {F : Type} [FloatOps F]

theorem mkElems_value (w : Str) (x : Cst) (t : List Cst) (v : Val F) (vs : List (Val F))
    (h : (x :: t).map Cst.value = (v :: vs).map some) : (mkElems w x t).value = some (v :: vs) := by
  induction t generalizing w x v vs with
  | nil =>
    simp only [List.map_cons, List.map_nil, List.cons.injEq] at h
    have : vs = [] := by simpa using h.2.symm
    subst this
    simp [mkElems, Elems.value, h.1]
  | cons y t ih =>
    cases vs with
    | nil => simp at h
    | cons v' vs =>
      have h1 : x.value = some v := by simpa using (List.cons.inj h).1
      have h2 := ih [' '] y v' vs (List.cons.inj h).2
      simp only [mkElems, Elems.value, h1, h2]

theorem mkMembers_value (w : Str) (p : Str × Cst) (t : List (Str × Cst)) (v : Str × Val F) (vs : List (Str × Val F))
    (h : (p :: t).map (fun q => (q.1, (q.2.value : Option (Val F)))) = (v :: vs).map (fun q => (q.1, some q.2))) :
    (mkMembers w p t).value = some (v :: vs) := by
  induction t generalizing w p v vs with
  | nil =>
    simp only [List.map_cons, List.map_nil, List.cons.injEq, Prod.mk.injEq] at h
    have : vs = [] := by simpa using h.2.symm
    subst this
    simp [mkMembers, Members.value, h.1, strVal_escape]
  | cons q t ih =>
    cases vs with
    | nil => simp at h
    | cons v' vs =>
      have h1 := (List.cons.inj h).1
      simp only [Prod.mk.injEq] at h1
      have h2 := ih [' '] q v' vs (List.cons.inj h).2
      simp only [mkMembers, Members.value, h1, h2, strVal_escape]

/-- The number literal `f64::to_string` prints (any valid literal with that text; a word for what is no number). -/
noncomputable def numLitOf (f : F) : NumLit :=
  open Classical in
  if h : ∃ n : NumLit, n.Valid ∧ n.exp = none ∧ FloatOps.print f = n.text then Classical.choose h
  else ⟨false, FloatOps.print f, none, none⟩

theorem numLitOf_text (f : F) : (numLitOf f).text = FloatOps.print f := by
  unfold numLitOf
  split
  · rename_i h; exact (Classical.choose_spec h).2.2.symm
  · simp [NumLit.text]

theorem numLitOf_spec [LawfulFloat F] (f : F) (hf : FloatOps.isFinite f = true) :
    (numLitOf f).Valid ∧ (numLitOf f).exp = none ∧ FloatOps.print f = (numLitOf f).text := by
  have h := LawfulFloat.print_shape f hf
  unfold numLitOf
  rw [dif_pos h]
  exact Classical.choose_spec h

/-- Array tree of a list of trees. -/
def arrCst : List Cst → Cst
  | [] => .arr0 []
  | x :: t => .arr (mkElems [] x t)

/-- Object tree of a list of members. -/
def objCst : List (Str × Cst) → Cst
  | [] => .obj0 []
  | p :: t => .obj (mkMembers [] p t)

mutual
/-- The syntax tree that `to_string` prints. -/
noncomputable def cstOf : Json F → Cst
  | .object m => objCst ((sortByKey (cstEntries m)).map (·.2)).flatten
  | .array l => arrCst (cstList l)
  | .string s => .str (escapeItems s)
  | .number f => .num (numLitOf f)
  | .boolean true => .true
  | .boolean false => .false
  | .null => .null
noncomputable def cstEntries : List (Str × (Json F × List (Json F))) → List (Str × List (Str × Cst))
  | [] => []
  | (k, (v, l)) :: t => (k, ((cstList l).reverse ++ [cstOf v]).map (fun x => (k, x))) :: cstEntries t
noncomputable def cstList : List (Json F) → List Cst
  | [] => []
  | x :: t => cstOf x :: cstList t
end

theorem cstList_eq (l : List (Json F)) : cstList l = l.map cstOf := by
  induction l with
  | nil => simp [cstList]
  | cons x t ih => simp [cstList, ih]

/-- The members of one hash map entry in the order they are printed. -/
def entryVals {F : Type} (e : Str × (Json F × List (Json F))) : List (Json F) := e.2.2.reverse ++ [e.2.1]

theorem cstEntries_eq (m : Obj F) :
    cstEntries m = m.map (fun e => (e.1, (entryVals e).map (fun j => (e.1, cstOf j)))) := by
  induction m with
  | nil => simp [cstEntries]
  | cons e t ih =>
    obtain ⟨k, v, l⟩ := e
    simp [cstEntries, ih, cstList_eq, entryVals, List.map_reverse, Function.comp_def]

theorem printList_eq (l : List (Json F)) : printList l = l.map Json.toString := by
  induction l with
  | nil => simp [printList]
  | cons x t ih => simp [printList, ih]

theorem printEntries_eq (m : Obj F) :
    printEntries m = m.map (fun e => (e.1, printEntry e.1 e.2.1.toString (e.2.2.map Json.toString))) := by
  induction m with
  | nil => simp [printEntries]
  | cons e t ih =>
    obtain ⟨k, v, l⟩ := e
    simp [printEntries, ih, printList_eq]

theorem joinComma_append (a b : List Str) (hb : b ≠ []) :
    joinComma (a ++ b) = (a.map (fun s => s ++ ", ".toList)).flatten ++ joinComma b := by
  induction a with
  | nil => simp
  | cons x a ih =>
    cases h : a ++ b with
    | nil => simp [hb] at h
    | cons y t =>
      simp only [List.cons_append, h, joinComma]
      rw [← h, ih]
      simp

theorem printEntry_eq (e : Str × (Json F × List (Json F))) :
    printEntry e.1 e.2.1.toString (e.2.2.map Json.toString) =
      joinComma ((entryVals e).map (fun j => memberText (e.1, j.toString))) := by
  unfold printEntry entryVals
  rw [List.map_append, joinComma_append _ _ (by simp)]
  simp [memberText, joinComma, List.map_reverse, Function.comp_def]

theorem joinComma_flatten (L : List (List Str)) (h : ∀ l ∈ L, l ≠ []) :
    joinComma (L.map joinComma) = joinComma L.flatten := by
  induction L with
  | nil => rfl
  | cons l L ih =>
    cases L with
    | nil => simp [joinComma]
    | cons l2 L =>
      have ih' := ih (fun x hx => h x (by simp at hx ⊢; exact .inr hx))
      simp only [List.map_cons, joinComma] at ih' ⊢
      rw [ih']
      simp only [List.flatten_cons]
      have hl := h l (by simp)
      have hne : (l2 ++ L.flatten) ≠ [] := by simp [h l2 (by simp)]
      rw [joinComma_append l _ hne]
      have : l = l.dropLast ++ [l.getLast hl] := (List.dropLast_concat_getLast hl).symm
      rw [this, joinComma_append l.dropLast [_] (by simp)]
      simp [joinComma]

/-- The printed members, in order. -/
def flatVals (m : Obj F) : List (Str × Json F) :=
  ((sortByKey m).map (fun e => (entryVals e).map (fun j => (e.1, j)))).flatten

theorem cstOf_object (m : Obj F) :
    cstOf (.object m) = objCst ((flatVals m).map (fun p => (p.1, cstOf p.2))) := by
  rw [cstOf, cstEntries_eq, sortByKey_map]
  simp only [flatVals, List.map_flatten, List.map_map, Function.comp_def]

theorem toString_object (m : Obj F) :
    (Json.object m).toString =
      ['{'] ++ joinComma ((flatVals m).map (fun p => memberText (p.1, p.2.toString))) ++ ['}'] := by
  rw [Json.toString, printEntries_eq, sortByKey_map]
  simp only [List.map_map, Function.comp_def, printEntry_eq]
  congr 2
  rw [flatVals, List.map_flatten, ← joinComma_flatten]
  · simp [List.map_map, Function.comp_def]
  · intro l hl
    simp only [List.map_map, Function.comp_def, List.mem_map] at hl
    obtain ⟨e, _, rfl⟩ := hl
    simp [entryVals]

theorem objCst_text (l : List (Str × Cst)) :
    (objCst l).text = ['{'] ++ joinComma (l.map (fun q => memberText (q.1, q.2.text))) ++ ['}'] := by
  cases l with
  | nil => rfl
  | cons p t => simp [objCst, Cst.text, mkMembers_text]

theorem arrCst_text (l : List Cst) : (arrCst l).text = ['['] ++ joinComma (l.map Cst.text) ++ [']'] := by
  cases l with
  | nil => rfl
  | cons p t => simp [arrCst, Cst.text, mkElems_text]

theorem mem_flatVals {m : Obj F} {p : Str × Json F} (h : p ∈ flatVals m) :
    ∃ v l, (p.1, (v, l)) ∈ m ∧ (p.2 = v ∨ p.2 ∈ l) := by
  simp only [flatVals, List.mem_flatten, List.mem_map] at h
  obtain ⟨_, ⟨e, he, rfl⟩, hp⟩ := h
  simp only [List.mem_map] at hp
  obtain ⟨j, hj, rfl⟩ := hp
  refine ⟨e.2.1, e.2.2, (sortByKey_perm m).mem_iff.mp he, ?_⟩
  simp only [entryVals, List.mem_append, List.mem_reverse, List.mem_singleton] at hj
  exact hj.symm

theorem flatVals_mem {m : Obj F} {k : Str} {v : Json F} {l : List (Json F)} (h : (k, (v, l)) ∈ m) (x : Json F)
    (hx : x = v ∨ x ∈ l) : (k, x) ∈ flatVals m := by
  simp only [flatVals, List.mem_flatten, List.mem_map]
  refine ⟨_, ⟨_, (sortByKey_perm m).mem_iff.mpr h, rfl⟩, ?_⟩
  simp only [List.mem_map]
  exact ⟨x, by simp [entryVals]; exact hx.symm, rfl⟩

variable [LawfulFloat F]

/-- Every number finite. -/
abbrev Finite (j : Json F) : Prop := AllNum (fun f => FloatOps.isFinite f = true) j

theorem cstOf_text_any (j : Json F) : j.toString = (cstOf j).text := by
  induction j using Json.ind with
  | hobj m ih =>
    rw [toString_object, cstOf_object, objCst_text]
    congr 3
    rw [List.map_map]
    apply List.map_congr_left
    intro p hp
    obtain ⟨v, l, hm, hx⟩ := mem_flatVals hp
    have hih := ih _ _ _ hm
    have : p.2.toString = (cstOf p.2).text := by
      rcases hx with h | h
      · rw [h]; exact hih.1
      · exact hih.2 _ h
    simp [this]
  | harr l ih =>
    rw [Json.toString, cstOf, arrCst_text, printList_eq, cstList_eq]
    congr 3
    rw [List.map_map]
    apply List.map_congr_left
    intro x hx
    exact ih x hx
  | hstr s => rw [Json.toString, cstOf, Cst.text, escape_eq]
  | hnum f => rw [Json.toString, cstOf, Cst.text, numLitOf_text]
  | hbool b => cases b <;> simp [Json.toString, cstOf, Cst.text]
  | hnull => simp [Json.toString, cstOf, Cst.text]

theorem cstOf_text (j : Json F) (_ : Finite j) : j.toString = (cstOf j).text := cstOf_text_any j

theorem objCst_valid (l : List (Str × Cst)) (h : ∀ p ∈ l, p.2.Valid) : (objCst l).Valid := by
  cases l with
  | nil => exact wsNil
  | cons p t => exact mkMembers_valid [] wsNil p t h

theorem arrCst_valid (l : List Cst) (h : ∀ p ∈ l, p.Valid) : (arrCst l).Valid := by
  cases l with
  | nil => exact wsNil
  | cons p t => exact mkElems_valid [] wsNil p t h

theorem objCst_plain (l : List (Str × Cst)) : (objCst l).Plain ↔ ∀ p ∈ l, Balanced p.1 ∧ p.2.Plain := by
  cases l with
  | nil => simp [objCst, Cst.Plain]
  | cons p t => exact mkMembers_plain [] p t

theorem arrCst_plain (l : List Cst) : (arrCst l).Plain ↔ ∀ p ∈ l, p.Plain := by
  cases l with
  | nil => simp [arrCst, Cst.Plain]
  | cons p t => exact mkElems_plain [] p t

theorem objCst_value (l : List (Str × Cst)) (vs : List (Str × Val F))
    (h : l.map (fun q => (q.1, (q.2.value : Option (Val F)))) = vs.map (fun q => (q.1, some q.2))) :
    (objCst l).value = some (.obj (named vs)) := by
  cases l with
  | nil =>
    have : vs = [] := by simpa using h.symm
    subst this; rfl
  | cons p t =>
    cases vs with
    | nil => simp at h
    | cons v vs =>
      simp only [objCst, Cst.value, mkMembers_value [] p t v vs h, Option.map_some]

theorem arrCst_value (l : List Cst) (vs : List (Val F)) (h : l.map Cst.value = vs.map some) :
    (arrCst l).value = some (.arr vs) := by
  cases l with
  | nil =>
    have : vs = [] := by simpa using h.symm
    subst this; rfl
  | cons p t =>
    cases vs with
    | nil => simp at h
    | cons v vs =>
      simp only [arrCst, Cst.value, mkElems_value [] p t v vs h, Option.map_some]

theorem cstOf_valid (j : Json F) (hf : Finite j) : (cstOf j).Valid := by
  induction j using Json.ind with
  | hobj m ih =>
    rw [cstOf_object]
    apply objCst_valid
    intro p hp
    simp only [List.mem_map] at hp
    obtain ⟨q, hq, rfl⟩ := hp
    obtain ⟨v, l, hm, hx⟩ := mem_flatVals hq
    have hfin := (AllNumMap_iff _ m).mp hf _ _ _ hm
    have hih := ih _ _ _ hm
    rcases hx with h | h
    · simp only [h]; exact hih.1 hfin.1
    · exact hih.2 _ h (hfin.2 _ h)
  | harr l ih =>
    rw [cstOf, cstList_eq]
    apply arrCst_valid
    intro p hp
    simp only [List.mem_map] at hp
    obtain ⟨x, hx, rfl⟩ := hp
    exact ih x hx ((AllNumList_iff _ l).mp hf x hx)
  | hstr s => rw [cstOf]; exact escapeItems_valid s
  | hnum f => rw [cstOf]; exact (numLitOf_spec f hf).1
  | hbool b => cases b <;> simp [cstOf, Cst.Valid]
  | hnull => simp [cstOf, Cst.Valid]

theorem cstOf_plain (j : Json F) : (cstOf j).Plain ↔ AllStr Balanced j := by
  induction j using Json.ind with
  | hobj m ih =>
    rw [cstOf_object, objCst_plain, AllStr, AllStrMap_iff]
    constructor
    · intro h k v l hm
      have aux : ∀ x, x = v ∨ x ∈ l → Balanced k ∧ (cstOf x).Plain := by
        intro x hx
        have := flatVals_mem hm x hx
        exact h (k, cstOf x) (List.mem_map.mpr ⟨(k, x), this, rfl⟩)
      refine ⟨(aux v (.inl rfl)).1, (ih k v l hm).1.mp (aux v (.inl rfl)).2, ?_⟩
      intro x hx
      exact ((ih k v l hm).2 x hx).mp (aux x (.inr hx)).2
    · intro h p hp
      simp only [List.mem_map] at hp
      obtain ⟨q, hq, rfl⟩ := hp
      obtain ⟨v, l, hm, hx⟩ := mem_flatVals hq
      obtain ⟨h1, h2, h3⟩ := h _ _ _ hm
      refine ⟨h1, ?_⟩
      rcases hx with e | e
      · simp only [e]; exact (ih _ _ _ hm).1.mpr h2
      · exact ((ih _ _ _ hm).2 _ e).mpr (h3 _ e)
  | harr l ih =>
    rw [cstOf, cstList_eq, arrCst_plain, AllStr, AllStrList_iff]
    constructor
    · intro h x hx
      exact (ih x hx).mp (h _ (List.mem_map_of_mem hx))
    · intro h p hp
      simp only [List.mem_map] at hp
      obtain ⟨x, hx, rfl⟩ := hp
      exact (ih x hx).mpr (h x hx)
  | hstr s =>
    simp only [cstOf, Cst.Plain, AllStr, Balanced, rawBrackets_escape]
  | hnum f => simp [cstOf, Cst.Plain, AllStr]
  | hbool b => cases b <;> simp [cstOf, Cst.Plain, AllStr]
  | hnull => simp [cstOf, Cst.Plain, AllStr]

/-- Looking a key up in the flat member list of an object. -/
theorem filter_key {β : Type} (m : List (Str × β)) (hn : (m.map (·.1)).Nodup) (q : Str) :
    m.filter (fun e => e.1 = q) = match mapGet q m with | some v => [(q, v)] | none => [] := by
  induction m with
  | nil => rfl
  | cons e t ih =>
    obtain ⟨k, v⟩ := e
    have hn' := List.nodup_cons.mp hn
    simp only [mapGet]
    by_cases h : k = q
    · subst h
      have : t.filter (fun e => e.1 = k) = [] := by
        rw [List.filter_eq_nil_iff]
        intro x hx hk
        simp only [decide_eq_true_eq] at hk
        exact hn'.1 (List.mem_map.mpr ⟨x, hx, hk⟩)
      simp [this]
    · simp [h, ih hn'.2]

theorem mapGet_perm {β : Type} {m m' : List (Str × β)} (hp : m.Perm m') (hn : (m.map (·.1)).Nodup) (q : Str) :
    mapGet q m = mapGet q m' := by
  have hn' : (m'.map (·.1)).Nodup := (hp.map _).nodup_iff.mp hn
  have h := hp.filter (fun e => decide (e.1 = q))
  rw [filter_key m hn, filter_key m' hn'] at h
  cases h1 : mapGet q m <;> cases h2 : mapGet q m' <;> simp [h1, h2] at h ⊢
  exact h

theorem named_flat {F : Type} (m : Obj F) (hn : (m.map (·.1)).Nodup) (q : Str) :
    named (((m.map (fun e => (entryVals e).map (fun j => (e.1, j)))).flatten).map (fun p => (p.1, absJ p.2))) q =
      absMap m q := by
  induction m with
  | nil => rfl
  | cons e t ih =>
    obtain ⟨k, v, l⟩ := e
    have hn' := List.nodup_cons.mp hn
    have ih' := ih hn'.2
    unfold named at ih' ⊢
    simp only [List.map_cons, List.flatten_cons, List.map_append, List.filter_append]
    rw [ih']
    simp only [absMap]
    by_cases h : k = q
    · subst h
      have : absMap t k = [] := by
        rw [absMap_eq]
        have : mapGet k t = none := by
          cases hg : mapGet k t with
          | none => rfl
          | some p =>
            exfalso
            have hf := filter_key t hn'.2 k
            rw [hg] at hf
            have hmem : (k, p) ∈ t.filter (fun e => decide (e.1 = k)) := by rw [hf]; exact List.mem_singleton.mpr rfl
            have : (k, p) ∈ t := (List.mem_filter.mp hmem).1
            exact hn'.1 (List.mem_map_of_mem (f := (·.1)) this)
        rw [this]
      rw [this, if_pos rfl]
      have hfil : ∀ (l : List (Json F)), (l.map (fun x => (k, absJ x))).filter (fun p => decide (p.1 = k)) =
          l.map (fun x => (k, absJ x)) := by
        intro l
        rw [List.filter_eq_self]
        intro p hp
        obtain ⟨x, _, rfl⟩ := List.mem_map.mp hp
        simp
      simp [entryVals, absList_eq, List.map_reverse, Function.comp_def, hfil]
    · rw [if_neg h]
      simp [h, Function.comp_def]

theorem cstOf_value (j : Json F) (hf : Finite j) (hw : WF j) : (cstOf j).value = some (absJ j) := by
  induction j using Json.ind with
  | hobj m ih =>
    rw [cstOf_object]
    have hn := hw.1
    have hn' : ((sortByKey m).map (·.1)).Nodup := ((sortByKey_perm m).map (·.1)).nodup_iff.mpr hn
    rw [objCst_value _ ((flatVals m).map (fun p => (p.1, absJ p.2)))]
    · simp only [absJ, Option.some.injEq, Val.obj.injEq]
      funext q
      have := named_flat (sortByKey m) hn' q
      unfold flatVals
      rw [this, absMap_eq, absMap_eq, mapGet_perm (sortByKey_perm m) hn']
    · rw [List.map_map, List.map_map]
      apply List.map_congr_left
      intro p hp
      obtain ⟨v, l, hm, hx⟩ := mem_flatVals hp
      have hfin := (AllNumMap_iff _ m).mp hf _ _ _ hm
      have hwf := (WFMap_iff m).mp hw.2 _ _ _ hm
      have hih := ih _ _ _ hm
      simp only [Function.comp_def, Prod.mk.injEq, true_and]
      rcases hx with h | h
      · simp only [h]; exact hih.1 hfin.1 hwf.1
      · exact hih.2 _ h (hfin.2 _ h) (hwf.2 _ h)
  | harr l ih =>
    rw [cstOf, cstList_eq, arrCst_value _ (l.map absJ)]
    · simp [absJ, absList_eq]
    · rw [List.map_map, List.map_map]
      apply List.map_congr_left
      intro x hx
      exact ih x hx ((AllNumList_iff _ l).mp hf x hx) ((WFList_iff l).mp hw x hx)
  | hstr s => simp [cstOf, Cst.value, strVal_escape, absJ]
  | hnum f =>
    have hp := LawfulFloat.parse_print f hf
    rw [(numLitOf_spec f hf).2.2] at hp
    have hf' : FloatOps.isFinite f = true := hf
    simp [cstOf, Cst.value, NumLit.value, hp, hf', absJ]
  | hbool b => cases b <;> simp [cstOf, Cst.value, absJ]
  | hnull => simp [cstOf, Cst.value, absJ]

end RJ
