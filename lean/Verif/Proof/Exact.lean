import Verif.Proof.Wrong
/-
  What the parser returns for a valid document, exactly.
-/
set_option linter.unusedSectionVars false
namespace RJ
open Spec
variable {F : Type} [FloatOps F]

theorem bad_not {α : Type} {r : Res α} {x : α} (h : Bad r) (e : r = .ok x) : False := h x e

/-- Closing an array. -/
theorem arr_close_inv {rec : Str → Res (Json F)} {us q : Str} {arr : List (Json F)} {j : Json F}
    (h : arrLoop rec (']' :: q) 0 0 us arr = .ok j) : ∃ v, rec us = .ok v ∧ j = .array (arr ++ [v]) := by
  rw [arrLoop_cons, if_pos ⟨rfl, rfl, rfl⟩] at h
  cases hr : rec us with
  | error e => rw [hr] at h; cases h
  | ok v =>
    rw [hr] at h
    simp only at h
    cases hs : skipTrail .ParseArrayError q with
    | error e => rw [hs] at h; cases h
    | ok u => rw [hs] at h; simp only [Except.ok.injEq] at h; exact ⟨v, rfl, h.symm⟩

/-- Closing an object. -/
theorem obj_close_inv {rec : Str → Res (Json F)} {ks us q : Str} {obj : Obj F} {j : Json F}
    (h : objLoop rec ('}' :: q) 0 0 (ks, us) false obj = .ok j) :
    ∃ k v, rec ks = .ok (.string k) ∧ rec us = .ok v ∧ j = .object (objectInsert k v obj) := by
  rw [objLoop_cons, if_pos ⟨rfl, rfl, rfl, rfl⟩] at h
  split at h
  · rename_i key hk
    cases hr : rec us with
    | error e => rw [hr] at h; cases h
    | ok v =>
      rw [hr] at h
      simp only at h
      cases hs : skipTrail .ParseObjectError q with
      | error e => rw [hs] at h; cases h
      | ok u => rw [hs] at h; simp only [Except.ok.injEq] at h; exact ⟨key, v, hk, rfl, h.symm⟩
  · cases h

/-- A scalar followed by whitespace. -/
theorem numChar_not_ws {c : Char} (h : NumChar c) : ¬ IsWs c := by
  have aux : ∀ d : Char, c = d ↔ c.toNat = d.toNat :=
    fun d => ⟨fun h => h ▸ rfl, fun h => Char.toNat_inj.mp h⟩
  unfold NumChar IsDigit at h
  unfold IsWs
  simp only [aux] at h
  simp only [Char.reduceToNat] at h
  omega

theorem ws_nil_of {w : Str} (hw : WsStr w) (h : ∀ c ∈ w, ¬ IsWs c) : w = [] := by
  cases w with
  | nil => rfl
  | cons c w => exact absurd (hw c (by simp)) (h c (by simp))

theorem null_ok {w : Str} {j : Json F} (h : parseRaw ("null".toList ++ w) = .ok j) : j = .null := by
  rcases parseRaw_cases _ _ h with ⟨_, e⟩ | ⟨e, _⟩ | ⟨e, _⟩ | ⟨_, _, _, _, c, s, e, hc⟩ | ⟨_, _, _, e, _⟩ | ⟨_, _, e, _⟩ | ⟨_, _, e, _⟩
  · exact e
  · simp at e
  · simp at e
  · simp at e; obtain ⟨rfl, _⟩ := e; simp [IsDigit] at hc
  · simp at e
  · simp at e
  · simp at e

theorem true_ok {w : Str} {j : Json F} (h : parseRaw ("true".toList ++ w) = .ok j) : j = .boolean true := by
  rcases parseRaw_cases _ _ h with ⟨e, _⟩ | ⟨_, e⟩ | ⟨e, _⟩ | ⟨_, _, _, _, c, s, e, hc⟩ | ⟨_, _, _, e, _⟩ | ⟨_, _, e, _⟩ | ⟨_, _, e, _⟩
  · simp at e
  · exact e
  · simp at e
  · simp at e; obtain ⟨rfl, _⟩ := e; simp [IsDigit] at hc
  · simp at e
  · simp at e
  · simp at e

theorem false_ok {w : Str} {j : Json F} (h : parseRaw ("false".toList ++ w) = .ok j) : j = .boolean false := by
  rcases parseRaw_cases _ _ h with ⟨e, _⟩ | ⟨e, _⟩ | ⟨_, e⟩ | ⟨_, _, _, _, c, s, e, hc⟩ | ⟨_, _, _, e, _⟩ | ⟨_, _, e, _⟩ | ⟨_, _, e, _⟩
  · simp at e
  · simp at e
  · exact e
  · simp at e; obtain ⟨rfl, _⟩ := e; simp [IsDigit] at hc
  · simp at e
  · simp at e
  · simp at e

variable [LawfulFloat F]

theorem num_ok {n : NumLit} (hn : n.Valid) {w : Str} {j : Json F} (hw : WsStr w) (h : parseRaw (n.text ++ w) = .ok j) :
    ∃ f, NumLit.value n = some f ∧ j = .number f := by
  have hacc := NumLit.Loose.accepted hn.1
  obtain ⟨c, t, e, hc⟩ := accepted_head hacc
  have hw0 : w = [] := by
    have h' := h
    rw [e, List.cons_append, num_head_dispatch hc, parseNumber] at h'
    split at h'
    · rename_i hval
      cases hp : (FloatOps.parse (c :: (t ++ w)) : Option F) with
      | none => rw [hp] at h'; cases h'
      | some f =>
        have hr : RustFloat (c :: (t ++ w)) := (LawfulFloat.parse_isSome (F := F) _).mp (by rw [hp]; rfl)
        obtain ⟨m, hm, em⟩ := (accepted_iff (c :: (t ++ w)) ⟨c, t ++ w, rfl, hc⟩).mp ⟨hval, hr⟩
        apply ws_nil_of hw
        intro d hd
        exact numChar_not_ws (accepted_chars hm d (by rw [← em]; simp [hd]))
    · cases h'
  subst hw0
  rw [List.append_nil, parseRaw_num n hacc] at h
  cases hv : (NumLit.value n : Option F) with
  | none => rw [hv] at h; cases h
  | some f => rw [hv] at h; simp only [Except.ok.injEq] at h; exact ⟨f, rfl, h.symm⟩

/-- A word that is read, with whitespace behind it, is read as what it denotes. -/
theorem word_ok {n w : Str} (hn : AnyWord n) {j : Json F} (hw : WsStr w) (h : parseRaw (n ++ w) = .ok j) : wordVal n = some (absJ j) := by
  obtain ⟨c, t, rfl⟩ := List.exists_cons_of_ne_nil hn.1
  have hc := hn.2 c (by simp)
  have hnw : ∀ s : Str, (∀ d ∈ s, ¬ IsWs d) → c :: t ++ w = s → c :: t = s ∧ w = [] := by
    intro s hs e
    have hw0 : w = [] := ws_nil_of hw (fun d hd => hs d (by rw [← e]; simp [hd]))
    subst hw0
    exact ⟨by rw [← e, List.append_nil], rfl⟩
  rcases parseRaw_cases _ _ h with ⟨e, rfl⟩ | ⟨e, rfl⟩ | ⟨e, rfl⟩ | ⟨f, hf, hval, hpar, d, s, e, hd⟩ | ⟨_, _, _, e, _⟩ | ⟨_, _, e, _⟩ | ⟨_, _, e, _⟩
  · rw [(hnw _ (by unfold IsWs; decide) e).1]; rfl
  · rw [(hnw _ (by unfold IsWs; decide) e).1]; rfl
  · rw [(hnw _ (by unfold IsWs; decide) e).1]; rfl
  · have hval' := hval
    rw [parseNumber] at hval'
    split at hval'
    · rename_i hvn
      cases hp : (FloatOps.parse (c :: t ++ w) : Option F) with
      | none => rw [hp] at hval'; cases hval'
      | some g =>
        have hr : RustFloat (c :: t ++ w) := (LawfulFloat.parse_isSome (F := F) _).mp (by rw [hp]; rfl)
        obtain ⟨m, hm, em⟩ := (accepted_iff (c :: t ++ w) ⟨d, s, e, hd⟩).mp ⟨hvn, hr⟩
        obtain ⟨e1, rfl⟩ := hnw m.text (fun x hx => numChar_not_ws (accepted_chars hm x hx)) em
        rw [List.append_nil, e1, parseRaw_num m hm] at h
        rw [e1, wordVal_num m hm]
        cases hv : (NumLit.value m : Option F) with
        | none => rw [hv] at h; cases h
        | some f' => rw [hv] at h; simp only [Except.ok.injEq] at h; rw [← h]; rfl
    · cases hval'
  · injection e with e _; exact absurd e hc.1
  · injection e with e _; exact absurd e hc.2.1
  · injection e with e _; exact absurd e hc.2.2.2.1

/-- A tree which is not just a string has balanced strings. -/
def TopBal : Cst → Prop
  | .str _ => True
  | x => x.StrBal

theorem strBal_of_net {x : Cst} (h : TopBal x) (hn : net (Cst.toks x) = 0) : x.StrBal := by
  cases x with
  | str s => show rawBrackets s = 0; simpa [Cst.toks, net, JTok.net] using hn
  | _ => exact h

mutual
theorem pa_cst : ∀ x : Cst, x.Wordy → ∀ (s : Str) (j : Json F), Lead (Cst.toks x) s → parseRaw s = .ok j →
    x.read = some (absJ j) ∧ TopBal x
  | .null, _, s, j, hl, h => by
    obtain ⟨w, rfl, hw⟩ := hl
    rw [null_ok (w := w) h]
    exact ⟨rfl, trivial⟩
  | .true, _, s, j, hl, h => by
    obtain ⟨w, rfl, hw⟩ := hl
    rw [true_ok (w := w) h]
    exact ⟨rfl, trivial⟩
  | .false, _, s, j, hl, h => by
    obtain ⟨w, rfl, hw⟩ := hl
    rw [false_ok (w := w) h]
    exact ⟨rfl, trivial⟩
  | .num n, hv, s, j, hl, h => by
    obtain ⟨w, rfl, hw⟩ := hl
    exact ⟨word_ok (w := w) hv hw h, trivial⟩
  | .str k, hv, s, j, hl, h => by
    obtain ⟨w, rfl, hw⟩ := hl
    obtain ⟨_, t, h1, rfl⟩ := str_ok (X := w) hv h
    exact ⟨by simp [Cst.read, h1, absJ], trivial⟩
  | .arr0 _, hv, s, j, hl, h => by
    obtain ⟨s', rfl, w, s'', hw, rfl, hs⟩ := hl
    simp only [JTok.text, List.cons_append, List.nil_append, List.append_assoc] at h
    rw [parseRaw_arr, parseArray] at h
    simp only [List.drop_succ_cons, List.drop_zero] at h
    split at h
    · simp only [Except.ok.injEq] at h
      subst h
      exact ⟨rfl, trivial⟩
    · rw [arrLoop_ws _ _ _ _ _ hw] at h
      obtain ⟨v, hv, _⟩ := arr_close_inv h
      rw [parseRaw_eq] at hv
      cases hv
  | .obj0 _, hv, s, j, hl, h => by
    obtain ⟨s', rfl, w, s'', hw, rfl, hs⟩ := hl
    simp only [JTok.text, List.cons_append, List.nil_append, List.append_assoc] at h
    rw [parseRaw_obj, parseObject] at h
    simp only [List.drop_succ_cons, List.drop_zero] at h
    split at h
    · simp only [Except.ok.injEq] at h
      subst h
      refine ⟨?_, trivial⟩
      simp only [Cst.read, absJ, Option.some.injEq, Val.obj.injEq]
      funext q; rfl
    · rw [objLoop_ws _ _ _ _ _ _ hw] at h
      exfalso
      have := obj_pastK (F := F) parseRaw ['}'] [] (fun q _ k e => by
        rw [parseRaw_eq] at e; cases e) _ s'' (-1) 0 [] [] (Nat.le_refl _) (by simp [bal])
      rw [List.append_nil] at this
      refine bad_not this (x := j) ?_
      rw [← h, objLoop_cons]
      simp [pushKV]
  | .arr es, hv, s, j, hl, h => by
    obtain ⟨s', rfl, hs⟩ := hl
    simp only [JTok.text, List.cons_append, List.nil_append] at h
    rw [parseRaw_arr, parseArray] at h
    simp only [List.drop_succ_cons, List.drop_zero] at h
    rw [if_neg] at h
    · obtain ⟨js, h1, h2, h3⟩ := pa_elems es hv s' j [] hs h
      refine ⟨?_, h3⟩
      rw [h1]
      simp only [Cst.read, h2, Option.map_some, absJ, List.nil_append]
    · obtain ⟨k, r', e, hf⟩ := elems_first es
      rw [e] at hs
      have := (spells_head (q := []) (elems_ok es hv k (by rw [e]; simp)) hf hs).1
      rwa [List.append_nil] at this
  | .obj ms, hv, s, j, hl, h => by
    obtain ⟨s', rfl, hs⟩ := hl
    simp only [JTok.text, List.cons_append, List.nil_append] at h
    rw [parseRaw_obj, parseObject] at h
    simp only [List.drop_succ_cons, List.drop_zero] at h
    rw [if_neg] at h
    · obtain ⟨m, vs, h1, h2, h3, h4⟩ := pa_members ms hv s' j [] hs h
      refine ⟨?_, h4⟩
      rw [h1]
      simp only [Cst.read, h2, Option.map_some, absJ, Option.some.injEq, Val.obj.injEq]
      funext q
      rw [h3 q]; rfl
    · have : ∃ k r, Members.toks ms ++ [.sym '}'] = .str k :: r ∧ ∀ i ∈ k, i.Valid := by
        cases ms with
        | one w1 k => exact ⟨k, _, rfl, hv.2.1⟩
        | cons w1 k => exact ⟨k, _, rfl, hv.1.2.1⟩
      obtain ⟨k, r, e, hk⟩ := this
      rw [e] at hs
      have := (spells_head (t := .str k) (q := []) hk trivial hs).2
      rwa [List.append_nil] at this
theorem pa_elems : ∀ es : Elems, es.Wordy → ∀ (s : Str) (j : Json F) (arr : List (Json F)), Spells (Elems.toks es ++ [.sym ']']) s →
    arrLoop parseRaw s 0 0 [] arr = .ok j → ∃ js, j = .array (arr ++ js) ∧ es.read = some (absList js) ∧ es.StrBal
  | .one w1 x w2, hv, s, j, arr, hs, h => by
    have hx : PB F x := pb_cst x hv.2.1
    obtain ⟨s1, s2, rfl, h1, h2⟩ := spells_split hs
    simp only [Elems.toks] at h1
    obtain ⟨k, r', ek, _⟩ := cst_first x
    rcases arr_part hv.2.1 hx (r := []) (by simp) h1 arr (q := s2) with hb | ⟨us, hl, e2⟩
    · exact (bad_not hb h).elim
    · rw [e2] at h
      by_cases hn : net (Cst.toks x) = 0
      · rw [hn] at h
        obtain ⟨w, s3, hw, rfl, _⟩ := lead_sep h2
        rw [arrLoop_ws _ _ _ _ _ hw] at h
        obtain ⟨v, hv1, rfl⟩ := arr_close_inv h
        obtain ⟨a, b⟩ := pa_cst x hv.2.1 us v hl hv1
        exact ⟨[v], rfl, by simp [Elems.read, a, absList], strBal_of_net b hn⟩
      · exact (bad_not (arr_stuck hv.2.1 hx (r := []) (by simp) (by rw [ek]; simp) (.inr ⟨rfl, hn⟩) hl arr) h).elim
  | .cons w1 x w2 t, hv, s, j, arr, hs, h => by
    have hx : PB F x := pb_cst x hv.2.1
    simp only [Elems.toks, List.append_assoc, List.cons_append] at hs
    obtain ⟨s1, s2, rfl, h1, h2⟩ := spells_split hs
    obtain ⟨k, r', ek, _⟩ := cst_first x
    rcases arr_part hv.2.1 hx (r := []) (by simp) h1 arr (q := s2) with hb | ⟨us, hl, e2⟩
    · exact (bad_not hb h).elim
    · rw [e2] at h
      by_cases hn : net (Cst.toks x) = 0
      · rw [hn] at h
        obtain ⟨w, s3, hw, rfl, h3⟩ := lead_sep h2
        rw [arrLoop_ws _ _ _ _ _ hw] at h
        rcases arr_comma_step (F := F) parseRaw us s3 arr with hb | ⟨v, hv1, e3⟩
        · exact (bad_not hb h).elim
        · rw [e3] at h
          obtain ⟨js, rfl, c, d⟩ := pa_elems t hv.2.2.2 s3 j _ h3 h
          obtain ⟨a, b⟩ := pa_cst x hv.2.1 us v hl hv1
          exact ⟨v :: js, by simp, by simp [Elems.read, a, c, absList], strBal_of_net b hn, d⟩
      · exact (bad_not (arr_stuck hv.2.1 hx (r := []) (by simp) (by rw [ek]; simp) (.inr ⟨rfl, hn⟩) hl arr) h).elim
theorem pa_members : ∀ ms : Members, ms.Wordy → ∀ (s : Str) (j : Json F) (obj : Obj F), Spells (Members.toks ms ++ [.sym '}']) s →
    objLoop parseRaw s 0 0 ([], []) true obj = .ok j → ∃ m vs, j = .object m ∧ ms.read = some vs ∧
      (∀ q, absMap m q = absMap obj q ++ named vs q) ∧ ms.StrBal
  | .one w1 k w2 w3 x w4, hv, s, j, obj, hs, h => by
    obtain ⟨v1, v2, v3, v4, v5, v6⟩ := hv
    have hx : PB F x := pb_cst x v5
    simp only [Members.toks, List.cons_append] at hs
    obtain ⟨w, s', hw, rfl, hs1⟩ := hs
    simp only [List.append_assoc, JTok.text] at h
    rcases obj_key (F := F) v2 hw obj (q := s') with hb | ⟨hk0, e1⟩
    · exact (bad_not hb h).elim
    rw [e1] at h
    obtain ⟨w, s', hw, rfl, hs⟩ := lead_sep hs1
    rw [objLoop_ws _ _ _ _ _ _ hw, obj_colon] at h
    obtain ⟨s1, s2, rfl, h1, h2⟩ := spells_split hs
    obtain ⟨tk, r'', ek, _⟩ := cst_first x
    rcases obj_part v5 hx (r := []) (by simp) h1 obj (q := s2) (ks := strText k) with hb | ⟨us, hl, e2⟩
    · exact (bad_not hb h).elim
    · rw [e2] at h
      by_cases hn : net (Cst.toks x) = 0
      · rw [hn] at h
        obtain ⟨w, s3, hw, rfl, h3⟩ := lead_sep h2
        rw [objLoop_ws _ _ _ _ _ _ hw] at h
        obtain ⟨key, v, hk, hv1, rfl⟩ := obj_close_inv h
        obtain ⟨a, b⟩ := pa_cst x v5 us v hl hv1
        obtain ⟨_, t, ht, e⟩ := str_ok (X := []) v2 (by rw [List.append_nil]; exact hk)
        simp only [Json.string.injEq] at e
        subst e
        refine ⟨_, [(key, absJ v)], rfl, by simp [Members.read, a, ht], ?_, hk0, strBal_of_net b hn⟩
        intro q
        rw [absMap_objectInsert, named_cons]
        simp [named]
      · exact (bad_not (obj_stuck v5 hx (r := []) (by simp) (by rw [ek]; simp) (.inr ⟨rfl, hn⟩) hl obj) h).elim
  | .cons w1 k w2 w3 x w4 t, hv, s, j, obj, hs, h => by
    obtain ⟨⟨v1, v2, v3, v4, v5, v6⟩, v7⟩ := hv
    have hx : PB F x := pb_cst x v5
    simp only [Members.toks, List.cons_append, List.append_assoc] at hs
    obtain ⟨w, s', hw, rfl, hs1⟩ := hs
    simp only [List.append_assoc, JTok.text] at h
    rcases obj_key (F := F) v2 hw obj (q := s') with hb | ⟨hk0, e1⟩
    · exact (bad_not hb h).elim
    rw [e1] at h
    obtain ⟨w, s', hw, rfl, hs⟩ := lead_sep hs1
    rw [objLoop_ws _ _ _ _ _ _ hw, obj_colon] at h
    obtain ⟨s1, s2, rfl, h1, h2⟩ := spells_split hs
    obtain ⟨tk, r'', ek, _⟩ := cst_first x
    rcases obj_part v5 hx (r := []) (by simp) h1 obj (q := s2) (ks := strText k) with hb | ⟨us, hl, e2⟩
    · exact (bad_not hb h).elim
    · rw [e2] at h
      by_cases hn : net (Cst.toks x) = 0
      · rw [hn] at h
        obtain ⟨w, s3, hw, rfl, h3⟩ := lead_sep h2
        rw [objLoop_ws _ _ _ _ _ _ hw] at h
        rcases obj_comma_step (F := F) parseRaw (strText k) us s3 obj with hb | ⟨key, v, hk, hv1, e3⟩
        · exact (bad_not hb h).elim
        · rw [e3] at h
          obtain ⟨m, vs, rfl, c, d, e4⟩ := pa_members t v7 s3 j _ h3 h
          obtain ⟨a, b⟩ := pa_cst x v5 us v hl hv1
          obtain ⟨_, t, ht, e⟩ := str_ok (X := []) v2 (by rw [List.append_nil]; exact hk)
          simp only [Json.string.injEq] at e
          subst e
          refine ⟨_, (key, absJ v) :: vs, rfl, by simp [Members.read, a, ht, c], ?_, ⟨hk0, strBal_of_net b hn⟩, e4⟩
          intro q
          rw [d, absMap_objectInsert, named_cons]
          simp
      · exact (bad_not (obj_stuck v5 hx (r := []) (by simp) (by rw [ek]; simp) (.inr ⟨rfl, hn⟩) hl obj) h).elim
end

/-! ### Whitespace in empty containers -/

mutual
theorem pw_cst : ∀ x : Cst, x.Wordy → x.StrBal → ∀ (j : Json F), parseRaw x.text = .ok j → x.Plain
  | .null, _, _, _, _ => trivial
  | .true, _, _, _, _ => trivial
  | .false, _, _, _, _ => trivial
  | .num _, _, _, _, _ => trivial
  | .str _, _, h, _, _ => h
  | .arr0 w, hv, _, j, h => by
    cases w with
    | nil => rfl
    | cons c w =>
      exfalso
      simp only [Cst.text, List.cons_append, List.nil_append] at h
      rw [parseRaw_arr, parseArray] at h
      simp only [List.drop_succ_cons, List.drop_zero, List.head?_cons, Option.some.injEq] at h
      rw [if_neg (by rcases ws_cases (hv c (by simp)) with rfl | rfl | rfl | rfl <;> decide)] at h
      have := arrLoop_ws (F := F) parseRaw (c :: w) [']'] [] [] hv
      rw [List.cons_append] at this
      rw [this] at h
      obtain ⟨v, h1, _⟩ := arr_close_inv h
      rw [parseRaw_eq] at h1
      cases h1
  | .obj0 w, hv, _, j, h => by
    cases w with
    | nil => rfl
    | cons c w =>
      exfalso
      simp only [Cst.text, List.cons_append, List.nil_append] at h
      rw [parseRaw_obj, parseObject] at h
      simp only [List.drop_succ_cons, List.drop_zero, List.head?_cons, Option.some.injEq] at h
      rw [if_neg (by rcases ws_cases (hv c (by simp)) with rfl | rfl | rfl | rfl <;> decide)] at h
      have := objLoop_ws (F := F) parseRaw (c :: w) ['}'] ([], []) true [] hv
      rw [List.cons_append] at this
      rw [this, objLoop_cons] at h
      simp [objLoop, fail] at h
  | .arr es, hv, hb, j, h => by
    simp only [Cst.text, List.cons_append, List.nil_append] at h
    rw [parseRaw_arr, parseArray] at h
    simp only [List.drop_succ_cons, List.drop_zero] at h
    rw [if_neg (elems_head es hv _)] at h
    exact pw_elems es hv hb j _ h
  | .obj ms, hv, hb, j, h => by
    simp only [Cst.text, List.cons_append, List.nil_append] at h
    rw [parseRaw_obj, parseObject] at h
    simp only [List.drop_succ_cons, List.drop_zero] at h
    rw [if_neg (members_head ms hv _)] at h
    exact pw_members ms hv hb j _ h
theorem pw_elems : ∀ es : Elems, es.Wordy → es.StrBal → ∀ (j : Json F) (arr : List (Json F)),
    arrLoop parseRaw (es.text ++ [']']) 0 0 [] arr = .ok j → es.Plain
  | .one w1 x w2, hv, hb, j, arr, h => by
    simp only [Elems.text, List.append_assoc] at h
    rw [arrLoop_item w1 w2 x _ arr _ hv.1 hv.2.2 hv.2.1 hb] at h
    obtain ⟨v, h1, _⟩ := arr_close_inv h
    exact pw_cst x hv.2.1 hb v h1
  | .cons w1 x w2 t, hv, hb, j, arr, h => by
    simp only [Elems.text, List.append_assoc, List.cons_append, List.nil_append] at h
    rw [arrLoop_item w1 w2 x _ arr _ hv.1 hv.2.2.1 hv.2.1 hb.1] at h
    rcases arr_comma_step (F := F) parseRaw x.text (t.text ++ [']']) arr with hb' | ⟨v, hv1, e3⟩
    · exact (bad_not hb' h).elim
    · rw [e3] at h
      exact ⟨pw_cst x hv.2.1 hb.1 v hv1, pw_elems t hv.2.2.2 hb.2 j _ h⟩
theorem pw_members : ∀ ms : Members, ms.Wordy → ms.StrBal → ∀ (j : Json F) (obj : Obj F),
    objLoop parseRaw (ms.text ++ ['}']) 0 0 ([], []) true obj = .ok j → ms.Plain
  | .one w1 k w2 w3 x w4, hv, hb, j, obj, h => by
    obtain ⟨v1, v2, v3, v4, v5, v6⟩ := hv
    simp only [Members.text, List.append_assoc, List.cons_append, List.nil_append] at h
    rw [objLoop_item w1 w2 w3 w4 k x _ obj _ v1 v3 v4 v6 v2 hb.1 v5 hb.2] at h
    obtain ⟨key, v, _, h1, _⟩ := obj_close_inv h
    exact ⟨hb.1, pw_cst x v5 hb.2 v h1⟩
  | .cons w1 k w2 w3 x w4 t, hv, hb, j, obj, h => by
    obtain ⟨⟨v1, v2, v3, v4, v5, v6⟩, v7⟩ := hv
    simp only [Members.text, List.append_assoc, List.cons_append, List.nil_append] at h
    rw [objLoop_item w1 w2 w3 w4 k x _ obj _ v1 v3 v4 v6 v2 hb.1.1 v5 hb.1.2] at h
    rcases obj_comma_step (F := F) parseRaw (strText k) x.text (t.text ++ ['}']) obj with hb' | ⟨key, v, _, hv1, e3⟩
    · exact (bad_not hb' h).elim
    · rw [e3] at h
      exact ⟨⟨hb.1.1, pw_cst x v5 hb.1.2 v hv1⟩, pw_members t v7 hb.2 j _ h⟩
end

/-- Everything about a document of words that is parsed successfully. -/
theorem exact_words {x : Cst} (hv : x.Wordy) {j : Json F} (h : parseRaw x.text = .ok j) : x.read = some (absJ j) ∧ x.TopPlain := by
  obtain ⟨h1, h2⟩ := pa_cst x hv x.text j (cst_spells x hv) h
  refine ⟨h1, ?_⟩
  cases x with
  | str s => trivial
  | _ => exact pw_cst _ hv h2 j h

/-- Everything about a valid tree that is parsed successfully. -/
theorem exact_cst {x : Cst} (hv : x.Valid) {j : Json F} (h : parseRaw x.text = .ok j) : x.value = some (absJ j) ∧ x.TopPlain := by
  rw [← cst_read_value x hv]
  exact exact_words (cst_wordy x hv) h

end RJ
