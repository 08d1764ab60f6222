import Verif.Proof.Exact
import Verif.Spec.Malformed
/-
  Rejection of malformed texts.
-/
set_option linter.unusedSectionVars false
namespace RJ
open Spec
variable {F : Type} [FloatOps F]

theorem not_canStart_bad {c : Char} (h : ¬ CanStart c) (q : Str) : Bad (parseRaw (c :: q) : Res (Json F)) := by
  intro j hj
  rw [parseRaw_eq, parseBody] at hj
  simp only [List.head?_cons] at hj
  unfold CanStart at h
  have hd : isDigit c = true → IsDigit c := (isDigit_iff c).mp
  by_cases h1 : c = 'n'
  · exact h (.inl h1)
  by_cases h2 : c = 't' ∨ c = 'f'
  · rcases h2 with h2 | h2
    · exact h (.inr (.inl h2))
    · exact h (.inr (.inr (.inl h2)))
  by_cases h3 : c = '-' ∨ isDigit c = true
  · rcases h3 with h3 | h3
    · exact h (.inr (.inr (.inr (.inl h3))))
    · exact h (.inr (.inr (.inr (.inr (.inl (hd h3))))))
  by_cases h4 : c = '"'
  · exact h (by simp [h4])
  by_cases h5 : c = '['
  · exact h (by simp [h5])
  by_cases h6 : c = '{'
  · exact h (by simp [h6])
  rw [if_neg h1, if_neg h2, if_neg h3, if_neg h4, if_neg h5, if_neg h6] at hj
  cases hj

theorem parse_nil_bad : Bad (parseRaw [] : Res (Json F)) := by
  intro j hj
  rw [parseRaw_eq] at hj
  cases hj

theorem not_quote_no_string {c : Char} (h : c ≠ '"') (q k : Str) : (parseRaw (c :: q) : Res (Json F)) ≠ .ok (.string k) := by
  intro e
  rcases parseRaw_cases _ _ e with ⟨_, e⟩ | ⟨_, e⟩ | ⟨_, e⟩ | ⟨_, e, _⟩ | ⟨_, _, _, e, _⟩ | ⟨_, _, _, e, _⟩ | ⟨_, _, _, e, _⟩
  · cases e
  · cases e
  · cases e
  · cases e
  · simp only [List.cons.injEq] at e; exact h e.1
  · cases e
  · cases e

/-- The array loop on elements: it fails or arrives behind the last one at depth 0. -/
theorem arr_elems : ∀ es : Elems, es.Valid → ∀ (s q : Str) (arr : List (Json F)), Spells (Elems.toks es) s →
    Bad (arrLoop parseRaw (s ++ q) 0 0 [] arr) ∨
    ∃ us arr', us ≠ [] ∧ arrLoop parseRaw (s ++ q) 0 0 [] arr = arrLoop parseRaw q 0 0 us arr'
  | .one w1 x w2, hv, s, q, arr, hs => by
    have hx : PB F x := pb_cst x (cst_wordy _ hv.2.1)
    simp only [Elems.toks] at hs
    obtain ⟨k, r', ek, _⟩ := cst_first x
    rcases arr_part (cst_wordy _ hv.2.1) hx (r := []) (by simp) hs arr (q := q) with hb | ⟨us, hl, e2⟩
    · exact .inl hb
    · by_cases hn : net (Cst.toks x) = 0
      · rw [hn] at e2
        exact .inr ⟨us, arr, lead_ne (by rw [ek]; simp) (cst_ok x (cst_wordy _ hv.2.1)) hl, e2⟩
      · left
        rw [e2]
        exact arr_stuck (cst_wordy _ hv.2.1) hx (r := []) (by simp) (by rw [ek]; simp) (.inr ⟨rfl, hn⟩) hl arr
  | .cons w1 x w2 t, hv, s, q, arr, hs => by
    have hx : PB F x := pb_cst x (cst_wordy _ hv.2.1)
    simp only [Elems.toks] at hs
    obtain ⟨s1, s2, rfl, h1, h2⟩ := spells_split hs
    obtain ⟨k, r', ek, _⟩ := cst_first x
    rw [List.append_assoc]
    rcases arr_part (cst_wordy _ hv.2.1) hx (r := []) (by simp) h1 arr (q := s2 ++ q) with hb | ⟨us, hl, e2⟩
    · exact .inl hb
    · rw [e2]
      by_cases hn : net (Cst.toks x) = 0
      · rw [hn]
        obtain ⟨w, s3, hw, rfl, h3⟩ := lead_sep h2
        rw [List.append_assoc, arrLoop_ws _ _ _ _ _ hw, List.cons_append]
        rcases arr_comma_step (F := F) parseRaw us (s3 ++ q) arr with hb | ⟨v, hv1, e3⟩
        · exact .inl hb
        · rw [e3]
          exact arr_elems t hv.2.2.2 s3 q _ h3
      · exact .inl (arr_stuck (cst_wordy _ hv.2.1) hx (r := []) (by simp) (by rw [ek]; simp) (.inr ⟨rfl, hn⟩) hl arr)

/-- One member: the object loop fails or arrives behind its value at depth 0. -/
theorem obj_member {k : List StrItem} {x : Cst} (v2 : ∀ i ∈ k, i.Valid) (v5 : x.Valid) {w w' w'' s q : Str} (hw : WsStr w) (hw' : WsStr w')
    (hw'' : WsStr w'') (hs : Spells (Cst.toks x) s) (obj : Obj F) :
    Bad (objLoop parseRaw (w ++ (strText k ++ (w' ++ ':' :: (w'' ++ (s ++ q))))) 0 0 ([], []) true obj) ∨
    ∃ us, Lead (Cst.toks x) us ∧ net (Cst.toks x) = 0 ∧
      objLoop parseRaw (w ++ (strText k ++ (w' ++ ':' :: (w'' ++ (s ++ q))))) 0 0 ([], []) true obj =
      objLoop parseRaw q 0 0 (strText k, us) false obj := by
  have hx : PB F x := pb_cst x (cst_wordy _ v5)
  rcases obj_key (F := F) v2 hw obj (q := w' ++ ':' :: (w'' ++ (s ++ q))) with hb | ⟨hk0, e1⟩
  · exact .inl hb
  rw [e1, objLoop_ws _ _ _ _ _ _ hw', obj_colon, objLoop_ws _ _ _ _ _ _ hw'']
  obtain ⟨tk, r'', ek, _⟩ := cst_first x
  rcases obj_part (cst_wordy _ v5) hx (r := []) (by simp) hs obj (q := q) (ks := strText k) with hb | ⟨us, hl, e2⟩
  · exact .inl hb
  · rw [e2]
    by_cases hn : net (Cst.toks x) = 0
    · rw [hn]
      exact .inr ⟨us, hl, rfl, rfl⟩
    · exact .inl (obj_stuck (cst_wordy _ v5) hx (r := []) (by simp) (by rw [ek]; simp) (.inr ⟨rfl, hn⟩) hl obj)

/-- The object loop on members: it fails or arrives behind the last one at depth 0. -/
theorem obj_members : ∀ ms : Members, ms.Valid → ∀ (s q : Str) (obj : Obj F), Spells (Members.toks ms) s →
    Bad (objLoop parseRaw (s ++ q) 0 0 ([], []) true obj) ∨
    ∃ ks us obj', ks ≠ [] ∧ us ≠ [] ∧ objLoop parseRaw (s ++ q) 0 0 ([], []) true obj = objLoop parseRaw q 0 0 (ks, us) false obj'
  | .one w1 k w2 w3 x w4, hv, s, q, obj, hs => by
    obtain ⟨v1, v2, v3, v4, v5, v6⟩ := hv
    obtain ⟨tk, r'', ek, _⟩ := cst_first x
    obtain ⟨w, s', hw, rfl, hs1⟩ := hs
    obtain ⟨w', s', hw', rfl, hs⟩ := lead_sep hs1
    have := obj_member (F := F) v2 v5 hw hw' (w'' := []) wsStr_nil hs obj (q := q)
    simp only [JTok.text, List.append_assoc, List.nil_append, List.cons_append] at this ⊢
    rcases this with hb | ⟨us, hl, _, e⟩
    · exact .inl hb
    · exact .inr ⟨_, us, obj, by simp [strText], lead_ne (by rw [ek]; simp) (cst_ok x (cst_wordy _ v5)) hl, e⟩
  | .cons w1 k w2 w3 x w4 t, hv, s, q, obj, hs => by
    obtain ⟨⟨v1, v2, v3, v4, v5, v6⟩, v7⟩ := hv
    obtain ⟨tk, r'', ek, _⟩ := cst_first x
    obtain ⟨w, s', hw, rfl, hs1⟩ := hs
    obtain ⟨w', s', hw', rfl, hs⟩ := lead_sep hs1
    obtain ⟨s1, s2, rfl, h1, h2⟩ := spells_split hs
    have := obj_member (F := F) v2 v5 hw hw' (w'' := []) wsStr_nil h1 obj (q := s2 ++ q)
    simp only [JTok.text, List.append_assoc, List.nil_append, List.cons_append] at this ⊢
    rcases this with hb | ⟨us, hl, _, e⟩
    · exact .inl hb
    · rw [e]
      obtain ⟨w, s3, hw, rfl, h3⟩ := lead_sep h2
      rw [List.append_assoc, objLoop_ws _ _ _ _ _ _ hw, List.cons_append]
      rcases obj_comma_step (F := F) parseRaw (strText k) us (s3 ++ q) obj with hb | ⟨_, v, _, _, e3⟩
      · exact .inl hb
      · rw [e3]
        exact obj_members t v7 s3 q _ h3

/-! ### Text behind a complete value -/

theorem skipTrail_bad {k : ErrorKind} {g : Str} (hg : ¬ WsStr g) : ∃ e, skipTrail k g = .error e := by
  cases h : skipTrail k g with
  | error e => exact ⟨e, rfl⟩
  | ok u => exact absurd ((skipTrail_ok k g).mp h) hg

theorem arr_close_bad {us g : Str} {arr : List (Json F)} (hg : ¬ WsStr g) : Bad (arrLoop parseRaw (']' :: g) 0 0 us arr) := by
  obtain ⟨e, he⟩ := skipTrail_bad (k := .ParseArrayError) hg
  rw [arrLoop_cons, if_pos ⟨rfl, rfl, rfl⟩]
  cases hr : (parseRaw us : Res (Json F)) with
  | error e => exact bad_error _
  | ok v => simp only [he]; exact bad_error _

theorem obj_close_bad {ks us g : Str} {obj : Obj F} (hg : ¬ WsStr g) : Bad (objLoop parseRaw ('}' :: g) 0 0 (ks, us) false obj) := by
  intro j h
  obtain ⟨e, he⟩ := skipTrail_bad (k := .ParseObjectError) hg
  rw [objLoop_cons, if_pos ⟨rfl, rfl, rfl, rfl⟩] at h
  split at h
  · cases hr : (parseRaw us : Res (Json F)) with
    | error e => rw [hr] at h; cases h
    | ok v => rw [hr] at h; simp only [he] at h; cases h
  · cases h

theorem wsStr_of_append {a b : Str} (h : WsStr (a ++ b)) : WsStr b := fun c hc => h c (by simp [hc])

theorem arr_head {es : Elems} (hv : es.Valid) {s q : Str} (h : Spells (Elems.toks es) s) : (s ++ q).head? ≠ some ']' := by
  obtain ⟨k, r', e, hf⟩ := elems_first es
  rw [e] at h
  exact (spells_head (elems_ok es (elems_wordy _ hv) k (by rw [e]; simp)) hf h).1

theorem members_first (ms : Members) (hv : ms.Valid) : ∃ k r, Members.toks ms = .str k :: r ∧ ∀ i ∈ k, i.Valid := by
  cases ms with
  | one w1 k => exact ⟨k, _, rfl, hv.2.1⟩
  | cons w1 k => exact ⟨k, _, rfl, hv.1.2.1⟩

theorem obj_head {ms : Members} (hv : ms.Valid) {s q : Str} (h : Spells (Members.toks ms) s) : (s ++ q).head? ≠ some '}' := by
  obtain ⟨k, r', e, hk⟩ := members_first ms hv
  rw [e] at h
  exact (spells_head (t := .str k) hk trivial h).2

/-- More text after a string or non-empty container. -/
theorem after_bad {x : Cst} (hv : x.Valid) (hd : Delimited x) {s g : Str} (hl : Lead (Cst.toks x) s) (hg : ¬ WsStr g) :
    Bad (parseRaw (s ++ g) : Res (Json F)) := by
  cases x with
  | str k =>
    obtain ⟨w, rfl, hw⟩ := hl
    intro j hj
    rw [List.append_assoc] at hj
    exact hg (wsStr_of_append (str_ok hv hj).1)
  | arr es =>
    obtain ⟨s', rfl, hs⟩ := hl
    obtain ⟨s1, s2, rfl, h1, h2⟩ := spells_split hs
    obtain ⟨w, s3, hw, rfl, h3⟩ := lead_sep h2
    simp only [JTok.text, List.cons_append, List.nil_append, List.append_assoc]
    rw [parseRaw_arr, parseArray]
    simp only [List.drop_succ_cons, List.drop_zero]
    rw [if_neg (arr_head hv h1)]
    rcases arr_elems (F := F) es hv s1 (w ++ ']' :: (s3 ++ g)) [] h1 with hb | ⟨us, arr', _, e⟩
    · exact hb
    · rw [e, arrLoop_ws _ _ _ _ _ hw]
      exact arr_close_bad (fun h => hg (wsStr_of_append h))
  | obj ms =>
    obtain ⟨s', rfl, hs⟩ := hl
    obtain ⟨s1, s2, rfl, h1, h2⟩ := spells_split hs
    obtain ⟨w, s3, hw, rfl, h3⟩ := lead_sep h2
    simp only [JTok.text, List.cons_append, List.nil_append, List.append_assoc]
    rw [parseRaw_obj, parseObject]
    simp only [List.drop_succ_cons, List.drop_zero]
    rw [if_neg (obj_head hv h1)]
    rcases obj_members (F := F) ms hv s1 (w ++ '}' :: (s3 ++ g)) [] h1 with hb | ⟨ks, us, obj', _, _, e⟩
    · exact hb
    · rw [e, objLoop_ws _ _ _ _ _ _ hw]
      exact obj_close_bad (fun h => hg (wsStr_of_append h))
  | _ => exact absurd hd (by simp [Delimited])

/-! ### Prefixes -/

/-- What happens at a prefix of an array. -/
theorem arr_pre {p : Str} (hp : ArrPre p) (q : Str) (hq : p = ['['] → q.head? ≠ some ']') (h : ∀ arr : List (Json F), Bad (arrLoop parseRaw q 0 0 [] arr)) :
    Bad (parseRaw (p ++ q) : Res (Json F)) := by
  cases hp with
  | «open» =>
    rw [List.cons_append, List.nil_append, parseRaw_arr, parseArray]
    simp only [List.drop_succ_cons, List.drop_zero]
    rw [if_neg (hq rfl)]
    exact h []
  | comma es hv =>
    have hs := elems_spells es (elems_wordy _ hv)
    simp only [List.cons_append, List.append_assoc, List.nil_append]
    rw [parseRaw_arr, parseArray]
    simp only [List.drop_succ_cons, List.drop_zero]
    rw [if_neg (arr_head hv hs)]
    rcases arr_elems (F := F) es hv es.text (',' :: q) [] hs with hb | ⟨us, arr', _, e⟩
    · exact hb
    · rw [e]
      rcases arr_comma_step (F := F) parseRaw us q arr' with hb | ⟨v, _, e3⟩
      · exact hb
      · rw [e3]; exact h _

theorem obj_pre {p : Str} (hp : ObjPre p) (q : Str) (hq : p = ['{'] → q.head? ≠ some '}') (h : ∀ obj : Obj F, Bad (objLoop parseRaw q 0 0 ([], []) true obj)) :
    Bad (parseRaw (p ++ q) : Res (Json F)) := by
  cases hp with
  | «open» =>
    rw [List.cons_append, List.nil_append, parseRaw_obj, parseObject]
    simp only [List.drop_succ_cons, List.drop_zero]
    rw [if_neg (hq rfl)]
    exact h []
  | comma ms hv =>
    have hs := members_spells ms (members_wordy _ hv)
    simp only [List.cons_append, List.append_assoc, List.nil_append]
    rw [parseRaw_obj, parseObject]
    simp only [List.drop_succ_cons, List.drop_zero]
    rw [if_neg (obj_head hv hs)]
    rcases obj_members (F := F) ms hv ms.text (',' :: q) [] hs with hb | ⟨ks, us, obj', _, _, e⟩
    · exact hb
    · rw [e]
      rcases obj_comma_step (F := F) parseRaw ks us q obj' with hb | ⟨_, v, _, _, e3⟩
      · exact hb
      · rw [e3]; exact h _

theorem ws_head_ne {w q : Str} {d : Char} (hw : WsStr w) (hd : ¬ IsWs d) (hq : q.head? ≠ some d) : (w ++ q).head? ≠ some d := by
  cases w with
  | nil => exact hq
  | cons c w =>
    simp only [List.cons_append, List.head?_cons, ne_eq, Option.some.injEq]
    rintro rfl
    exact hd (hw c (by simp))

theorem bracket_not_ws : ¬ IsWs ']' ∧ ¬ IsWs '}' := by simp [IsWs]

theorem canStart_iff (c : Char) : Starter c ↔ CanStart c := Iff.rfl

/-- Pushing one character that starts no value. -/
theorem arr_bad_elem {c : Char} (h : ¬ CanStart c) (hc : ¬ IsWs c) (g : Str) (arr : List (Json F)) :
    Bad (arrLoop parseRaw (c :: g) 0 0 [] arr) := by
  by_cases h1 : c = ']'
  · subst h1
    rw [arrLoop_cons, if_pos ⟨rfl, rfl, rfl⟩]
    cases hr : (parseRaw [] : Res (Json F)) with
    | error e => exact bad_error _
    | ok v => exact absurd hr (parse_nil_bad v)
  by_cases h2 : c = ','
  · subst h2
    rw [arrLoop_cons, if_neg (by simp), if_pos ⟨rfl, rfl, rfl⟩, if_pos rfl]
    exact bad_fail _ _
  have nq : c ≠ '"' := by rintro rfl; exact h (by simp [CanStart])
  have nb : c ≠ '[' := by rintro rfl; exact h (by simp [CanStart])
  have no : c ≠ '{' := by rintro rfl; exact h (by simp [CanStart])
  have hw : ¬ isWs c = true := fun e => hc ((isWs_iff c).mp e)
  rw [arrLoop_cons, if_neg (by simp [h1]), if_neg (by simp [h2]), if_neg nq, if_neg nb, if_neg h1, if_neg no]
  by_cases h3 : c = '}'
  · subst h3
    rw [if_pos rfl]
    have := arr_past (F := F) parseRaw ['}'] (fun q _ => not_canStart_bad h q) _ g (0 - 1) 0 [] arr (Nat.le_refl _) (by simp [bal])
    exact this
  rw [if_neg h3]
  by_cases h4 : c = '\\'
  · subst h4
    rw [if_pos rfl]
    cases g with
    | nil => exact bad_fail _ _
    | cons ch t =>
      exact arr_past (F := F) parseRaw ['\\', ch] (fun q _ => not_canStart_bad h (ch :: q)) _ t 0 0 [] arr (Nat.le_refl _) (by simp [bal])
  rw [if_neg h4, if_neg (by simp [hw])]
  exact arr_past (F := F) parseRaw [c] (fun q _ => not_canStart_bad h q) _ g 0 0 [] arr (Nat.le_refl _) (by
    rw [List.append_nil, bal_cons, if_neg nq, if_neg nb, if_neg h1, if_neg no, if_neg h3, if_neg h4]; rfl)

/-- The object loop at a key that cannot be a string: `u` is what has been collected. -/
theorem obj_bad_key {c : Char} (hc : ¬ IsWs c) (h : c ≠ '"') (g : Str) (obj : Obj F) :
    Bad (objLoop parseRaw (c :: g) 0 0 ([], []) true obj) := by
  have hw : ¬ isWs c = true := fun e => hc ((isWs_iff c).mp e)
  by_cases h0 : c = ':'
  · subst h0
    rw [obj_colon]
    exact obj_pastK0 _ _ (fun k => parse_nil_bad _) _ _ _ _ _ _ (Nat.le_refl _)
  have H : ∀ q, ∀ k, (parseRaw (c :: q) : Res (Json F)) ≠ .ok (.string k) := fun q k => not_quote_no_string h q k
  rw [objLoop_cons, if_neg (by simp), if_neg (by simp), if_neg (by simp [h0]), if_neg h]
  simp only [pushKV, if_true, List.nil_append]
  by_cases c2 : c = '['
  · subst c2
    rw [if_pos rfl]
    exact obj_pastK (F := F) parseRaw ['['] [] (fun q _ => H q) _ g (0 + 1) 0 [] obj (Nat.le_refl _) (by simp [bal])
  rw [if_neg c2]
  by_cases c3 : c = ']'
  · subst c3
    rw [if_pos rfl]
    exact obj_pastK (F := F) parseRaw [']'] [] (fun q _ => H q) _ g (0 - 1) 0 [] obj (Nat.le_refl _) (by simp [bal])
  rw [if_neg c3]
  by_cases c4 : c = '{'
  · subst c4
    rw [if_pos rfl]
    exact obj_pastK (F := F) parseRaw ['{'] [] (fun q _ => H q) _ g (0 + 1) 0 [] obj (Nat.le_refl _) (by simp [bal])
  rw [if_neg c4]
  by_cases c5 : c = '}'
  · subst c5
    rw [if_pos rfl]
    exact obj_pastK (F := F) parseRaw ['}'] [] (fun q _ => H q) _ g (0 - 1) 0 [] obj (Nat.le_refl _) (by simp [bal])
  rw [if_neg c5]
  by_cases c6 : c = '\\'
  · subst c6
    rw [if_pos rfl]
    cases g with
    | nil => exact bad_fail _ _
    | cons ch t =>
      exact obj_pastK (F := F) parseRaw ['\\', ch] [] (fun q _ => H (ch :: q)) _ t 0 0 [] obj (Nat.le_refl _) (by simp [bal])
  rw [if_neg c6, if_neg (by simp [hw])]
  exact obj_pastK (F := F) parseRaw [c] [] (fun q _ => H q) _ g 0 0 [] obj (Nat.le_refl _) (by
    rw [List.append_nil, bal_cons, if_neg h, if_neg c2, if_neg c3, if_neg c4, if_neg c5, if_neg c6]; rfl)

/-- After a complete key: anything but a colon spoils it. -/
theorem obj_bad_colon {k : List StrItem} (hk : ∀ i ∈ k, i.Valid) (hk0 : rawBrackets k = 0) {c : Char} (hc : ¬ IsWs c) (h : c ≠ ':') (g : Str) (obj : Obj F) :
    Bad (objLoop parseRaw (c :: g) 0 0 (strText k, []) true obj) := by
  have hw : ¬ isWs c = true := fun e => hc ((isWs_iff c).mp e)
  have H : ∀ q, ∀ s, (parseRaw (strText k ++ (c :: q)) : Res (Json F)) ≠ .ok (.string s) := by
    intro q s e
    exact hc ((str_ok hk e).1 c (by simp))
  have B : ∀ t, bal 0 0 (strText k ++ t) = bal 0 0 t := by
    intro t; rw [bal_str 0 k t hk, hk0]; rfl
  rw [objLoop_cons, if_neg (by simp), if_neg (by simp), if_neg (by simp [h])]
  simp only [pushKV, if_true]
  have step : ∀ (u : Str) (i j : Int) (g : Str), u.head? = some c → bal 0 0 u = some (i, j) → Bad (objLoop parseRaw g i j (strText k ++ u, []) true obj) := by
    intro u i j g hu hb
    cases u with
    | nil => cases hu
    | cons c' u =>
      simp only [List.head?_cons, Option.some.injEq] at hu
      subst hu
      have := obj_pastK (F := F) parseRaw (strText k ++ (c' :: u)) [] (fun q _ s => by
        rw [List.append_assoc, List.cons_append]; exact H (u ++ q) s) _ g i j [] obj (Nat.le_refl _) (by
        rw [List.append_nil, B, hb])
      rwa [List.append_nil] at this
  by_cases c1 : c = '"'
  · subst c1
    rw [if_pos rfl]
    exact step ['"'] _ _ g rfl (by simp [bal])
  rw [if_neg c1]
  by_cases c2 : c = '['
  · subst c2
    rw [if_pos rfl]; exact step ['['] _ _ g rfl (by simp [bal])
  rw [if_neg c2]
  by_cases c3 : c = ']'
  · subst c3
    rw [if_pos rfl]; exact step [']'] _ _ g rfl (by simp [bal])
  rw [if_neg c3]
  by_cases c4 : c = '{'
  · subst c4
    rw [if_pos rfl]; exact step ['{'] _ _ g rfl (by simp [bal])
  rw [if_neg c4]
  by_cases c5 : c = '}'
  · subst c5
    rw [if_pos rfl]; exact step ['}'] _ _ g rfl (by simp [bal])
  rw [if_neg c5]
  by_cases c6 : c = '\\'
  · subst c6
    rw [if_pos rfl]
    cases g with
    | nil => exact bad_fail _ _
    | cons ch t => exact step ['\\', ch] _ _ t rfl (by simp [bal])
  rw [if_neg c6, if_neg (by simp [hw])]
  exact step [c] _ _ g rfl (by rw [bal_cons, if_neg c1, if_neg c2, if_neg c3, if_neg c4, if_neg c5, if_neg c6]; rfl)

/-- The object loop at depth 0 in a value, at a character which spoils the value collected so far. -/
theorem obj_bad_next {us ks : Str} {c : Char} (hc : ¬ IsWs c) (h1 : c ≠ ',') (h2 : c ≠ '}') (h3 : c ≠ ':')
    (hb : bal 0 0 us = some (0, 0)) (H : ∀ q, Bad (parseRaw (us ++ (c :: q)) : Res (Json F))) (g : Str) (obj : Obj F) :
    Bad (objLoop parseRaw (c :: g) 0 0 (ks, us) false obj) := by
  have hw : ¬ isWs c = true := fun e => hc ((isWs_iff c).mp e)
  rw [objLoop_cons, if_neg (by simp [h2]), if_neg (by simp [h1]), if_neg (by simp [h3])]
  simp only [pushKV, Bool.false_eq_true, if_false]
  have step : ∀ (u : Str) (i j : Int) (g : Str), u.head? = some c → bal 0 0 u = some (i, j) → Bad (objLoop parseRaw g i j (ks, us ++ u) false obj) := by
    intro u i j g hu hbu
    cases u with
    | nil => cases hu
    | cons c' u =>
      simp only [List.head?_cons, Option.some.injEq] at hu
      subst hu
      have := obj_pastV (F := F) parseRaw (us ++ (c' :: u)) ks (fun q _ => by
        rw [List.append_assoc, List.cons_append]; exact H (u ++ q)) _ g i j [] obj (Nat.le_refl _) (by
        rw [List.append_nil, bal_append hb, hbu])
      rwa [List.append_nil] at this
  by_cases c1 : c = '"'
  · subst c1
    rw [if_pos rfl]; exact step ['"'] _ _ g rfl (by simp [bal])
  rw [if_neg c1]
  by_cases c2 : c = '['
  · subst c2
    rw [if_pos rfl]; exact step ['['] _ _ g rfl (by simp [bal])
  rw [if_neg c2]
  by_cases c3 : c = ']'
  · subst c3
    rw [if_pos rfl]; exact step [']'] _ _ g rfl (by simp [bal])
  rw [if_neg c3]
  by_cases c4 : c = '{'
  · subst c4
    rw [if_pos rfl]; exact step ['{'] _ _ g rfl (by simp [bal])
  rw [if_neg c4, if_neg h2]
  by_cases c6 : c = '\\'
  · subst c6
    rw [if_pos rfl]
    cases g with
    | nil => exact bad_fail _ _
    | cons ch t => exact step ['\\', ch] _ _ t rfl (by simp [bal])
  rw [if_neg c6, if_neg (by simp [hw])]
  exact step [c] _ _ g rfl (by rw [bal_cons, if_neg c1, if_neg c2, if_neg c3, if_neg c4, if_neg h2, if_neg c6]; rfl)

/-- As above for arrays. -/
theorem arr_bad_next {us : Str} {c : Char} (hc : ¬ IsWs c) (h1 : c ≠ ',') (h2 : c ≠ ']')
    (hb : bal 0 0 us = some (0, 0)) (H : ∀ q, Bad (parseRaw (us ++ (c :: q)) : Res (Json F))) (g : Str) (arr : List (Json F)) :
    Bad (arrLoop parseRaw (c :: g) 0 0 us arr) := by
  have hw : ¬ isWs c = true := fun e => hc ((isWs_iff c).mp e)
  rw [arrLoop_cons, if_neg (by simp [h2]), if_neg (by simp [h1])]
  have step : ∀ (u : Str) (i j : Int) (g : Str), u.head? = some c → bal 0 0 u = some (i, j) → Bad (arrLoop parseRaw g i j (us ++ u) arr) := by
    intro u i j g hu hbu
    cases u with
    | nil => cases hu
    | cons c' u =>
      simp only [List.head?_cons, Option.some.injEq] at hu
      subst hu
      have := arr_past (F := F) parseRaw (us ++ (c' :: u)) (fun q _ => by
        rw [List.append_assoc, List.cons_append]; exact H (u ++ q)) _ g i j [] arr (Nat.le_refl _) (by
        rw [List.append_nil, bal_append hb, hbu])
      rwa [List.append_nil] at this
  by_cases c1 : c = '"'
  · subst c1
    rw [if_pos rfl]; exact step ['"'] _ _ g rfl (by simp [bal])
  rw [if_neg c1]
  by_cases c2 : c = '['
  · subst c2
    rw [if_pos rfl]; exact step ['['] _ _ g rfl (by simp [bal])
  rw [if_neg c2, if_neg h2]
  by_cases c4 : c = '{'
  · subst c4
    rw [if_pos rfl]; exact step ['{'] _ _ g rfl (by simp [bal])
  rw [if_neg c4]
  by_cases c5 : c = '}'
  · subst c5
    rw [if_pos rfl]; exact step ['}'] _ _ g rfl (by simp [bal])
  rw [if_neg c5]
  by_cases c6 : c = '\\'
  · subst c6
    rw [if_pos rfl]
    cases g with
    | nil => exact bad_fail _ _
    | cons ch t => exact step ['\\', ch] _ _ t rfl (by simp [bal])
  rw [if_neg c6, if_neg (by simp [hw])]
  exact step [c] _ _ g rfl (by rw [bal_cons, if_neg c1, if_neg c2, if_neg h2, if_neg c4, if_neg c5, if_neg c6]; rfl)

theorem not_wsStr_cons {c : Char} {g : Str} (h : ¬ IsWs c) : ¬ WsStr (c :: g) := fun hw => h (hw c (by simp))

theorem starter_head {c : Char} {w g : Str} {d : Char} (hw : WsStr w) (hd : ¬ IsWs d) (hcd : c ≠ d) :
    (w ++ c :: g).head? ≠ some d := ws_head_ne hw hd (by simpa using hcd)

/-- Every malformed text is rejected. -/
theorem malformed_bad {t : Str} (h : Malformed t) : Bad (parseRaw t : Res (Json F)) := by
  have nb := bracket_not_ws
  cases h with
  | empty => exact parse_nil_bad
  | start c g h hw => exact not_canStart_bad h g
  | after x g hx hd hg => exact after_bad hx hd (cst_spells x (cst_wordy _ hx)) hg
  | arrOpen p w hp hw =>
    refine arr_pre hp w (fun _ => ?_) (fun arr => ?_)
    · have := ws_head_ne (q := []) hw nb.1 (by simp); rwa [List.append_nil] at this
    · have := arrLoop_ws (F := F) parseRaw w [] [] arr hw
      rw [List.append_nil] at this
      rw [this, arrLoop]; exact bad_fail _ _
  | arrUnclosed es hv =>
    have hs := elems_spells es (elems_wordy _ hv)
    rw [parseRaw_arr, parseArray]
    simp only [List.drop_succ_cons, List.drop_zero]
    have hh := arr_head (q := []) hv hs
    rw [List.append_nil] at hh
    rw [if_neg hh]
    rcases arr_elems (F := F) es hv es.text [] [] hs with hb | ⟨us, arr', _, e⟩
    · rwa [List.append_nil] at hb
    · rw [List.append_nil] at e
      rw [e, arrLoop]; exact bad_fail _ _
  | elem p w c g hp hw h hc h0 =>
    rw [List.append_assoc]
    refine arr_pre hp _ (fun e => ?_) (fun arr => ?_)
    · exact ws_head_ne hw nb.1 (by simp only [List.head?_cons, ne_eq, Option.some.injEq]; exact fun e2 => h0 ⟨e, e2⟩)
    · rw [arrLoop_ws _ _ _ _ _ hw]; exact arr_bad_elem h hc g arr
  | sep p w x w' c g hp hw hx hd hw' hc h1 h2 =>
    simp only [List.append_assoc]
    have hl := cst_spells x (cst_wordy _ hx)
    have hs : Spells (Cst.toks x) (w ++ (x.text ++ w')) := by
      have := spells_append (b := []) (spells_ws hw (lead_spells hl)) hw'
      simpa using this
    refine arr_pre hp _ (fun e => ?_) (fun arr => ?_)
    · obtain ⟨d, t, e, hd⟩ := cst_head x hx
      rw [e]
      exact ws_head_ne hw nb.1 (by simpa using (starter_ne hd).1)
    · obtain ⟨k, r', ek, _⟩ := cst_first x
      have e : w ++ (x.text ++ (w' ++ c :: g)) = w ++ (x.text ++ w') ++ c :: g := by simp
      rw [e]
      rcases arr_part (cst_wordy _ hx) (pb_cst (F := F) x (cst_wordy _ hx)) (r := []) (by simp) hs arr (q := c :: g) with hb | ⟨us, hl, e2⟩
      · exact hb
      · rw [e2]
        by_cases hn : net (Cst.toks x) = 0
        · rw [hn]
          refine arr_bad_next hc h1 h2 ?_ (fun q => after_bad hx hd hl (not_wsStr_cons hc)) g arr
          rw [bal_spells' (cst_ok x (cst_wordy _ hx)) (lead_spells hl), hn]
        · exact arr_stuck (cst_wordy _ hx) (pb_cst (F := F) x (cst_wordy _ hx)) (r := []) (by simp) (by rw [ek]; simp) (.inr ⟨rfl, hn⟩) hl arr
  | objOpen p w hp hw =>
    refine obj_pre hp w (fun _ => ?_) (fun obj => ?_)
    · have := ws_head_ne (q := []) hw nb.2 (by simp); rwa [List.append_nil] at this
    · have := objLoop_ws (F := F) parseRaw w [] ([], []) true obj hw
      rw [List.append_nil] at this
      rw [this, objLoop]; exact bad_fail _ _
  | objKeyOnly p w k w' hp hw hk hw' =>
    simp only [List.append_assoc]
    refine obj_pre hp _ (fun _ => ws_head_ne hw nb.2 (by simp [strText])) (fun obj => ?_)
    rcases obj_key (F := F) hk hw obj (q := w') with hb | ⟨hk0, e1⟩
    · exact hb
    · rw [e1]
      have := objLoop_ws (F := F) parseRaw w' [] (strText k, []) true obj hw'
      rw [List.append_nil] at this
      rw [this, objLoop]; exact bad_fail _ _
  | objNoValue p w k w' w'' hp hw hk hw' hw'' =>
    simp only [List.append_assoc, List.cons_append, List.nil_append]
    refine obj_pre hp _ (fun _ => ws_head_ne hw nb.2 (by simp [strText])) (fun obj => ?_)
    rcases obj_key (F := F) hk hw obj (q := w' ++ ':' :: w'') with hb | ⟨hk0, e1⟩
    · exact hb
    · rw [e1, objLoop_ws _ _ _ _ _ _ hw', obj_colon]
      have := objLoop_ws (F := F) parseRaw w'' [] (strText k, []) false obj hw''
      rw [List.append_nil] at this
      rw [this, objLoop]; exact bad_fail _ _
  | objUnclosed ms hv =>
    have hs := members_spells ms (members_wordy _ hv)
    rw [parseRaw_obj, parseObject]
    simp only [List.drop_succ_cons, List.drop_zero]
    have hh := obj_head (q := []) hv hs
    rw [List.append_nil] at hh
    rw [if_neg hh]
    rcases obj_members (F := F) ms hv ms.text [] [] hs with hb | ⟨ks, us, obj', _, _, e⟩
    · rwa [List.append_nil] at hb
    · rw [List.append_nil] at e
      rw [e, objLoop]; exact bad_fail _ _
  | key p w c g hp hw h hc h0 =>
    rw [List.append_assoc]
    refine obj_pre hp _ (fun e => ?_) (fun obj => ?_)
    · exact ws_head_ne hw nb.2 (by simp only [List.head?_cons, ne_eq, Option.some.injEq]; exact fun e2 => h0 ⟨e, e2⟩)
    · rw [objLoop_ws _ _ _ _ _ _ hw]; exact obj_bad_key hc h g obj
  | colon p w k w' c g hp hw hk hw' hc h =>
    simp only [List.append_assoc]
    refine obj_pre hp _ (fun _ => ws_head_ne hw nb.2 (by simp [strText])) (fun obj => ?_)
    rcases obj_key (F := F) hk hw obj (q := w' ++ c :: g) with hb | ⟨hk0, e1⟩
    · exact hb
    · rw [e1, objLoop_ws _ _ _ _ _ _ hw']
      exact obj_bad_colon hk hk0 hc h g obj
  | value p w k w' w'' c g hp hw hk hw' hw'' h hc h0 =>
    simp only [List.append_assoc, List.cons_append, List.nil_append]
    refine obj_pre hp _ (fun _ => ws_head_ne hw nb.2 (by simp [strText])) (fun obj => ?_)
    rcases obj_key (F := F) hk hw obj (q := w' ++ ':' :: (w'' ++ c :: g)) with hb | ⟨hk0, e1⟩
    · exact hb
    · rw [e1, objLoop_ws _ _ _ _ _ _ hw', obj_colon, objLoop_ws _ _ _ _ _ _ hw'']
      by_cases h1 : c = ','
      · subst h1
        rw [objLoop_cons, if_neg (by simp), if_pos ⟨rfl, rfl, rfl, rfl⟩, if_pos (.inr rfl)]
        exact bad_fail _ _
      by_cases h2 : c = '}'
      · subst h2
        rw [objLoop_cons, if_pos ⟨rfl, rfl, rfl, rfl⟩]
        exact obj_branch_bad parseRaw _ _ (fun key v => match skipTrail .ParseObjectError g with
          | .error e => .error e
          | .ok () => .ok (.object (objectInsert key v obj))) parse_nil_bad
      · exact obj_bad_next hc h1 h2 h0 (by simp [bal]) (fun q => not_canStart_bad h q) g obj
  | objSep p w k w' w'' x w3 c g hp hw hk hw' hw'' hx hd hw3 hc h1 h2 h3 =>
    simp only [List.append_assoc, List.cons_append, List.nil_append]
    refine obj_pre hp _ (fun _ => ws_head_ne hw nb.2 (by simp [strText])) (fun obj => ?_)
    have hs : Spells (Cst.toks x) (x.text ++ w3) := by
      have := spells_append (b := []) (lead_spells (cst_spells x (cst_wordy _ hx))) hw3
      simpa using this
    have := obj_member (F := F) hk hx hw hw' hw'' hs obj (q := c :: g)
    simp only [List.append_assoc] at this
    rcases this with hb | ⟨us, hl, hn, e⟩
    · exact hb
    · rw [e]
      refine obj_bad_next hc h1 h2 h3 ?_ (fun q => after_bad hx hd hl (not_wsStr_cons hc)) g obj
      rw [bal_spells' (cst_ok x (cst_wordy _ hx)) (lead_spells hl), hn]

/-! ### Trailing whitespace -/

theorem arrLoop_trail (rec : Str → Res (Json F)) (b : Str) (hb : WsStr b) : ∀ (n : Nat) (s : Str) (i j : Int) (inner : Str) (arr : List (Json F)) (r : Json F),
    s.length ≤ n → arrLoop rec s i j inner arr = .ok r → arrLoop rec (s ++ b) i j inner arr = .ok r := by
  intro n
  induction n with
  | zero =>
    intro s i j inner arr r hn h
    cases s with
    | nil => rw [arrLoop] at h; cases h
    | cons c t => simp at hn
  | succ n ih =>
    intro s i j inner arr r hn h
    match s, hn, h with
    | [], _, h => rw [arrLoop] at h; cases h
    | c :: iter, hn, h =>
      simp only [List.length_cons] at hn
      rw [arrLoop_cons] at h
      rw [List.cons_append, arrLoop_cons]
      by_cases g1 : c = ']' ∧ i = 0 ∧ j = 0
      · rw [if_pos g1] at h ⊢
        cases hr : rec inner with
        | error e => rw [hr] at h; cases h
        | ok v =>
          rw [hr] at h
          simp only at h ⊢
          cases hs : skipTrail .ParseArrayError iter with
          | error e => rw [hs] at h; cases h
          | ok u =>
            rw [hs] at h
            rw [(skipTrail_ok .ParseArrayError (iter ++ b)).mpr (wsStr_append ((skipTrail_ok _ _).mp hs) hb)]
            exact h
      rw [if_neg g1] at h ⊢
      by_cases g2 : c = ',' ∧ i = 0 ∧ j = 0
      · rw [if_pos g2] at h ⊢
        by_cases e1 : inner = []
        · rw [if_pos e1] at h; cases h
        rw [if_neg e1] at h ⊢
        by_cases e2 : iter.head? = some ']'
        · rw [if_pos e2] at h; cases h
        rw [if_neg e2] at h
        cases iter with
        | nil =>
          cases hr : rec inner with
          | error e => rw [hr] at h; cases h
          | ok v => rw [hr] at h; simp only [arrLoop] at h; cases h
        | cons d iter =>
          rw [if_neg (by simpa using e2)]
          cases hr : rec inner with
          | error e => rw [hr] at h; cases h
          | ok v =>
            rw [hr] at h
            exact ih _ _ _ _ _ _ (by omega) h
      rw [if_neg g2] at h ⊢
      by_cases c1 : c = '"'
      · rw [if_pos c1] at h ⊢; exact ih _ _ _ _ _ _ (by omega) h
      rw [if_neg c1] at h ⊢
      by_cases c2 : c = '['
      · rw [if_pos c2] at h ⊢; exact ih _ _ _ _ _ _ (by omega) h
      rw [if_neg c2] at h ⊢
      by_cases c3 : c = ']'
      · rw [if_pos c3] at h ⊢; exact ih _ _ _ _ _ _ (by omega) h
      rw [if_neg c3] at h ⊢
      by_cases c4 : c = '{'
      · rw [if_pos c4] at h ⊢; exact ih _ _ _ _ _ _ (by omega) h
      rw [if_neg c4] at h ⊢
      by_cases c5 : c = '}'
      · rw [if_pos c5] at h ⊢; exact ih _ _ _ _ _ _ (by omega) h
      rw [if_neg c5] at h ⊢
      by_cases c6 : c = '\\'
      · rw [if_pos c6] at h ⊢
        cases iter with
        | nil => cases h
        | cons ch t =>
          simp only [List.length_cons] at hn
          exact ih _ _ _ _ _ _ (by omega) h
      rw [if_neg c6] at h ⊢
      by_cases c7 : i = 0 ∧ j = 0 ∧ isWs c = true
      · rw [if_pos c7] at h ⊢; exact ih _ _ _ _ _ _ (by omega) h
      rw [if_neg c7] at h ⊢
      exact ih _ _ _ _ _ _ (by omega) h

theorem objLoop_trail (rec : Str → Res (Json F)) (b : Str) (hb : WsStr b) : ∀ (n : Nat) (s : Str) (i j : Int) (kv : Str × Str) (onKey : Bool) (obj : Obj F) (r : Json F),
    s.length ≤ n → objLoop rec s i j kv onKey obj = .ok r → objLoop rec (s ++ b) i j kv onKey obj = .ok r := by
  intro n
  induction n with
  | zero =>
    intro s i j kv onKey obj r hn h
    cases s with
    | nil => rw [objLoop] at h; cases h
    | cons c t => simp at hn
  | succ n ih =>
    intro s i j kv onKey obj r hn h
    match s, hn, h with
    | [], _, h => rw [objLoop] at h; cases h
    | c :: iter, hn, h =>
      simp only [List.length_cons] at hn
      rw [objLoop_cons] at h
      rw [List.cons_append, objLoop_cons]
      by_cases g1 : c = '}' ∧ i = 0 ∧ j = 0 ∧ onKey = false
      · rw [if_pos g1] at h ⊢
        split at h
        · rename_i key hk
          cases hr : rec kv.2 with
          | error e => rw [hr] at h; cases h
          | ok v =>
            rw [hr] at h
            simp only at h ⊢
            cases hs : skipTrail .ParseObjectError iter with
            | error e => rw [hs] at h; cases h
            | ok u =>
              rw [hs] at h
              rw [(skipTrail_ok .ParseObjectError (iter ++ b)).mpr (wsStr_append ((skipTrail_ok _ _).mp hs) hb)]
              exact h
        · cases h
      rw [if_neg g1] at h ⊢
      by_cases g2 : c = ',' ∧ i = 0 ∧ j = 0 ∧ onKey = false
      · rw [if_pos g2] at h ⊢
        by_cases e1 : kv.1 = [] ∨ kv.2 = []
        · rw [if_pos e1] at h; cases h
        rw [if_neg e1] at h ⊢
        by_cases e2 : iter.head? = some '}'
        · rw [if_pos e2] at h; cases h
        rw [if_neg e2] at h
        split at h
        · rename_i key hk
          cases hr : rec kv.2 with
          | error e => rw [hr] at h; cases h
          | ok v =>
            rw [hr] at h
            cases iter with
            | nil => simp only [objLoop] at h; cases h
            | cons d iter =>
              rw [if_neg (by simpa using e2)]
              simp only
              exact ih _ _ _ _ _ _ _ (by omega) h
        · cases h
      rw [if_neg g2] at h ⊢
      by_cases g3 : c = ':' ∧ i = 0 ∧ j = 0
      · rw [if_pos g3] at h ⊢; exact ih _ _ _ _ _ _ _ (by omega) h
      rw [if_neg g3] at h ⊢
      by_cases c1 : c = '"'
      · rw [if_pos c1] at h ⊢; exact ih _ _ _ _ _ _ _ (by omega) h
      rw [if_neg c1] at h ⊢
      by_cases c2 : c = '['
      · rw [if_pos c2] at h ⊢; exact ih _ _ _ _ _ _ _ (by omega) h
      rw [if_neg c2] at h ⊢
      by_cases c3 : c = ']'
      · rw [if_pos c3] at h ⊢; exact ih _ _ _ _ _ _ _ (by omega) h
      rw [if_neg c3] at h ⊢
      by_cases c4 : c = '{'
      · rw [if_pos c4] at h ⊢; exact ih _ _ _ _ _ _ _ (by omega) h
      rw [if_neg c4] at h ⊢
      by_cases c5 : c = '}'
      · rw [if_pos c5] at h ⊢; exact ih _ _ _ _ _ _ _ (by omega) h
      rw [if_neg c5] at h ⊢
      by_cases c6 : c = '\\'
      · rw [if_pos c6] at h ⊢
        cases iter with
        | nil => cases h
        | cons ch t =>
          simp only [List.length_cons] at hn
          exact ih _ _ _ _ _ _ _ (by omega) h
      rw [if_neg c6] at h ⊢
      by_cases c7 : i = 0 ∧ j = 0 ∧ isWs c = true
      · rw [if_pos c7] at h ⊢; exact ih _ _ _ _ _ _ _ (by omega) h
      rw [if_neg c7] at h ⊢
      exact ih _ _ _ _ _ _ _ (by omega) h

/-- Strings and containers tolerate trailing whitespace. -/
theorem parseRaw_trail {c : Char} (hc : c = '"' ∨ c = '[' ∨ c = '{') (t b : Str) (hb : WsStr b) (j : Json F)
    (h : parseRaw (c :: t) = .ok j) : parseRaw (c :: t ++ b) = .ok j := by
  rcases hc with rfl | rfl | rfl
  · rcases parseRaw_cases _ _ h with ⟨e, _⟩ | ⟨e, _⟩ | ⟨e, _⟩ | ⟨_, _, _, _, c, s, e, hc⟩ | ⟨s, u, rfl, _, hs⟩ | ⟨_, _, e, _⟩ | ⟨_, _, e, _⟩
    · simp at e
    · simp at e
    · simp at e
    · simp only [List.cons.injEq] at e; obtain ⟨rfl, _⟩ := e; simp [IsDigit] at hc
    · obtain ⟨items, ws, e, hw, hv⟩ := (parseStringRaw_iff t s).mp hs
      rw [e, List.append_assoc]
      exact parseRaw_str items (ws ++ b) s (wsStr_append hw hb) hv
    · simp at e
    · simp at e
  · rw [parseRaw_arr, parseArray] at h
    rw [List.cons_append, parseRaw_arr, parseArray]
    simp only [List.drop_succ_cons, List.drop_zero] at h ⊢
    cases t with
    | nil => simp only [List.head?_nil, reduceCtorEq, if_false, arrLoop] at h; cases h
    | cons d t =>
      by_cases hd : (d :: t).head? = some ']'
      · rw [if_pos hd] at h
        rw [if_pos (show (d :: t ++ b).head? = some ']' from hd)]; exact h
      · rw [if_neg hd] at h
        rw [if_neg (show ¬ (d :: t ++ b).head? = some ']' from hd)]
        exact arrLoop_trail parseRaw b hb _ _ _ _ _ _ _ (Nat.le_refl _) h
  · rw [parseRaw_obj, parseObject] at h
    rw [List.cons_append, parseRaw_obj, parseObject]
    simp only [List.drop_succ_cons, List.drop_zero] at h ⊢
    cases t with
    | nil => simp only [List.head?_nil, reduceCtorEq, if_false, objLoop] at h; cases h
    | cons d t =>
      by_cases hd : (d :: t).head? = some '}'
      · rw [if_pos hd] at h
        rw [if_pos (show (d :: t ++ b).head? = some '}' from hd)]; exact h
      · rw [if_neg hd] at h
        rw [if_neg (show ¬ (d :: t ++ b).head? = some '}' from hd)]
        exact objLoop_trail parseRaw b hb _ _ _ _ _ _ _ _ (Nat.le_refl _) h

end RJ
