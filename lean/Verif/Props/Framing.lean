import Verif.Proof.Framing
import Verif.Proof.Unambiguous
import Verif.Props.Refuse
import Verif.Props.Reject
import Verif.Props.Print
import Verif.Proof.HashOrder
/-
  C83: texts show where they end.  Truncated documents and documents with something after them are refused.
-/
set_option linter.unusedSectionVars false
namespace RJ
open Spec
variable {F : Type} [FloatOps F]

/-! ### Without the whitespace around -/

theorem raw_null_more (t : Str) (h : 'n' :: t ≠ "null".toList) : (parseRaw ('n' :: t) : Res (Json F)) = .error ⟨.ParseNullError, "error parsing null value.".toList⟩ := by
  rw [parseRaw_eq, parseBody]
  simp only [List.head?_cons, if_true]
  rw [parseNull, if_neg h]
  rfl

theorem raw_bool_more {c : Char} (hc : c = 't' ∨ c = 'f') (t : Str) (h1 : c :: t ≠ "true".toList) (h2 : c :: t ≠ "false".toList) :
    (parseRaw (c :: t) : Res (Json F)) = .error ⟨.ParseBooleanError, "error parsing boolean value.".toList⟩ := by
  rw [parseRaw_eq, parseBody]
  simp only [List.head?_cons]
  rw [if_neg (by rcases hc with rfl | rfl <;> decide), if_pos hc, parseBoolean, if_neg h1, if_neg h2]
  rfl

theorem raw_more {t : Str} {j : Json F} (h : parseRaw t = .ok j) (hs : SelfDelimiting j) {w : Str} {c : Char} (r : Str) (hw : WsStr w) (hc : ¬ IsWs c) :
    (parseRaw (t ++ (w ++ c :: r)) : Res (Json F)) = .error (TooLong c j) := by
  have hne : w ++ c :: r ≠ [] := by simp
  rcases parseRaw_cases _ _ h with ⟨rfl, rfl⟩ | ⟨rfl, rfl⟩ | ⟨rfl, rfl⟩ | ⟨f, rfl, _⟩ | ⟨s, u, rfl, rfl, hp⟩ | ⟨u, l, rfl, rfl, hp⟩ | ⟨u, m, rfl, rfl, hp⟩
  · exact raw_null_more _ (fun e => hne (by simpa using e))
  · exact raw_bool_more (.inl rfl) _ (fun e => hne (by simpa using e)) (by simp)
  · exact raw_bool_more (.inr rfl) _ (by simp) (fun e => hne (by simpa using e))
  · exact absurd hs id
  · obtain ⟨items, ws, e, hws, hv⟩ := (parseStringRaw_iff u s).mp hp
    have e2 : u = bodyText items ++ '"' :: ws := by simpa [strText] using e
    subst e2
    rw [List.cons_append, parseRaw_quote, parseString, parseStringRaw, List.drop_succ_cons, List.drop_zero, List.append_assoc,
      strLoop_prefix _ _ _ _ _ hv (by simp; omega), List.cons_append, List.length_cons, strLoop.eq_def]
    simp only [if_true]
    rw [skipTrail_more _ hws, skipTrail_char r hw hc]
    rfl
  · rw [List.cons_append, parseRaw_arr]
    rw [parseArray] at hp ⊢
    simp only [List.drop_succ_cons, List.drop_zero] at hp ⊢
    by_cases hd : u.head? = some ']'
    · rw [if_pos hd] at hp
      cases hp
      exact absurd hs id
    · rw [if_neg hd] at hp
      cases u with
      | nil => rw [arrLoop] at hp; cases hp
      | cons d u =>
        rw [if_neg (show ¬ (d :: u ++ (w ++ c :: r)).head? = some ']' from hd)]
        exact arr_more parseRaw _ _ (skipTrail_char r hw hc) _ _ _ _ _ _ _ (Nat.le_refl _) hp
  · rw [List.cons_append, parseRaw_obj]
    rw [parseObject] at hp ⊢
    simp only [List.drop_succ_cons, List.drop_zero] at hp ⊢
    by_cases hd : u.head? = some '}'
    · rw [if_pos hd] at hp
      cases hp
      exact absurd hs id
    · rw [if_neg hd] at hp
      cases u with
      | nil => rw [objLoop] at hp; cases hp
      | cons d u =>
        rw [if_neg (show ¬ (d :: u ++ (w ++ c :: r)).head? = some '}' from hd)]
        exact obj_more parseRaw _ _ (skipTrail_char r hw hc) _ _ _ _ _ _ _ _ (Nat.le_refl _) hp

/-- The end `s`, which is more than whitespace, is cut off. -/
theorem raw_cut {c : Char} {t s : Str} {j : Json F} (h : parseRaw (c :: t ++ s) = .ok j) (hs : SelfDelimiting j) (hw : ¬ WsStr s) :
    ∃ e, (parseRaw (c :: t) : Res (Json F)) = .error e ∧ CutShort j e := by
  have hne : s ≠ [] := fun e => hw (e ▸ wsStr_nil)
  rcases parseRaw_cases _ _ h with ⟨e, rfl⟩ | ⟨e, rfl⟩ | ⟨e, rfl⟩ | ⟨f, rfl, _⟩ | ⟨x, u, rfl, e, hp⟩ | ⟨u, l, e, rfl, hp⟩ | ⟨u, m, e, rfl, hp⟩
  · have hc : c = 'n' := by have := congrArg List.head? e; simpa using this
    subst hc
    exact ⟨_, raw_null_more _ (fun e' => hne (by rw [e'] at e; simpa using e)), .null⟩
  · have hc : c = 't' := by have := congrArg List.head? e; simpa using this
    subst hc
    exact ⟨_, raw_bool_more (.inl rfl) _ (fun e' => hne (by rw [e'] at e; simpa using e)) (by simp), .boolean _⟩
  · have hc : c = 'f' := by have := congrArg List.head? e; simpa using this
    subst hc
    exact ⟨_, raw_bool_more (.inr rfl) _ (by simp) (fun e' => hne (by rw [e'] at e; simpa using e)), .boolean _⟩
  · exact absurd hs id
  · obtain ⟨rfl, rfl⟩ := List.cons.inj e
    rw [parseStringRaw, List.cons_append, List.drop_succ_cons, List.drop_zero] at hp
    rw [parseRaw_quote, parseString, parseStringRaw, List.drop_succ_cons, List.drop_zero]
    rcases str_cut s _ (('"' :: t).length + 1) t [] x (by simp; omega) hp with ⟨_, hw'⟩ | h1 | h1 | h1 | h1
    · exact absurd hw' hw
    · rw [h1]; exact ⟨_, rfl, .string x⟩
    · rw [h1]; exact ⟨_, rfl, .stringEsc x⟩
    · rw [h1]; exact ⟨_, rfl, .stringHex x⟩
    · rw [h1]; exact ⟨_, rfl, .stringPair x⟩
  · obtain ⟨rfl, rfl⟩ := List.cons.inj e
    rw [parseRaw_arr]
    rw [parseArray] at hp ⊢
    simp only [List.cons_append, List.drop_succ_cons, List.drop_zero] at hp ⊢
    by_cases hd : (t ++ s).head? = some ']'
    · rw [if_pos hd] at hp
      cases hp
      exact absurd hs id
    · rw [if_neg hd] at hp
      rw [if_neg (fun e => hd (by cases t with | nil => cases e | cons d l => exact e))]
      rcases arr_cut parseRaw s _ _ _ _ _ _ _ (Nat.le_refl _) hp with ⟨_, hw'⟩ | h1 | h1
      · exact absurd hw' hw
      · rw [h1]; exact ⟨_, rfl, .array l⟩
      · rw [h1]; exact ⟨_, rfl, .arrayEsc l⟩
  · obtain ⟨rfl, rfl⟩ := List.cons.inj e
    rw [parseRaw_obj]
    rw [parseObject] at hp ⊢
    simp only [List.cons_append, List.drop_succ_cons, List.drop_zero] at hp ⊢
    by_cases hd : (t ++ s).head? = some '}'
    · rw [if_pos hd] at hp
      cases hp
      exact absurd hs id
    · rw [if_neg hd] at hp
      rw [if_neg (fun e => hd (by cases t with | nil => cases e | cons d l => exact e))]
      rcases obj_cut parseRaw s _ _ _ _ _ _ _ _ (Nat.le_refl _) hp with ⟨_, hw'⟩ | h1 | h1
      · exact absurd hw' hw
      · rw [h1]; exact ⟨_, rfl, .object m⟩
      · rw [h1]; exact ⟨_, rfl, .objectEsc m⟩

/-! ### The theorems -/

theorem raw_nil : (parseRaw [] : Res (Json F)) = .error ⟨.InvalidJson, "invalid json.".toList⟩ := by
  rw [parseRaw_eq, parseBody]; rfl

theorem raw_ne_nil {t : Str} {j : Json F} (h : parseRaw t = .ok j) : t ≠ [] := by
  rintro rfl
  rw [raw_nil] at h
  cases h

/-- **C83, too long.** After a complete text of a string, of `null`, `true`, `false`, or of a non-empty array or object, any further character but whitespace is an error,
which names the character. -/
theorem C83_too_long (t w r : Str) (c : Char) (j : Json F) (h : Json.parse t = .ok j) (hs : SelfDelimiting j) (hw : WsStr w) (hc : ¬ IsWs c) :
    (Json.parse (t ++ w ++ c :: r) : Res (Json F)) = .error (TooLong c j) := by
  obtain ⟨a, b, ha, hb, e⟩ := trimWs_split t
  rw [Json.parse] at h
  have hT := trimWs_trimmed t
  generalize trimWs t = p at h e hT
  subst e
  obtain ⟨d, q, rfl⟩ : ∃ d q, p = d :: q := by
    cases p with
    | nil => exact absurd rfl (raw_ne_nil h)
    | cons d q => exact ⟨d, q, rfl⟩
  obtain ⟨r', z, e1, hz, e2⟩ := trimWs_of_head hc r
  have e3 : (a ++ d :: q ++ b) ++ w ++ c :: r = a ++ (d :: q ++ ((b ++ w) ++ c :: r')) ++ z := by rw [e1]; simp
  rw [Json.parse, e3, trimWs_around _ _ _ ha hz, trimWs_of_trimmed, raw_more h hs r' (wsStr_append hb hw) hc]
  refine ⟨?_, ?_⟩
  · intro x y he
    obtain ⟨rfl, _⟩ := List.cons.inj he
    exact hT.1 _ _ rfl
  · intro y x he
    rw [← List.append_assoc] at he
    have h4 := trimWs_trimmed (c :: r)
    rw [e2] at h4
    have hne : c :: r' ≠ [] := by simp
    have e5 := (List.dropLast_concat_getLast hne).symm
    have h6 := h4.2 _ _ e5
    have : (d :: q ++ (b ++ w) ++ c :: r').getLast? = some x := by rw [he]; simp
    rw [List.getLast?_append, List.getLast?_eq_some_getLast hne] at this
    cases this
    exact h6

/-- **C83, truncated.** If such a text is cut off anywhere before its last character, it is refused, with the error for a text that stops too early; nothing but whitespace
gives "invalid json.". -/
theorem C83_truncated (t s : Str) (j : Json F) (h : Json.parse (t ++ s) = .ok j) (hs : SelfDelimiting j) (hw : ¬ WsStr s) :
    ∃ e, (Json.parse t : Res (Json F)) = .error e ∧ (CutShort j e ∨ (WsStr t ∧ e = ⟨.InvalidJson, "invalid json.".toList⟩)) := by
  obtain ⟨a, b, ha, hb, e⟩ := trimWs_split (t ++ s)
  obtain ⟨a', b', ha', hb', e'⟩ := trimWs_split t
  rw [Json.parse] at h ⊢
  have hT := trimWs_trimmed (t ++ s)
  have hT' := trimWs_trimmed t
  generalize trimWs (t ++ s) = p at h e hT
  generalize trimWs t = p' at e' hT' ⊢
  cases p' with
  | nil =>
    refine ⟨_, raw_nil, .inr ⟨?_, rfl⟩⟩
    rw [e']
    simpa using wsStr_append ha' hb'
  | cons d' q' =>
    obtain ⟨d, q, rfl⟩ : ∃ d q, p = d :: q := by
      cases p with
      | nil => exact absurd rfl (raw_ne_nil h)
      | cons d q => exact ⟨d, q, rfl⟩
    have e4 : a' ++ (d' :: q' ++ (b' ++ s)) = a ++ (d :: q ++ b) := by rw [e'] at e; simpa using e
    have hd : ¬ IsWs d := hT.1 _ _ rfl
    have hd' : ¬ IsWs d' := hT'.1 _ _ rfl
    obtain ⟨_, e5⟩ := ws_unique _ _ _ _ ha' ha (by intro c hc; simp at hc; exact hc ▸ hd') (by intro c hc; simp at hc; exact hc ▸ hd) e4
    have hbs : ¬ WsStr (b' ++ s) := fun hx => hw (wsStr_of_append hx)
    -- either the whole text tolerates whitespace at its end, or it is one of the three words
    have key : parseRaw (d' :: q' ++ (b' ++ s)) = .ok j ∨ ((d :: q = "null".toList ∧ j = .null) ∨ (d :: q = "true".toList ∧ j = .boolean true) ∨ (d :: q = "false".toList ∧ j = .boolean false)) := by
      rcases parseRaw_cases _ _ h with hx | hx | hx | ⟨f, rfl, _⟩ | ⟨x, u, rfl, ex, _⟩ | ⟨u, l, ex, rfl, _⟩ | ⟨u, m, ex, rfl, _⟩
      · exact .inr (.inl hx)
      · exact .inr (.inr (.inl hx))
      · exact .inr (.inr (.inr hx))
      · exact absurd hs id
      · obtain ⟨rfl, rfl⟩ := List.cons.inj ex
        rw [e5]; exact .inl (parseRaw_trail (.inl rfl) _ _ hb _ h)
      · obtain ⟨rfl, rfl⟩ := List.cons.inj ex
        rw [e5]; exact .inl (parseRaw_trail (.inr (.inl rfl)) _ _ hb _ h)
      · obtain ⟨rfl, rfl⟩ := List.cons.inj ex
        rw [e5]; exact .inl (parseRaw_trail (.inr (.inr rfl)) _ _ hb _ h)
    rcases key with hk | ⟨ek, rfl⟩ | ⟨ek, rfl⟩ | ⟨ek, rfl⟩
    · obtain ⟨er, h1, h2⟩ := raw_cut hk hs hbs
      exact ⟨er, h1, .inl h2⟩
    · rw [ek] at e5
      have hc : d' = 'n' := by have := congrArg List.head? e5; simpa using this
      subst hc
      exact ⟨_, raw_null_more _ (fun e' => hbs (by rw [e'] at e5; exact (List.append_cancel_left e5) ▸ hb)), .inl .null⟩
    · rw [ek] at e5
      have hc : d' = 't' := by have := congrArg List.head? e5; simpa using this
      subst hc
      exact ⟨_, raw_bool_more (.inl rfl) _ (fun e' => hbs (by rw [e'] at e5; exact (List.append_cancel_left e5) ▸ hb)) (by simp), .inl (.boolean _)⟩
    · rw [ek] at e5
      have hc : d' = 'f' := by have := congrArg List.head? e5; simpa using this
      subst hc
      exact ⟨_, raw_bool_more (.inr rfl) _ (by simp) (fun e' => hbs (by rw [e'] at e5; exact (List.append_cancel_left e5) ▸ hb)), .inl (.boolean _)⟩

/-- **C83, framing.** So from a stream of characters at most one prefix, up to whitespace at its end, can be read as such a value. -/
theorem C83_one_end (t s : Str) (j j' : Json F) (h : Json.parse t = .ok j) (h' : Json.parse (t ++ s) = .ok j') (hs : SelfDelimiting j ∨ SelfDelimiting j') :
    WsStr s ∧ j = j' := by
  have hw : WsStr s := by
    apply Classical.byContradiction
    intro hw
    rcases hs with hs | hs
    · obtain ⟨w, hww, e⟩ := dropWhile_split s
      cases hd : s.dropWhile isWs with
      | nil => rw [hd, List.append_nil] at e; exact hw (e ▸ hww)
      | cons c r =>
        rw [hd] at e
        have := C83_too_long t w r c j h hs hww (dropWhile_ws_head hd)
        rw [List.append_assoc, ← e, h'] at this
        cases this
    · obtain ⟨e, h1, _⟩ := C83_truncated t s j' h' hs hw
      rw [h] at h1
      cases h1
  refine ⟨hw, ?_⟩
  have := C10_surrounding_whitespace (F := F) [] t s wsStr_nil hw
  rw [List.nil_append, h', h] at this
  cases this
  rfl

/-- **C83, two documents.** Two texts one after the other are never read as one, if the first is such a value. -/
theorem C83_two_documents (t t' : Str) (j j' : Json F) (h : Json.parse t = .ok j) (h' : Json.parse t' = .ok j') (hs : SelfDelimiting j) :
    ∃ e, (Json.parse (t ++ t') : Res (Json F)) = .error e := by
  cases hx : (Json.parse (t ++ t') : Res (Json F)) with
  | error e => exact ⟨e, rfl⟩
  | ok x =>
    obtain ⟨hw, _⟩ := C83_one_end t t' j x h hx (.inl hs)
    have : trimWs t' = [] := by
      have := trimWs_post [] t' hw
      simpa [trimWs] using this
    rw [Json.parse, this, raw_nil] at h'
    cases h'

/-- **C83, numbers.** A number may be the beginning of a text of a number only. -/
theorem C83_numbers (t s : Str) (f : F) (j : Json F) (h : Json.parse t = .ok (.number f)) (h' : Json.parse (t ++ s) = .ok j) : ∃ f', j = .number f' := by
  cases j with
  | number f' => exact ⟨f', rfl⟩
  | array l =>
    cases l with
    | cons x l => cases (C83_one_end t s _ _ h h' (.inr trivial)).2
    | nil => exact absurd h' (number_start h s (by simp))
  | object m =>
    cases m with
    | cons x l => cases (C83_one_end t s _ _ h h' (.inr trivial)).2
    | nil => exact absurd h' (number_start h s (by simp))
  | _ => cases (C83_one_end t s _ _ h h' (.inr trivial)).2
where
  number_start {t : Str} {f : F} (h : Json.parse t = .ok (.number f)) (s : Str) {j : Json F} (hj : ∀ f', j ≠ .number f') : Json.parse (t ++ s) ≠ .ok j := by
    intro h'
    obtain ⟨a, b, ha, hb, e⟩ := trimWs_split t
    rw [Json.parse] at h h'
    have hT := trimWs_trimmed t
    generalize trimWs t = p at h e hT
    rcases parseRaw_cases _ _ h with ⟨_, e⟩ | ⟨_, e⟩ | ⟨_, e⟩ | ⟨_, _, _, _, c, q, rfl, hc⟩ | ⟨_, _, e, _⟩ | ⟨_, _, _, e, _⟩ | ⟨_, _, _, e, _⟩
    · cases e
    · cases e
    · cases e
    · subst e
      obtain ⟨r, w, e1, hw, e2⟩ := trimWs_of_head (hT.1 _ _ rfl) (q ++ b ++ s)
      have e3 : trimWs (a ++ c :: q ++ b ++ s) = c :: r := by
        rw [List.append_assoc, List.append_assoc, trimWs_pre _ _ ha, ← e2]; simp
      rw [e3] at h'
      rcases parseRaw_cases _ _ h' with ⟨e, _⟩ | ⟨e, _⟩ | ⟨e, _⟩ | ⟨f', hf, _⟩ | ⟨_, _, _, e, _⟩ | ⟨_, _, e, _⟩ | ⟨_, _, e, _⟩
      · have hx : c = 'n' := by have := congrArg List.head? e; simpa using this
        subst hx; revert hc; unfold IsDigit; decide
      · have hx : c = 't' := by have := congrArg List.head? e; simpa using this
        subst hx; revert hc; unfold IsDigit; decide
      · have hx : c = 'f' := by have := congrArg List.head? e; simpa using this
        subst hx; revert hc; unfold IsDigit; decide
      · exact hj f' hf
      · obtain ⟨rfl, _⟩ := List.cons.inj e; simp [IsDigit] at hc
      · obtain ⟨rfl, _⟩ := List.cons.inj e; simp [IsDigit] at hc
      · obtain ⟨rfl, _⟩ := List.cons.inj e; simp [IsDigit] at hc
    · cases e
    · cases e
    · cases e

/-- **C83, empty containers.** `[]` and `{}` do not show where they end: whatever follows is ignored; and these are the only texts with these values. -/
theorem C83_empty_array [LawfulFloat F] (t : Str) : (Json.parse t : Res (Json F)) = .ok (.array []) ↔ ∃ w g, WsStr w ∧ t = w ++ "[]".toList ++ g := by
  constructor
  · intro h
    obtain ⟨a, s, b, ha, _, rfl, hv⟩ := (C58_exact_language t (.arr [])).1 ⟨_, h, by simp [absJ, absList]⟩
    cases hv with
    | emptyArr g => exact ⟨a, g ++ b, ha, by simp⟩
    | arr body vs w hb hw => cases hb
  · rintro ⟨w, g, hw, rfl⟩
    have := C10_surrounding_whitespace (F := F) w ("[]".toList ++ g) [] hw wsStr_nil
    rw [List.append_nil, ← List.append_assoc] at this
    rw [this]
    exact (C15_after_empty g).1

/-- **C83, empty containers.** -/
theorem C83_empty_object [LawfulFloat F] (t : Str) : (Json.parse t : Res (Json F)) = .ok (.object []) ↔ ∃ w g, WsStr w ∧ t = w ++ "{}".toList ++ g := by
  constructor
  · intro h
    obtain ⟨a, s, b, ha, _, rfl, hv⟩ := (C58_exact_language t (.obj (named []))).1 ⟨_, h, by simp only [absJ]; rfl⟩
    generalize hx : (Val.obj (named []) : Val F) = x at hv
    cases hv with
    | emptyObj g => exact ⟨a, g ++ b, ha, by simp⟩
    | obj body ms w hb hw =>
      exfalso
      have hn : named ms = (named [] : Str → List (Val F)) := by injection hx with hx; exact hx.symm
      cases hb with
      | one kg vg k v _ _ _ _ => have := congrFun hn k; simp [named] at this
      | cons kg vg k v t ms _ _ _ _ _ => have := congrFun hn k; simp [named] at this
    | _ => cases hx
  · rintro ⟨w, g, hw, rfl⟩
    have := C10_surrounding_whitespace (F := F) w ("{}".toList ++ g) [] hw wsStr_nil
    rw [List.append_nil, ← List.append_assoc] at this
    rw [this]
    exact (C15_after_empty g).2

/-- The printed text of anything but a number does not survive losing its end. -/
theorem printed_cut [LawfulFloat F] (j : Json F) (hfin : AllNum (fun f => FloatOps.isFinite f = true) j) (hwf : WF j) (hb : NestedBalanced j) (hn : ∀ f, j ≠ .number f)
    (t s : Str) (h : j.toString = t ++ s) (hs : s ≠ []) : ∃ e, (Json.parse t : Res (Json F)) = .error e := by
  obtain ⟨j', h1, h2⟩ := C01_round_trip j hfin hwf hb
  have hw : ¬ WsStr s := by
    intro hw
    obtain ⟨u, d, e, hd⟩ := word_last _ (cst_wordy _ (cstOf_valid j hfin))
    rw [← cstOf_text j hfin, h] at e
    have e5 := (List.dropLast_concat_getLast hs).symm
    rw [e5, ← List.append_assoc] at e
    have := List.append_inj_right' e rfl
    simp only [List.cons.injEq, and_true] at this
    exact hd (this ▸ hw _ (List.getLast_mem hs))
  have small : ∀ a b : Char, j.toString = [a, b] → (parseRaw [a] : Res (Json F)) = .error ⟨.ParseArrayError, "missing ].".toList⟩ ∨ (parseRaw [a] : Res (Json F)) = .error ⟨.ParseObjectError, "missing }.".toList⟩ →
      ¬ IsWs a → ∃ e, (Json.parse t : Res (Json F)) = .error e := by
    intro a b e hp ha
    rw [e] at h
    cases t with
    | nil => exact ⟨_, raw_nil⟩
    | cons x t =>
      cases t with
      | nil =>
        obtain ⟨rfl, _⟩ := List.cons.inj h
        have : trimWs [a] = [a] := trimWs_of_trimmed ⟨fun x y e => (List.cons.inj e).1 ▸ ha, fun y x e => by
          have := congrArg List.getLast? e
          simp at this
          exact this ▸ ha⟩
        rw [Json.parse, this]
        rcases hp with hp | hp <;> exact ⟨_, hp⟩
      | cons y t =>
        have := congrArg List.length h
        simp only [List.length_cons, List.length_nil, List.cons_append, List.length_append] at this
        exact absurd (List.length_eq_zero_iff.1 (by omega)) hs
  by_cases hd : SelfDelimiting j'
  · rw [h] at h1
    obtain ⟨e, he, _⟩ := C83_truncated t s j' h1 hd hw
    exact ⟨e, he⟩
  · cases j with
    | array l =>
      obtain ⟨l', rfl, e⟩ := abs_array h2
      cases l' with
      | cons x l' => exact absurd trivial hd
      | nil =>
        have : l = [] := by simpa using e.symm
        subst this
        exact small '[' ']' (by simp [Json.toString, printList, joinComma]) (.inl (by rw [parseRaw_arr, parseArray]; rfl)) (by simp [IsWs])
    | object m =>
      obtain ⟨m', rfl, e⟩ := abs_object h2
      cases m' with
      | cons x l' => exact absurd trivial hd
      | nil =>
        have : m = [] := by
          cases m with
          | nil => rfl
          | cons p m =>
            have := congrFun e p.1
            simp [absMap] at this
        subst this
        exact small '{' '}' (by rw [toString_object]; rfl) (.inr (by rw [parseRaw_obj, parseObject]; rfl)) (by simp [IsWs])
    | number f => exact absurd rfl (hn f)
    | _ =>
      have := abs_atom h2 (by intro _ h; cases h) (by intro _ h; cases h)
      subst this
      exact absurd trivial hd

/-- **C83, torn writes.** If the printed text of a value (other than a bare number) is stored only in part, reading it back is an error, wherever it was cut. -/
theorem C83_torn_write [LawfulFloat F] (j : Json F) (hfin : AllNum (fun f => FloatOps.isFinite f = true) j) (hwf : WF j) (hb : NestedBalanced j) (hn : ∀ f, j ≠ .number f)
    (n : Nat) (h : n < j.toString.length) : ∃ e, (Json.parse (j.toString.take n) : Res (Json F)) = .error e :=
  printed_cut j hfin hwf hb hn _ (j.toString.drop n) (List.take_append_drop n _).symm (by
    intro e
    have := congrArg List.length e
    simp at this
    omega)

/-! ### Witnesses -/

/-- What `parse` makes of a text, as a number: 1 for an error of this kind with this message, 2 for a value that shows where it ends. -/
def outcome (t : String) (k : ErrorKind) (m : String) : Nat :=
  match (Json.parse t.toList : Res (Json F64)) with
  | .error e => if e.kind = k ∧ e.msg = m.toList then 1 else 0
  | .ok (.array (_ :: _)) => 2
  | .ok (.object (_ :: _)) => 2
  | .ok (.string _) => 2
  | _ => 0

theorem outcome_error {t : String} {k : ErrorKind} {m : String} (h : outcome t k m = 1) : (Json.parse t.toList : Res (Json F64)) = .error ⟨k, m.toList⟩ := by
  unfold outcome at h
  split at h
  · rename_i e he
    split at h
    · rename_i hk
      rw [he]; obtain ⟨k', m'⟩ := e; obtain ⟨rfl, rfl⟩ := hk; rfl
    · cases h
  all_goals cases h

theorem outcome_ok {t : String} {k : ErrorKind} {m : String} (h : outcome t k m = 2) : ∃ j : Json F64, Json.parse t.toList = .ok j ∧ SelfDelimiting j := by
  unfold outcome at h
  split at h
  · split at h <;> cases h
  · rename_i he; exact ⟨_, he, trivial⟩
  · rename_i he; exact ⟨_, he, trivial⟩
  · rename_i he; exact ⟨_, he, trivial⟩
  · cases h

/-- **C83, example.** The object `{"a": [true, "x\\u0041"]}` cut off at several places, and with something after it. -/
theorem C83_example :
    (∃ j : Json F64, Json.parse "{\"a\": [true, \"x\\u0041\"]}".toList = .ok j ∧ SelfDelimiting j) ∧
    (Json.parse "{\"a\": [true, \"x\\u0041\"]".toList : Res (Json F64)) = .error ⟨.ParseObjectError, "missing }.".toList⟩ ∧
    (Json.parse "{\"a\": [true, \"x\\".toList : Res (Json F64)) = .error ⟨.ParseObjectError, "missing escaped character.".toList⟩ ∧
    (Json.parse "{\"a\": [true, \"x\\u0041\"]}, {".toList : Res (Json F64)) = .error ⟨.ParseObjectError, "invalid trailing character: ,.".toList⟩ ∧
    (Json.parse "\"x\\u0041\" \"".toList : Res (Json F64)) = .error ⟨.ParseStringError, "invalid trailing character: \".".toList⟩ ∧
    (Json.parse "\"x\\u00".toList : Res (Json F64)) = .error ⟨.ParseStringError, "parse unicode error: missing hex digit.".toList⟩ ∧
    (Json.parse "\"x\\ud83d".toList : Res (Json F64)) = .error ⟨.ParseStringError, "missing low surrogate.".toList⟩ := by
  refine ⟨outcome_ok (k := .InvalidJson) (m := "") (by decide +kernel), outcome_error (by decide +kernel), outcome_error (by decide +kernel), outcome_error (by decide +kernel),
    outcome_error (by decide +kernel), outcome_error (by decide +kernel), outcome_error (by decide +kernel)⟩

/-- Reads a number. -/
def readNum (t : String) : Option F64 :=
  match (Json.parse t.toList : Res (Json F64)) with
  | .ok (.number f) => some f
  | _ => none

theorem readNum_some {t : String} {f : F64} (h : readNum t = some f) : (Json.parse t.toList : Res (Json F64)) = .ok (.number f) := by
  unfold readNum at h
  split at h
  · rename_i he; cases h; exact he
  · cases h

/-- **C83, the exception for numbers is real.** A torn number may be read as another number. -/
theorem C83_torn_number : ∃ f f' : F64, (Json.parse "12.5".toList : Res (Json F64)) = .ok (.number f) ∧ (Json.parse ("12.5".toList.take 1)) = .ok (.number f') ∧ f ≠ f' := by
  have h1 : (readNum "12.5").isSome = true := by decide +kernel
  have h2 : (readNum "1").isSome = true := by decide +kernel
  obtain ⟨f, hf⟩ := Option.isSome_iff_exists.1 h1
  obtain ⟨f', hf'⟩ := Option.isSome_iff_exists.1 h2
  refine ⟨f, f', readNum_some hf, ?_, ?_⟩
  · rw [show "12.5".toList.take 1 = "1".toList by decide]
    exact readNum_some hf'
  · rintro rfl
    have : readNum "12.5" ≠ readNum "1" := by decide +kernel
    exact this (hf.trans hf'.symm)

end RJ
