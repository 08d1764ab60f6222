import Verif.Proof.Refuse
import Verif.Props.Accept
/-
  C66: the error of every refused text.
-/
set_option linter.unusedSectionVars false
namespace RJ
open Spec
variable {F : Type} [FloatOps F]

/-! ### From the specification to the code -/

theorem reads_string [LawfulFloat F] {t s : Str} (h : Reads t (.str s : Val F)) : (parseRaw t : Res (Json F)) = .ok (.string s) := by
  obtain ⟨j, h1, h2⟩ := accepts_raw h
  cases j <;> simp only [absJ, reduceCtorEq] at h2
  cases h2
  exact h1

theorem parseRaw_number {c : Char} (r : Str) (hc : c = '-' ∨ IsDigit c) : (parseRaw (c :: r) : Res (Json F)) = parseNumber (c :: r) := by
  rw [parseRaw_eq, parseBody]
  simp only [List.head?_cons]
  have h1 : c ≠ 'n' ∧ c ≠ 't' ∧ c ≠ 'f' := by
    rcases hc with rfl | hc
    · decide
    · refine ⟨?_, ?_, ?_⟩ <;> (rintro rfl; simp [IsDigit] at hc)
  rw [if_neg h1.1, if_neg (by simp [h1.2]), if_pos (hc.imp id (isDigit_iff c).2)]

theorem parseRaw_quote (r : Str) : (parseRaw ('"' :: r) : Res (Json F)) = parseString ('"' :: r) := by
  rw [parseRaw_eq, parseBody]
  simp only [List.head?_cons, Char.reduceEq, if_false, or_self, if_true]
  rw [if_neg (by decide)]

theorem not_canStart_err {c : Char} (h : ¬ CanStart c) (q : Str) : (parseRaw (c :: q) : Res (Json F)) = .error ⟨.InvalidJson, "invalid json.".toList⟩ := by
  rw [parseRaw_eq, parseBody]
  simp only [List.head?_cons]
  unfold CanStart at h
  simp only [not_or] at h
  obtain ⟨h1, h2, h3, h4, h5, h6, h7, h8⟩ := h
  rw [if_neg h1, if_neg (by simp [h2, h3]), if_neg (by rintro (e | e); exact h4 e; exact h5 ((isDigit_iff c).1 e)), if_neg h6, if_neg h7, if_neg h8]
  rfl

theorem fails_raw [LawfulFloat F] {t : Str} {k : ErrorKind} {m : Str} (h : Fails F t k m) : (parseRaw t : Res (Json F)) = .error ⟨k, m⟩ := by
  refine Fails.rec (F := F) (motive_1 := fun t k m _ => (parseRaw t : Res (Json F)) = .error ⟨k, m⟩)
    (motive_2 := fun t k m _ => FailElemsR (parseRaw : Str → Res (Json F)) t ⟨k, m⟩)
    (motive_3 := fun t k m _ => FailMembersR (parseRaw : Str → Res (Json F)) t ⟨k, m⟩)
    ?_ ?_ ?_ ?_ ?_ ?_ ?_ ?_ ?_ ?_ ?_ ?_ ?_ ?_ ?_ ?_ ?_ ?_ ?_ ?_ ?_ ?_ ?_ ?_ ?_ ?_ ?_ ?_ h
  · rw [parseRaw_eq]; rfl
  · intro c r hc; exact not_canStart_err hc r
  · intro r hr
    rw [parseRaw_eq]
    show parseNull _ = _
    rw [parseNull, if_neg hr]; rfl
  · intro r hr
    rw [parseRaw_eq]
    show parseBoolean _ = _
    rw [parseBoolean, if_neg hr, if_neg (by intro e; cases e)]; rfl
  · intro r hr
    rw [parseRaw_eq]
    have : parseBody parseRaw ('f' :: r) = (parseBoolean ('f' :: r) : Res (Json F)) := rfl
    rw [this, parseBoolean, if_neg (by intro e; cases e), if_neg hr]; rfl
  · intro c r hc hn
    rw [parseRaw_number r hc, parseNumber, if_neg (fun e => hn ((validNumber_iff _).1 e))]; rfl
  · intro c r hc hn h
    have hv := (validNumber_iff _).2 hn
    rw [parseRaw_number r hc, parseNumber, if_pos hv]
    cases hp : (FloatOps.parse (c :: r) : Option F) with
    | none => rfl
    | some f =>
      exact absurd ((accepted_iff _ ⟨c, r, rfl, hc⟩).1 ⟨hv, (LawfulFloat.parse_isSome (F := F) _).1 (by rw [hp]; rfl)⟩) h
  · intro n hn hf
    rw [parseRaw_num n hn, hf]; rfl
  · intro items s r m hs hr
    rw [parseRaw_quote, parseString, (parseStringRaw_err _ _).2 ⟨items, s, r, m, rfl, hs, hr, rfl⟩]
  · intro r k m hr _ h
    rw [parseRaw_arr]
    unfold parseArray
    simp only [List.drop_succ_cons, List.drop_zero]
    rw [if_neg (head_ne_of hr), arr_err_complete _ h]
  · intro r k m hr _ h
    rw [parseRaw_obj]
    unfold parseObject
    simp only [List.drop_succ_cons, List.drop_zero]
    rw [if_neg (head_ne_of hr), obj_err_complete _ h]
  · intro gs hs; exact .unclosed gs hs
  · intro gs hs; exact .hanging gs hs
  · intro gs r hs he; exact .empty gs r hs he
  · intro gs r hs he; exact .comma gs r hs he
  · intro gs e k m hs he _ h; exact .elem gs e _ hs he h
  · intro gs v w c r hs hv hw hc
    obtain ⟨j, hj, _⟩ := accepts_raw hv
    exact .trail gs j w c r hs hj hw hc
  · intro gs v r k m hs hv he _ h
    obtain ⟨j, hj, _⟩ := accepts_raw hv
    exact .next gs j r _ hs hj he h
  · intro kg hk; exact .noColon kg hk
  · intro kg hk; exact .hangingKey kg hk
  · intro kg vg hk hs; exact .unclosed kg vg hk hs
  · intro kg vg hk hs; exact .hanging kg vg hk hs
  · intro kg vg r hk hs he; exact .empty kg vg r hk hs he
  · intro kg vg r hk hs hke hve; exact .comma kg vg r hk hs hke hve
  · intro kg vg e hk hs he h
    refine .key kg vg e hk hs he ?_
    intro s hs
    exact h ⟨s, raw_accepts _ _ _ (Nat.le_refl _) hs⟩
  · intro kg vg s e k m hk hs he hkv _ h; exact .value kg vg s e _ hk hs he (reads_string hkv) h
  · intro kg vg s v w c r hk hs hkv hv hw hc
    obtain ⟨j, hj, _⟩ := accepts_raw hv
    exact .trail kg vg s j w c r hk hs (reads_string hkv) hj hw hc
  · intro kg vg s v r k m hk hs hkv hv he _ h
    obtain ⟨j, hj, _⟩ := accepts_raw hv
    exact .next kg vg s j r _ hk hs (reads_string hkv) hj he h

/-! ### From the code to the specification -/

theorem elems_fails [LawfulFloat F] {n : Nat} (ih : ∀ (s : Str) (e : Error), s.length ≤ n → (parseRaw s : Res (Json F)) = .error e → Fails F s e.kind e.msg)
    {t : Str} {e : Error} (h : FailElemsR (parseRaw : Str → Res (Json F)) t e) (hn : t.length ≤ n) : FailsElems F t e.kind e.msg := by
  induction h with
  | unclosed gs hs => exact .unclosed gs hs
  | hanging gs hs => exact .hanging gs hs
  | empty gs r hs he => exact .empty gs r hs he
  | comma gs r hs he => exact .comma gs r hs he
  | elem gs t e hs he h =>
    simp only [List.length_append] at hn
    have := glyphs_squeeze_le IsWs gs
    exact .elem gs t _ _ hs he (ih _ _ (by omega) h)
  | trail gs v w c r hs hv hw hc => exact .trail gs _ w c r hs (raw_accepts _ _ _ (Nat.le_refl _) hv) hw hc
  | next gs v r e hs hv he h iht =>
    simp only [List.length_append, List.length_cons] at hn
    exact .next gs _ r _ _ hs (raw_accepts _ _ _ (Nat.le_refl _) hv) he (iht (by omega))

theorem members_fails [LawfulFloat F] {n : Nat} (ih : ∀ (s : Str) (e : Error), s.length ≤ n → (parseRaw s : Res (Json F)) = .error e → Fails F s e.kind e.msg)
    {t : Str} {e : Error} (h : FailMembersR (parseRaw : Str → Res (Json F)) t e) (hn : t.length ≤ n) : FailsMembers F t e.kind e.msg := by
  induction h with
  | noColon kg hk => exact .noColon kg hk
  | hangingKey kg hk => exact .hangingKey kg hk
  | unclosed kg vg hk hs => exact .unclosed kg vg hk hs
  | hanging kg vg hk hs => exact .hanging kg vg hk hs
  | empty kg vg r hk hs he => exact .empty kg vg r hk hs he
  | comma kg vg r hk hs h1 h2 => exact .comma kg vg r hk hs h1 h2
  | key kg vg t hk hs he h =>
    refine .key kg vg t hk hs he ?_
    rintro ⟨s, hs⟩
    exact h s (reads_string hs)
  | value kg vg s t e hk hs he hkv h =>
    simp only [List.length_append, List.length_cons] at hn
    have := glyphs_squeeze_le ValueDrop vg
    exact .value kg vg s t _ _ hk hs he (raw_accepts _ _ _ (Nat.le_refl _) hkv) (ih _ _ (by omega) h)
  | trail kg vg s v w c r hk hs hkv hv hw hc =>
    exact .trail kg vg s _ w c r hk hs (raw_accepts _ _ _ (Nat.le_refl _) hkv) (raw_accepts _ _ _ (Nat.le_refl _) hv) hw hc
  | next kg vg s v r e hk hs hkv hv he h iht =>
    simp only [List.length_append, List.length_cons] at hn
    exact .next kg vg s _ r _ _ hk hs (raw_accepts _ _ _ (Nat.le_refl _) hkv) (raw_accepts _ _ _ (Nat.le_refl _) hv) he (iht (by omega))

theorem number_fails [LawfulFloat F] {c : Char} {r : Str} (hc : c = '-' ∨ IsDigit c) {e : Error} (h : (parseNumber (c :: r) : Res (Json F)) = .error e) :
    Fails F (c :: r) e.kind e.msg := by
  unfold parseNumber at h
  by_cases hv : validNumber (c :: r) = true
  · rw [if_pos hv] at h
    have hn := (validNumber_iff _).1 hv
    have hacc := accepted_iff (c :: r) ⟨c, r, rfl, hc⟩
    have hsome := LawfulFloat.parse_isSome (F := F) (c :: r)
    cases hp : (FloatOps.parse (c :: r) : Option F) with
    | none =>
      rw [hp] at h
      cases h
      refine .notNumber c r hc hn ?_
      intro hx
      have := hsome.2 (hacc.2 hx).2
      rw [hp] at this; cases this
    | some f =>
      obtain ⟨n, hna, hnt⟩ := hacc.1 ⟨hv, hsome.1 (by rw [hp]; rfl)⟩
      rw [hp] at h
      dsimp only at h
      by_cases hf : FloatOps.isFinite f = true
      · rw [if_pos hf] at h; cases h
      · rw [if_neg hf] at h
        cases h
        rw [hnt]
        refine .large n hna ?_
        rw [NumLit.value, ← hnt, hp]
        simp [hf]
  · rw [if_neg hv] at h
    cases h
    exact .number c r hc (fun hn => hv ((validNumber_iff _).2 hn))

theorem raw_fails [LawfulFloat F] : ∀ (n : Nat) (t : Str) (e : Error), t.length ≤ n → (parseRaw t : Res (Json F)) = .error e → Fails F t e.kind e.msg := by
  intro n
  induction n with
  | zero =>
    intro t e hn h
    rw [List.length_eq_zero_iff.1 (Nat.le_zero.1 hn), parseRaw_eq] at *
    cases h
    exact .empty
  | succ n ih =>
    intro t e hn h
    cases t with
    | nil => rw [parseRaw_eq] at h; cases h; exact .empty
    | cons c r =>
      have hr : r.length ≤ n := by simpa using hn
      by_cases hs : CanStart c
      · rcases hs with rfl | rfl | rfl | hs | hs | rfl | rfl | rfl
        · rw [parseRaw_eq] at h
          have h : parseNull ('n' :: r) = .error e := h
          rw [parseNull] at h
          split at h
          · cases h
          · rename_i hx; cases h; exact .null r hx
        · rw [parseRaw_eq] at h
          have h : parseBoolean ('t' :: r) = .error e := h
          rw [parseBoolean] at h
          split at h
          · cases h
          · rename_i hx
            split at h
            · cases h
            · cases h; exact .true r hx
        · rw [parseRaw_eq] at h
          have h : parseBoolean ('f' :: r) = .error e := h
          rw [parseBoolean] at h
          split at h
          · cases h
          · split at h
            · cases h
            · rename_i hx; cases h; exact .false r hx
        · rw [parseRaw_number r (.inl hs)] at h; exact number_fails (.inl hs) h
        · rw [parseRaw_number r (.inr hs)] at h; exact number_fails (.inr hs) h
        · rw [parseRaw_quote, parseString] at h
          cases hp : parseStringRaw ('"' :: r) with
          | ok s => rw [hp] at h; cases h
          | error e' =>
            rw [hp] at h
            cases h
            obtain ⟨items, s, r', m, rfl, h1, h2, rfl⟩ := (parseStringRaw_err _ _).1 hp
            exact .str items s r' m h1 h2
        · rw [parseRaw_arr] at h
          unfold parseArray at h
          simp only [List.drop_succ_cons, List.drop_zero] at h
          by_cases hh : r.head? = some ']'
          · rw [if_pos hh] at h; cases h
          · rw [if_neg hh] at h
            refine .arr r _ _ (of_head_ne hh) (elems_fails ih ?_ hr)
            exact arr_err_sound parseRaw e r.length r [] [] (Nat.le_refl _) (NoStop.nil _) h
        · rw [parseRaw_obj] at h
          unfold parseObject at h
          simp only [List.drop_succ_cons, List.drop_zero] at h
          by_cases hh : r.head? = some '}'
          · rw [if_pos hh] at h; cases h
          · rw [if_neg hh] at h
            refine .obj r _ _ (of_head_ne hh) (members_fails ih ?_ hr)
            exact obj_err_key parseRaw e r.length r [] [] (Nat.le_refl _) (NoStop.nil _) h
      · rw [not_canStart_err hs] at h
        cases h
        exact .start c r hs

/-! ### Trimming -/

theorem dropWhile_ws_head {s : Str} {c : Char} {r : Str} (h : s.dropWhile isWs = c :: r) : ¬ IsWs c := by
  induction s with
  | nil => cases h
  | cons d s ih =>
    rw [List.dropWhile_cons] at h
    by_cases hd : isWs d = true
    · rw [if_pos hd] at h; exact ih h
    · rw [if_neg hd] at h
      cases h
      exact fun hc => hd ((isWs_iff _).2 hc)

theorem trimWs_trimmed (t : Str) : Trimmed (trimWs t) := by
  refine ⟨?_, ?_⟩
  · intro c r h
    obtain ⟨b, hb, h2⟩ := dropWhile_split (t.dropWhile isWs).reverse
    have e : t.dropWhile isWs = trimWs t ++ b.reverse := by
      have := congrArg List.reverse h2
      rw [List.reverse_reverse, List.reverse_append] at this
      exact this
    rw [h, List.cons_append] at e
    exact dropWhile_ws_head e
  · intro r c h
    unfold trimWs at h
    have := congrArg List.reverse h
    rw [List.reverse_reverse, List.reverse_append] at this
    exact dropWhile_ws_head this

theorem trimWs_of_trimmed {t : Str} (h : Trimmed t) : trimWs t = t := by
  cases t with
  | nil => rfl
  | cons c r =>
    have hne : c :: r ≠ [] := by simp
    exact trimWs_self c r (h.1 c r rfl) _ _ (h.2 _ _ (List.dropLast_concat_getLast hne).symm) (List.dropLast_concat_getLast hne).symm

/-! ### The theorems -/

/-- **C66.** Whatever the text: `parse` returns the error `e` exactly when the text, freed from the whitespace around it, is refused with the kind and the message
of `e`. -/
theorem C66_exact_errors [LawfulFloat F] (t : Str) (e : Error) :
    (Json.parse t : Res (Json F)) = .error e ↔
      ∃ pre s post, WsStr pre ∧ WsStr post ∧ t = pre ++ s ++ post ∧ Trimmed s ∧ Fails F s e.kind e.msg := by
  constructor
  · intro h
    obtain ⟨a, b, ha, hb, ht⟩ := trimWs_split t
    exact ⟨a, trimWs t, b, ha, hb, ht, trimWs_trimmed t, raw_fails _ _ _ (Nat.le_refl _) h⟩
  · rintro ⟨a, s, b, ha, hb, rfl, hs, h⟩
    rw [parse_around _ _ _ ha hb, trimWs_of_trimmed hs, fails_raw h]

/-- **C66.** Every text is either accepted or refused, never both, and the error is unique. -/
theorem C66_one_outcome [LawfulFloat F] (s : Str) :
    ((∃ v : Val F, Reads s v) ∧ ¬ ∃ k m, Fails F s k m) ∨ ((¬ ∃ v : Val F, Reads s v) ∧ ∃ k m, Fails F s k m ∧ ∀ k' m', Fails F s k' m' → k' = k ∧ m' = m) := by
  cases h : (parseRaw s : Res (Json F)) with
  | ok j =>
    refine .inl ⟨⟨_, raw_accepts _ _ _ (Nat.le_refl _) h⟩, ?_⟩
    rintro ⟨k, m, hf⟩
    rw [fails_raw hf] at h; cases h
  | error e =>
    refine .inr ⟨?_, e.kind, e.msg, raw_fails _ _ _ (Nat.le_refl _) h, ?_⟩
    · rintro ⟨v, hv⟩
      obtain ⟨j, hj, _⟩ := accepts_raw hv
      rw [h] at hj; cases hj
    · intro k' m' h'
      rw [fails_raw h'] at h
      cases h
      exact ⟨rfl, rfl⟩

/-! ### Witnesses -/

theorem trimmed_of {s : Str} {c d : Char} (h1 : s.head? = some c) (h2 : s.getLast? = some d) (hc : ¬ IsWs c) (hd : ¬ IsWs d) : Trimmed s := by
  refine ⟨?_, ?_⟩
  · rintro x r rfl
    simp only [List.head?_cons, Option.some.injEq] at h1
    exact h1 ▸ hc
  · rintro r x rfl
    simp only [List.getLast?_append, List.getLast?_singleton, Option.some_or, Option.some.injEq] at h2
    exact h2 ▸ hd

theorem refused [LawfulFloat F] {s : Str} {k : ErrorKind} {m : Str} {c d : Char} (h1 : s.head? = some c) (h2 : s.getLast? = some d) (hc : ¬ IsWs c) (hd : ¬ IsWs d)
    (h : Fails F s k m) : (Json.parse s : Res (Json F)) = .error ⟨k, m⟩ :=
  (C66_exact_errors s ⟨k, m⟩).2 ⟨[], s, [], wsNil, wsNil, by simp, trimmed_of h1 h2 hc hd, h⟩

/-- A comma before the closing bracket: `[null ,]`. -/
theorem C66_witness [LawfulFloat F] : (Json.parse "[null ,]".toList : Res (Json F)) = .error ⟨.ParseArrayError, "invalid trailing comma.".toList⟩ :=
  refused (c := '[') (d := ']') rfl rfl (by decide) (by decide) (.arr "null ,]".toList _ _ (of_head_ne (by decide +kernel)) (.comma (chars "null ") [] (elemSeg (by decide +kernel)) (by decide +kernel)))

/-- An error deep inside comes out unchanged: `{"a":[nul]}`. -/
example [LawfulFloat F] : (Json.parse "{\"a\":[nul]}".toList : Res (Json F)) = .error ⟨.ParseNullError, "error parsing null value.".toList⟩ := by
  refine refused (c := '{') (d := '}') rfl rfl (by decide) (by decide) (.obj "\"a\":[nul]}".toList _ _ (of_head_ne (by decide +kernel)) (.value (chars "\"a\"") (chars "[nul]") "a".toList "}".toList _ _
    (keySeg (by decide +kernel)) (valueSeg (by decide +kernel)) (.close []) ?_ ?_))
  · exact (show squeeze IsWs (chars "\"a\"") = strText [.plain 'a'] ++ [] by decide +kernel) ▸ .str [.plain 'a'] "a".toList [] (by decide +kernel) wsNil
  · rw [show squeeze ValueDrop (chars "[nul]") = "[nul]".toList by decide +kernel]
    refine .arr "nul]".toList _ _ (of_head_ne (by decide +kernel)) (.elem (chars "nul") "]".toList _ _ (elemSeg (by decide +kernel)) (.close []) ?_)
    rw [show squeeze IsWs (chars "nul") = "nul".toList by decide +kernel]
    exact .null "ul".toList (by decide)

/-- A number for a key, and a value that is wrong as well: the key is reported, `{1:nul}`. -/
example [LawfulFloat F] : (Json.parse "{1:nul}".toList : Res (Json F)) = .error ⟨.ParseObjectError, "error parsing key string.".toList⟩ := by
  refine refused (c := '{') (d := '}') rfl rfl (by decide) (by decide) (.obj "1:nul}".toList _ _ (of_head_ne (by decide +kernel)) (.key (chars "1") (chars "nul") "}".toList
    (keySeg (by decide +kernel)) (valueSeg (by decide +kernel)) (.close []) ?_))
  rw [show squeeze IsWs (chars "1") = "1".toList by decide +kernel]
  rintro ⟨s, hs⟩
  exact not_quote_no_string (F := F) (c := '1') (by decide) [] s (reads_string hs)

/-- Half a surrogate pair: `"x\ud800\n"`. -/
example [LawfulFloat F] : (Json.parse "\"x\\ud800\\n\"".toList : Res (Json F)) = .error ⟨.ParseStringError, "missing low surrogate.".toList⟩ :=
  refused (c := '"') (d := '"') rfl rfl (by decide) (by decide) (.str [.plain 'x'] "x".toList _ _ (by decide +kernel)
    (.noLow 'd' '8' '0' '0' 0xD800 "\\n\"".toList (by decide +kernel) (by decide) (by intro r' h; cases h)))

/-- A lone minus. -/
example [LawfulFloat F] : (Json.parse "-".toList : Res (Json F)) = .error ⟨.ParseNumberError, "invalid number.".toList⟩ := by
  refine refused (c := '-') (d := '-') rfl rfl (by decide) (by decide) (.number '-' [] (.inl rfl) ?_)
  rw [← validNumber_iff]; decide

/-- An exponent without digits: `0.5e`. -/
example [LawfulFloat F] : (Json.parse "0.5e".toList : Res (Json F)) = .error ⟨.ParseNumberError, "error parsing number value.".toList⟩ := by
  refine refused (c := '0') (d := 'e') rfl rfl (by decide) (by decide) (.notNumber '0' ".5e".toList (.inr (by unfold IsDigit; decide)) ?_ ?_)
  · exact ⟨false, ['0'], ".5e".toList, rfl, .inl rfl, fun r e => by cases e; exact ⟨'5', ['e'], rfl, by unfold IsDigit; decide⟩⟩
  · rintro ⟨n, hn, e⟩
    have hlast : n.text.getLast? = some 'e' := by rw [← e]; rfl
    obtain ⟨neg, int, frac, ex⟩ := n
    obtain ⟨h1, h2, h3⟩ := hn
    have key : ∃ a d, NumLit.text ⟨neg, int, frac, ex⟩ = a ++ [d] ∧ (IsDigit d ∨ d = '.') := by
      have last : ∀ (p ds : Str), ds ≠ [] → Digits ds → ∃ a d, p ++ ds = a ++ [d] ∧ (IsDigit d ∨ d = '.') := by
        intro p ds hne hd
        exact ⟨p ++ ds.dropLast, ds.getLast hne, by rw [List.append_assoc, List.dropLast_concat_getLast], .inl (hd _ (List.getLast_mem hne))⟩
      cases ex with
      | some x =>
        obtain ⟨x, sg, ds⟩ := x
        obtain ⟨_, _, h4, h5⟩ := h3 x sg ds rfl
        obtain ⟨a, d, h6, h7⟩ := last ((if neg then ['-'] else []) ++ int ++ (match frac with | some f => '.' :: f | none => []) ++ x :: sg) ds h4 h5
        exact ⟨a, d, by rw [← h6]; cases frac <;> simp [NumLit.text], h7⟩
      | none =>
        cases frac with
        | none =>
          obtain ⟨a, d, h6, h7⟩ := last (if neg then ['-'] else []) int h1.1 h1.2
          exact ⟨a, d, by rw [← h6]; simp [NumLit.text], h7⟩
        | some f =>
          by_cases hf : f = []
          · subst hf
            exact ⟨(if neg then ['-'] else []) ++ int, '.', by simp [NumLit.text], .inr rfl⟩
          · obtain ⟨a, d, h6, h7⟩ := last ((if neg then ['-'] else []) ++ int ++ ['.']) f hf (h2 f rfl).1
            exact ⟨a, d, by rw [← h6]; simp [NumLit.text], h7⟩
    obtain ⟨a, d, h4, h5⟩ := key
    rw [h4] at hlast
    simp only [List.getLast?_append, List.getLast?_singleton, Option.some_or, Option.some.injEq] at hlast
    subst hlast
    rcases h5 with h5 | h5
    · simp [IsDigit] at h5
    · cases h5

end RJ
