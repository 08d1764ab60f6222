import Verif.Props.Print
import Verif.Proof.StrFuel
/-
  C05, C06, C07, C10, C11, C12, C13, C14: the parser.
-/
set_option linter.unusedSectionVars false
namespace RJ
open Spec
variable {F : Type} [FloatOps F]

/-! ### C13 termination -/

/-- **C13.** `_parse` terminates: a call with a text `t` never needs a recursion deeper than the length of `t`, whatever
(`d`) a call that would go deeper is assumed to return. -/
theorem C13_parse_terminates (d : Res (Json F)) (n : Nat) (t : Str) (h : t.length < n) :
    parseFuel d n t = (parseRaw t : Res (Json F)) := parseFuel_eq d n t h

/-- **C13.** The recursive calls of `_parse` only ever concern strictly shorter texts. -/
theorem C13_recursion_on_shorter_texts (f g : Str → Res (Json F)) (t : Str)
    (h : ∀ s, s.length < t.length → f s = g s) : parseBody f t = parseBody g t := parseBody_congr f g t h

/-- **C13.** `_parse` satisfies the recursive equation of the code. -/
theorem C13_recursive_equation (t : Str) : (parseRaw t : Res (Json F)) = parseBody parseRaw t := parseRaw_eq t

/-- **C13.** The string loop ends after at most as many rounds as the text has characters. -/
theorem C13_string_loop_terminates (n : Nat) (t acc : Str) (h : t.length < n) :
    strLoop n t acc = strLoop (t.length + 1) t acc := strLoop_fuel _ _ _ _ h (Nat.lt_succ_self _)

/-! ### C10 surrounding whitespace -/

/-- **C10.** Whitespace around a text - valid or not - does not change the result, value or error. -/
theorem C10_surrounding_whitespace (pre t post : Str) (h1 : WsStr pre) (h2 : WsStr post) :
    (Json.parse (pre ++ t ++ post) : Res (Json F)) = Json.parse t := by
  rw [Json.parse, Json.parse, trimWs_around pre t post h1 h2]

example (t : Str) : (Json.parse ("\n\t ".toList ++ t ++ " \r\n".toList) : Res (Json F)) = Json.parse t :=
  C10_surrounding_whitespace _ _ _ (by intro c hc; simp at hc; rcases hc with rfl | rfl | rfl <;> simp [IsWs])
    (by intro c hc; simp at hc; rcases hc with rfl | rfl | rfl <;> simp [IsWs])

/-! ### C11 null, true, false -/

theorem parse_around (pre t post : Str) (h1 : WsStr pre) (h2 : WsStr post) :
    (Json.parse (pre ++ t ++ post) : Res (Json F)) = parseRaw (trimWs t) := by
  rw [Json.parse, trimWs_around pre t post h1 h2]

theorem parse_literal (t lit : Str) (r : Json F) (hl : trimWs lit = lit) (hr : parseRaw lit = .ok r)
    (hc : ∀ s, (parseRaw s : Res (Json F)) = .ok r → s = lit) :
    Json.parse t = .ok r ↔ ∃ pre post, WsStr pre ∧ WsStr post ∧ t = pre ++ lit ++ post := by
  constructor
  · intro h
    rw [Json.parse] at h
    obtain ⟨a, b, ha, hb, e⟩ := trimWs_split t
    rw [hc _ h] at e
    exact ⟨a, b, ha, hb, e⟩
  · rintro ⟨a, b, ha, hb, rfl⟩
    rw [parse_around _ _ _ ha hb, hl, hr]

/-- **C11.** `parse` returns `Null` exactly for `null` surrounded by whitespace. -/
theorem C11_null (t : Str) : (Json.parse t : Res (Json F)) = .ok .null ↔
    ∃ pre post, WsStr pre ∧ WsStr post ∧ t = pre ++ "null".toList ++ post := by
  apply parse_literal t _ _ (trimWs_cst .null trivial)
  · rw [parseRaw_eq]; rfl
  · intro s h
    rcases parseRaw_cases s _ h with ⟨e, _⟩ | ⟨_, e⟩ | ⟨_, e⟩ | ⟨_, e, _⟩ | ⟨_, _, e, _⟩ | ⟨_, _, _, e, _⟩ | ⟨_, _, _, e, _⟩
    · exact e
    all_goals cases e

/-- **C11.** `parse` returns `Boolean(true)` exactly for `true` surrounded by whitespace. -/
theorem C11_true (t : Str) : (Json.parse t : Res (Json F)) = .ok (.boolean true) ↔
    ∃ pre post, WsStr pre ∧ WsStr post ∧ t = pre ++ "true".toList ++ post := by
  apply parse_literal t _ _ (trimWs_cst .true trivial)
  · rw [parseRaw_eq]; rfl
  · intro s h
    rcases parseRaw_cases s _ h with ⟨_, e⟩ | ⟨e, _⟩ | ⟨_, e⟩ | ⟨_, e, _⟩ | ⟨_, _, e, _⟩ | ⟨_, _, _, e, _⟩ | ⟨_, _, _, e, _⟩
    · cases e
    · exact e
    all_goals cases e

/-- **C11.** `parse` returns `Boolean(false)` exactly for `false` surrounded by whitespace. -/
theorem C11_false (t : Str) : (Json.parse t : Res (Json F)) = .ok (.boolean false) ↔
    ∃ pre post, WsStr pre ∧ WsStr post ∧ t = pre ++ "false".toList ++ post := by
  apply parse_literal t _ _ (trimWs_cst .false trivial)
  · rw [parseRaw_eq]; rfl
  · intro s h
    rcases parseRaw_cases s _ h with ⟨_, e⟩ | ⟨_, e⟩ | ⟨e, _⟩ | ⟨_, e, _⟩ | ⟨_, _, e, _⟩ | ⟨_, _, _, e, _⟩ | ⟨_, _, _, e, _⟩
    · cases e
    · cases e
    · exact e
    all_goals cases e

/-! ### C06 strings -/

theorem parse_quote (u : Str) : (parseRaw ('"' :: u) : Res (Json F)) = parseString ('"' :: u) := by
  rw [parseRaw_eq, parseBody]
  simp only [List.head?_cons, Char.reduceEq, if_false, or_self]
  rw [if_neg (by decide), if_pos trivial]

theorem trimWs_quote (u : Str) : ∃ v, trimWs ('"' :: u) = '"' :: v := by
  have h : ¬ isWs '"' = true := by decide
  unfold trimWs
  rw [List.dropWhile_cons_of_neg h, List.reverse_cons]
  generalize u.reverse = r
  induction r with
  | nil => exact ⟨[], by decide⟩
  | cons c r ih =>
    by_cases hc : isWs c = true
    · rw [List.cons_append, List.dropWhile_cons_of_pos hc]; exact ih
    · rw [List.cons_append, List.dropWhile_cons_of_neg hc]
      exact ⟨r.reverse ++ [c], by simp⟩

/-- **C06.** `parse` returns the string `s` exactly for the RFC 8259 string literals (with every surrogate escape paired)
which denote `s`, surrounded by whitespace. -/
theorem C06_string_iff (t s : Str) : (Json.parse t : Res (Json F)) = .ok (.string s) ↔
    ∃ pre items post, WsStr pre ∧ WsStr post ∧ t = pre ++ strText items ++ post ∧ strVal items = some s := by
  constructor
  · intro h
    rw [Json.parse] at h
    rcases parseRaw_cases _ _ h with ⟨_, e⟩ | ⟨_, e⟩ | ⟨_, e⟩ | ⟨_, e, _⟩ | ⟨s', u, e, hu, hs⟩ | ⟨_, _, _, e, _⟩ | ⟨_, _, _, e, _⟩
    all_goals cases e
    rw [hu] at hs
    obtain ⟨items, ws, h1, h2, h3⟩ := (parseStringRaw_iff u s).mp hs
    obtain ⟨a, b, ha, hb, e⟩ := trimWs_split t
    refine ⟨a, items, ws ++ b, ha, ?_, ?_, h3⟩
    · intro c hc
      rcases List.mem_append.mp hc with hc | hc
      · exact h2 c hc
      · exact hb c hc
    · rw [e, hu, h1]; simp
  · rintro ⟨a, items, b, ha, hb, rfl, hs⟩
    rw [parse_around _ _ _ ha hb]
    have : trimWs (strText items) = strText items := trimWs_cst (.str items) (strVal_valid hs)
    rw [this]
    have := parseRaw_str (F := F) items [] s (by intro c hc; cases hc) hs
    simpa using this

/-- **C06.** A text that starts with a quote is never anything but a string or a `ParseStringError`. -/
theorem C06_otherwise_ParseStringError (u : Str) :
    (∃ s, (Json.parse ('"' :: u) : Res (Json F)) = .ok (.string s)) ∨
    (∃ e, (Json.parse ('"' :: u) : Res (Json F)) = .error e ∧ e.kind = .ParseStringError) := by
  obtain ⟨v, hv⟩ := trimWs_quote u
  rw [Json.parse, hv, parse_quote, parseString]
  cases h : parseStringRaw ('"' :: v) with
  | ok s => exact .inl ⟨s, rfl⟩
  | error e => exact .inr ⟨e, rfl, strLoop_kind _ _ _ _ h⟩

/-- **C05** at the level of documents: every string survives printing and parsing. -/
theorem C05_string_round_trip (s : Str) : Json.parse (Json.toString (.string s : Json F)) = .ok (.string s : Json F) := by
  rw [C06_string_iff]
  refine ⟨[], escapeItems s, [], wsNil, wsNil, ?_, strVal_escape s⟩
  rw [Json.toString, escape_eq]; simp

/-! ### C07 unicode escapes -/

/-- **C07.** The bytes built for a code value are the UTF-8 encoding of that scalar value; those of a surrogate are rejected
by UTF-8 validation. -/
theorem C07_encode_utf8 (u : Nat) (h : u ≤ 0x10FFFF) :
    fromUtf8 (encodeUtf8 u) = if 0xD800 ≤ u ∧ u ≤ 0xDFFF then none else some [Char.ofNat u] := fromUtf8_encodeUtf8 u h

/-- **C07.** `\uXXXX` of a scalar value produces that character. -/
theorem C07_unit (a b c d : Char) (u : Nat) (rest : Str) (h : unitVal a b c d = some u) (hs : ¬ (0xD800 ≤ u ∧ u ≤ 0xDFFF)) :
    unicodeEscape (a :: b :: c :: d :: rest) = .ok ([Char.ofNat u], rest) := unicodeEscape_single rest h hs

/-- **C07.** A high and a low surrogate escape combine to the code point RFC 8259 prescribes. -/
theorem C07_pair (a b c d a' b' c' d' : Char) (u l : Nat) (rest : Str) (h : unitVal a b c d = some u)
    (h' : unitVal a' b' c' d' = some l) (hu : 0xD800 ≤ u ∧ u ≤ 0xDBFF) (hl : 0xDC00 ≤ l ∧ l ≤ 0xDFFF) :
    unicodeEscape (a :: b :: c :: d :: '\\' :: 'u' :: a' :: b' :: c' :: d' :: rest) =
      .ok ([Char.ofNat (0x10000 + (u - 0xD800) * 0x400 + (l - 0xDC00))], rest) := unicodeEscape_pair rest h h' hu hl

/-- **C07.** These are the only escapes that succeed. -/
theorem C07_only (s t rest : Str) (h : unicodeEscape s = .ok (t, rest)) :
    (∃ a b c d u, s = a :: b :: c :: d :: rest ∧ unitVal a b c d = some u ∧
      ¬ (0xD800 ≤ u ∧ u ≤ 0xDFFF) ∧ t = [Char.ofNat u]) ∨
    (∃ a b c d u a' b' c' d' l, s = a :: b :: c :: d :: '\\' :: 'u' :: a' :: b' :: c' :: d' :: rest ∧
      unitVal a b c d = some u ∧ unitVal a' b' c' d' = some l ∧
      (0xD800 ≤ u ∧ u ≤ 0xDBFF) ∧ (0xDC00 ≤ l ∧ l ≤ 0xDFFF) ∧
      t = [Char.ofNat (0x10000 + (u - 0xD800) * 0x400 + (l - 0xDC00))]) := unicodeEscape_inv h

/-! ### C14 -/

theorem mapInsert_keys {β : Type} (k : Str) (v : β) (m : List (Str × β)) :
    (mapInsert k v m).map (·.1) = if k ∈ m.map (·.1) then m.map (·.1) else m.map (·.1) ++ [k] := by
  induction m with
  | nil => simp [mapInsert]
  | cons e t ih =>
    obtain ⟨k', v'⟩ := e
    rw [mapInsert]
    by_cases h : k' = k
    · subst h; simp
    · rw [if_neg h]
      simp only [List.map_cons, ih, List.mem_cons]
      have : ¬ k = k' := fun e => h e.symm
      simp only [this, false_or]
      split <;> simp

theorem mapInsert_nodup {β : Type} (k : Str) (v : β) (m : List (Str × β)) (h : (m.map (·.1)).Nodup) :
    ((mapInsert k v m).map (·.1)).Nodup := by
  rw [mapInsert_keys]
  split
  · exact h
  · rename_i hk
    rw [List.nodup_append]
    refine ⟨h, by simp, ?_⟩
    intro a ha b hb
    rw [List.mem_singleton] at hb
    rintro rfl
    exact hk (hb ▸ ha)

theorem mapInsert_mem {β : Type} {k : Str} {v : β} {m : List (Str × β)} {e : Str × β} (h : e ∈ mapInsert k v m) :
    e = (k, v) ∨ e ∈ m := by
  induction m with
  | nil => left; simpa [mapInsert] using h
  | cons x t ih =>
    obtain ⟨k', v'⟩ := x
    rw [mapInsert] at h
    split at h
    · rename_i hk
      rcases List.mem_cons.mp h with h | h
      · subst hk; exact .inl h
      · exact .inr (List.mem_cons_of_mem _ h)
    · rcases List.mem_cons.mp h with h | h
      · exact .inr (h ▸ List.mem_cons_self)
      · rcases ih h with h | h
        · exact .inl h
        · exact .inr (List.mem_cons_of_mem _ h)

/-- Keys stay distinct and parts stay good under `object_insert`. -/
theorem objectInsert_inv (P : Json F → Prop) (k : Str) (v : Json F) (m : Obj F) (hv : P v)
    (h : (m.map (·.1)).Nodup ∧ ∀ k v l, (k, (v, l)) ∈ m → P v ∧ ∀ x ∈ l, P x) :
    ((objectInsert k v m).map (·.1)).Nodup ∧ ∀ k' v' l, (k', (v', l)) ∈ objectInsert k v m → P v' ∧ ∀ x ∈ l, P x := by
  unfold objectInsert
  cases hg : mapGet k m with
  | none =>
    refine ⟨mapInsert_nodup _ _ _ h.1, ?_⟩
    intro k' v' l hm
    rcases mapInsert_mem hm with e | hm
    · cases e; exact ⟨hv, by simp⟩
    · exact h.2 _ _ _ hm
  | some p =>
    obtain ⟨old, list⟩ := p
    have ho := h.2 _ _ _ (mapGet_mem hg)
    refine ⟨mapInsert_nodup _ _ _ h.1, ?_⟩
    intro k' v' l hm
    rcases mapInsert_mem hm with e | hm
    · cases e
      refine ⟨hv, ?_⟩
      intro x hx
      rcases List.mem_cons.mp hx with rfl | hx
      · exact ho.1
      · exact ho.2 x hx
    · exact h.2 _ _ _ hm

/-- **C14.** Every value `parse` returns contains only finite numbers, and at most one entry per key, at every depth. -/
theorem C14_parse_well_formed (t : Str) (j : Json F) (h : Json.parse t = .ok j) :
    AllNum (fun f => FloatOps.isFinite f = true) j ∧ WF j := by
  refine parseRaw_closed (fun j => AllNum (fun f => FloatOps.isFinite f = true) j ∧ WF j)
    (fun m => (m.map (·.1)).Nodup ∧ ∀ k v l, (k, (v, l)) ∈ m →
      (AllNum (fun f => FloatOps.isFinite f = true) v ∧ WF v) ∧
      ∀ x ∈ l, AllNum (fun f => FloatOps.isFinite f = true) x ∧ WF x)
    ⟨trivial, trivial⟩ (fun _ => ⟨trivial, trivial⟩) (fun f hf => ⟨hf, trivial⟩) (fun _ => ⟨trivial, trivial⟩)
    ?_ ?_ ?_ ?_ _ ?_ _ _ j h
  · intro l hl
    exact ⟨(AllNumList_iff _ l).mpr (fun x hx => (hl x hx).1), (WFList_iff l).mpr (fun x hx => (hl x hx).2)⟩
  · intro m hm
    refine ⟨(AllNumMap_iff _ m).mpr ?_, hm.1, (WFMap_iff m).mpr ?_⟩
    · intro k v l hk
      exact ⟨(hm.2 k v l hk).1.1, fun x hx => ((hm.2 k v l hk).2 x hx).1⟩
    · intro k v l hk
      exact ⟨(hm.2 k v l hk).1.2, fun x hx => ((hm.2 k v l hk).2 x hx).2⟩
  · exact ⟨by simp, by intro k v l h; cases h⟩
  · intro k v m hv hm
    exact objectInsert_inv (fun x => AllNum (fun f => FloatOps.isFinite f = true) x ∧ WF x) k v m hv hm
  · intro r hr; cases hr

variable [LawfulFloat F]

/-! ### C12 numbers -/

/-- **C12.** `parse` returns the number `f` exactly for the literals of the JSON number grammar (superfluous leading zeros
tolerated, see `NumLit.Accepted`) that the standard conversion maps to the finite value `f`, surrounded by whitespace. -/
theorem C12_number_iff (t : Str) (f : F) : (Json.parse t : Res (Json F)) = .ok (.number f) ↔
    ∃ pre n post, WsStr pre ∧ WsStr post ∧ t = pre ++ n.text ++ post ∧ n.Accepted ∧ NumLit.value n = some f := by
  constructor
  · intro h
    rw [Json.parse] at h
    rcases parseRaw_cases _ _ h with ⟨_, e⟩ | ⟨_, e⟩ | ⟨_, e⟩ | ⟨f', e, hn, hfin, hc⟩ | ⟨_, _, e, _⟩ | ⟨_, _, _, e, _⟩ | ⟨_, _, _, e, _⟩
    all_goals cases e
    unfold parseNumber at hn
    by_cases hv : validNumber (trimWs t) = true
    · rw [if_pos hv] at hn
      cases hp : (FloatOps.parse (trimWs t) : Option F) with
      | none => rw [hp] at hn; cases hn
      | some g =>
        have hr : RustFloat (trimWs t) := (LawfulFloat.parse_isSome (F := F) _).mp (by rw [hp]; rfl)
        obtain ⟨n, hacc, htx⟩ := (accepted_iff _ hc).mp ⟨hv, hr⟩
        obtain ⟨a, b, ha, hb, e⟩ := trimWs_split t
        have hg : g = f := by
          rw [hp] at hn
          simp only at hn
          split at hn
          · cases hn; rfl
          · cases hn
        subst hg
        refine ⟨a, n, b, ha, hb, by rw [← htx]; exact e, hacc, ?_⟩
        rw [NumLit.value, ← htx, hp]
        simp [hfin]
    · rw [if_neg hv] at hn; cases hn
  · rintro ⟨a, n, b, ha, hb, rfl, hacc, hval⟩
    rw [parse_around _ _ _ ha hb]
    obtain ⟨c, s, h1, hc⟩ := accepted_head hacc
    have hw : ∀ c ∈ n.text, ¬ IsWs c := by
      intro c hc
      rw [← isWs_iff, (numChar_inert (accepted_chars hacc c hc)).2.2.2.2.2.2.2.2]; simp
    have hne : n.text ≠ [] := by rw [h1]; simp
    have : trimWs n.text = n.text := by
      have e := (List.dropLast_concat_getLast hne).symm
      rw [h1]
      exact trimWs_self c s (hw c (by rw [h1]; simp)) n.text.dropLast (n.text.getLast hne) (hw _ (List.getLast_mem hne))
        (by rw [← h1]; exact e)
    rw [this, parseRaw_num n hacc, hval]

/-- **C12.** Every RFC 8259 number literal with a finite value is accepted with that value. -/
theorem C12_rfc_numbers (n : NumLit) (f : F) (h : n.Valid) (hv : NumLit.value n = some f) :
    Json.parse n.text = .ok (.number f : Json F) :=
  (C12_number_iff n.text f).mpr ⟨[], n, [], wsNil, wsNil, by simp, NumLit.Loose.accepted h.1, hv⟩

/-- **C12.** A text starting with a minus or a digit parses to a number or is a `ParseNumberError`. -/
theorem C12_otherwise_ParseNumberError (c : Char) (u : Str) (hc : c = '-' ∨ IsDigit c) :
    (∃ f, (Json.parse (c :: u) : Res (Json F)) = .ok (.number f)) ∨
    (∃ e, (Json.parse (c :: u) : Res (Json F)) = .error e ∧ e.kind = .ParseNumberError) := by
  have hcw : ¬ isWs c = true := by
    intro h
    have := numChar_inert (c := c) (by unfold NumChar; rcases hc with h | h <;> simp [h])
    rw [this.2.2.2.2.2.2.2.2] at h; cases h
  have : ∃ v, trimWs (c :: u) = c :: v := by
    unfold trimWs
    rw [List.dropWhile_cons_of_neg hcw, List.reverse_cons]
    generalize u.reverse = r
    induction r with
    | nil => exact ⟨[], by simp [List.dropWhile_cons_of_neg hcw]⟩
    | cons d r ih =>
      by_cases hd : isWs d = true
      · rw [List.cons_append, List.dropWhile_cons_of_pos hd]; exact ih
      · rw [List.cons_append, List.dropWhile_cons_of_neg hd]
        exact ⟨r.reverse ++ [d], by simp⟩
  obtain ⟨v, hv⟩ := this
  rw [Json.parse, hv, num_head_dispatch hc, parseNumber]
  split
  · split
    · split
      · exact .inl ⟨_, rfl⟩
      · exact .inr ⟨_, rfl, rfl⟩
    · exact .inr ⟨_, rfl, rfl⟩
  · exact .inr ⟨_, rfl, rfl⟩

end RJ
