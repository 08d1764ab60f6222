import Verif.Proof.RustLit
/-
  What `Lit::parse` makes of the text of a string literal.
-/
namespace RJ
open Spec

theorem trimStart_none {p s : Str} (h : ¬ p <+: s) : trimStart p s = s := by
  unfold trimStart
  cases s.length with
  | zero => rfl
  | succ n => rw [trimStartMatches, if_neg]; simpa using h

theorem trimStart_once {p t : Str} (hp : p ≠ []) (h : ¬ p <+: t) : trimStart p (p ++ t) = t := by
  unfold trimStart
  have hl : 0 < p.length := List.length_pos_iff.mpr hp
  obtain ⟨n, hn⟩ : ∃ n, (p ++ t).length = n + 1 := ⟨p.length + t.length - 1, by simp; omega⟩
  rw [hn, trimStartMatches, if_pos (by simp), List.drop_left]
  cases n with
  | zero => rfl
  | succ n => rw [trimStartMatches, if_neg]; simpa using h

theorem trimEnd_none {p s : Str} (h : ¬ p <:+ s) : trimEnd p s = s := by
  unfold trimEnd
  have := trimStart_none (p := p.reverse) (s := s.reverse) (by simpa using h)
  unfold trimStart at this
  rw [List.length_reverse] at this
  rw [this, List.reverse_reverse]

theorem trimEnd_once {p t : Str} (hp : p ≠ []) (h : ¬ p <:+ t) : trimEnd p (t ++ p) = t := by
  unfold trimEnd
  have := trimStart_once (p := p.reverse) (t := t.reverse) (by simpa using hp) (by simpa using h)
  unfold trimStart at this
  rw [List.reverse_append, show (t ++ p).length = (p.reverse ++ t.reverse).length by simp; omega, this, List.reverse_reverse]

/-- None of the byte-string prefixes matches. -/
theorem fixQuoted_head {c : Char} {s : Str} : ∀ (l : List (String × String)), (∀ p ∈ l, ∀ d, p.1.toList.head? = some d → d ≠ c) → (∀ p ∈ l, p.1.toList ≠ []) →
    fixQuoted (c :: s) l = none := by
  intro l
  induction l with
  | nil => intro _ _; rfl
  | cons x l ih =>
    intro h h0
    obtain ⟨p, q⟩ := x
    rw [fixQuoted, if_neg]
    · exact ih (fun y hy => h y (by simp [hy])) (fun y hy => h0 y (by simp [hy]))
    · have h1 := h (p, q) (by simp)
      have h2 := h0 (p, q) (by simp)
      dsimp only at h1 h2
      cases hp : p.toList with
      | nil => exact absurd hp h2
      | cons d p' =>
        rw [hp] at h1
        simp [h1 d rfl]

theorem noBytes {c : Char} {s : Str} (h : c ≠ 'b') :
    fixQuoted (c :: s) [("b'", "'"), ("b\"", "\""), ("br\"", "\""), ("br#\"", "\"#"), ("br##\"", "\"##")] = none := by
  apply fixQuoted_head
  · intro p hp d hd
    simp at hp
    rcases hp with rfl | rfl | rfl | rfl | rfl <;> simp at hd <;> subst hd <;> exact fun he => h he.symm
  · intro p hp
    simp at hp
    rcases hp with rfl | rfl | rfl | rfl | rfl <;> simp

/-! Ordinary literals. -/

/-- The text of items does not begin with a quote. -/
theorem itemsText_head {l : List RItem} (h : RItemsValid l) : ∀ c, (itemsText l).head? = some c → c ≠ '"' := by
  intro c hc
  cases l with
  | nil => simp [itemsText] at hc
  | cons i l =>
    rw [itemsText_cons] at hc
    have hv := (valid_cons h).1
    cases i with
    | plain d => simp [RItem.text] at hc; subst hc; exact hv.1
    | simple e x => simp [RItem.text] at hc; subst hc; decide
    | hex a b x => simp [RItem.text] at hc; subst hc; decide
    | uni ds x => simp [RItem.text] at hc; subst hc; decide
    | cont ws => simp [RItem.text] at hc; subst hc; decide

theorem itemsText_append (a b : List RItem) : itemsText (a ++ b) = itemsText a ++ itemsText b := by simp [itemsText]

/-- The text of an item ends in a quote only for the escaped quote. -/
theorem text_last {i : RItem} (h : i.Valid) (hne : ∀ x, i ≠ .simple '"' x) : i.text.getLast? ≠ some '"' := by
  cases i with
  | plain d => simp [RItem.text]; exact h.1
  | simple e x =>
    simp [RItem.text]
    rintro rfl
    exact hne x rfl
  | hex a b x =>
    obtain ⟨_, _, _, h2, _⟩ := h
    simp [RItem.text]
    exact (hexDigit_ne h2).2.2
  | uni ds x =>
    rw [show (RItem.uni ds x).text = ('\\' :: 'u' :: '{' :: ds) ++ ['}'] by simp [RItem.text], List.getLast?_concat]
    decide
  | cont ws =>
    have h : ∀ c ∈ ws, ContWs c := h
    intro hc
    have : '"' ∈ (RItem.cont ws).text := List.mem_of_getLast? hc
    simp [RItem.text] at this
    have := h _ this
    simp [ContWs] at this

theorem quote_prefix (s : Str) : ['"'] <+: s ↔ s.head? = some '"' := by
  cases s with
  | nil => simp
  | cons c s => simp [eq_comm]

theorem quote_suffix (s : Str) : ['"'] <:+ s ↔ s.getLast? = some '"' := by
  rw [← List.reverse_prefix, List.reverse_singleton, quote_prefix, List.head?_reverse]

/-- `Lit::parse` on an ordinary literal: the quotes are removed, and one more if the literal ends in an escaped quote. -/
theorem litOfText_cooked (l : List RItem) : litOfText (cookedText l)
    = some (.string (trimEnd ['"'] (trimStart ['"'] (cookedText l)))) := by
  unfold litOfText
  rw [show cookedText l = '"' :: (itemsText l ++ ['"']) from rfl, noBytes (by decide)]
  dsimp only
  rw [fixQuoted, if_pos]
  · rfl
  · simp only [Bool.and_eq_true]
    refine ⟨by simp, ?_⟩
    rw [List.isSuffixOf_iff_suffix]
    exact ⟨'"' :: itemsText l, rfl⟩

theorem trim_cooked {l : List RItem} (h : RItemsValid l) (hne : l ≠ []) :
    trimStart ['"'] (cookedText l) = itemsText l ++ ['"'] := by
  refine trimStart_once (p := ['"']) (t := itemsText l ++ ['"']) (by simp) ?_
  rw [quote_prefix, List.head?_append]
  intro hc
  have hp : itemsText l ≠ [] := by
    cases l with
    | nil => exact absurd rfl hne
    | cons i l => rw [itemsText_cons]; have := text_pos i; intro h; simp at h; rw [h.1] at this; simp at this
  cases ht : itemsText l with
  | nil => exact hp ht
  | cons c s => rw [ht] at hc; simp at hc; exact itemsText_head h c (by rw [ht]; rfl) hc

theorem cooked_key {l : List RItem} (h : RItemsValid l) (hq : ∀ x, l.getLast? ≠ some (.simple '"' x)) :
    trimEnd ['"'] (trimStart ['"'] (cookedText l)) = itemsText l := by
  by_cases hne : l = []
  · subst hne; decide
  rw [trim_cooked h hne]
  apply trimEnd_once (by simp)
  rw [quote_suffix]
  obtain ⟨i, hi⟩ : ∃ i, l.getLast? = some i := by
    cases hg : l.getLast? with
    | none => simp at hg; exact absurd hg hne
    | some i => exact ⟨i, rfl⟩
  have hl : l = l.dropLast ++ [i] := by
    rw [List.getLast?_eq_some_iff] at hi
    obtain ⟨ys, hi⟩ := hi; rw [hi]; simp
  have hiv : i.Valid := by
    have : ∀ (l : List RItem), RItemsValid l → ∀ i ∈ l, i.Valid := by
      intro l
      induction l with
      | nil => intro _ i hi; cases hi
      | cons j l ih =>
        intro hv i hi
        rcases List.mem_cons.mp hi with rfl | hi
        · exact (valid_cons hv).1
        · exact ih (valid_cons hv).2 i hi
    exact this l h i (List.mem_of_getLast? hi)
  rw [hl, itemsText_append]
  have hit : itemsText [i] = i.text := by simp [itemsText]
  rw [hit, List.getLast?_append]
  have := text_last hiv (fun x hx => hq x (by rw [hi, hx]))
  cases hg : i.text.getLast? with
  | none => simp at hg; have := text_pos i; rw [hg] at this; simp at this
  | some c => rw [hg] at this; simpa using this

theorem cooked_key_quote {l : List RItem} {x : Char} (h : RItemsValid (l ++ [.simple '"' x])) :
    trimEnd ['"'] (trimStart ['"'] (cookedText (l ++ [.simple '"' x]))) = itemsText l ++ ['\\'] := by
  rw [trim_cooked h (by simp), itemsText_append]
  have h1 : itemsText [RItem.simple '"' x] = ['\\', '"'] := rfl
  rw [h1]
  have : itemsText l ++ ['\\', '"'] ++ ['"'] = (itemsText l ++ ['\\']) ++ ['"', '"'] := by simp
  rw [this]
  have h2 : ∀ (s : Str), s.getLast? ≠ some '"' → trimEnd ['"'] (s ++ ['"', '"']) = s := by
    intro s hs
    unfold trimEnd
    rw [List.reverse_append]
    simp only [List.reverse_cons, List.reverse_nil, List.nil_append, List.singleton_append]
    have h3 : (s ++ ['"', '"']).length = s.length + 2 := by simp
    rw [h3, trimStartMatches, if_pos (by simp), trimStartMatches, if_pos (by simp)]
    simp only [List.length_singleton, List.cons_append, List.nil_append, List.drop_succ_cons, List.drop_zero]
    have h4 := trimStart_none (p := ['"']) (s := s.reverse) (by rw [quote_prefix, List.head?_reverse]; exact hs)
    unfold trimStart at h4
    rw [List.length_reverse] at h4
    rw [h4, List.reverse_reverse]
  exact h2 _ (by simp)

theorem valid_prefix : ∀ (l m : List RItem), RItemsValid (l ++ m) → RItemsValid l := by
  intro l
  induction l with
  | nil => intro m _; trivial
  | cons i l ih =>
    intro m h
    have h2 := ih m (valid_cons h).2
    cases i with
    | cont ws =>
      obtain ⟨a, b, _⟩ := h
      refine ⟨a, ?_, h2⟩
      intro c hc
      apply b
      show (l ++ m).head? = _
      rw [List.head?_append, hc]; rfl
    | plain d => exact ⟨(valid_cons h).1, h2⟩
    | simple d x => exact ⟨(valid_cons h).1, h2⟩
    | hex a b x => exact ⟨(valid_cons h).1, h2⟩
    | uni d x => exact ⟨(valid_cons h).1, h2⟩

theorem keys_unclosed {l : List RItem} {x : Char} (h : RItemsValid (l ++ [.simple '"' x])) :
    encodeKey (itemsText l ++ ['\\']) = none ∧ decodeKey (itemsText l ++ ['\\']) = none := by
  have e : itemsText l ++ ['\\'] ++ ['"'] = itemsText (l ++ [.simple '"' x]) := by
    rw [itemsText_append]; simp [itemsText, RItem.text]
  constructor
  · unfold encodeKey
    dsimp only
    rw [e, lexStr_unclosed _ h _ _ (by decide) (by intro c hc; simp at hc; subst hc; simp [ContWs])]
  · unfold decodeKey
    rw [e]
    have := lexStr_unclosed _ h ((itemsText l ++ ['\\']).length + 2) [] (by simp) (by simp)
    rw [List.append_nil] at this
    rw [this]

/-! Raw literals. -/

/-- Text without a backslash, a quote and a carriage return, as items. -/
def plainItems (s : Str) : List RItem := s.map .plain

theorem plainItems_valid {s : Str} (h : ∀ c ∈ s, c ≠ '"' ∧ c ≠ '\\' ∧ c ≠ '\r') : RItemsValid (plainItems s) := by
  induction s with
  | nil => trivial
  | cons c s ih => exact ⟨h c (by simp), ih (fun d hd => h d (by simp [hd]))⟩

theorem plainItems_text (s : Str) : itemsText (plainItems s) = s ∧ itemsVal (plainItems s) = s := by
  induction s with
  | nil => simp [plainItems, itemsText, itemsVal]
  | cons c s ih =>
    constructor
    · rw [show plainItems (c :: s) = .plain c :: plainItems s from rfl, itemsText_cons, ih.1]; rfl
    · rw [show plainItems (c :: s) = .plain c :: plainItems s from rfl, itemsVal_cons, ih.2]; rfl

theorem keys_plain {s : Str} (h : ∀ c ∈ s, c ≠ '"' ∧ c ≠ '\\' ∧ c ≠ '\r') : encodeKey s = some s ∧ decodeKey s = some s := by
  have h1 := encodeKey_items _ (plainItems_valid h)
  have h2 := decodeKey_items _ (plainItems_valid h)
  rw [(plainItems_text s).1, (plainItems_text s).2] at h1 h2
  exact ⟨h1, h2⟩

/-- Split a string at its first quote or backslash. -/
theorem first_special (s : Str) (hr : '\r' ∉ s) : (∀ c ∈ s, c ≠ '"' ∧ c ≠ '\\' ∧ c ≠ '\r') ∨
    ∃ p x q, s = p ++ x :: q ∧ (∀ c ∈ p, c ≠ '"' ∧ c ≠ '\\' ∧ c ≠ '\r') ∧ (x = '"' ∨ x = '\\') := by
  induction s with
  | nil => left; simp
  | cons c s ih =>
    have hc : c ≠ '\r' := by rintro rfl; exact hr (by simp)
    by_cases h : c = '"' ∨ c = '\\'
    · right; exact ⟨[], c, s, rfl, by simp, h⟩
    · rcases ih (fun h => hr (by simp [h])) with h1 | ⟨p, x, q, h1, h2, h3⟩
      · left; intro d hd
        rcases List.mem_cons.mp hd with rfl | hd
        · exact ⟨fun e => h (.inl e), fun e => h (.inr e), hc⟩
        · exact h1 d hd
      · right
        refine ⟨c :: p, x, q, by rw [h1]; rfl, ?_, h3⟩
        intro d hd
        rcases List.mem_cons.mp hd with rfl | hd
        · exact ⟨fun e => h (.inl e), fun e => h (.inr e), hc⟩
        · exact h2 d hd

theorem lexStr_toQuote (p : Str) (h : ∀ c ∈ p, c ≠ '"' ∧ c ≠ '\\' ∧ c ≠ '\r') (fuel : Nat) (rest : Str) (hf : p.length < fuel) :
    lexStr fuel (p ++ '"' :: rest) = some (p, rest) := by
  have := lexStr_items _ (plainItems_valid h) fuel rest
  rw [(plainItems_text p).1, (plainItems_text p).2] at this
  exact this hf

/-- The generated literal denotes its text exactly if there is nothing to escape in it. -/
theorem keys_iff {s : Str} (hr : '\r' ∉ s) :
    (encodeKey s = some s ↔ ('"' ∉ s ∧ '\\' ∉ s)) ∧ (decodeKey s = some s ↔ ('"' ∉ s ∧ '\\' ∉ s)) := by
  rcases first_special s hr with h | ⟨p, x, q, rfl, h2, h3⟩
  · have hk := keys_plain h
    have hn : '"' ∉ s ∧ '\\' ∉ s := ⟨fun hm => (h _ hm).1 rfl, fun hm => (h _ hm).2.1 rfl⟩
    exact ⟨⟨fun _ => hn, fun _ => hk.1⟩, ⟨fun _ => hn, fun _ => hk.2⟩⟩
  · have hbad : ¬ ('"' ∉ p ++ x :: q ∧ '\\' ∉ p ++ x :: q) := by
      rintro ⟨a, b⟩
      rcases h3 with rfl | rfl
      · exact a (by simp)
      · exact b (by simp)
    have key : ∀ (fuel : Nat) (t : Str), (p ++ x :: q).length < fuel → lexStr fuel (p ++ x :: q ++ ['"'] ++ t) ≠ some (p ++ x :: q, t) := by
      intro fuel t hf he
      rcases h3 with rfl | rfl
      · rw [List.append_assoc, List.append_assoc, List.cons_append, lexStr_toQuote p h2 fuel _ (by simp at hf; omega)] at he
        have := congrArg (fun o => o.map (fun y => y.1.length)) he
        simp at this
      · rw [List.append_assoc, List.append_assoc, List.cons_append] at he
        have := lexStr_len_bs p fuel _ _ _ h2 he
        simp at this
        omega
    refine ⟨⟨fun he => ?_, fun hc => absurd hc hbad⟩, ⟨fun he => ?_, fun hc => absurd hc hbad⟩⟩
    · exfalso
      unfold encodeKey at he
      dsimp only at he
      split at he
      · rename_i v r hv
        split at he
        · rename_i hr
          subst hr
          cases he
          exact key _ _ (by omega) hv
        · cases he
      · cases he
    · exfalso
      unfold decodeKey at he
      split at he
      · rename_i v hv
        cases he
        refine key ((p ++ x :: q).length + 2) [] (by omega) ?_
        rw [List.append_nil]; exact hv
      · cases he

/-- The opening of a raw literal. -/
def rawOpen (n : Nat) : Str := 'r' :: (List.replicate n '#' ++ ['"'])
/-- The closing of a raw literal. -/
def rawClose (n : Nat) : Str := '"' :: List.replicate n '#'

theorem rawText_eq (n : Nat) (s : Str) : rawText n s = rawOpen n ++ (s ++ rawClose n) := by
  simp [rawText, rawOpen, rawClose]

/-- `Lit::parse` on a raw literal with at most two hashes. -/
theorem litOfText_raw {n : Nat} (hn : n ≤ 2) (s : Str) (h1 : ¬ rawOpen n <+: s ++ rawClose n) (h2 : ¬ rawClose n <:+ s) :
    litOfText (rawText n s) = some (.string s) := by
  have hsuf : ∀ m, (rawClose m).isSuffixOf (rawText m s) = true := by
    intro m
    rw [List.isSuffixOf_iff_suffix, rawText_eq]
    exact ⟨rawOpen m ++ s, by simp⟩
  have hpre : ∀ m, (rawOpen m).isPrefixOf (rawText m s) = true := by
    intro m
    rw [List.isPrefixOf_iff_prefix, rawText_eq]
    exact ⟨_, rfl⟩
  have ht : trimEnd (rawClose n) (trimStart (rawOpen n) (rawText n s)) = s := by
    rw [rawText_eq, trimStart_once (by simp [rawOpen]) h1, trimEnd_once (by simp [rawClose]) h2]
  unfold litOfText
  rw [show rawText n s = 'r' :: (List.replicate n '#' ++ '"' :: (s ++ '"' :: List.replicate n '#')) from rfl, noBytes (by decide)]
  dsimp only
  rw [show 'r' :: (List.replicate n '#' ++ '"' :: (s ++ '"' :: List.replicate n '#')) = rawText n s from rfl]
  have hf : fixQuoted (rawText n s) [("\"", "\""), ("r\"", "\""), ("r#\"", "\"#"), ("r##\"", "\"##")] = some s := by
    rw [fixQuoted, if_neg (by simp [rawText])]
    have hn' : n = 0 ∨ n = 1 ∨ n = 2 := by omega
    rcases hn' with rfl | rfl | rfl
    · rw [fixQuoted, if_pos, show "r\"".toList = rawOpen 0 from rfl, show "\"".toList = rawClose 0 from rfl, ht]
      rw [show "r\"".toList = rawOpen 0 from rfl, show "\"".toList = rawClose 0 from rfl, hpre, hsuf]; rfl
    · rw [fixQuoted, if_neg (by simp [rawText]), fixQuoted, if_pos, show "r#\"".toList = rawOpen 1 from rfl, show "\"#".toList = rawClose 1 from rfl, ht]
      rw [show "r#\"".toList = rawOpen 1 from rfl, show "\"#".toList = rawClose 1 from rfl, hpre, hsuf]; rfl
    · rw [fixQuoted, if_neg (by simp [rawText, List.replicate]), fixQuoted, if_neg (by simp [rawText, List.replicate]), fixQuoted, if_pos, show "r##\"".toList = rawOpen 2 from rfl, show "\"##".toList = rawClose 2 from rfl, ht]
      rw [show "r##\"".toList = rawOpen 2 from rfl, show "\"##".toList = rawClose 2 from rfl, hpre, hsuf]; rfl
  rw [hf]

theorem fixSuffix_hash {s : Str} (h : s.getLast? = some '#') : ∀ (l : List String), (∀ q ∈ l, q.toList.getLast? ≠ some '#' ∧ q.toList ≠ []) → fixSuffix s l = s := by
  intro l
  induction l with
  | nil => intro _; rfl
  | cons q l ih =>
    intro hl
    rw [fixSuffix, if_neg]
    · exact ih (fun x hx => hl x (by simp [hx]))
    · intro hs
      rw [List.isSuffixOf_iff_suffix] at hs
      obtain ⟨t, rfl⟩ := hs
      have hq := hl q (by simp)
      rw [List.getLast?_append] at h
      cases hg : q.toList.getLast? with
      | none => simp at hg; exact hq.2 (by simp [hg])
      | some c => rw [hg] at h hq; simp at h; exact hq.1 (by rw [h])

/-- `Lit::parse` refuses a raw literal with three or more hashes. -/
theorem litOfText_raw_many {n : Nat} (hn : 3 ≤ n) (s : Str) : litOfText (rawText n s) = none := by
  obtain ⟨m, rfl⟩ : ∃ m, n = m + 3 := ⟨n - 3, by omega⟩
  have hrep : List.replicate (m + 3) '#' = '#' :: '#' :: '#' :: List.replicate m '#' := rfl
  have hlast : (rawText (m + 3) s).getLast? = some '#' := by
    rw [rawText_eq, List.getLast?_append, List.getLast?_append]
    have : (rawClose (m + 3)).getLast? = some '#' := by
      unfold rawClose
      rw [List.replicate_succ', ← List.cons_append, List.getLast?_concat]
    rw [this]; rfl
  unfold litOfText
  rw [show rawText (m + 3) s = 'r' :: (List.replicate (m + 3) '#' ++ '"' :: (s ++ '"' :: List.replicate (m + 3) '#')) from rfl, noBytes (by decide)]
  dsimp only
  rw [show 'r' :: (List.replicate (m + 3) '#' ++ '"' :: (s ++ '"' :: List.replicate (m + 3) '#')) = rawText (m + 3) s from rfl]
  have hf : fixQuoted (rawText (m + 3) s) [("\"", "\""), ("r\"", "\""), ("r#\"", "\"#"), ("r##\"", "\"##")] = none := by
    rw [fixQuoted, if_neg (by simp [rawText]), fixQuoted, if_neg (by simp [rawText, hrep]), fixQuoted, if_neg (by simp [rawText, hrep]), fixQuoted,
      if_neg (by simp [rawText, hrep])]
    rfl
  rw [hf]
  dsimp only
  rw [fixSuffix_hash hlast _ (by
      intro q hq
      simp at hq
      rcases hq with rfl | rfl | rfl | rfl | rfl | rfl | rfl | rfl | rfl | rfl | rfl | rfl <;> simp),
    fixSuffix_hash hlast _ (by
      intro q hq
      simp at hq
      rcases hq with rfl | rfl <;> simp)]
  have h1 : parseI32 (rawText (m + 3) s) = none := by
    unfold parseI32 rawText
    dsimp only
    rw [if_pos (by simp [isDigit])]
  have h2 : (parseFl b64 (rawText (m + 3) s) : Option F64) = none := by
    unfold parseFl rawText
    dsimp only
    rw [if_neg (by decide), if_neg (by decide)]
    unfold parseMag
    dsimp only
    rw [if_neg (by simp [lowerAscii]), if_neg (by simp [lowerAscii])]
    have : ∀ t : Str, splitNum ('r' :: t) = none := by
      intro t
      unfold splitNum
      simp [List.takeWhile, List.dropWhile, isDigit]
    rw [this]
  rw [h1, h2]
  rfl

end RJ
