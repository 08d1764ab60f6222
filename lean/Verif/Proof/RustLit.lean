import Verif.Spec.RustStr
import Verif.Model.Generated
/-
  String literals of the `key` attribute: `Lit::parse` and the literal put into the generated code.
-/
namespace RJ
open Spec

theorem hexVal_of {c : Char} {v : Nat} (h : HexDigit c v) : hexVal c = some v := by
  unfold HexDigit at h
  simp only [Char.reduceToNat] at h
  unfold hexVal
  simp only [Char.reduceToNat]
  rcases h with ⟨h1, h2, h3⟩ | ⟨h1, h2, h3⟩ | ⟨h1, h2, h3⟩
  · rw [if_pos ⟨h1, h2⟩]; congr 1; omega
  · rw [if_neg (by omega), if_pos ⟨h1, h2⟩]; congr 1; omega
  · rw [if_neg (by omega), if_neg (by omega), if_pos ⟨h1, h2⟩]; congr 1; omega

theorem hexDigit_ne {c : Char} {v : Nat} (h : HexDigit c v) : c ≠ '}' ∧ c ≠ '_' ∧ c ≠ '"' := by
  unfold HexDigit at h
  simp only [Char.reduceToNat] at h
  refine ⟨?_, ?_, ?_⟩ <;> rintro rfl <;> simp only [Char.reduceToNat] at h <;> omega

theorem uniDigits_run {ds : Str} {v n : Nat} (h : Hexes ds v n) : 0 < n ∧ ∀ t, uniDigits 0 0 (ds ++ t) = uniDigits v n t := by
  induction h with
  | one c d hc =>
    refine ⟨by omega, fun t => ?_⟩
    have := hexDigit_ne hc
    rw [List.singleton_append, uniDigits, if_neg this.1, if_neg this.2.1, hexVal_of hc]
    simp
  | dig ds v n c d _ hc ih =>
    refine ⟨by omega, fun t => ?_⟩
    have := hexDigit_ne hc
    rw [List.append_assoc, ih.2, List.singleton_append, uniDigits, if_neg this.1, if_neg this.2.1, hexVal_of hc]
  | under ds v n _ ih =>
    refine ⟨ih.1, fun t => ?_⟩
    rw [List.append_assoc, ih.2, List.singleton_append, uniDigits, if_neg (by decide), if_pos rfl, if_neg (by omega)]

theorem rustSimple_of {e x : Char} (h : SimpleEsc e x) : rustSimple e = some x := by
  rcases h with ⟨rfl, rfl⟩ | ⟨rfl, rfl⟩ | ⟨rfl, rfl⟩ | ⟨rfl, rfl⟩ | ⟨rfl, rfl⟩ | ⟨rfl, rfl⟩ | ⟨rfl, rfl⟩ <;> rfl

theorem lexStr_plain (fuel : Nat) (c : Char) (r : Str) (h : c ≠ '"' ∧ c ≠ '\\' ∧ c ≠ '\r') :
    lexStr (fuel + 1) (c :: r) = (lexStr fuel r).map (fun p => (c :: p.1, p.2)) := by
  rw [lexStr.eq_def]; dsimp only
  rw [if_neg h.1, if_neg h.2.2, if_neg h.2.1]

theorem lexStr_bs (fuel : Nat) (e : Char) (r : Str) :
    lexStr (fuel + 1) ('\\' :: e :: r) = match rustSimple e with
        | some x => (lexStr fuel r).map (fun p => (x :: p.1, p.2))
        | none =>
          if e = 'x' then
            match r with
            | a :: b :: r =>
              match hexVal a, hexVal b with
              | some h, some l => if h < 8 then (lexStr fuel r).map (fun p => (Char.ofNat (h * 16 + l) :: p.1, p.2)) else none
              | _, _ => none
            | _ => none
          else if e = 'u' then
            match r with
            | o :: r =>
              if o = '{' then
                match uniDigits 0 0 r with
                | some (v, r) => if v.isValidChar then (lexStr fuel r).map (fun p => (Char.ofNat v :: p.1, p.2)) else none
                | none => none
              else none
            | [] => none
          else if e = '\n' then lexStr fuel (r.dropWhile (fun w => w = ' ' || w = '\t' || w = '\n' || w = '\r'))
          else none := by
  rw [lexStr.eq_def]; dsimp only
  rw [if_neg (by decide), if_neg (by decide), if_pos rfl]
  rfl

theorem contWs_iff (c : Char) : (c = ' ' || c = '\t' || c = '\n' || c = '\r') = true ↔ ContWs c := by
  simp [ContWs, or_assoc]

theorem dropWhile_cont (ws : Str) (h : ∀ c ∈ ws, ContWs c) (t : Str) (ht : ∀ c, t.head? = some c → ¬ ContWs c) :
    (ws ++ t).dropWhile (fun w => w = ' ' || w = '\t' || w = '\n' || w = '\r') = t := by
  induction ws with
  | nil =>
    cases t with
    | nil => rfl
    | cons c t =>
      rw [List.nil_append, List.dropWhile_cons, if_neg]
      rw [contWs_iff]; exact ht c rfl
  | cons c ws ih =>
    rw [List.cons_append, List.dropWhile_cons, if_pos ((contWs_iff c).mpr (h c (by simp)))]
    exact ih (fun d hd => h d (by simp [hd]))

theorem itemsText_cons (i : RItem) (l : List RItem) : itemsText (i :: l) = i.text ++ itemsText l := by simp [itemsText]
theorem itemsVal_cons (i : RItem) (l : List RItem) : itemsVal (i :: l) = i.val ++ itemsVal l := by simp [itemsVal]

theorem char_toNat_valid (x : Char) : x.toNat.isValidChar := x.valid

/-- rustc reads one well-formed item as what it denotes. -/
theorem lexStr_item (i : RItem) (h : i.Valid) (fuel : Nat) (t : Str) (ht : ∀ ws, i = .cont ws → ∀ c, t.head? = some c → ¬ ContWs c) :
    lexStr (fuel + 1) (i.text ++ t) = (lexStr fuel t).map (fun p => (i.val ++ p.1, p.2)) := by
  cases i with
  | plain c => exact lexStr_plain fuel c t h
  | simple e x =>
    rw [show (RItem.simple e x).text = ['\\', e] from rfl, List.cons_append, List.singleton_append, lexStr_bs, rustSimple_of h]
    rfl
  | hex a b x =>
    obtain ⟨ha, hb, h1, h2, h3, h4⟩ := h
    rw [show (RItem.hex a b x).text = ['\\', 'x', a, b] from rfl]
    simp only [List.cons_append, List.nil_append]
    rw [lexStr_bs, show rustSimple 'x' = none from rfl]
    dsimp only
    rw [if_pos rfl, hexVal_of h1, hexVal_of h2]
    dsimp only
    rw [if_pos h3, ← h4, Char.ofNat_toNat]
    rfl
  | uni ds x =>
    obtain ⟨k, h1, h2⟩ := h
    have hr := uniDigits_run h1
    rw [show (RItem.uni ds x).text = '\\' :: 'u' :: '{' :: (ds ++ ['}']) from rfl]
    simp only [List.cons_append, List.append_assoc, List.nil_append]
    rw [lexStr_bs, show rustSimple 'u' = none from rfl]
    dsimp only
    rw [if_neg (by decide), if_pos rfl, if_pos rfl, hr.2, uniDigits, if_pos rfl, if_neg (by omega)]
    dsimp only
    rw [if_pos (char_toNat_valid x), Char.ofNat_toNat]
    rfl
  | cont ws =>
    rw [show (RItem.cont ws).text = '\\' :: '\n' :: ws from rfl]
    simp only [List.cons_append]
    rw [lexStr_bs, show rustSimple '\n' = none from rfl]
    dsimp only
    rw [if_neg (by decide), if_neg (by decide), if_pos rfl, dropWhile_cont ws h t (ht ws rfl)]
    cases lexStr fuel t with
    | none => rfl
    | some p => rfl

theorem valid_cons {i : RItem} {l : List RItem} (h : RItemsValid (i :: l)) : i.Valid ∧ RItemsValid l := by
  cases i with
  | cont ws => exact ⟨h.1, h.2.2⟩
  | _ => exact h

theorem cont_head {i : RItem} {l : List RItem} (h : RItemsValid (i :: l)) (t : Str) (ht : ∀ c, t.head? = some c → ¬ ContWs c) :
    ∀ ws, i = .cont ws → ∀ c, (itemsText l ++ t).head? = some c → ¬ ContWs c := by
  rintro ws rfl c hc
  obtain ⟨h1, h2, hl⟩ := h
  cases l with
  | nil => exact ht c hc
  | cons j l =>
    rw [itemsText_cons] at hc
    cases j with
    | plain d => simp [RItem.text] at hc; subst hc; exact h2 d rfl
    | simple e x => simp [RItem.text] at hc; subst hc; simp [ContWs]
    | hex a b x => simp [RItem.text] at hc; subst hc; simp [ContWs]
    | uni ds x => simp [RItem.text] at hc; subst hc; simp [ContWs]
    | cont ws => simp [RItem.text] at hc; subst hc; simp [ContWs]

theorem text_pos (i : RItem) : 0 < i.text.length := by cases i <;> simp [RItem.text]

/-- rustc reads an ordinary literal as the string it denotes. -/
theorem lexStr_items : ∀ (l : List RItem), RItemsValid l → ∀ (fuel : Nat) (rest : Str), (itemsText l).length < fuel →
    lexStr fuel (itemsText l ++ '"' :: rest) = some (itemsVal l, rest) := by
  intro l
  induction l with
  | nil =>
    intro _ fuel rest h
    cases fuel with
    | zero => simp at h
    | succ n => simp [itemsText, itemsVal, lexStr]
  | cons i l ih =>
    intro hv fuel rest hf
    rw [itemsText_cons] at hf
    have hp := text_pos i
    rw [itemsText_cons, itemsVal_cons, List.append_assoc]
    cases fuel with
    | zero => simp at hf
    | succ n =>
      rw [lexStr_item i (valid_cons hv).1 n _ (cont_head hv _ (by intro c hc; simp at hc; subst hc; simp [ContWs])),
        ih (valid_cons hv).2 n rest (by simp at hf; omega)]
      rfl

theorem encodeKey_items (l : List RItem) (h : RItemsValid l) : encodeKey (itemsText l) = some (itemsVal l) := by
  unfold encodeKey
  simp only [List.append_assoc, List.singleton_append]
  rw [lexStr_items l h _ _ (by simp; omega)]
  simp

theorem decodeKey_items (l : List RItem) (h : RItemsValid l) : decodeKey (itemsText l) = some (itemsVal l) := by
  unfold decodeKey
  rw [lexStr_items l h _ _ (by omega)]

/-! An ordinary literal that ends in an escaped quote: the generated literal is not closed. -/

/-- Without a quote the literal does not end. -/
theorem lexStr_open : ∀ (fuel : Nat) (s : Str), '"' ∉ s → lexStr fuel s = none := by
  intro fuel
  induction fuel with
  | zero => intro s _; rfl
  | succ n ih =>
    intro s hs
    have huni : ∀ (r : Str) (a b : Nat) (v : Nat) (r' : Str), uniDigits a b r = some (v, r') → '"' ∉ r → '"' ∉ r' := by
      intro r
      induction r with
      | nil => intro a b v r' h; simp [uniDigits] at h
      | cons c r ihr =>
        intro a b v r' h hq
        rw [uniDigits] at h
        split at h
        · split at h
          · cases h
          · cases h; exact fun h => hq (by simp [h])
        · split at h
          · split at h
            · cases h
            · exact ihr _ _ _ _ h (fun h => hq (by simp [h]))
          · split at h
            · exact ihr _ _ _ _ h (fun h => hq (by simp [h]))
            · cases h
    cases s with
    | nil => rfl
    | cons c r =>
      have hr : '"' ∉ r := fun h => hs (by simp [h])
      by_cases h1 : c = '\\'
      · subst h1
        cases r with
        | nil => rfl
        | cons e r =>
          have hr' : '"' ∉ r := fun h => hr (by simp [h])
          rw [lexStr_bs]
          split
          · rw [ih r hr']; rfl
          · split
            · split
              · rename_i a b r''
                split
                · split
                  · rw [ih r'' (fun h => hr' (by simp [h]))]; rfl
                  · rfl
                · rfl
              · rfl
            · split
              · split
                · split
                  · split
                    · rename_i heq
                      split
                      · rw [ih _ (huni _ _ _ _ _ heq (fun h => hr' (by simp [h])))]; rfl
                      · rfl
                    · rfl
                  · rfl
                · rfl
              · split
                · apply ih
                  intro h
                  exact hr' ((List.dropWhile_sublist _).subset h)
                · rfl
      · by_cases h2 : c = '\r'
        · subst h2
          rw [lexStr.eq_def]; dsimp only
          rw [if_neg (by decide), if_pos rfl]
        · have h3 : c ≠ '"' := by rintro rfl; exact hs (by simp)
          rw [lexStr_plain n c r ⟨h3, h1, h2⟩, ih r hr]; rfl

/-- Items followed by text without a quote: the literal does not end. -/
theorem lexStr_unclosed : ∀ (l : List RItem), RItemsValid l → ∀ (fuel : Nat) (t : Str), '"' ∉ t → (∀ c, t.head? = some c → ¬ ContWs c) →
    lexStr fuel (itemsText l ++ t) = none := by
  intro l
  induction l with
  | nil => intro _ fuel t h _; exact lexStr_open fuel t h
  | cons i l ih =>
    intro hv fuel t h hw
    cases fuel with
    | zero => rfl
    | succ n =>
      rw [itemsText_cons, List.append_assoc, lexStr_item i (valid_cons hv).1 n _ (cont_head hv t hw), ih (valid_cons hv).2 n t h hw]
      rfl

theorem uniDigits_len : ∀ (r : Str) (a b : Nat) (v : Nat) (r' : Str), uniDigits a b r = some (v, r') → r'.length < r.length := by
  intro r
  induction r with
  | nil => intro a b v r' h; simp [uniDigits] at h
  | cons c r ihr =>
    intro a b v r' h
    rw [uniDigits] at h
    split at h
    · split at h
      · cases h
      · cases h; simp
    · split at h
      · split at h
        · cases h
        · have := ihr _ _ _ _ h; simp; omega
      · split at h
        · have := ihr _ _ _ _ h; simp; omega
        · cases h

/-- The value read is shorter than the text. -/
theorem lexStr_len : ∀ (fuel : Nat) (s v r : Str), lexStr fuel s = some (v, r) → v.length + r.length < s.length := by
  intro fuel
  induction fuel with
  | zero => intro s v r h; simp [lexStr] at h
  | succ n ih =>
    have hmap : ∀ (x : Char) (t v r : Str), (lexStr n t).map (fun p => (x :: p.1, p.2)) = some (v, r) → v.length + r.length < t.length + 1 := by
      intro x t v r h
      rw [Option.map_eq_some_iff] at h
      obtain ⟨⟨v', r'⟩, h1, h2⟩ := h
      have := ih t v' r' h1
      cases h2; simp; omega
    intro s v r h
    cases s with
    | nil => simp [lexStr] at h
    | cons c s =>
      by_cases h1 : c = '\\'
      · subst h1
        cases s with
        | nil => simp [lexStr] at h
        | cons e t =>
          rw [lexStr_bs] at h
          split at h
          · have := hmap _ _ _ _ h; simp; omega
          · split at h
            · split at h
              · split at h
                · split at h
                  · have := hmap _ _ _ _ h; simp; omega
                  · cases h
                · cases h
              · cases h
            · split at h
              · split at h
                · split at h
                  · split at h
                    · rename_i heq
                      split at h
                      · have := hmap _ _ _ _ h
                        have := uniDigits_len _ _ _ _ _ heq
                        simp; omega
                      · cases h
                    · cases h
                  · cases h
                · cases h
              · split at h
                · have := ih _ _ _ h
                  have := (List.dropWhile_sublist (l := t) (fun w => w = ' ' || w = '\t' || w = '\n' || w = '\r')).length_le
                  simp only [List.length_cons]; omega
                · cases h
      · by_cases h2 : c = '\r'
        · subst h2
          rw [lexStr.eq_def] at h; dsimp only at h
          rw [if_neg (by decide), if_pos rfl] at h; cases h
        · by_cases h3 : c = '"'
          · subst h3
            rw [lexStr.eq_def] at h; dsimp only at h
            rw [if_pos rfl] at h; cases h; simp
          · rw [lexStr_plain n c s ⟨h3, h1, h2⟩] at h
            have := hmap _ _ _ _ h; simp; omega

/-- With a backslash in it, it is shorter still. -/
theorem lexStr_len_bs : ∀ (p : Str) (fuel : Nat) (q v r : Str), (∀ c ∈ p, c ≠ '"' ∧ c ≠ '\\' ∧ c ≠ '\r') →
    lexStr fuel (p ++ '\\' :: q) = some (v, r) → v.length + r.length < p.length + q.length := by
  intro p
  induction p with
  | nil =>
    intro fuel q v r _ h
    cases fuel with
    | zero => simp [lexStr] at h
    | succ n =>
      cases q with
      | nil => simp [lexStr] at h
      | cons e t =>
        have hl := lexStr_len n
        have h0 : ∀ (x : Char) (w : Str), (lexStr n w).map (fun p => (x :: p.1, p.2)) = some (v, r) → v.length + r.length < w.length + 1 := by
          intro x w h
          rw [Option.map_eq_some_iff] at h
          obtain ⟨⟨v', r'⟩, h1, h2⟩ := h
          have := hl w v' r' h1
          cases h2; simp; omega
        rw [List.nil_append, lexStr_bs] at h
        split at h
        · have := h0 _ _ h; simp; omega
        · split at h
          · split at h
            · split at h
              · split at h
                · have := h0 _ _ h; simp; omega
                · cases h
              · cases h
            · cases h
          · split at h
            · split at h
              · split at h
                · split at h
                  · rename_i heq
                    split at h
                    · have := h0 _ _ h
                      have := uniDigits_len _ _ _ _ _ heq
                      simp; omega
                    · cases h
                  · cases h
                · cases h
              · cases h
            · split at h
              · have := hl _ _ _ h
                have := (List.dropWhile_sublist (l := t) (fun w => w = ' ' || w = '\t' || w = '\n' || w = '\r')).length_le
                simp only [List.length_cons, List.length_nil]; omega
              · cases h
  | cons c p ih =>
    intro fuel q v r hp h
    cases fuel with
    | zero => simp [lexStr] at h
    | succ n =>
      rw [List.cons_append, lexStr_plain n c _ (hp c (by simp))] at h
      rw [Option.map_eq_some_iff] at h
      obtain ⟨⟨v', r'⟩, h1, h2⟩ := h
      have := ih n q v' r' (fun d hd => hp d (by simp [hd])) h1
      cases h2; simp; omega

end RJ
