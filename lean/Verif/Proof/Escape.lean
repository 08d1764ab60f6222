import Verif.Model.Print
import Verif.Proof.Str
/-
  `escape` produces an RFC 8259 string literal that denotes the escaped string.
-/
namespace RJ
open Spec

theorem hexDigit_mod (u : Nat) : hexDigit (u % 16) = hexDigit u := by
  simp [hexDigit]

theorem hexVal_hexDigit (u : Nat) : hexVal (hexDigit u) = some (u % 16) := by
  rw [← hexDigit_mod]
  have h : ∀ i : Fin 16, hexVal (hexDigit i.val) = some i.val := by decide
  exact h ⟨u % 16, Nat.mod_lt _ (by omega)⟩

theorem hexDigit_range (u : Nat) :
    (48 ≤ (hexDigit u).toNat ∧ (hexDigit u).toNat ≤ 57) ∨ (65 ≤ (hexDigit u).toNat ∧ (hexDigit u).toNat ≤ 70) := by
  rw [← hexDigit_mod]
  have h : ∀ i : Fin 16, (48 ≤ (hexDigit i.val).toNat ∧ (hexDigit i.val).toNat ≤ 57) ∨
    (65 ≤ (hexDigit i.val).toNat ∧ (hexDigit i.val).toNat ≤ 70) := by decide
  exact h ⟨u % 16, Nat.mod_lt _ (by omega)⟩

theorem hexLoop_pos (n u : Nat) (h : u ≠ 0) : hexLoop (n + 1) u = hexDigit u :: hexLoop n (u / 16) := by
  rw [hexLoop, if_neg h]

theorem hexLoop_zero (n : Nat) : hexLoop n 0 = [] := by
  cases n with
  | zero => rfl
  | succ n => rw [hexLoop, if_pos rfl]

theorem hexDigit_zero : hexDigit 0 = '0' := by decide

theorem hex_eq (u : Nat) (h : u < 65536) :
    hex u = ['\\', 'u', hexDigit (u / 4096), hexDigit (u / 256), hexDigit (u / 16), hexDigit u] := by
  unfold hex
  by_cases h0 : u = 0
  · subst h0; decide
  rw [if_neg h0]
  by_cases h1 : u / 16 = 0
  · have e1 : u / 256 = 0 := by omega
    have e2 : u / 4096 = 0 := by omega
    rw [hexLoop_pos _ _ h0, h1, hexLoop_zero, e1, e2, hexDigit_zero]
    simp
  by_cases h2 : u / 256 = 0
  · have e2 : u / 4096 = 0 := by omega
    have e3 : u / 16 / 16 = 0 := by omega
    rw [hexLoop_pos _ _ h0, hexLoop_pos _ _ h1, e3, hexLoop_zero, h2, e2, hexDigit_zero]
    simp
  by_cases h3 : u / 4096 = 0
  · have e2 : u / 16 / 16 = u / 256 := by omega
    have e3 : u / 256 / 16 = 0 := by omega
    rw [hexLoop_pos _ _ h0, hexLoop_pos _ _ h1, e2, hexLoop_pos _ _ h2, e3, hexLoop_zero, h3, hexDigit_zero]
    simp
  · have e2 : u / 16 / 16 = u / 256 := by omega
    have e3 : u / 256 / 16 = u / 4096 := by omega
    have e4 : u / 4096 / 16 = 0 := by omega
    rw [hexLoop_pos _ _ h0, hexLoop_pos _ _ h1, e2, hexLoop_pos _ _ h2, e3, hexLoop_pos _ _ h3, e4, hexLoop_zero]
    simp

/-- The RFC item `hex u` writes. -/
def hexItem (u : Nat) : StrItem := .uni (hexDigit (u / 4096)) (hexDigit (u / 256)) (hexDigit (u / 16)) (hexDigit u)

theorem hexItem_text (u : Nat) (h : u < 65536) : (hexItem u).text = hex u := by
  rw [hex_eq u h]; rfl

theorem hexItem_unit (u : Nat) (h : u < 65536) :
    unitVal (hexDigit (u / 4096)) (hexDigit (u / 256)) (hexDigit (u / 16)) (hexDigit u) = some u := by
  simp only [unitVal, hexVal_hexDigit, Option.some.injEq]
  omega

/-- The RFC items `escape` writes for one character. -/
def escapeCharItems (ch : Char) : List StrItem :=
  if ch = '"' then [.esc '"']
  else if ch = '\\' then [.esc '\\']
  else if ch = '/' then [.esc '/']
  else if ch = '\x08' then [.esc 'b']
  else if ch = '\x0C' then [.esc 'f']
  else if ch = '\n' then [.esc 'n']
  else if ch = '\r' then [.esc 'r']
  else if ch = '\t' then [.esc 't']
  else if ch.toNat ≤ 0x1F then [hexItem ch.toNat]
  else if 0x20 ≤ ch.toNat ∧ ch.toNat ≤ 0x7E then [.plain ch]
  else if ch.toNat ≤ 0xFFFF then [hexItem ch.toNat]
  else [hexItem ((ch.toNat - 0x10000) / 1024 + 0xD800), hexItem ((ch.toNat - 0x10000) % 1024 + 0xDC00)]

def escapeItems : Str → List StrItem
  | [] => []
  | c :: s => escapeCharItems c ++ escapeItems s

theorem bodyText_append (a b : List StrItem) : bodyText (a ++ b) = bodyText a ++ bodyText b := by
  induction a with
  | nil => rfl
  | cons i a ih => simp [bodyText, ih]

theorem rawBrackets_append (a b : List StrItem) : rawBrackets (a ++ b) = rawBrackets a + rawBrackets b := by
  induction a with
  | nil => simp [rawBrackets]
  | cons i a ih =>
    cases i <;> simp only [List.cons_append, rawBrackets, ih] <;> omega

theorem char_le (c : Char) : c.toNat ≤ 0x10FFFF ∧ ¬ (0xD800 ≤ c.toNat ∧ c.toNat ≤ 0xDFFF) := by
  have h : c.val.isValidChar := c.valid
  unfold UInt32.isValidChar Nat.isValidChar at h
  have : c.toNat = c.val.toNat := rfl
  omega

theorem escapeCharItems_text (c : Char) : bodyText (escapeCharItems c) = escapeChar c := by
  have hc := char_le c
  by_cases h0 : c = '"'
  · subst h0; decide
  by_cases h1 : c = '\\'
  · subst h1; decide
  by_cases h2 : c = '/'
  · subst h2; decide
  by_cases h3 : c = '\x08'
  · subst h3; decide
  by_cases h4 : c = '\x0C'
  · subst h4; decide
  by_cases h5 : c = '\n'
  · subst h5; decide
  by_cases h6 : c = '\r'
  · subst h6; decide
  by_cases h7 : c = '\t'
  · subst h7; decide
  unfold escapeCharItems escapeChar
  simp only [h0, h1, h2, h3, h4, h5, h6, h7, if_false]
  by_cases h8 : c.toNat ≤ 0x1F
  · simp only [h8, if_true, bodyText, List.append_nil]
    exact hexItem_text _ (by omega)
  by_cases h9 : 0x20 ≤ c.toNat ∧ c.toNat ≤ 0x7E
  · simp only [h8, h9, if_false, and_self, if_true]; rfl
  by_cases h10 : c.toNat ≤ 0xFFFF
  · simp only [h8, h9, h10, if_true, if_false, bodyText, List.append_nil]
    exact hexItem_text _ (by omega)
  · simp only [h8, h9, h10, if_false, bodyText, List.append_nil]
    rw [hexItem_text _ (by omega), hexItem_text _ (by omega)]

theorem escapeItems_text (s : Str) : bodyText (escapeItems s) = escapeBody s := by
  induction s with
  | nil => rfl
  | cons c s ih => rw [escapeItems, bodyText_append, escapeCharItems_text, ih]; rfl

theorem escape_eq (s : Str) : escape s = strText (escapeItems s) := by
  rw [strText, escapeItems_text]; rfl

theorem strVal_esc (e c : Char) (t : List StrItem) (h : escVal e = some c) :
    strVal (.esc e :: t) = (strVal t).map (c :: ·) := by
  rw [strVal, h]

theorem strVal_hexItem (u : Nat) (t : List StrItem) (h : u < 65536) (h' : ¬ (0xD800 ≤ u ∧ u ≤ 0xDFFF)) :
    strVal (hexItem u :: t) = (strVal t).map (Char.ofNat u :: ·) := by
  rw [hexItem, strVal.eq_4, hexItem_unit u h]
  simp only
  rw [if_neg (by omega), if_neg (by omega)]

theorem strVal_hexPair (u l : Nat) (t : List StrItem) (hu : 0xD800 ≤ u ∧ u ≤ 0xDBFF) (hl : 0xDC00 ≤ l ∧ l ≤ 0xDFFF) :
    strVal (hexItem u :: hexItem l :: t) =
      (strVal t).map (Char.ofNat (0x10000 + (u - 0xD800) * 0x400 + (l - 0xDC00)) :: ·) := by
  rw [hexItem, strVal.eq_4, hexItem_unit u (by omega)]
  simp only
  rw [if_pos hu, hexItem]
  simp only
  rw [hexItem_unit l (by omega)]
  simp only
  rw [if_pos hl]

theorem surrogate_split (n : Nat) (h : 0xFFFF < n) :
    0x10000 + ((n - 0x10000) / 1024 + 0xD800 - 0xD800) * 0x400 +
        ((n - 0x10000) % 1024 + 0xDC00 - 0xDC00) = n := by omega

theorem strVal_escapeChar (c : Char) (t : List StrItem) :
    strVal (escapeCharItems c ++ t) = (strVal t).map (c :: ·) := by
  have hc := char_le c
  unfold escapeCharItems
  split
  · rename_i h; subst h; exact strVal_esc _ _ _ (by decide)
  split
  · rename_i h; subst h; exact strVal_esc _ _ _ (by decide)
  split
  · rename_i h; subst h; exact strVal_esc _ _ _ (by decide)
  split
  · rename_i h; subst h; exact strVal_esc _ _ _ (by decide)
  split
  · rename_i h; subst h; exact strVal_esc _ _ _ (by decide)
  split
  · rename_i h; subst h; exact strVal_esc _ _ _ (by decide)
  split
  · rename_i h; subst h; exact strVal_esc _ _ _ (by decide)
  split
  · rename_i h; subst h; exact strVal_esc _ _ _ (by decide)
  split
  · have := strVal_hexItem c.toNat t (by omega) (by omega)
    rw [Char.ofNat_toNat] at this
    exact this
  split
  · rename_i h1 h2 _ _ _ _ _ _ _ h
    show strVal (.plain c :: t) = _
    rw [strVal, if_pos ⟨h.1, h1, h2⟩]
  split
  · have := strVal_hexItem c.toNat t (by omega) (by omega)
    rw [Char.ofNat_toNat] at this
    exact this
  · rename_i h
    have := strVal_hexPair ((c.toNat - 0x10000) / 1024 + 0xD800) ((c.toNat - 0x10000) % 1024 + 0xDC00) t (by omega) (by omega)
    rw [surrogate_split c.toNat (by omega), Char.ofNat_toNat] at this
    exact this

theorem strVal_escape (s : Str) : strVal (escapeItems s) = some s := by
  induction s with
  | nil => rfl
  | cons c s ih => rw [escapeItems, strVal_escapeChar, ih]; rfl

theorem rawBrackets_escape (s : Str) : rawBrackets (escapeItems s) = bracketNet s := by
  induction s with
  | nil => rfl
  | cons c s ih =>
    rw [escapeItems, rawBrackets_append, ih, bracketNet]
    congr 1
    have hc := char_le c
    by_cases h0 : c = '"'
    · subst h0; decide
    by_cases h1 : c = '\\'
    · subst h1; decide
    by_cases h2 : c = '/'
    · subst h2; decide
    by_cases h3 : c = '\x08'
    · subst h3; decide
    by_cases h4 : c = '\x0C'
    · subst h4; decide
    by_cases h5 : c = '\n'
    · subst h5; decide
    by_cases h6 : c = '\r'
    · subst h6; decide
    by_cases h7 : c = '\t'
    · subst h7; decide
    unfold escapeCharItems
    simp only [h0, h1, h2, h3, h4, h5, h6, h7, if_false]
    by_cases h9 : 0x20 ≤ c.toNat ∧ c.toNat ≤ 0x7E
    · rw [if_neg (by omega), if_pos h9]
      simp only [rawBrackets, Int.add_zero]
    · have g0 : ¬ (c = '[' ∨ c = '{') := by rintro (rfl | rfl) <;> exact h9 (by decide)
      have g1 : ¬ (c = ']' ∨ c = '}') := by rintro (rfl | rfl) <;> exact h9 (by decide)
      rw [if_neg g0, if_neg g1]
      simp only [h9, if_false]
      split
      · rfl
      · split <;> rfl

end RJ
