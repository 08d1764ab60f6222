import Verif.Proof.Fuel
import Verif.Proof.Escape
import Verif.Proof.Num
import Verif.Spec.Words
/-
  The container loops copy a text verbatim as long as they see no structural character at bracket depth 0.
-/
namespace RJ
open Spec

/-- Counters after copying a text verbatim; `none` if the loops would do anything but copy. -/
def scan : Int → Int → Str → Option (Int × Int)
  | i, j, [] => some (i, j)
  | i, j, c :: t =>
    if (i = 0 ∧ j = 0) ∧ (c = ']' ∨ c = '}' ∨ c = ',' ∨ c = ':' ∨ isWs c) then none
    else if c = '"' then scan i (quoteStep j) t
    else if c = '[' then scan (i + 1) j t
    else if c = ']' then scan (i - 1) j t
    else if c = '{' then scan (i + 1) j t
    else if c = '}' then scan (i - 1) j t
    else if c = '\\' then
      match t with
      | [] => none
      | _ :: t => scan i j t
    else scan i j t

theorem scan_cons (i j : Int) (c : Char) (t : Str) : scan i j (c :: t) =
    if (i = 0 ∧ j = 0) ∧ (c = ']' ∨ c = '}' ∨ c = ',' ∨ c = ':' ∨ isWs c) then none
    else if c = '"' then scan i (quoteStep j) t
    else if c = '[' then scan (i + 1) j t
    else if c = ']' then scan (i - 1) j t
    else if c = '{' then scan (i + 1) j t
    else if c = '}' then scan (i - 1) j t
    else if c = '\\' then
      match t with
      | [] => none
      | _ :: t => scan i j t
    else scan i j t := by
  rw [scan.eq_def]; rfl

variable {F : Type}

theorem arrLoop_scan (rec : Str → Res (Json F)) (rest : Str) (array : List (Json F)) :
    ∀ (n : Nat) (t : Str) (i j i' j' : Int) (inner : Str), t.length ≤ n → scan i j t = some (i', j') →
      arrLoop rec (t ++ rest) i j inner array = arrLoop rec rest i' j' (inner ++ t) array := by
  intro n
  induction n with
  | zero =>
    intro t i j i' j' inner hn h
    cases t with
    | nil =>
      simp only [scan, Option.some.injEq, Prod.mk.injEq] at h
      obtain ⟨rfl, rfl⟩ := h
      simp
    | cons c t => simp at hn
  | succ n ih =>
    intro t i j i' j' inner hn h
    match t, hn, h with
    | [], _, h =>
      simp only [scan, Option.some.injEq, Prod.mk.injEq] at h
      obtain ⟨rfl, rfl⟩ := h
      simp
    | c :: t, hn, h =>
      simp only [List.length_cons] at hn
      rw [scan_cons] at h
      rw [List.cons_append, arrLoop_cons]
      have e : inner ++ c :: t = (inner ++ [c]) ++ t := by simp
      by_cases h0 : (i = 0 ∧ j = 0) ∧ (c = ']' ∨ c = '}' ∨ c = ',' ∨ c = ':' ∨ isWs c)
      · rw [if_pos h0] at h; cases h
      rw [if_neg h0] at h
      have g1 : ¬ (c = ']' ∧ i = 0 ∧ j = 0) := fun ⟨a, b⟩ => h0 ⟨b, .inl a⟩
      have g2 : ¬ (c = ',' ∧ i = 0 ∧ j = 0) := fun ⟨a, b⟩ => h0 ⟨b, .inr (.inr (.inl a))⟩
      have g3 : ¬ (i = 0 ∧ j = 0 ∧ isWs c = true) := fun ⟨a, b, d⟩ => h0 ⟨⟨a, b⟩, .inr (.inr (.inr (.inr d)))⟩
      rw [if_neg g1, if_neg g2]
      by_cases c1 : c = '"'
      · rw [if_pos c1] at h ⊢
        rw [ih t _ _ _ _ _ (by omega) h, e, c1]
      rw [if_neg c1] at h ⊢
      by_cases c2 : c = '['
      · rw [if_pos c2] at h ⊢
        rw [ih t _ _ _ _ _ (by omega) h, e, c2]
      rw [if_neg c2] at h ⊢
      by_cases c3 : c = ']'
      · rw [if_pos c3] at h ⊢
        rw [ih t _ _ _ _ _ (by omega) h, e, c3]
      rw [if_neg c3] at h ⊢
      by_cases c4 : c = '{'
      · rw [if_pos c4] at h ⊢
        rw [ih t _ _ _ _ _ (by omega) h, e, c4]
      rw [if_neg c4] at h ⊢
      by_cases c5 : c = '}'
      · rw [if_pos c5] at h ⊢
        rw [ih t _ _ _ _ _ (by omega) h, e, c5]
      rw [if_neg c5] at h ⊢
      by_cases c6 : c = '\\'
      · rw [if_pos c6] at h ⊢
        cases t with
        | nil => simp at h
        | cons ch t =>
          simp only [List.length_cons] at hn
          simp only [List.cons_append] at h ⊢
          rw [ih t _ _ _ _ _ (by omega) h]
          simp [c6]
      rw [if_neg c6] at h ⊢
      rw [if_neg g3, ih t _ _ _ _ _ (by omega) h, e]

theorem pushKV_append (b : Bool) (k v s t : Str) :
    pushKV b (pushKV b k v s).1 (pushKV b k v s).2 t = pushKV b k v (s ++ t) := by
  cases b <;> simp [pushKV]

theorem objLoop_scan (rec : Str → Res (Json F)) (rest : Str) (onKey : Bool) (object : Obj F) :
    ∀ (n : Nat) (t : Str) (i j i' j' : Int) (kv : Str × Str), t.length ≤ n → scan i j t = some (i', j') →
      objLoop rec (t ++ rest) i j kv onKey object =
        objLoop rec rest i' j' (pushKV onKey kv.1 kv.2 t) onKey object := by
  intro n
  induction n with
  | zero =>
    intro t i j i' j' kv hn h
    cases t with
    | nil =>
      simp only [scan, Option.some.injEq, Prod.mk.injEq] at h
      obtain ⟨rfl, rfl⟩ := h
      cases onKey <;> simp [pushKV]
    | cons c t => simp at hn
  | succ n ih =>
    intro t i j i' j' kv hn h
    match t, hn, h with
    | [], _, h =>
      simp only [scan, Option.some.injEq, Prod.mk.injEq] at h
      obtain ⟨rfl, rfl⟩ := h
      cases onKey <;> simp [pushKV]
    | c :: t, hn, h =>
      simp only [List.length_cons] at hn
      rw [scan_cons] at h
      rw [List.cons_append, objLoop_cons]
      have e : c :: t = [c] ++ t := by simp
      by_cases h0 : (i = 0 ∧ j = 0) ∧ (c = ']' ∨ c = '}' ∨ c = ',' ∨ c = ':' ∨ isWs c)
      · rw [if_pos h0] at h; cases h
      rw [if_neg h0] at h
      have g0 : ¬ (c = '}' ∧ i = 0 ∧ j = 0 ∧ onKey = false) := fun ⟨a, b, d, _⟩ => h0 ⟨⟨b, d⟩, .inr (.inl a)⟩
      have g2 : ¬ (c = ',' ∧ i = 0 ∧ j = 0 ∧ onKey = false) := fun ⟨a, b, d, _⟩ => h0 ⟨⟨b, d⟩, .inr (.inr (.inl a))⟩
      have g4 : ¬ (c = ':' ∧ i = 0 ∧ j = 0) := fun ⟨a, b⟩ => h0 ⟨b, .inr (.inr (.inr (.inl a)))⟩
      have g3 : ¬ (i = 0 ∧ j = 0 ∧ isWs c = true) := fun ⟨a, b, d⟩ => h0 ⟨⟨a, b⟩, .inr (.inr (.inr (.inr d)))⟩
      rw [if_neg g0, if_neg g2, if_neg g4]
      by_cases c1 : c = '"'
      · rw [if_pos c1] at h ⊢
        rw [ih t _ _ _ _ _ (by omega) h, pushKV_append, e, c1]
      rw [if_neg c1] at h ⊢
      by_cases c2 : c = '['
      · rw [if_pos c2] at h ⊢
        rw [ih t _ _ _ _ _ (by omega) h, pushKV_append, e, c2]
      rw [if_neg c2] at h ⊢
      by_cases c3 : c = ']'
      · rw [if_pos c3] at h ⊢
        rw [ih t _ _ _ _ _ (by omega) h, pushKV_append, e, c3]
      rw [if_neg c3] at h ⊢
      by_cases c4 : c = '{'
      · rw [if_pos c4] at h ⊢
        rw [ih t _ _ _ _ _ (by omega) h, pushKV_append, e, c4]
      rw [if_neg c4] at h ⊢
      by_cases c5 : c = '}'
      · rw [if_pos c5] at h ⊢
        rw [ih t _ _ _ _ _ (by omega) h, pushKV_append, e, c5]
      rw [if_neg c5] at h ⊢
      by_cases c6 : c = '\\'
      · rw [if_pos c6] at h ⊢
        cases t with
        | nil => simp at h
        | cons ch t =>
          simp only [List.length_cons] at hn
          simp only [List.cons_append] at h ⊢
          rw [ih t _ _ _ _ _ (by omega) h, pushKV_append, c6]
          rfl
      rw [if_neg c6] at h ⊢
      rw [if_neg g3, ih t _ _ _ _ _ (by omega) h, pushKV_append, e]

/-- `scan` of a concatenation. -/
theorem scan_append (b : Str) : ∀ (n : Nat) (a : Str) (i j i' j' : Int), a.length ≤ n → scan i j a = some (i', j') →
    scan i j (a ++ b) = scan i' j' b := by
  intro n
  induction n with
  | zero =>
    intro a i j i' j' hn h
    cases a with
    | nil =>
      simp only [scan, Option.some.injEq, Prod.mk.injEq] at h
      obtain ⟨rfl, rfl⟩ := h
      rfl
    | cons c t => simp at hn
  | succ n ih =>
    intro a i j i' j' hn h
    match a, hn, h with
    | [], _, h =>
      simp only [scan, Option.some.injEq, Prod.mk.injEq] at h
      obtain ⟨rfl, rfl⟩ := h
      rfl
    | c :: t, hn, h =>
      simp only [List.length_cons] at hn
      rw [scan_cons] at h
      rw [List.cons_append, scan_cons]
      by_cases h0 : (i = 0 ∧ j = 0) ∧ (c = ']' ∨ c = '}' ∨ c = ',' ∨ c = ':' ∨ isWs c)
      · rw [if_pos h0] at h; cases h
      rw [if_neg h0] at h ⊢
      by_cases c1 : c = '"'
      · rw [if_pos c1] at h ⊢
        exact ih t _ _ _ _ (by omega) h
      rw [if_neg c1] at h ⊢
      by_cases c2 : c = '['
      · rw [if_pos c2] at h ⊢
        exact ih t _ _ _ _ (by omega) h
      rw [if_neg c2] at h ⊢
      by_cases c3 : c = ']'
      · rw [if_pos c3] at h ⊢
        exact ih t _ _ _ _ (by omega) h
      rw [if_neg c3] at h ⊢
      by_cases c4 : c = '{'
      · rw [if_pos c4] at h ⊢
        exact ih t _ _ _ _ (by omega) h
      rw [if_neg c4] at h ⊢
      by_cases c5 : c = '}'
      · rw [if_pos c5] at h ⊢
        exact ih t _ _ _ _ (by omega) h
      rw [if_neg c5] at h ⊢
      by_cases c6 : c = '\\'
      · rw [if_pos c6] at h ⊢
        cases t with
        | nil => simp at h
        | cons ch t =>
          simp only [List.length_cons] at hn
          simp only [List.cons_append] at h ⊢
          exact ih t _ _ _ _ (by omega) h
      rw [if_neg c6] at h ⊢
      exact ih t _ _ _ _ (by omega) h

theorem scan_append' {a b : Str} {i j i' j' : Int} (h : scan i j a = some (i', j')) :
    scan i j (a ++ b) = scan i' j' b := scan_append b a.length a i j i' j' (Nat.le_refl _) h

/-- A plain character inside a string literal. -/
theorem scan_instr (i : Int) (c : Char) (t : Str) (h1 : c ≠ '"') (h2 : c ≠ '\\') :
    scan i 1 (c :: t) =
      scan (i + (if c = '[' ∨ c = '{' then 1 else if c = ']' ∨ c = '}' then -1 else 0)) 1 t := by
  rw [scan_cons, if_neg (by simp), if_neg h1]
  by_cases c2 : c = '['
  · rw [if_pos c2, if_pos (.inl c2)]
  rw [if_neg c2]
  by_cases c3 : c = ']'
  · rw [if_pos c3, if_neg (by subst c3; decide), if_pos (.inl c3)]; rfl
  rw [if_neg c3]
  by_cases c4 : c = '{'
  · rw [if_pos c4, if_pos (.inr c4)]
  rw [if_neg c4]
  by_cases c5 : c = '}'
  · rw [if_pos c5, if_neg (by subst c5; decide), if_pos (.inr c5)]; rfl
  rw [if_neg c5, if_neg h2, if_neg (by simp [c2, c4]), if_neg (by simp [c3, c5]), Int.add_zero]

theorem hex_plain {c : Char} {d : Nat} (h : hexVal c = some d) :
    c ≠ '"' ∧ c ≠ '\\' ∧ ¬ (c = '[' ∨ c = '{') ∧ ¬ (c = ']' ∨ c = '}') := by
  refine ⟨?_, ?_, ?_, ?_⟩
  · rintro rfl; revert h; simp [hexVal]
  · rintro rfl; revert h; simp [hexVal]
  · rintro (rfl | rfl) <;> (revert h; simp [hexVal])
  · rintro (rfl | rfl) <;> (revert h; simp [hexVal])

theorem scan_hex {c : Char} {d : Nat} (i : Int) (t : Str) (h : hexVal c = some d) :
    scan i 1 (c :: t) = scan i 1 t := by
  obtain ⟨h1, h2, h3, h4⟩ := hex_plain h
  rw [scan_instr i c t h1 h2, if_neg h3, if_neg h4, Int.add_zero]

theorem unitVal_hex {a b c d : Char} (h : (unitVal a b c d).isSome) :
    ∃ da db dc dd, hexVal a = some da ∧ hexVal b = some db ∧ hexVal c = some dc ∧ hexVal d = some dd := by
  unfold unitVal at h
  split at h
  · rename_i da db dc dd ha hb hc hd
    exact ⟨da, db, dc, dd, ha, hb, hc, hd⟩
  · simp at h

theorem scan_body : ∀ (items : List StrItem) (i : Int) (rest : Str), (∀ it ∈ items, it.Valid) →
    scan i 1 (bodyText items ++ rest) = scan (i + rawBrackets items) 1 rest := by
  intro items
  induction items with
  | nil => intro i rest _; simp [bodyText, rawBrackets]
  | cons it items ih =>
    intro i rest hv
    have hit := hv it (by simp)
    have ihx := fun i => ih i rest (fun x hx => hv x (by simp [hx]))
    cases it with
    | plain c =>
      obtain ⟨_, h1, h2⟩ := hit
      simp only [bodyText, StrItem.text, List.cons_append, List.nil_append, rawBrackets]
      rw [scan_instr i c _ h1 h2, ihx]
      congr 1; omega
    | esc c =>
      simp only [bodyText, StrItem.text, List.cons_append, List.nil_append, rawBrackets]
      rw [scan_cons, if_neg (by simp)]
      simp only [Char.reduceEq, if_false, if_true]
      rw [ihx]
    | uni a b c d =>
      simp only [bodyText, StrItem.text, List.cons_append, List.nil_append, rawBrackets]
      obtain ⟨da, db, dc, dd, ha, hb, hc, hd⟩ := unitVal_hex hit
      rw [scan_cons, if_neg (by simp)]
      simp only [Char.reduceEq, if_false, if_true]
      rw [scan_hex _ _ ha, scan_hex _ _ hb, scan_hex _ _ hc, scan_hex _ _ hd, ihx]

theorem scan_strText (items : List StrItem) (i : Int) (rest : Str) (hv : ∀ it ∈ items, it.Valid) :
    scan i 0 (strText items ++ rest) = scan (i + rawBrackets items) 0 rest := by
  unfold strText
  simp only [List.cons_append, List.nil_append, List.append_assoc]
  rw [scan_cons, if_neg (by simp [isWs]), if_pos rfl]
  have : quoteStep 0 = 1 := by decide
  rw [this, scan_body items i _ hv, scan_cons, if_neg (by simp), if_pos rfl]
  have : quoteStep 1 = 0 := by decide
  rw [this]

/-- Characters that the loops always copy outside strings. -/
def Inert (c : Char) : Prop :=
  c ≠ '"' ∧ c ≠ '[' ∧ c ≠ ']' ∧ c ≠ '{' ∧ c ≠ '}' ∧ c ≠ '\\' ∧ c ≠ ',' ∧ c ≠ ':' ∧ isWs c = false

theorem scan_inert (i j : Int) (c : Char) (t : Str) (h : Inert c) : scan i j (c :: t) = scan i j t := by
  obtain ⟨h1, h2, h3, h4, h5, h6, h7, h8, h9⟩ := h
  rw [scan_cons]
  simp [h1, h2, h3, h4, h5, h6, h7, h8, h9]

theorem scan_inerts (i j : Int) (s t : Str) (h : ∀ c ∈ s, Inert c) : scan i j (s ++ t) = scan i j t := by
  induction s with
  | nil => rfl
  | cons c s ih =>
    rw [List.cons_append, scan_inert _ _ _ _ (h c (by simp))]
    exact ih (fun x hx => h x (by simp [hx]))

theorem numChar_inert {c : Char} (h : NumChar c) : Inert c := by
  have aux : ∀ d : Char, c = d ↔ c.toNat = d.toNat :=
    fun d => ⟨fun h => h ▸ rfl, fun h => Char.toNat_inj.mp h⟩
  unfold NumChar IsDigit at h
  have hw : isWs c = false ↔ ¬ (c = ' ' ∨ c = '\t' ∨ c = '\n' ∨ c = '\r') := by
    simp [isWs, and_assoc]
  unfold Inert
  rw [hw]
  simp only [ne_eq, aux] at *
  simp only [Char.reduceToNat] at *
  omega

theorem wordChar_inert {c : Char} (h : WordChar c) : Inert c := by
  obtain ⟨h1, h2, h3, h4, h5, h6, h7, h8, h9⟩ := h
  exact ⟨h1, h2, h3, h4, h5, h6, h7, h8, by rw [← Bool.not_eq_true]; exact fun e => h9 ((isWs_iff c).mp e)⟩

theorem inert_wordChar {c : Char} (h : Inert c) : WordChar c := by
  obtain ⟨h1, h2, h3, h4, h5, h6, h7, h8, h9⟩ := h
  exact ⟨h1, h2, h3, h4, h5, h6, h7, h8, fun e => by rw [(isWs_iff c).mpr e] at h9; cases h9⟩

theorem accepted_word {n : NumLit} (h : n.Accepted) : AnyWord n.text := by
  obtain ⟨c, t, e, _⟩ := accepted_head h
  exact ⟨by rw [e]; simp, fun c hc => inert_wordChar (numChar_inert (accepted_chars h c hc))⟩

mutual
theorem cst_wordy : ∀ x : Cst, x.Valid → x.Wordy
  | .null, _ => trivial
  | .true, _ => trivial
  | .false, _ => trivial
  | .num _, h => accepted_word (NumLit.Loose.accepted h.1)
  | .str _, h => h
  | .arr0 _, h => h
  | .obj0 _, h => h
  | .arr es, h => elems_wordy es h
  | .obj ms, h => members_wordy ms h
theorem elems_wordy : ∀ es : Elems, es.Valid → es.Wordy
  | .one _ x _, h => ⟨h.1, cst_wordy x h.2.1, h.2.2⟩
  | .cons _ x _ t, h => ⟨h.1, cst_wordy x h.2.1, h.2.2.1, elems_wordy t h.2.2.2⟩
theorem members_wordy : ∀ ms : Members, ms.Valid → ms.Wordy
  | .one _ _ _ _ x _, h => ⟨h.1, h.2.1, h.2.2.1, h.2.2.2.1, cst_wordy x h.2.2.2.2.1, h.2.2.2.2.2⟩
  | .cons _ _ _ _ x _ t, h => ⟨⟨h.1.1, h.1.2.1, h.1.2.2.1, h.1.2.2.2.1, cst_wordy x h.1.2.2.2.2.1, h.1.2.2.2.2.2⟩, members_wordy t h.2⟩
end

/-- Whitespace below depth 0 is copied. -/
theorem scan_ws (i : Int) (hi : 1 ≤ i) (w t : Str) (h : WsStr w) : scan i 0 (w ++ t) = scan i 0 t := by
  induction w with
  | nil => rfl
  | cons c w ih =>
    have hc : isWs c = true := (isWs_iff c).mpr (h c (by simp))
    have aux : c = ' ' ∨ c = '\t' ∨ c = '\n' ∨ c = '\r' := by simpa [isWs, or_assoc] using hc
    rw [List.cons_append, scan_cons, if_neg (by omega)]
    have n : c ≠ '"' ∧ c ≠ '[' ∧ c ≠ ']' ∧ c ≠ '{' ∧ c ≠ '}' ∧ c ≠ '\\' := by
      rcases aux with rfl | rfl | rfl | rfl <;> decide
    rw [if_neg n.1, if_neg n.2.1, if_neg n.2.2.1, if_neg n.2.2.2.1, if_neg n.2.2.2.2.1, if_neg n.2.2.2.2.2]
    exact ih (fun x hx => h x (by simp [hx]))

theorem scan_open (i : Int) (c : Char) (t : Str) (h : c = '[' ∨ c = '{') : scan i 0 (c :: t) = scan (i + 1) 0 t := by
  rw [scan_cons]
  rcases h with rfl | rfl <;> simp [isWs]

theorem scan_close (i : Int) (hi : 1 ≤ i) (c : Char) (t : Str) (h : c = ']' ∨ c = '}') :
    scan i 0 (c :: t) = scan (i - 1) 0 t := by
  rw [scan_cons, if_neg (by omega)]
  rcases h with rfl | rfl <;> simp

theorem scan_sep (i : Int) (hi : 1 ≤ i) (c : Char) (t : Str) (h : c = ',' ∨ c = ':') :
    scan i 0 (c :: t) = scan i 0 t := by
  rw [scan_cons, if_neg (by omega)]
  rcases h with rfl | rfl <;> simp

mutual
/-- Every tree whose strings are bracket-balanced is copied verbatim, at any depth. -/
theorem scan_cst : ∀ (x : Cst) (i : Int) (rest : Str), 0 ≤ i → x.Wordy → x.StrBal →
    scan i 0 (x.text ++ rest) = scan i 0 rest
  | .null, i, rest, _, _, _ => scan_inerts i 0 "null".toList rest (by unfold Inert; decide)
  | .true, i, rest, _, _, _ => scan_inerts i 0 "true".toList rest (by unfold Inert; decide)
  | .false, i, rest, _, _, _ => scan_inerts i 0 "false".toList rest (by unfold Inert; decide)
  | .num n, i, rest, _, hv, _ =>
    scan_inerts i 0 n.text rest (fun c hc => wordChar_inert (hv.2 c hc))
  | .str s, i, rest, _, hv, hp => by
    rw [Cst.text, scan_strText s i rest hv]
    have : rawBrackets s = 0 := hp
    rw [this, Int.add_zero]
  | .arr0 ws, i, rest, hi, hv, hp => by
    simp only [Cst.text, List.cons_append, List.nil_append, List.append_assoc]
    rw [scan_open _ _ _ (.inl rfl), scan_ws _ (by omega) _ _ hv, scan_close _ (by omega) _ _ (.inl rfl)]
    congr 1; omega
  | .arr es, i, rest, hi, hv, hp => by
    simp only [Cst.text, List.cons_append, List.nil_append, List.append_assoc]
    rw [scan_open _ _ _ (.inl rfl), scan_elems es (i + 1) _ (by omega) hv hp, scan_close _ (by omega) _ _ (.inl rfl)]
    congr 1; omega
  | .obj0 ws, i, rest, hi, hv, hp => by
    simp only [Cst.text, List.cons_append, List.nil_append, List.append_assoc]
    rw [scan_open _ _ _ (.inr rfl), scan_ws _ (by omega) _ _ hv, scan_close _ (by omega) _ _ (.inr rfl)]
    congr 1; omega
  | .obj ms, i, rest, hi, hv, hp => by
    simp only [Cst.text, List.cons_append, List.nil_append, List.append_assoc]
    rw [scan_open _ _ _ (.inr rfl), scan_members ms (i + 1) _ (by omega) hv hp, scan_close _ (by omega) _ _ (.inr rfl)]
    congr 1; omega
theorem scan_elems : ∀ (es : Elems) (i : Int) (rest : Str), 1 ≤ i → es.Wordy → es.StrBal →
    scan i 0 (es.text ++ rest) = scan i 0 rest
  | .one w1 x w2, i, rest, hi, hv, hp => by
    obtain ⟨h1, h2, h3⟩ := hv
    simp only [Elems.text, List.append_assoc]
    rw [scan_ws i hi _ _ h1, scan_cst x i _ (by omega) h2 hp, scan_ws i hi _ _ h3]
  | .cons w1 x w2 t, i, rest, hi, hv, hp => by
    obtain ⟨h1, h2, h3, h4⟩ := hv
    simp only [Elems.text, List.append_assoc, List.cons_append, List.nil_append]
    rw [scan_ws i hi _ _ h1, scan_cst x i _ (by omega) h2 hp.1, scan_ws i hi _ _ h3, scan_sep i hi _ _ (.inl rfl),
      scan_elems t i rest hi h4 hp.2]
theorem scan_members : ∀ (ms : Members) (i : Int) (rest : Str), 1 ≤ i → ms.Wordy → ms.StrBal →
    scan i 0 (ms.text ++ rest) = scan i 0 rest
  | .one w1 k w2 w3 x w4, i, rest, hi, hv, hp => by
    obtain ⟨h1, h2, h3, h4, h5, h6⟩ := hv
    simp only [Members.text, List.append_assoc, List.cons_append, List.nil_append]
    rw [scan_ws i hi _ _ h1, scan_strText k i _ h2, hp.1, Int.add_zero, scan_ws i hi _ _ h3, scan_sep i hi _ _ (.inr rfl),
      scan_ws i hi _ _ h4, scan_cst x i _ (by omega) h5 hp.2, scan_ws i hi _ _ h6]
  | .cons w1 k w2 w3 x w4 t, i, rest, hi, hv, hp => by
    obtain ⟨⟨h1, h2, h3, h4, h5, h6⟩, h7⟩ := hv
    simp only [Members.text, List.append_assoc, List.cons_append, List.nil_append]
    rw [scan_ws i hi _ _ h1, scan_strText k i _ h2, hp.1.1, Int.add_zero, scan_ws i hi _ _ h3,
      scan_sep i hi _ _ (.inr rfl), scan_ws i hi _ _ h4, scan_cst x i _ (by omega) h5 hp.1.2, scan_ws i hi _ _ h6,
      scan_sep i hi _ _ (.inl rfl), scan_members t i rest hi h7 hp.2]
end

mutual
theorem plain_strBal : ∀ x : Cst, x.Plain → x.StrBal
  | .null, _ => trivial
  | .true, _ => trivial
  | .false, _ => trivial
  | .num _, _ => trivial
  | .str _, h => h
  | .arr0 _, _ => trivial
  | .arr es, h => elems_plain_strBal es h
  | .obj0 _, _ => trivial
  | .obj ms, h => members_plain_strBal ms h
theorem elems_plain_strBal : ∀ es : Elems, es.Plain → es.StrBal
  | .one _ x _, h => plain_strBal x h
  | .cons _ x _ t, h => ⟨plain_strBal x h.1, elems_plain_strBal t h.2⟩
theorem members_plain_strBal : ∀ ms : Members, ms.Plain → ms.StrBal
  | .one _ _ _ _ x _, h => ⟨h.1, plain_strBal x h.2⟩
  | .cons _ _ _ _ x _ t, h => ⟨⟨h.1.1, plain_strBal x h.1.2⟩, members_plain_strBal t h.2⟩
end

end RJ
