import Verif.Spec.Rfc
import Verif.Proof.PrintCst
/-
  The RFC 8259 grammar of `Spec/Rfc.lean` is unambiguous: a text has at most one syntax tree.
-/
set_option linter.unusedSectionVars false
namespace RJ
open Spec

/-- The longest prefix with a property is unique. -/
theorem span_unique (P : Char → Prop) : ∀ (a b r r' : Str), (∀ c ∈ a, P c) → (∀ c ∈ b, P c) → (∀ c, r.head? = some c → ¬ P c) →
    (∀ c, r'.head? = some c → ¬ P c) → a ++ r = b ++ r' → a = b ∧ r = r'
  | [], [], _, _, _, _, _, _, h => ⟨rfl, h⟩
  | [], c :: b, r, r', _, hb, hr, _, h => by
    subst h
    exact absurd (hb c (by simp)) (hr c rfl)
  | c :: a, [], r, r', ha, _, _, hr', h => by
    have h : c :: (a ++ r) = r' := h
    subst h
    exact absurd (ha c (by simp)) (hr' c rfl)
  | c :: a, d :: b, r, r', ha, hb, hr, hr', h => by
    simp only [List.cons_append, List.cons.injEq] at h
    obtain ⟨rfl, h⟩ := h
    obtain ⟨rfl, rfl⟩ := span_unique P a b r r' (fun c hc => ha c (by simp [hc])) (fun c hc => hb c (by simp [hc])) hr hr' h
    exact ⟨rfl, rfl⟩

/-- Nothing that could continue a number. -/
def Stop (r : Str) : Prop := ∀ c, r.head? = some c → ¬ IsDigit c ∧ c ≠ '.' ∧ c ≠ 'e' ∧ c ≠ 'E'

theorem digits_unique (a b r r' : Str) (ha : Digits a) (hb : Digits b) (hr : ∀ c, r.head? = some c → ¬ IsDigit c)
    (hr' : ∀ c, r'.head? = some c → ¬ IsDigit c) (h : a ++ r = b ++ r') : a = b ∧ r = r' := span_unique IsDigit a b r r' ha hb hr hr' h

theorem not_digit_of {c d : Char} (h : c = d) (hd : ¬ (0x30 ≤ d.toNat ∧ d.toNat ≤ 0x39)) : ¬ IsDigit c := by subst h; exact hd

/-- Text of the exponent. -/
def expTxt : Option (Char × Str × Str) → Str
  | some (e, sg, ds) => e :: (sg ++ ds)
  | none => []

/-- Text of the fraction. -/
def fracTxt : Option Str → Str
  | some f => '.' :: f
  | none => []

theorem num_text (n : NumLit) : n.text = (if n.neg then ['-'] else []) ++ (n.int ++ (fracTxt n.frac ++ expTxt n.exp)) := by
  obtain ⟨neg, i, f, e⟩ := n
  cases f <;> cases e <;> simp [NumLit.text, fracTxt, expTxt]

theorem exp_unique (m n : Option (Char × Str × Str)) (hm : ∀ e sg ds, m = some (e, sg, ds) → (e = 'e' ∨ e = 'E') ∧ (sg = [] ∨ sg = ['+'] ∨ sg = ['-']) ∧ ds ≠ [] ∧ Digits ds)
    (hn : ∀ e sg ds, n = some (e, sg, ds) → (e = 'e' ∨ e = 'E') ∧ (sg = [] ∨ sg = ['+'] ∨ sg = ['-']) ∧ ds ≠ [] ∧ Digits ds)
    (r r' : Str) (hr : Stop r) (hr' : Stop r') (h : expTxt m ++ r = expTxt n ++ r') : m = n ∧ r = r' := by
  match m, n with
  | none, none => exact ⟨rfl, h⟩
  | none, some (e, sg, ds) =>
    exfalso
    have h : r = e :: (sg ++ ds ++ r') := h
    subst h
    have := hr e rfl
    rcases (hn e sg ds rfl).1 with rfl | rfl
    · exact this.2.2.1 rfl
    · exact this.2.2.2 rfl
  | some (e, sg, ds), none =>
    exfalso
    have h : e :: (sg ++ ds ++ r) = r' := h
    subst h
    have := hr' e rfl
    rcases (hm e sg ds rfl).1 with rfl | rfl
    · exact this.2.2.1 rfl
    · exact this.2.2.2 rfl
  | some (e, sg, ds), some (e', sg', ds') =>
    obtain ⟨_, hs, hd0, hd⟩ := hm e sg ds rfl
    obtain ⟨_, hs', hd0', hd'⟩ := hn e' sg' ds' rfl
    simp only [expTxt, List.cons_append, List.cons.injEq, List.append_assoc] at h
    obtain ⟨rfl, h⟩ := h
    obtain ⟨x, ds, rfl⟩ := List.exists_cons_of_ne_nil hd0
    obtain ⟨x', ds', rfl⟩ := List.exists_cons_of_ne_nil hd0'
    have dx := hd x (by simp)
    have dx' := hd' x' (by simp)
    have key : sg = sg' := by
      rcases hs with rfl | rfl | rfl <;> rcases hs' with rfl | rfl | rfl <;> first
        | rfl
        | (simp only [List.nil_append, List.cons_append, List.cons.injEq] at h
           exfalso
           obtain ⟨hh, _⟩ := h
           first
             | (subst hh; revert dx; simp [IsDigit]; done)
             | (subst hh; revert dx'; simp [IsDigit]; done)
             | (revert hh; decide))
    subst key
    have h := List.append_cancel_left h
    obtain ⟨h1, rfl⟩ := digits_unique _ _ _ _ hd hd' (fun c hc => (hr c hc).1) (fun c hc => (hr' c hc).1) h
    exact ⟨by rw [h1], rfl⟩

theorem num_unique (m n : NumLit) (hm : m.Loose) (hn : n.Loose) (r r' : Str) (hr : Stop r) (hr' : Stop r') (h : m.text ++ r = n.text ++ r') : m = n ∧ r = r' := by
  obtain ⟨neg, i, f, e⟩ := m
  obtain ⟨neg', i', f', e'⟩ := n
  obtain ⟨⟨hi0, hi⟩, hf, he⟩ := hm
  obtain ⟨⟨hi0', hi'⟩, hf', he'⟩ := hn
  simp only at hi0 hi hf he hi0' hi' hf' he'
  rw [num_text, num_text] at h
  simp only [List.append_assoc] at h
  have hneg : neg = neg' ∧ i ++ (fracTxt f ++ (expTxt e ++ r)) = i' ++ (fracTxt f' ++ (expTxt e' ++ r')) := by
    obtain ⟨x, t, rfl⟩ := List.exists_cons_of_ne_nil hi0
    obtain ⟨x', t', rfl⟩ := List.exists_cons_of_ne_nil hi0'
    have dx := hi x (by simp)
    have dx' := hi' x' (by simp)
    cases neg <;> cases neg'
    · exact ⟨rfl, h⟩
    · exfalso
      simp only [Bool.false_eq_true, if_false, if_true, List.nil_append, List.cons_append, List.cons.injEq] at h
      rw [h.1] at dx; revert dx; simp [IsDigit]
    · exfalso
      simp only [Bool.false_eq_true, if_false, if_true, List.nil_append, List.cons_append, List.cons.injEq] at h
      rw [← h.1] at dx'; revert dx'; simp [IsDigit]
    · refine ⟨rfl, ?_⟩
      simpa using h
  clear h
  obtain ⟨rfl, h⟩ := hneg
  have hexp : ∀ (e : Option (Char × Str × Str)) (r : Str), (∀ c sg ds, e = some (c, sg, ds) → (c = 'e' ∨ c = 'E') ∧ (sg = [] ∨ sg = ['+'] ∨ sg = ['-']) ∧ ds ≠ [] ∧ Digits ds) → Stop r →
      ∀ c, (expTxt e ++ r).head? = some c → ¬ IsDigit c ∧ c ≠ '.' := by
    intro e r he hr c hc
    cases e with
    | none => exact ⟨(hr c hc).1, (hr c hc).2.1⟩
    | some p =>
      obtain ⟨e, sg, ds⟩ := p
      simp only [expTxt, List.cons_append, List.head?_cons, Option.some.injEq] at hc
      subst hc
      rcases (he e sg ds rfl).1 with rfl | rfl <;> exact ⟨by simp [IsDigit], by decide⟩
  have hfr : ∀ (f : Option Str) (r : Str), (∀ c, r.head? = some c → ¬ IsDigit c) → ∀ c, (fracTxt f ++ r).head? = some c → ¬ IsDigit c := by
    intro f r hr c hc
    cases f with
    | none => exact hr c hc
    | some s =>
      simp only [fracTxt, List.cons_append, List.head?_cons, Option.some.injEq] at hc
      subst hc; simp [IsDigit]
  replace h := digits_unique i i' _ _ hi hi' (hfr f _ (fun c hc => (hexp e r he hr c hc).1)) (hfr f' _ (fun c hc => (hexp e' r' he' hr' c hc).1)) h
  obtain ⟨rfl, h⟩ := h
  have hfeq : f = f' ∧ expTxt e ++ r = expTxt e' ++ r' := by
    match f, f' with
    | none, none => exact ⟨rfl, h⟩
    | none, some s =>
      exfalso
      have h : expTxt e ++ r = '.' :: (s ++ (expTxt e' ++ r')) := h
      exact (hexp e r he hr '.' (by rw [h]; rfl)).2 rfl
    | some s, none =>
      exfalso
      have h : '.' :: (s ++ (expTxt e ++ r)) = expTxt e' ++ r' := h
      exact (hexp e' r' he' hr' '.' (by rw [← h]; rfl)).2 rfl
    | some s, some s' =>
      simp only [fracTxt, List.cons_append, List.cons.injEq, true_and] at h
      replace h := digits_unique s s' _ _ (hf s rfl).2 (hf' s' rfl).2 (fun c hc => (hexp e r he hr c hc).1) (fun c hc => (hexp e' r' he' hr' c hc).1) h
      obtain ⟨rfl, h⟩ := h
      exact ⟨rfl, h⟩
  clear h
  obtain ⟨rfl, h⟩ := hfeq
  obtain ⟨rfl, rfl⟩ := exp_unique e e' he he' r r' hr hr' h
  exact ⟨rfl, rfl⟩

/-! ### Strings -/

theorem bodyText_unique : ∀ (s t : List StrItem) (r r' : Str), (∀ i ∈ s, i.Valid) → (∀ i ∈ t, i.Valid) →
    bodyText s ++ '"' :: r = bodyText t ++ '"' :: r' → s = t ∧ r = r'
  | [], [], r, r', _, _, h => by simpa [bodyText] using h
  | [], i :: t, r, r', _, ht, h => by
    exfalso
    have hv := ht i (by simp)
    cases i with
    | plain c => simp only [bodyText, StrItem.text, List.nil_append, List.cons_append, List.cons.injEq] at h; exact hv.2.1 h.1.symm
    | esc c => simp [bodyText, StrItem.text] at h
    | uni a b c d => simp [bodyText, StrItem.text] at h
  | i :: s, [], r, r', hs, _, h => by
    exfalso
    have hv := hs i (by simp)
    cases i with
    | plain c => simp only [bodyText, StrItem.text, List.nil_append, List.cons_append, List.cons.injEq] at h; exact hv.2.1 h.1
    | esc c => simp [bodyText, StrItem.text] at h
    | uni a b c d => simp [bodyText, StrItem.text] at h
  | i :: s, j :: t, r, r', hs, ht, h => by
    have hv := hs i (by simp)
    have hw := ht j (by simp)
    have ih := fun h => bodyText_unique s t r r' (fun i hi => hs i (by simp [hi])) (fun i hi => ht i (by simp [hi])) h
    have hu : escVal 'u' = none := by decide
    cases i with
    | plain c =>
      cases j with
      | plain d =>
        simp only [bodyText, StrItem.text, List.nil_append, List.cons_append, List.cons.injEq] at h
        obtain ⟨rfl, h⟩ := h
        obtain ⟨rfl, rfl⟩ := ih h; exact ⟨rfl, rfl⟩
      | esc d => simp only [bodyText, StrItem.text, List.nil_append, List.cons_append, List.cons.injEq] at h; exact absurd h.1 hv.2.2
      | uni a b d e => simp only [bodyText, StrItem.text, List.nil_append, List.cons_append, List.cons.injEq] at h; exact absurd h.1 hv.2.2
    | esc c =>
      cases j with
      | plain d => simp only [bodyText, StrItem.text, List.nil_append, List.cons_append, List.cons.injEq] at h; exact absurd h.1.symm hw.2.2
      | esc d =>
        simp only [bodyText, StrItem.text, List.nil_append, List.cons_append, List.cons.injEq, true_and] at h
        obtain ⟨rfl, h⟩ := h
        obtain ⟨rfl, rfl⟩ := ih h; exact ⟨rfl, rfl⟩
      | uni a b d e =>
        simp only [bodyText, StrItem.text, List.nil_append, List.cons_append, List.cons.injEq, true_and] at h
        exfalso
        rw [h.1] at hv
        simp only [StrItem.Valid, hu] at hv
        cases hv
    | uni a b d e =>
      cases j with
      | plain d => simp only [bodyText, StrItem.text, List.nil_append, List.cons_append, List.cons.injEq] at h; exact absurd h.1.symm hw.2.2
      | esc c =>
        simp only [bodyText, StrItem.text, List.nil_append, List.cons_append, List.cons.injEq, true_and] at h
        exfalso
        rw [← h.1] at hw
        simp only [StrItem.Valid, hu] at hw
        cases hw
      | uni a' b' d' e' =>
        simp only [bodyText, StrItem.text, List.nil_append, List.cons_append, List.cons.injEq, true_and] at h
        obtain ⟨rfl, rfl, rfl, rfl, h⟩ := h
        obtain ⟨rfl, rfl⟩ := ih h; exact ⟨rfl, rfl⟩

theorem str_unique (s t : List StrItem) (r r' : Str) (hs : ∀ i ∈ s, i.Valid) (ht : ∀ i ∈ t, i.Valid) (h : strText s ++ r = strText t ++ r') : s = t ∧ r = r' := by
  simp only [strText, List.append_assoc, List.cons_append, List.nil_append, List.cons.injEq, true_and] at h
  exact bodyText_unique s t r r' hs ht h

/-! ### Values -/

theorem ws_unique (a b r r' : Str) (ha : WsStr a) (hb : WsStr b) (hr : ∀ c, r.head? = some c → ¬ IsWs c)
    (hr' : ∀ c, r'.head? = some c → ¬ IsWs c) (h : a ++ r = b ++ r') : a = b ∧ r = r' := span_unique IsWs a b r r' ha hb hr hr' h

/-- Which kind of value a text starts. -/
inductive Starts : Cst → Char → Prop
  | null : Starts .null 'n'
  | tru : Starts .true 't'
  | fls : Starts .false 'f'
  | minus {n} : Starts (.num n) '-'
  | digit {n c} : IsDigit c → Starts (.num n) c
  | str {s} : Starts (.str s) '"'
  | arr0 {w} : Starts (.arr0 w) '['
  | arr {e} : Starts (.arr e) '['
  | obj0 {w} : Starts (.obj0 w) '{'
  | obj {e} : Starts (.obj e) '{'

theorem starts_lead (x : Cst) (hx : x.Valid) (r : Str) : ∃ c, (x.text ++ r).head? = some c ∧ Starts x c := by
  cases x with
  | null => exact ⟨_, rfl, .null⟩
  | true => exact ⟨_, rfl, .tru⟩
  | false => exact ⟨_, rfl, .fls⟩
  | str s => exact ⟨_, rfl, .str⟩
  | arr0 w => exact ⟨_, rfl, .arr0⟩
  | arr w => exact ⟨_, rfl, .arr⟩
  | obj0 w => exact ⟨_, rfl, .obj0⟩
  | obj w => exact ⟨_, rfl, .obj⟩
  | num n =>
    have hn : n.Valid := hx
    obtain ⟨⟨⟨hi0, hi⟩, _⟩, _⟩ := hn
    rw [Cst.text, num_text]
    by_cases h : n.neg = true
    · exact ⟨'-', by simp [h], .minus⟩
    · obtain ⟨c, t, ht⟩ := List.exists_cons_of_ne_nil hi0
      exact ⟨c, by simp [h, ht], .digit (hi c (by rw [ht]; simp))⟩

theorem Starts.notWs {x : Cst} {c : Char} (h : Starts x c) : ¬ IsWs c ∧ c ≠ ']' ∧ c ≠ '}' := by
  cases h <;> first
    | (refine ⟨by simp [IsWs], by decide, by decide⟩)
    | (rename_i hd
       refine ⟨?_, ?_, ?_⟩
       · unfold IsWs; unfold IsDigit at hd; omega
       · rintro rfl; revert hd; simp [IsDigit]
       · rintro rfl; revert hd; simp [IsDigit])

/-- The kind of value. -/
def Cst.shape : Cst → Nat
  | .null => 0 | .true => 1 | .false => 2 | .num _ => 3 | .str _ => 4
  | .arr0 _ => 5 | .arr _ => 5 | .obj0 _ => 6 | .obj _ => 6

theorem Starts.shape {x y : Cst} {c : Char} (h : Starts x c) (h' : Starts y c) : Cst.shape x = Cst.shape y := by
  cases h <;> cases h' <;> first
    | rfl
    | (exfalso; rename_i hd; revert hd; simp [IsDigit]; done)

theorem stop_ws (w r : Str) (hw : WsStr w) (hr : Stop r) : Stop (w ++ r) := by
  intro c hc
  cases w with
  | nil => exact hr c hc
  | cons d w =>
    simp only [List.cons_append, List.head?_cons, Option.some.injEq] at hc
    subst hc
    have := hw d (by simp)
    unfold IsWs at this
    unfold IsDigit
    refine ⟨by omega, ?_, ?_, ?_⟩ <;> (rintro rfl; simp at this)

theorem stop_char (c : Char) (r : Str) (h : c = ',' ∨ c = ']' ∨ c = '}') : Stop (c :: r) := by
  intro d hd
  simp only [List.head?_cons, Option.some.injEq] at hd
  subst hd
  rcases h with rfl | rfl | rfl <;> simp [IsDigit]

theorem nws_char (c : Char) (r : Str) (h : ¬ IsWs c) : ∀ d, (c :: r).head? = some d → ¬ IsWs d := by
  intro d hd
  simp only [List.head?_cons, Option.some.injEq] at hd
  subst hd; exact h

theorem nws_value (x : Cst) (hx : x.Valid) (r : Str) : ∀ d, (x.text ++ r).head? = some d → ¬ IsWs d := by
  intro d hd
  obtain ⟨c, h1, h2⟩ := starts_lead x hx r
  rw [h1] at hd; cases hd; exact h2.notWs.1

theorem nws_str (s : List StrItem) (r : Str) : ∀ d, (strText s ++ r).head? = some d → ¬ IsWs d := by
  intro d hd
  cases hd; simp [IsWs]

/-- Both values start with the same character, hence have the same shape. -/
theorem same_shape (x y : Cst) (hx : x.Valid) (hy : y.Valid) (r r' : Str) (h : x.text ++ r = y.text ++ r') : Cst.shape x = Cst.shape y := by
  obtain ⟨c, h1, h2⟩ := starts_lead x hx r
  obtain ⟨d, h3, h4⟩ := starts_lead y hy r'
  rw [h, h3] at h1; cases h1
  exact h2.shape h4

theorem arr0_arr (w : Str) (es : Elems) (hw : WsStr w) (hes : es.Valid) (r r' : Str) : w ++ ']' :: r ≠ es.text ++ ']' :: r' := by
  intro h
  have key : ∀ (w1 : Str) (x : Cst) (q : Str), WsStr w1 → x.Valid → w ++ ']' :: r = w1 ++ (x.text ++ q) → False := by
    intro w1 x q h1 h2 h
    obtain ⟨_, h⟩ := ws_unique _ _ _ _ hw h1 (nws_char _ _ (by simp [IsWs])) (nws_value x h2 q) h
    obtain ⟨c, h3, h4⟩ := starts_lead x h2 q
    rw [← h] at h3; cases h3
    exact h4.notWs.2.1 rfl
  cases es with
  | one w1 x w2 =>
    rw [Elems.text, List.append_assoc, List.append_assoc] at h
    exact key w1 x _ hes.1 hes.2.1 h
  | cons w1 x w2 t =>
    rw [Elems.text] at h
    exact key w1 x (w2 ++ [','] ++ t.text ++ ']' :: r') hes.1 hes.2.1 (by rw [h]; simp)

theorem obj0_obj (w : Str) (ms : Members) (hw : WsStr w) (hms : ms.Valid) (r r' : Str) : w ++ '}' :: r ≠ ms.text ++ '}' :: r' := by
  intro h
  have key : ∀ (w1 : Str) (k : List StrItem) (q : Str), WsStr w1 → w ++ '}' :: r = w1 ++ (strText k ++ q) → False := by
    intro w1 k q h1 h
    obtain ⟨_, h⟩ := ws_unique _ _ _ _ hw h1 (nws_char _ _ (by simp [IsWs])) (nws_str k q) h
    simp [strText] at h
  cases ms with
  | one w1 k w2 w3 x w4 => exact key w1 k (w2 ++ [':'] ++ w3 ++ x.text ++ w4 ++ '}' :: r') hms.1 (by rw [h, Members.text]; simp)
  | cons w1 k w2 w3 x w4 t => exact key w1 k (w2 ++ [':'] ++ w3 ++ x.text ++ w4 ++ [','] ++ t.text ++ '}' :: r') hms.1.1 (by rw [h, Members.text]; simp)

mutual
theorem cst_unique : ∀ (x y : Cst) (r r' : Str), x.Valid → y.Valid → Stop r → Stop r' → x.text ++ r = y.text ++ r' → x = y ∧ r = r'
  | x, y, r, r', hx, hy, hr, hr', h => by
    have hk := same_shape x y hx hy r r' h
    match x, y, hk with
    | .null, .null, _ => simpa [Cst.text] using h
    | .true, .true, _ => simpa [Cst.text] using h
    | .false, .false, _ => simpa [Cst.text] using h
    | .num m, .num n, _ =>
      obtain ⟨rfl, rfl⟩ := num_unique m n hx.1 hy.1 r r' hr hr' h
      exact ⟨rfl, rfl⟩
    | .str s, .str t, _ =>
      obtain ⟨rfl, rfl⟩ := str_unique s t r r' hx hy h
      exact ⟨rfl, rfl⟩
    | .arr0 w, .arr0 w', _ =>
      simp only [Cst.text, List.append_assoc, List.cons_append, List.nil_append, List.cons.injEq, true_and] at h
      replace h := ws_unique _ _ _ _ hx hy (nws_char _ _ (by simp [IsWs])) (nws_char _ _ (by simp [IsWs])) h
      obtain ⟨rfl, h⟩ := h
      simpa using h
    | .arr0 w, .arr es, _ =>
      simp only [Cst.text, List.append_assoc, List.cons_append, List.nil_append, List.cons.injEq, true_and] at h
      exact absurd h (arr0_arr w es hx hy r r')
    | .arr es, .arr0 w, _ =>
      simp only [Cst.text, List.append_assoc, List.cons_append, List.nil_append, List.cons.injEq, true_and] at h
      exact absurd h.symm (arr0_arr w es hy hx r' r)
    | .arr es, .arr es', _ =>
      simp only [Cst.text, List.append_assoc, List.cons_append, List.nil_append, List.cons.injEq, true_and] at h
      obtain ⟨rfl, rfl⟩ := elems_unique es es' r r' hx hy h
      exact ⟨rfl, rfl⟩
    | .obj0 w, .obj0 w', _ =>
      simp only [Cst.text, List.append_assoc, List.cons_append, List.nil_append, List.cons.injEq, true_and] at h
      replace h := ws_unique _ _ _ _ hx hy (nws_char _ _ (by simp [IsWs])) (nws_char _ _ (by simp [IsWs])) h
      obtain ⟨rfl, h⟩ := h
      simpa using h
    | .obj0 w, .obj es, _ =>
      simp only [Cst.text, List.append_assoc, List.cons_append, List.nil_append, List.cons.injEq, true_and] at h
      exact absurd h (obj0_obj w es hx hy r r')
    | .obj es, .obj0 w, _ =>
      simp only [Cst.text, List.append_assoc, List.cons_append, List.nil_append, List.cons.injEq, true_and] at h
      exact absurd h.symm (obj0_obj w es hy hx r' r)
    | .obj es, .obj es', _ =>
      simp only [Cst.text, List.append_assoc, List.cons_append, List.nil_append, List.cons.injEq, true_and] at h
      obtain ⟨rfl, rfl⟩ := members_unique es es' r r' hx hy h
      exact ⟨rfl, rfl⟩
theorem elems_unique : ∀ (x y : Elems) (r r' : Str), x.Valid → y.Valid → x.text ++ ']' :: r = y.text ++ ']' :: r' → x = y ∧ r = r'
  | .one w1 x w2, .one w1' x' w2', r, r', ⟨a1, a2, a3⟩, ⟨b1, b2, b3⟩, h => by
    simp only [Elems.text, List.append_assoc] at h
    replace h := ws_unique _ _ _ _ a1 b1 (nws_value x a2 _) (nws_value x' b2 _) h
    obtain ⟨rfl, h⟩ := h
    replace h := cst_unique x x' _ _ a2 b2 (stop_ws _ _ a3 (stop_char _ _ (by simp))) (stop_ws _ _ b3 (stop_char _ _ (by simp))) h
    obtain ⟨rfl, h⟩ := h
    replace h := ws_unique _ _ _ _ a3 b3 (nws_char _ _ (by simp [IsWs])) (nws_char _ _ (by simp [IsWs])) h
    obtain ⟨rfl, h⟩ := h
    simpa using h
  | .one w1 x w2, .cons w1' x' w2' t', r, r', ⟨a1, a2, a3⟩, ⟨b1, b2, b3, b4⟩, h => by
    exfalso
    simp only [Elems.text, List.append_assoc] at h
    replace h := ws_unique _ _ _ _ a1 b1 (nws_value x a2 _) (nws_value x' b2 _) h
    obtain ⟨rfl, h⟩ := h
    replace h := cst_unique x x' _ _ a2 b2 (stop_ws _ _ a3 (stop_char _ _ (by simp))) (stop_ws _ _ b3 (stop_char _ _ (by simp))) h
    obtain ⟨rfl, h⟩ := h
    replace h := ws_unique _ _ _ _ a3 b3 (nws_char _ _ (by simp [IsWs])) (nws_char _ _ (by simp [IsWs])) h
    obtain ⟨rfl, h⟩ := h
    simp at h
  | .cons w1 x w2 t, .one w1' x' w2', r, r', ⟨a1, a2, a3, a4⟩, ⟨b1, b2, b3⟩, h => by
    exfalso
    simp only [Elems.text, List.append_assoc] at h
    replace h := ws_unique _ _ _ _ a1 b1 (nws_value x a2 _) (nws_value x' b2 _) h
    obtain ⟨rfl, h⟩ := h
    replace h := cst_unique x x' _ _ a2 b2 (stop_ws _ _ a3 (stop_char _ _ (by simp))) (stop_ws _ _ b3 (stop_char _ _ (by simp))) h
    obtain ⟨rfl, h⟩ := h
    replace h := ws_unique _ _ _ _ a3 b3 (nws_char _ _ (by simp [IsWs])) (nws_char _ _ (by simp [IsWs])) h
    obtain ⟨rfl, h⟩ := h
    simp at h
  | .cons w1 x w2 t, .cons w1' x' w2' t', r, r', ⟨a1, a2, a3, a4⟩, ⟨b1, b2, b3, b4⟩, h => by
    simp only [Elems.text, List.append_assoc] at h
    replace h := ws_unique _ _ _ _ a1 b1 (nws_value x a2 _) (nws_value x' b2 _) h
    obtain ⟨rfl, h⟩ := h
    replace h := cst_unique x x' _ _ a2 b2 (stop_ws _ _ a3 (stop_char _ _ (by simp))) (stop_ws _ _ b3 (stop_char _ _ (by simp))) h
    obtain ⟨rfl, h⟩ := h
    replace h := ws_unique _ _ _ _ a3 b3 (nws_char _ _ (by simp [IsWs])) (nws_char _ _ (by simp [IsWs])) h
    obtain ⟨rfl, h⟩ := h
    simp only [List.cons_append, List.nil_append, List.cons.injEq, true_and] at h
    obtain ⟨rfl, rfl⟩ := elems_unique t t' r r' a4 b4 h
    exact ⟨rfl, rfl⟩
theorem members_unique : ∀ (x y : Members) (r r' : Str), x.Valid → y.Valid → x.text ++ '}' :: r = y.text ++ '}' :: r' → x = y ∧ r = r'
  | .one w1 k w2 w3 x w4, .one w1' k' w2' w3' x' w4', r, r', ⟨a1, a2, a3, a4, a5, a6⟩, ⟨b1, b2, b3, b4, b5, b6⟩, h => by
    simp only [Members.text, List.append_assoc] at h
    replace h := ws_unique _ _ _ _ a1 b1 (nws_str k _) (nws_str k' _) h
    obtain ⟨rfl, h⟩ := h
    replace h := str_unique k k' _ _ a2 b2 h
    obtain ⟨rfl, h⟩ := h
    replace h := ws_unique _ _ _ _ a3 b3 (nws_char _ _ (by simp [IsWs])) (nws_char _ _ (by simp [IsWs])) h
    obtain ⟨rfl, h⟩ := h
    simp only [List.cons_append, List.nil_append, List.cons.injEq, true_and] at h
    replace h := ws_unique _ _ _ _ a4 b4 (nws_value x a5 _) (nws_value x' b5 _) h
    obtain ⟨rfl, h⟩ := h
    replace h := cst_unique x x' _ _ a5 b5 (stop_ws _ _ a6 (stop_char _ _ (by simp))) (stop_ws _ _ b6 (stop_char _ _ (by simp))) h
    obtain ⟨rfl, h⟩ := h
    replace h := ws_unique _ _ _ _ a6 b6 (nws_char _ _ (by simp [IsWs])) (nws_char _ _ (by simp [IsWs])) h
    obtain ⟨rfl, h⟩ := h
    simpa using h
  | .one w1 k w2 w3 x w4, .cons w1' k' w2' w3' x' w4' t', r, r', ⟨a1, a2, a3, a4, a5, a6⟩, ⟨⟨b1, b2, b3, b4, b5, b6⟩, b7⟩, h => by
    exfalso
    simp only [Members.text, List.append_assoc] at h
    replace h := ws_unique _ _ _ _ a1 b1 (nws_str k _) (nws_str k' _) h
    obtain ⟨rfl, h⟩ := h
    replace h := str_unique k k' _ _ a2 b2 h
    obtain ⟨rfl, h⟩ := h
    replace h := ws_unique _ _ _ _ a3 b3 (nws_char _ _ (by simp [IsWs])) (nws_char _ _ (by simp [IsWs])) h
    obtain ⟨rfl, h⟩ := h
    simp only [List.cons_append, List.nil_append, List.cons.injEq, true_and] at h
    replace h := ws_unique _ _ _ _ a4 b4 (nws_value x a5 _) (nws_value x' b5 _) h
    obtain ⟨rfl, h⟩ := h
    replace h := cst_unique x x' _ _ a5 b5 (stop_ws _ _ a6 (stop_char _ _ (by simp))) (stop_ws _ _ b6 (stop_char _ _ (by simp))) h
    obtain ⟨rfl, h⟩ := h
    replace h := ws_unique _ _ _ _ a6 b6 (nws_char _ _ (by simp [IsWs])) (nws_char _ _ (by simp [IsWs])) h
    obtain ⟨rfl, h⟩ := h
    simp at h
  | .cons w1 k w2 w3 x w4 t, .one w1' k' w2' w3' x' w4', r, r', ⟨⟨a1, a2, a3, a4, a5, a6⟩, a7⟩, ⟨b1, b2, b3, b4, b5, b6⟩, h => by
    exfalso
    simp only [Members.text, List.append_assoc] at h
    replace h := ws_unique _ _ _ _ a1 b1 (nws_str k _) (nws_str k' _) h
    obtain ⟨rfl, h⟩ := h
    replace h := str_unique k k' _ _ a2 b2 h
    obtain ⟨rfl, h⟩ := h
    replace h := ws_unique _ _ _ _ a3 b3 (nws_char _ _ (by simp [IsWs])) (nws_char _ _ (by simp [IsWs])) h
    obtain ⟨rfl, h⟩ := h
    simp only [List.cons_append, List.nil_append, List.cons.injEq, true_and] at h
    replace h := ws_unique _ _ _ _ a4 b4 (nws_value x a5 _) (nws_value x' b5 _) h
    obtain ⟨rfl, h⟩ := h
    replace h := cst_unique x x' _ _ a5 b5 (stop_ws _ _ a6 (stop_char _ _ (by simp))) (stop_ws _ _ b6 (stop_char _ _ (by simp))) h
    obtain ⟨rfl, h⟩ := h
    replace h := ws_unique _ _ _ _ a6 b6 (nws_char _ _ (by simp [IsWs])) (nws_char _ _ (by simp [IsWs])) h
    obtain ⟨rfl, h⟩ := h
    simp at h
  | .cons w1 k w2 w3 x w4 t, .cons w1' k' w2' w3' x' w4' t', r, r', ⟨⟨a1, a2, a3, a4, a5, a6⟩, a7⟩, ⟨⟨b1, b2, b3, b4, b5, b6⟩, b7⟩, h => by
    simp only [Members.text, List.append_assoc] at h
    replace h := ws_unique _ _ _ _ a1 b1 (nws_str k _) (nws_str k' _) h
    obtain ⟨rfl, h⟩ := h
    replace h := str_unique k k' _ _ a2 b2 h
    obtain ⟨rfl, h⟩ := h
    replace h := ws_unique _ _ _ _ a3 b3 (nws_char _ _ (by simp [IsWs])) (nws_char _ _ (by simp [IsWs])) h
    obtain ⟨rfl, h⟩ := h
    simp only [List.cons_append, List.nil_append, List.cons.injEq, true_and] at h
    replace h := ws_unique _ _ _ _ a4 b4 (nws_value x a5 _) (nws_value x' b5 _) h
    obtain ⟨rfl, h⟩ := h
    replace h := cst_unique x x' _ _ a5 b5 (stop_ws _ _ a6 (stop_char _ _ (by simp))) (stop_ws _ _ b6 (stop_char _ _ (by simp))) h
    obtain ⟨rfl, h⟩ := h
    replace h := ws_unique _ _ _ _ a6 b6 (nws_char _ _ (by simp [IsWs])) (nws_char _ _ (by simp [IsWs])) h
    obtain ⟨rfl, h⟩ := h
    simp only [List.cons_append, List.nil_append, List.cons.injEq, true_and] at h
    obtain ⟨rfl, rfl⟩ := members_unique t t' r r' a7 b7 h
    exact ⟨rfl, rfl⟩
end

theorem doc_unique (d d' : Doc) (h : d.Valid) (h' : d'.Valid) (he : d.text = d'.text) : d = d' := by
  obtain ⟨p, x, q⟩ := d
  obtain ⟨p', x', q'⟩ := d'
  obtain ⟨a1, a2, a3⟩ := h
  obtain ⟨b1, b2, b3⟩ := h'
  simp only [Doc.text, List.append_assoc] at he a1 a2 a3 b1 b2 b3
  have hnil : Stop [] := fun c hc => by cases hc
  replace he := ws_unique _ _ _ _ a1 b1 (nws_value x a2 _) (nws_value x' b2 _) he
  obtain ⟨rfl, he⟩ := he
  have e1 := stop_ws q [] a3 hnil
  have e2 := stop_ws q' [] b3 hnil
  rw [List.append_nil] at e1 e2
  obtain ⟨rfl, rfl⟩ := cst_unique x x' _ _ a2 b2 e1 e2 he
  rfl

end RJ
