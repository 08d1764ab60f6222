import Verif.Model.Parse
import Verif.Spec.Float
/-
  `valid_number` and `f64::from_str` together.
-/
namespace RJ
open Spec

theorem isDigit_iff (c : Char) : isDigit c = true ↔ IsDigit c := by
  simp [isDigit, IsDigit]

theorem skipDigits_append (ds rest : Str) (h : Digits ds) : skipDigits (ds ++ rest) = skipDigits rest := by
  induction ds with
  | nil => rfl
  | cons c ds ih =>
    have hc : isDigit c = true := (isDigit_iff c).mpr (h c (by simp))
    simp only [List.cons_append, skipDigits, hc, if_true]
    exact ih (fun x hx => h x (by simp [hx]))

theorem vnExp_true (s : Str) : vnExp s = true := by
  cases s with
  | nil => rfl
  | cons c s => simp [vnExp]

/-- `.frac` -/
def fracText : Option Str → Str
  | some f => '.' :: f
  | none => []

def expText : Option (Char × Str × Str) → Str
  | some (e, sg, ds) => e :: (sg ++ ds)
  | none => []

theorem NumLit_text (n : NumLit) :
    n.text = (if n.neg then ['-'] else []) ++ n.int ++ fracText n.frac ++ expText n.exp := by
  unfold NumLit.text
  congr 1

def ExpOk (x : Option (Char × Str × Str)) : Prop :=
  ∀ e sg ds, x = some (e, sg, ds) →
    (e = 'e' ∨ e = 'E') ∧ (sg = [] ∨ sg = ['+'] ∨ sg = ['-']) ∧ ds ≠ [] ∧ Digits ds

theorem expText_head {x : Option (Char × Str × Str)} (h : ExpOk x) :
    expText x = [] ∨ ∃ e t, expText x = e :: t ∧ (e = 'e' ∨ e = 'E') := by
  match x with
  | none => exact .inl rfl
  | some (e, sg, ds) => exact .inr ⟨e, _, rfl, (h e sg ds rfl).1⟩

/-- After the integer digits, the check depends on the fraction only. -/
theorem vnFrac_text {fr : Option Str} {x : Option (Char × Str × Str)} (hf : ∀ f, fr = some f → Digits f)
    (hx : ExpOk x) : vnFrac (fracText fr ++ expText x) = true ↔ fr ≠ some [] := by
  match fr, hf with
  | none, _ =>
    simp only [fracText, List.nil_append, ne_eq, reduceCtorEq, not_false_eq_true, iff_true]
    rcases expText_head hx with h | ⟨e, t, h, he⟩
    · rw [h]; rfl
    · rw [h, vnFrac.eq_def]
      simp only
      rw [if_neg (by rcases he with rfl | rfl <;> decide)]
      exact vnExp_true _
  | some [], _ =>
    simp only [fracText, List.cons_append, List.nil_append, vnFrac, if_true, ne_eq, not_true_eq_false, iff_false,
      Bool.not_eq_true]
    rcases expText_head hx with h | ⟨e, t, h, he⟩
    · rw [h]
    · rw [h]
      simp only
      rw [if_neg (by rcases he with rfl | rfl <;> decide)]
  | some (d :: f), hf =>
    simp only [fracText, List.cons_append, vnFrac, if_true, (isDigit_iff d).mpr (hf _ rfl d (by simp)), vnExp_true,
      ne_eq, Option.some.injEq, reduceCtorEq, not_false_eq_true]

theorem skipDigits_stop {fr : Option Str} {x : Option (Char × Str × Str)} (hx : ExpOk x) :
    skipDigits (fracText fr ++ expText x) = fracText fr ++ expText x := by
  match fr with
  | none =>
    simp only [fracText, List.nil_append]
    rcases expText_head hx with h | ⟨e, t, h, he⟩
    · rw [h]; rfl
    · rw [h, skipDigits, if_neg (by rcases he with rfl | rfl <;> decide)]
  | some f =>
    simp only [fracText, List.cons_append, skipDigits]
    rw [if_neg (by decide)]

theorem validNumber_text (n : NumLit) (hi : n.int ≠ [] ∧ Digits n.int) (hf : ∀ f, n.frac = some f → Digits f)
    (hx : ExpOk n.exp) :
    validNumber n.text = true ↔ (n.frac = some [] → n.int.head? = some '0' ∧ n.int ≠ ['0']) := by
  have key : vnInt (n.int ++ (fracText n.frac ++ expText n.exp)) = true ↔
      (n.frac = some [] → n.int.head? = some '0' ∧ n.int ≠ ['0']) := by
    obtain ⟨hne, hd⟩ := hi
    match hint : n.int, hne, hd with
    | c :: more, _, hd =>
      simp only [List.cons_append, vnInt]
      by_cases h0 : c = '0'
      · subst h0
        simp only [if_true, List.head?_cons, true_and]
        cases more with
        | nil =>
          simp only [List.nil_append]
          rw [vnFrac_text hf hx]
          simp
        | cons m more =>
          have hm : IsDigit m := hd m (by simp)
          have hm' : m ≠ '.' := by rintro rfl; revert hm; simp [IsDigit]
          simp only [List.cons_append, vnFrac, hm', if_false, vnExp_true]
          simp
      · rw [if_neg h0, if_pos ((isDigit_iff c).mpr (hd c (by simp)))]
        have : c :: (more ++ (fracText n.frac ++ expText n.exp)) =
          (c :: more) ++ (fracText n.frac ++ expText n.exp) := rfl
        rw [this, skipDigits_append _ _ hd, skipDigits_stop hx, vnFrac_text hf hx]
        simp [h0]
  rw [NumLit_text]
  cases n.neg with
  | true => simpa [validNumber] using key
  | false =>
    rw [← key]
    obtain ⟨hne, hd⟩ := hi
    match hint : n.int, hne, hd with
    | c :: more, _, hd =>
      have hm : IsDigit c := hd c (by simp)
      have hm' : c ≠ '-' := by rintro rfl; revert hm; simp [IsDigit]
      simp [validNumber, hm']

theorem RustFloat_of_accepted {n : NumLit} (h : n.Accepted) : RustFloat n.text := by
  obtain ⟨⟨hne, hd⟩, hf, hx⟩ := h
  rw [NumLit_text]
  have hxt : ExpText (expText n.exp) := by
    match hh : n.exp, hx with
    | none, _ => exact .inl rfl
    | some (e, sg, ds), hx =>
      obtain ⟨h1, h2, h3, h4⟩ := hx e sg ds rfl
      exact .inr ⟨e, sg, ds, rfl, h1, h2, h3, h4⟩
  refine ⟨if n.neg then ['-'] else [], n.int ++ fracText n.frac ++ expText n.exp, by simp, ?_, ?_⟩
  · cases n.neg <;> simp
  · match hh : n.frac, hf with
    | none, _ => exact .inr (.inl ⟨n.int, expText n.exp, by simp [fracText], hne, hd, hxt⟩)
    | some f, hf =>
      exact .inr (.inr ⟨n.int, f, expText n.exp, by simp [fracText], by simp [hne], hd, (hf f rfl).1, hxt⟩)

theorem expOk_of_text {ex : Str} (h : ExpText ex) : ∃ x, ExpOk x ∧ ex = expText x := by
  rcases h with rfl | ⟨e, sg, ds, rfl, h1, h2, h3, h4⟩
  · exact ⟨none, (by intro _ _ _ h; cases h), rfl⟩
  · refine ⟨some (e, sg, ds), ?_, rfl⟩
    intro e' sg' ds' h
    simp only [Option.some.injEq, Prod.mk.injEq] at h
    obtain ⟨rfl, rfl, rfl⟩ := h
    exact ⟨h1, h2, h3, h4⟩

theorem lower_digit {c : Char} (h : IsDigit c) : asciiLower c = c := by
  unfold asciiLower; unfold IsDigit at h
  rw [if_neg (by omega)]

/-- Number acceptance: `valid_number` and the std grammar together. -/
theorem accepted_iff (s : Str) (hs : ∃ c t, s = c :: t ∧ (c = '-' ∨ IsDigit c)) :
    (validNumber s = true ∧ RustFloat s) ↔ ∃ n : NumLit, n.Accepted ∧ s = n.text := by
  constructor
  · rintro ⟨hv, sg, rest, rfl, hsg, hr⟩
    -- the sign is absent or a minus
    have hsg' : ∃ b : Bool, sg = if b then ['-'] else [] := by
      rcases hsg with rfl | rfl | rfl
      · exact ⟨false, rfl⟩
      · obtain ⟨c, t, h, hc⟩ := hs
        simp only [List.cons_append, List.nil_append, List.cons.injEq] at h
        obtain ⟨rfl, _⟩ := h
        rcases hc with h | h
        · cases h
        · revert h; simp [IsDigit]
      · exact ⟨true, rfl⟩
    obtain ⟨b, rfl⟩ := hsg'
    -- the first character after the sign is a digit
    have hdig : ∃ d t, rest = d :: t ∧ IsDigit d := by
      cases b with
      | false =>
        obtain ⟨c, t, h, hc⟩ := hs
        simp only [Bool.false_eq_true, if_false, List.nil_append] at h hv
        subst h
        rcases hc with rfl | hc
        · exfalso
          rcases hr with h | ⟨int, ex, h, hne, hd, _⟩ | ⟨int, fr, ex, h, hne, hd, _⟩
          · have e : asciiLower '-' = '-' := by decide
            simp only [List.map_cons, e] at h
            rcases h with h | h | h <;> (simp at h)
          · cases int with
            | nil => exact hne rfl
            | cons x int =>
              simp only [List.cons_append, List.cons.injEq] at h
              obtain ⟨rfl, _⟩ := h
              have := hd '-' (by simp)
              revert this; simp [IsDigit]
          · cases int with
            | nil => simp at h
            | cons x int =>
              simp only [List.cons_append, List.cons.injEq] at h
              obtain ⟨rfl, _⟩ := h
              have := hd '-' (by simp)
              revert this; simp [IsDigit]
        · exact ⟨c, t, rfl, hc⟩
      | true =>
        simp only [if_true, List.cons_append, List.nil_append, validNumber] at hv
        cases rest with
        | nil => simp [vnInt] at hv
        | cons d t =>
          refine ⟨d, t, rfl, ?_⟩
          simp only [vnInt] at hv
          by_cases h0 : d = '0'
          · subst h0; simp [IsDigit]
          · rw [if_neg h0] at hv
            by_cases hd : isDigit d = true
            · exact (isDigit_iff d).mp hd
            · rw [if_neg hd] at hv; cases hv
    obtain ⟨d, t, rfl, hd⟩ := hdig
    rcases hr with h | ⟨int, ex, h, hne, hdi, hex⟩ | ⟨int, fr, ex, h, hne, hdi, hdf, hex⟩
    · exfalso
      simp only [List.map_cons, lower_digit hd] at h
      have aux : ∀ {x : Char} {l : Str}, x.toNat > 57 → d :: t.map asciiLower = x :: l → False := by
        intro x l hx h
        obtain ⟨rfl, _⟩ := List.cons.inj h
        unfold IsDigit at hd; omega
      rcases h with h | h | h
      · exact aux (x := 'i') (l := ['n', 'f']) (by decide) h
      · exact aux (x := 'i') (l := ['n', 'f', 'i', 'n', 'i', 't', 'y']) (by decide) h
      · exact aux (x := 'n') (l := ['a', 'n']) (by decide) h
    · obtain ⟨x, hx, rfl⟩ := expOk_of_text hex
      refine ⟨⟨b, int, none, x⟩, ⟨⟨hne, hdi⟩, (by intro f h; cases h), hx⟩, ?_⟩
      rw [NumLit_text, h]; simp [fracText]
    · obtain ⟨x, hx, rfl⟩ := expOk_of_text hex
      have hint : int ≠ [] := by
        rintro rfl
        simp only [List.nil_append, List.cons_append, List.cons.injEq] at h
        obtain ⟨rfl, _⟩ := h
        revert hd; simp [IsDigit]
      have ht : (if b then ['-'] else []) ++ d :: t = (⟨b, int, some fr, x⟩ : NumLit).text := by
        rw [NumLit_text, h]; simp [fracText]
      rw [ht] at hv ⊢
      have := (validNumber_text ⟨b, int, some fr, x⟩ ⟨hint, hdi⟩
        (by intro f h; simp only [Option.some.injEq] at h; subst h; exact hdf) hx).mp hv
      refine ⟨⟨b, int, some fr, x⟩, ⟨⟨hint, hdi⟩, ?_, hx⟩, rfl⟩
      intro f h
      simp only [Option.some.injEq] at h
      subst h
      exact ⟨hdf, fun hf => this (by simp [hf])⟩
  · rintro ⟨n, h, rfl⟩
    refine ⟨?_, RustFloat_of_accepted h⟩
    rw [validNumber_text n h.1 (fun f hf => (h.2.1 f hf).1) h.2.2]
    intro hf
    exact (h.2.1 [] hf).2 rfl

theorem NumLit.Loose.accepted {n : NumLit} (h : n.Loose) : n.Accepted :=
  ⟨h.1, fun f hf => ⟨(h.2.1 f hf).2, fun e => absurd e (h.2.1 f hf).1⟩, h.2.2⟩

theorem accepted_head {n : NumLit} (h : n.Accepted) : ∃ c t, n.text = c :: t ∧ (c = '-' ∨ IsDigit c) := by
  rw [NumLit_text]
  obtain ⟨⟨hne, hd⟩, _⟩ := h
  match hint : n.int, hne, hd with
  | c :: more, _, hd =>
    cases n.neg with
    | true => exact ⟨'-', _, rfl, .inl rfl⟩
    | false => exact ⟨c, _, rfl, .inr (hd c (by simp))⟩

/-- Characters of a number literal. -/
def NumChar (c : Char) : Prop := IsDigit c ∨ c = '-' ∨ c = '+' ∨ c = '.' ∨ c = 'e' ∨ c = 'E'

theorem accepted_chars {n : NumLit} (h : n.Accepted) : ∀ c ∈ n.text, NumChar c := by
  intro c hc
  obtain ⟨⟨_, hd⟩, hf, hx⟩ := h
  rw [NumLit_text] at hc
  simp only [List.mem_append] at hc
  rcases hc with ((hc | hc) | hc) | hc
  · cases hneg : n.neg <;> simp [hneg] at hc
    subst hc; exact .inr (.inl rfl)
  · exact .inl (hd c hc)
  · match hh : n.frac, hf with
    | none, _ => rw [hh] at hc; simp [fracText] at hc
    | some f, hf =>
      rw [hh] at hc
      simp only [fracText, List.mem_cons] at hc
      rcases hc with rfl | hc
      · exact .inr (.inr (.inr (.inl rfl)))
      · exact .inl ((hf f rfl).1 c hc)
  · match hh : n.exp, hx with
    | none, _ => rw [hh] at hc; simp [expText] at hc
    | some (e, sg, ds), hx =>
      obtain ⟨h1, h2, h3, h4⟩ := hx e sg ds rfl
      rw [hh] at hc
      simp only [expText, List.mem_cons, List.mem_append] at hc
      rcases hc with rfl | hc | hc
      · rcases h1 with rfl | rfl
        · exact .inr (.inr (.inr (.inr (.inl rfl))))
        · exact .inr (.inr (.inr (.inr (.inr rfl))))
      · rcases h2 with rfl | rfl | rfl
        · cases hc
        · simp at hc; subst hc; exact .inr (.inr (.inl rfl))
        · simp at hc; subst hc; exact .inr (.inl rfl)
      · exact .inl (h4 c hc)

end RJ
