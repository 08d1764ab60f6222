import Verif.Proof.Numeral
/-
  C90: numbers in attributes.
-/
set_option linter.unusedSectionVars false
namespace RJ
open Spec

theorem rlit_parse (t : Tok) (v : Lit) (h : Lit.parse t = some v) : RLit.parse t = some ⟨v, t.word⟩ := by
  rw [RLit.parse, h]; rfl

theorem two_neg (s : Str) : RMeta.parse [.punct '-', .lit s] = ((RLit.parse (.lit s)).bind RLit.neg).map .literal := rfl

/-- **C90.** A number literal of Rust as the value of an attribute, `name = x`, `name = -x`, `name: x` or `name: -x`: it is read, as the number it denotes, exactly
if it is decimal, has no underscores and, with an integer type, is below 2^31; else the attribute is refused. -/
theorem C90_value (k : Str) (eq : Char) (he : eq = '=' ∨ eq = ':') (neg : Bool) (x : Numeral) (h : x.Rust) :
    (x.Readable → ∃ v, RMeta.parse (.ident k :: .punct eq :: x.toks neg) = some (.pair k v eq) ∧ x.Is neg v.lit ∧ v.raw = x.text) ∧
    (¬ x.Readable → RMeta.parse (.ident k :: .punct eq :: x.toks neg) = none) := by
  obtain ⟨h1, h2⟩ := numeral_parse x h
  constructor
  · intro hr
    obtain ⟨v, w, hv, hw, iv, iw⟩ := h1 hr
    cases neg with
    | false =>
      refine ⟨⟨v, x.text⟩, ?_, iv, rfl⟩
      show RMeta.parse [.ident k, .punct eq, .lit x.text] = _
      rw [RMeta.parse, RMeta.parseF]
      rcases he with rfl | rfl <;> simp [Tok.isPunct, rlit_parse _ _ hv, Tok.word]
    | true =>
      refine ⟨⟨w, x.text⟩, ?_, iw, rfl⟩
      show RMeta.parse [.ident k, .punct eq, .punct '-', .lit x.text] = _
      rw [RMeta.parse, RMeta.parseF]
      rcases he with rfl | rfl <;> simp [Tok.isPunct, rlit_parse _ _ hv, Tok.word, RLit.neg, hw]
  · intro hr
    have hv := h2 hr
    have hv' : RLit.parse (.lit x.text) = none := by rw [RLit.parse, hv]; rfl
    cases neg with
    | false =>
      show RMeta.parse [.ident k, .punct eq, .lit x.text] = _
      rw [RMeta.parse, RMeta.parseF]
      rcases he with rfl | rfl <;> simp [Tok.isPunct, hv']
    | true =>
      show RMeta.parse [.ident k, .punct eq, .punct '-', .lit x.text] = _
      rw [RMeta.parse, RMeta.parseF]
      rcases he with rfl | rfl <;> simp [Tok.isPunct, hv']

/-- **C90.** The same for a number standing alone, as in `#[range(-1.5, 2)]`. -/
theorem C90_alone (neg : Bool) (x : Numeral) (h : x.Rust) :
    (x.Readable → ∃ v, RMeta.parse (x.toks neg) = some (.literal v) ∧ x.Is neg v.lit ∧ v.raw = x.text) ∧ (¬ x.Readable → RMeta.parse (x.toks neg) = none) := by
  obtain ⟨h1, h2⟩ := numeral_parse x h
  constructor
  · intro hr
    obtain ⟨v, w, hv, hw, iv, iw⟩ := h1 hr
    cases neg with
    | false =>
      refine ⟨⟨v, x.text⟩, ?_, iv, rfl⟩
      show RMeta.parse [.lit x.text] = _
      rw [RMeta.parse, RMeta.parseF]
      simp [rlit_parse _ _ hv, Tok.word]
    | true =>
      refine ⟨⟨w, x.text⟩, ?_, iw, rfl⟩
      show RMeta.parse [.punct '-', .lit x.text] = _
      rw [two_neg]
      simp [rlit_parse _ _ hv, Tok.word, RLit.neg, hw]
  · intro hr
    have hv := h2 hr
    have hv' : RLit.parse (.lit x.text) = none := by rw [RLit.parse, hv]; rfl
    cases neg with
    | false =>
      show RMeta.parse [.lit x.text] = _
      rw [RMeta.parse, RMeta.parseF]
      simp [hv']
    | true =>
      show RMeta.parse [.punct '-', .lit x.text] = _
      rw [two_neg]
      simp [hv']

/-- **C90, consequence.** The sign goes with the number: `-x` is read as minus what `x` is read as. -/
theorem C90_minus (x : Numeral) (h : x.Rust) (v w : RLit) (h1 : RMeta.parse (x.toks false) = some (.literal v)) (h2 : RMeta.parse (x.toks true) = some (.literal w)) :
    (∀ n, v.lit = .integer n → w.lit = .integer (-n)) ∧
    ∀ f, v.lit = .float f → ∃ g, w.lit = .float g ∧ signBit g = true ∧ ∀ q, value64 f = some q → value64 g = some (-q) := by
  cases hv : Lit.parse (.lit x.text) with
  | none =>
    have hv' : RLit.parse (.lit x.text) = none := by rw [RLit.parse, hv]; rfl
    have : RMeta.parse (x.toks false) = none := by
      show RMeta.parse [.lit x.text] = _
      rw [RMeta.parse, RMeta.parseF]
      simp [hv']
    rw [this] at h1; cases h1
  | some l =>
    have hr : x.Readable := by
      apply Classical.byContradiction
      intro hr
      rw [(numeral_parse x h).2 hr] at hv; cases hv
    obtain ⟨v', w', e1, e2, i1, i2⟩ := (numeral_parse x h).1 hr
    have k1 : RMeta.parse (x.toks false) = some (.literal ⟨v', x.text⟩) := by
      show RMeta.parse [.lit x.text] = _
      rw [RMeta.parse, RMeta.parseF]
      simp [rlit_parse _ _ e1, Tok.word]
    have k2 : RMeta.parse (x.toks true) = some (.literal ⟨w', x.text⟩) := by
      show RMeta.parse [.punct '-', .lit x.text] = _
      rw [two_neg]
      simp [rlit_parse _ _ e1, Tok.word, RLit.neg, e2]
    rw [k1] at h1; rw [k2] at h2
    cases h1; cases h2
    dsimp only
    constructor
    · rintro n rfl
      injection e2 with e2
      exact e2.symm
    · rintro f rfl
      have hsf : signBit f = false := by
        cases x with
        | dec ds suf =>
          by_cases hn : natOf ds < 2 ^ 31
          · cases i1.1 hn
          · obtain ⟨g, hg, a, _⟩ := i1.2 (by omega)
            cases hg; exact a
        | radix => exact False.elim i1
        | float => obtain ⟨g, hg, a, _⟩ := i1; cases hg; exact a
      injection e2 with e2
      refine ⟨_, e2.symm, ?_, ?_⟩
      · cases f with
        | fin s b h => cases s with
          | true => cases hsf
          | false => rfl
        | inf s => cases s with
          | true => cases hsf
          | false => rfl
        | nan =>
          exfalso
          have hN : ∀ n : NumLit, ¬ Approximates n (.nan : F64) := by
            rintro n ⟨_, a, b⟩
            rcases lt_or_ge |n.rat| overflow64 with hq | hq
            · obtain ⟨_, c, _⟩ := a hq; cases c
            · cases b hq
          cases x with
          | dec ds suf =>
            by_cases hn : natOf ds < 2 ^ 31
            · cases i1.1 hn
            · obtain ⟨g, hg, a⟩ := i1.2 (by omega)
              cases hg; exact hN _ a
          | radix => exact False.elim i1
          | float => obtain ⟨g, hg, a⟩ := i1; cases hg; exact hN _ a
      · intro q hq
        cases f with
        | fin s b h => cases s <;> (simp only [value64] at hq ⊢; cases hq; simp)
        | inf s => cases hq
        | nan => cases hq

/-- Beside C90: `2.5e1_f64` is refused, `2.5e1f64` is read. -/
example : (Numeral.float "2".toList (some "5".toList) (some ('e', [], "1_".toList)) "f64").Rust ∧
    ¬ (Numeral.float "2".toList (some "5".toList) (some ('e', [], "1_".toList)) "f64").Readable ∧
    (Numeral.float "2".toList (some "5".toList) (some ('e', [], "1".toList)) "f64").Rust ∧
    (Numeral.float "2".toList (some "5".toList) (some ('e', [], "1".toList)) "f64").Readable ∧
    (Numeral.float "2".toList (some "5".toList) (some ('e', [], "1".toList)) "f64").text = "2.5e1f64".toList := by
  have g1 : Grouped "2".toList := ⟨⟨'2', [], rfl, by unfold IsDigit; decide⟩, by simp [IsDigit]⟩
  have g2 : Grouped "5".toList := ⟨⟨'5', [], rfl, by unfold IsDigit; decide⟩, by simp [IsDigit]⟩
  refine ⟨⟨g1, ?_, ?_, ?_, ?_⟩, ?_, ⟨g1, ?_, ?_, ?_, ?_⟩, ?_, rfl⟩
  · intro f hf; cases hf; exact .inl g2
  · intro e sg ds hx; cases hx; exact ⟨.inl rfl, .inl rfl, by simp [IsDigit], '1', by simp, by unfold IsDigit; decide⟩
  · simp
  · simp
  · simp [Numeral.Readable, NumLit.text]
  · intro f hf; cases hf; exact .inl g2
  · intro e sg ds hx; cases hx; exact ⟨.inl rfl, .inl rfl, by simp [IsDigit], '1', by simp, by unfold IsDigit; decide⟩
  · simp
  · simp
  · simp [Numeral.Readable, NumLit.text]

/-- Beside C90: what `-1.5` is read as. -/
example : ∃ f : F64, (RMeta.parse [.punct '-', .lit "1.5".toList]) = some (.literal ⟨.float f, "1.5".toList⟩) ∧ value64 f = some (-3 / 2) := by
  have h : (Numeral.float "1".toList (some "5".toList) none "").Rust :=
    ⟨⟨⟨'1', [], rfl, by unfold IsDigit; decide⟩, by simp [IsDigit]⟩, fun f hf => by cases hf; exact .inl ⟨⟨'5', [], rfl, by unfold IsDigit; decide⟩, by simp [IsDigit]⟩,
      fun _ _ _ h => (nomatch h), by simp, by simp⟩
  have hp := (float_parse h (by simp [NumLit.text])).2.2.2
  have hv : readAs ⟨false, "1".toList, some "5".toList, none⟩ = .fin false 4609434218613702656 (by decide) := by decide +kernel
  rw [hv] at hp
  have hp : Lit.parse (.lit "1.5".toList) = some (.float (.fin false 4609434218613702656 (by decide))) := hp
  refine ⟨.fin true 4609434218613702656 (by decide), ?_, ?_⟩
  · rw [two_neg, rlit_parse _ _ hp]; rfl
  · simp only [value64]
    norm_num [ieeeValue]

end RJ
