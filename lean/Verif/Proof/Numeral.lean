import Verif.Props.ItemCases
import Verif.Spec.Numeral
/-
  Number literals in attributes (C90).
-/
set_option linter.unusedSectionVars false
namespace RJ
open Spec

theorem trimStartMatches_mem {c : Char} {p : Str} (hp : c ∉ p) : ∀ (n : Nat) (s : Str), c ∈ s → c ∈ trimStartMatches p n s
  | 0, _, h => h
  | n + 1, s, h => by
    rw [trimStartMatches]
    by_cases hs : p.isPrefixOf s = true
    · rw [if_pos hs]
      obtain ⟨t, rfl⟩ := List.isPrefixOf_iff_prefix.mp hs
      apply trimStartMatches_mem hp
      rw [List.drop_left]
      rcases List.mem_append.mp h with h | h
      · exact absurd h hp
      · exact h
    · rw [if_neg hs]; exact h

theorem trimStartMatches_suffix {p : Str} : ∀ (n : Nat) (s : Str), trimStartMatches p n s <:+ s
  | 0, s => List.suffix_rfl
  | n + 1, s => by
    rw [trimStartMatches]
    split
    · exact (trimStartMatches_suffix n _).trans (List.drop_suffix _ _)
    · exact List.suffix_rfl

theorem fixSuffix_prefix (s : Str) : ∀ l : List String, fixSuffix s l <+: s
  | [] => List.prefix_rfl
  | q :: l => by
    rw [fixSuffix]
    split
    · unfold trimEnd
      have := trimStartMatches_suffix (p := q.toList.reverse) s.length s.reverse
      have := List.reverse_prefix.mpr this
      rwa [List.reverse_reverse] at this
    · exact fixSuffix_prefix s l

theorem fixSuffix_mem {c : Char} {s : Str} (h : c ∈ s) : ∀ l : List String, (∀ q ∈ l, c ∉ q.toList) → c ∈ fixSuffix s l
  | [], _ => h
  | q :: l, hl => by
    rw [fixSuffix]
    split
    · unfold trimEnd
      rw [List.mem_reverse]
      exact trimStartMatches_mem (by rw [List.mem_reverse]; exact hl q (by simp)) _ _ (by rw [List.mem_reverse]; exact h)
    · exact fixSuffix_mem h l (fun x hx => hl x (by simp [hx]))

theorem parseI32_bad {c : Char} {r : Str} (hc : IsDigit c) {x : Char} (hx : x ∈ c :: r) (hn : ¬ IsDigit x) : parseI32 (c :: r) = none := by
  unfold parseI32
  split
  rename_i neg d hm
  have hm : (neg, d) = (false, c :: r) := by
    rw [← hm]
    split
    · rename_i h; cases h; exact absurd hc (by unfold IsDigit; decide)
    · rename_i h; cases h; exact absurd hc (by unfold IsDigit; decide)
    · rfl
  cases hm
  rw [if_pos]
  rw [Bool.or_eq_true]
  right
  have : ¬ (c :: r).all isDigit = true := by
    intro h
    rw [List.all_eq_true] at h
    exact hn ((isDigit_iff x).mp (h x hx))
  simp only [Bool.not_eq_true] at this
  rw [this]; rfl

theorem parseI32_fix {c : Char} {r : Str} (hc : IsDigit c) {x : Char} (hx : x ∈ c :: r) (hn : ¬ IsDigit x) (l : List String) (hl : ∀ q ∈ l, x ∉ q.toList) :
    parseI32 (fixSuffix (c :: r) l) = none := by
  have hm := fixSuffix_mem hx l hl
  obtain ⟨t, ht⟩ := fixSuffix_prefix (c :: r) l
  cases he : fixSuffix (c :: r) l with
  | nil => rw [he] at hm; cases hm
  | cons d u =>
    rw [he] at ht hm
    injection ht with h1 _
    subst h1
    exact parseI32_bad hc hm hn

theorem litOfText_digit {c : Char} {r : Str} (hc : IsDigit c) : litOfText (c :: r) =
    match parseI32 (fixSuffix (c :: r) intSuffixes) with
    | some n => some (.integer n)
    | none => (parseFl b64 (fixSuffix (c :: r) ["f32", "f64"])).map .float := by
  rw [litOfText]
  rw [fixQuoted_digit hc _ _ (by
    intro p hp
    simp only [List.mem_cons, List.not_mem_nil, or_false] at hp
    rcases hp with rfl | rfl | rfl | rfl | rfl <;> exact ⟨_, _, rfl, by decide⟩)]
  dsimp only
  rw [fixQuoted_digit hc _ _ (by
    intro p hp
    simp only [List.mem_cons, List.not_mem_nil, or_false] at hp
    rcases hp with rfl | rfl | rfl | rfl <;> exact ⟨_, _, rfl, by decide⟩)]
  rfl

/-- A literal that begins with a digit and has a character that is in no decimal number and in no type name. -/
theorem lit_bad {c : Char} {r : Str} (hc : IsDigit c) {x : Char} (hx : x ∈ c :: r) (hb : x = '_' ∨ x = 'x' ∨ x = 'o' ∨ x = 'b') :
    Lit.parse (.lit (c :: r)) = none := by
  have hn : ¬ IsDigit x := by rcases hb with rfl | rfl | rfl | rfl <;> (unfold IsDigit; decide)
  have hf : ∀ q ∈ ["f32", "f64"], x ∉ q.toList := by rcases hb with rfl | rfl | rfl | rfl <;> decide
  have hi : ∀ q ∈ intSuffixes, x ∉ q.toList := by rcases hb with rfl | rfl | rfl | rfl <;> decide
  rw [Lit.parse, litOfText_digit hc, parseI32_fix hc hx hn _ hi]
  dsimp only
  have hm := fixSuffix_mem hx _ hf
  obtain ⟨t, ht⟩ := fixSuffix_prefix (c :: r) ["f32", "f64"]
  cases he : fixSuffix (c :: r) ["f32", "f64"] with
  | nil => rw [he] at hm; cases hm
  | cons d u =>
    rw [he] at ht hm
    injection ht with h1 _
    subst h1
    cases hp : parseFl b64 (d :: u) with
    | none => rfl
    | some f =>
      exfalso
      have := float_chars ((parseFl_isSome b64 _).mp (by rw [hp]; rfl)) rfl hc x hm
      rcases this with h | h
      · exact hn h
      · rcases hb with rfl | rfl | rfl | rfl <;> simp at h

/-- The float a decimal literal is read as. -/
def readAs (n : NumLit) : F64 := ofDecimal b64 n.neg (decVal (n.int ++ litFrac n) 0) (litExp n - (litFrac n).length)

theorem readAs_is (n : NumLit) (hi : n.int ≠ [] ∧ Digits n.int) (hf : ∀ f, n.frac = some f → Digits f) (hx : ExpOk n.exp) : Approximates n (readAs n) := by
  obtain ⟨f, hp, h1, h2, h3⟩ := parse_rounds n hi hf hx
  have := parse_lit b64 n hi hf hx
  rw [hp] at this
  injection this with this
  have hfr : f = readAs n := this
  rw [← hfr]
  refine ⟨h1, fun h => h3 (h2.mpr h), fun h => ?_⟩
  have hnf : ¬ f.isFinite = true := fun hf => absurd (h2.mp hf) (not_lt.mpr h)
  have h1' := h1
  rw [hfr] at hnf ⊢
  unfold readAs ofDecimal Fl.mk at hnf ⊢
  split at hnf
  · exact absurd rfl hnf
  · rename_i h; rw [dif_neg h]

theorem readAs_neg (int : Str) (frac : Option Str) (exp : Option (Char × Str × Str)) :
    negLit (.float (readAs ⟨false, int, frac, exp⟩)) = some (.float (readAs ⟨true, int, frac, exp⟩)) := by
  have h : ∀ s b, ofDecimal b64 s (decVal (int ++ litFrac ⟨b, int, frac, exp⟩) 0) (litExp ⟨b, int, frac, exp⟩ - (litFrac ⟨b, int, frac, exp⟩).length) =
      ofDecimal b64 s (decVal (int ++ litFrac ⟨false, int, frac, exp⟩) 0) (litExp ⟨false, int, frac, exp⟩ - (litFrac ⟨false, int, frac, exp⟩).length) := fun _ _ => rfl
  unfold readAs
  rw [h true true]
  dsimp only
  unfold ofDecimal Fl.mk
  split <;> rfl

theorem grouped_digits {s : Str} (h : ∀ c ∈ s, IsDigit c ∨ c = '_') (hu : '_' ∉ s) : Digits s := by
  intro c hc
  rcases h c hc with h | rfl
  · exact h
  · exact absurd hc hu

theorem numLit_mem {int : Str} {frac : Option Str} {exp : Option (Char × Str × Str)} {x : Char} (h : x ∈ NumLit.text ⟨false, int, frac, exp⟩) :
    x ∈ int ∨ (∃ f, frac = some f ∧ (x = '.' ∨ x ∈ f)) ∨ ∃ e sg ds, exp = some (e, sg, ds) ∧ (x = e ∨ x ∈ sg ∨ x ∈ ds) := by
  unfold NumLit.text at h
  rcases frac with _ | f <;> rcases exp with _ | ⟨e, sg, ds⟩ <;> simp at h ⊢ <;> tauto

/-- A float literal without underscores. -/
theorem float_parse {int : Str} {frac : Option Str} {exp : Option (Char × Str × Str)} {suf : String} (h : (Numeral.float int frac exp suf).Rust)
    (hu : '_' ∉ NumLit.text ⟨false, int, frac, exp⟩) :
    (int ≠ [] ∧ Digits int) ∧ (∀ f, frac = some f → Digits f) ∧ ExpOk exp ∧
      Lit.parse (.lit (NumLit.text ⟨false, int, frac, exp⟩ ++ suf.toList)) = some (.float (readAs ⟨false, int, frac, exp⟩)) := by
  obtain ⟨⟨⟨c, t, rfl, hc⟩, hi⟩, hf, hx, hs, hne⟩ := h
  have hu1 : '_' ∉ c :: t := fun h => hu (by unfold NumLit.text; simp at h ⊢; tauto)
  have hd := grouped_digits hi hu1
  have hu2 : ∀ f, frac = some f → Digits f := by
    rintro f rfl
    have hnf : '_' ∉ f := fun h => hu (by unfold NumLit.text; simp [h])
    rcases hf f rfl with h | h
    · exact grouped_digits h.2 hnf
    · rw [h.1]; exact fun _ h => nomatch h
  have hu3 : ExpOk exp := by
    intro e sg ds he
    subst he
    obtain ⟨h1, h2, h3, x, h4, _⟩ := hx e sg ds rfl
    have hnf : '_' ∉ ds := fun h => hu (by unfold NumLit.text; simp [h])
    exact ⟨h1, h2, List.ne_nil_of_mem h4, grouped_digits h3 hnf⟩
  refine ⟨⟨by simp, hd⟩, hu2, hu3, ?_⟩
  have hpl := parse_lit b64 ⟨false, c :: t, frac, exp⟩ ⟨by simp, hd⟩ hu2 hu3
  obtain ⟨r, hr⟩ : ∃ r, NumLit.text ⟨false, c :: t, frac, exp⟩ = c :: r := ⟨_, by unfold NumLit.text; simp; rfl⟩
  have hchars : ∀ x ∈ NumLit.text ⟨false, c :: t, frac, exp⟩, IsDigit x ∨ x ∈ ['.', 'e', 'E', '+', '-'] :=
    float_chars ((parseFl_isSome b64 _).mp (by rw [hpl]; rfl)) hr hc
  have hnof : 'f' ∉ NumLit.text ⟨false, c :: t, frac, exp⟩ := by
    intro h
    rcases hchars _ h with h | h
    · exact absurd h (by unfold IsDigit; decide)
    · simp at h
  have hmem : ∀ x ∈ NumLit.text ⟨false, c :: t, frac, exp⟩ ++ suf.toList, x ≠ 'u' ∧ x ≠ 'i' := by
    intro x hx
    rcases List.mem_append.mp hx with hx | hx
    · rcases hchars x hx with h | h
      · constructor <;> (rintro rfl; exact absurd h (by unfold IsDigit; decide))
      · constructor <;> (rintro rfl; simp at h)
    · rcases hs with rfl | rfl | rfl
      · simp at hx
      · have : ∀ y ∈ "f32".toList, y ≠ 'u' ∧ y ≠ 'i' := by decide
        exact this x hx
      · have : ∀ y ∈ "f64".toList, y ≠ 'u' ∧ y ≠ 'i' := by decide
        exact this x hx
  have hint : fixSuffix (NumLit.text ⟨false, c :: t, frac, exp⟩ ++ suf.toList) intSuffixes = NumLit.text ⟨false, c :: t, frac, exp⟩ ++ suf.toList := by
    have : ∀ (s : Str), (∀ x ∈ s, x ≠ 'u' ∧ x ≠ 'i') → ∀ l : List String, (∀ q ∈ l, q ∈ intSuffixes) → fixSuffix s l = s := by
      intro s hs l
      induction l with
      | nil => intro _; rfl
      | cons q l ih =>
        intro hl
        rw [fixSuffix, if_neg, ih (fun x hx => hl x (by simp [hx]))]
        intro hq
        obtain ⟨d, u, h1, h2⟩ := suffix_head q (hl q (by simp))
        have := hs d ((List.isSuffixOf_iff_suffix.mp hq).subset (by rw [h1]; simp))
        rcases h2 with rfl | rfl
        · exact this.1 rfl
        · exact this.2 rfl
    exact this _ hmem _ (fun _ h => h)
  have hnotint : parseI32 (NumLit.text ⟨false, c :: t, frac, exp⟩ ++ suf.toList) = none := by
    have hbad : ∃ x ∈ NumLit.text ⟨false, c :: t, frac, exp⟩ ++ suf.toList, ¬ IsDigit x := by
      rcases frac with _ | f
      · rcases exp with _ | ⟨e, sg, ds⟩
        · rcases hs with rfl | rfl | rfl
          · exact absurd ⟨rfl, rfl, rfl⟩ hne
          · exact ⟨'f', by simp, by unfold IsDigit; decide⟩
          · exact ⟨'f', by simp, by unfold IsDigit; decide⟩
        · refine ⟨e, by unfold NumLit.text; simp, ?_⟩
          rcases (hx e sg ds rfl).1 with rfl | rfl <;> (unfold IsDigit; decide)
      · exact ⟨'.', by unfold NumLit.text; simp, by unfold IsDigit; decide⟩
    obtain ⟨x, h1, h2⟩ := hbad
    rw [hr] at h1 ⊢
    exact parseI32_bad hc h1 h2
  have hfl : fixSuffix (NumLit.text ⟨false, c :: t, frac, exp⟩ ++ suf.toList) ["f32", "f64"] = NumLit.text ⟨false, c :: t, frac, exp⟩ := by
    have hno : ∀ q ∈ ["f32", "f64"], ¬ (q : String).toList <:+ NumLit.text ⟨false, c :: t, frac, exp⟩ := by
      intro q hq h
      refine hnof (h.subset ?_)
      simp at hq
      rcases hq with rfl | rfl <;> decide
    rcases hs with rfl | rfl | rfl
    · rw [show ("" : String).toList = [] from rfl, List.append_nil, fixSuffix, if_neg, fixSuffix, if_neg, fixSuffix]
      · rw [List.isSuffixOf_iff_suffix]; exact hno _ (by simp)
      · rw [List.isSuffixOf_iff_suffix]; exact hno _ (by simp)
    · rw [fixSuffix, if_pos (by rw [List.isSuffixOf_iff_suffix]; exact List.suffix_append _ _)]
      exact trimEnd_one (by decide) (hno _ (by simp))
    · rw [fixSuffix, if_neg, fixSuffix, if_pos (by rw [List.isSuffixOf_iff_suffix]; exact List.suffix_append _ _)]
      · exact trimEnd_one (by decide) (hno _ (by simp))
      · rw [List.isSuffixOf_iff_suffix]
        intro h
        rcases suffix_or h with h | h <;> revert h <;> decide
  rw [Lit.parse]
  have := litOfText_digit (c := c) (r := r ++ suf.toList) hc
  rw [← List.cons_append, ← hr] at this
  rw [this, hint, hnotint]
  dsimp only
  rw [hfl, hpl]
  rfl

theorem wide_parse {ds : Str} (hne : ds ≠ []) (hd : Digits ds) (hv : 2 ^ 31 ≤ natOf ds) : Lit.parse (.lit ds) = some (.float (readAs ⟨false, ds, none, none⟩)) := by
  have h := lit_wide (suf := []) hne hd hv (.inl rfl)
  rw [List.append_nil] at h
  have hs : fixSuffix ds ["f32", "f64"] = ds := by
    have h : ∀ f ∈ ["f32", "f64"], ¬ (f.toList.isSuffixOf ds) = true := by
      intro f hf h
      have hm := List.isSuffixOf_iff_suffix.mp h
      have : 'f' ∈ ds := hm.subset (by simp at hf; rcases hf with rfl | rfl <;> decide)
      exact absurd (hd _ this) (by unfold IsDigit; decide)
    rw [fixSuffix, if_neg (h _ (by simp)), fixSuffix, if_neg (h _ (by simp)), fixSuffix]
  have hpl := parse_lit b64 ⟨false, ds, none, none⟩ ⟨hne, hd⟩ (fun _ h => nomatch h) (fun _ _ _ h => nomatch h)
  have ht : NumLit.text ⟨false, ds, none, none⟩ = ds := by unfold NumLit.text; simp
  rw [ht] at hpl
  rw [h, hs, hpl]
  rfl

/-- Numbers without a minus sign. -/
theorem numeral_parse (x : Numeral) (h : x.Rust) :
    (x.Readable → ∃ v w, Lit.parse (.lit x.text) = some v ∧ negLit v = some w ∧ x.Is false v ∧ x.Is true w) ∧ (¬ x.Readable → Lit.parse (.lit x.text) = none) := by
  cases x with
  | dec ds suf =>
    obtain ⟨⟨⟨c, t, rfl, hc⟩, hi⟩, hs⟩ := h
    have hs' : suf.toList = [] ∨ ∃ s ∈ intSuffixes, suf.toList = s.toList := by
      rcases hs with rfl | hs
      · exact .inl rfl
      · exact .inr ⟨suf, hs, rfl⟩
    constructor
    · rintro ⟨hu, hr⟩
      have hd := grouped_digits hi hu
      by_cases hv : natOf (c :: t) < 2 ^ 31
      · refine ⟨_, _, num_parse (by simp) hd hv hs', rfl, ⟨fun _ => rfl, fun h => absurd hv (by omega)⟩, ⟨fun _ => rfl, fun h => absurd hv (by omega)⟩⟩
      · rcases hr with rfl | hr
        · have hp := wide_parse (by simp) hd (Nat.not_lt.mp hv)
          have hx : ∀ b, Approximates ⟨b, c :: t, none, none⟩ (readAs ⟨b, c :: t, none, none⟩) := fun b =>
            readAs_is _ ⟨by simp, hd⟩ (fun _ h => nomatch h) (fun _ _ _ h => nomatch h)
          refine ⟨_, _, ?_, readAs_neg _ _ _, ⟨fun h => absurd h hv, fun _ => ⟨_, rfl, hx false⟩⟩, ⟨fun h => absurd h hv, fun _ => ⟨_, rfl, hx true⟩⟩⟩
          rw [Numeral.text, show ("" : String).toList = [] from rfl, List.append_nil]
          exact hp
        · exact absurd hr hv
    · intro hn
      rw [Numeral.text]
      by_cases hu : '_' ∈ c :: t
      · exact lit_bad hc (x := '_') (r := _ ++ suf.toList) (by rw [← List.cons_append]; exact List.mem_append_left _ hu) (.inl rfl)
      · have hd := grouped_digits hi hu
        have hn : ¬ (suf = "" ∨ natOf (c :: t) < 2 ^ 31) := fun h => hn ⟨hu, h⟩
        rcases hs with rfl | hs
        · exact absurd (.inl rfl) hn
        · exact lit_wide_refused (by simp) hd (by omega) hs
  | radix b ds suf =>
    refine And.intro (fun h => False.elim h) (fun _ => ?_)
    rw [Numeral.text]
    refine lit_bad (x := b) (by unfold IsDigit; decide) (by simp) ?_
    exact .inr h
  | float int frac exp suf =>
    constructor
    · intro hu
      obtain ⟨h1, h2, h3, h4⟩ := float_parse h hu
      exact ⟨_, _, h4, readAs_neg _ _ _, ⟨_, rfl, readAs_is _ h1 h2 h3⟩, ⟨_, rfl, readAs_is _ h1 h2 h3⟩⟩
    · intro hu
      have hu : '_' ∈ NumLit.text ⟨false, int, frac, exp⟩ := Classical.not_not.mp hu
      obtain ⟨⟨⟨c, t, rfl, hc⟩, _⟩, _⟩ := h
      obtain ⟨r, hr⟩ : ∃ r, NumLit.text ⟨false, c :: t, frac, exp⟩ = c :: r := ⟨_, by unfold NumLit.text; simp; rfl⟩
      rw [Numeral.text, hr]
      rw [hr] at hu
      exact lit_bad hc (x := '_') (r := _ ++ suf.toList) (by rw [← List.cons_append]; exact List.mem_append_left _ hu) (.inl rfl)

end RJ
