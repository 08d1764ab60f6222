import Verif.Proof.StructGram
import Verif.Proof.IeeeLit
import Verif.Spec.Items
/-
  Attributes of the declaration grammar: read as what they are, written back in canonical form.
-/
set_option linter.unusedSectionVars false
namespace RJ
open Spec

/-! ### Values -/

theorem strLit_inside {v : StrLit} (h : v.Plain) : Lit.parse (.lit v.text) = some (.string v.inside) := by
  cases v with
  | cooked l => rw [Lit.parse, StrLit.text, litOfText_cooked, cooked_key h.1 h.2]; rfl
  | raw n s =>
    obtain ⟨h1, h2, h3, h4, h5⟩ := h
    rw [Lit.parse, StrLit.text]
    apply litOfText_raw h1
    · rintro ⟨t, ht⟩
      apply h5
      have : ('r' :: List.replicate n '#') ++ '"' :: t = s ++ '"' :: List.replicate n '#' := by
        simpa [rawOpen, rawClose] using ht
      exact (split_at_char (by simp) h2 this).symm
    · rintro ⟨t, rfl⟩
      exact h2 (by simp [rawClose])

theorem fixQuoted_digit {c : Char} (hc : IsDigit c) (r : Str) : ∀ l : List (String × String), (∀ p ∈ l, ∃ d t, p.1.toList = d :: t ∧ (d = 'b' ∨ d = '"' ∨ d = 'r')) →
    fixQuoted (c :: r) l = none
  | [], _ => rfl
  | (p, q) :: l, h => by
    obtain ⟨d, t, hd, hc'⟩ := h (p, q) (by simp)
    rw [fixQuoted, if_neg, fixQuoted_digit hc r l (fun x hx => h x (by simp [hx]))]
    dsimp only at hd
    rw [hd]
    have : d ≠ c := by
      rintro rfl
      rcases hc' with rfl | rfl | rfl <;> exact absurd hc (by unfold IsDigit; decide)
    simp [this]

theorem suffix_or : ∀ {q a s : Str}, q <:+ a ++ s → q <:+ s ∨ s <:+ q := by
  intro q a s h
  rcases Nat.le_total q.length s.length with hl | hl
  · exact .inl (List.suffix_of_suffix_length_le h (List.suffix_append a s) hl)
  · exact .inr (List.suffix_of_suffix_length_le (List.suffix_append a s) h hl)

theorem suffix_table : ∀ q ∈ intSuffixes, ∀ s ∈ intSuffixes, (q.toList <:+ s.toList ∨ s.toList <:+ q.toList) → q = s := by decide

theorem suffix_head : ∀ q ∈ intSuffixes, ∃ c t, q.toList = c :: t ∧ (c = 'u' ∨ c = 'i') := by
  intro q hq
  simp only [intSuffixes, List.mem_cons, List.not_mem_nil, or_false] at hq
  rcases hq with rfl | rfl | rfl | rfl | rfl | rfl | rfl | rfl | rfl | rfl | rfl | rfl <;> exact ⟨_, _, rfl, by decide⟩

theorem suffix_of_digits {q : String} (hq : q ∈ intSuffixes) {ds : Str} (hd : Digits ds) : ¬ q.toList <:+ ds := by
  obtain ⟨c, t, h1, h2⟩ := suffix_head q hq
  rintro ⟨a, rfl⟩
  rw [h1] at hd
  have := hd c (by simp)
  rcases h2 with rfl | rfl <;> exact absurd this (by unfold IsDigit; decide)

theorem trimStartMatches_no (p : Str) (n : Nat) (s : Str) (h : ¬ p <+: s) : trimStartMatches p n s = s := by
  cases n with
  | zero => rfl
  | succ n => rw [trimStartMatches, if_neg (by rw [List.isPrefixOf_iff_prefix]; exact h)]

theorem trimEnd_one {q ds : Str} (hq : q ≠ []) (h : ¬ q <:+ ds) : trimEnd q (ds ++ q) = ds := by
  unfold trimEnd
  have hl : (ds ++ q).length = (ds ++ q).length - 1 + 1 := by
    have := List.length_pos_iff.mpr hq
    simp; omega
  rw [hl, trimStartMatches, if_pos (by rw [List.isPrefixOf_iff_prefix, List.reverse_append]; exact List.prefix_append _ _), List.reverse_append,
    show q.reverse.length = q.reverse.length from rfl, List.drop_left, trimStartMatches_no, List.reverse_reverse]
  intro hp
  exact h (List.reverse_prefix.mp hp)

theorem fixSuffix_num {ds : Str} (hd : Digits ds) {suf : Str} (hs : suf = [] ∨ ∃ s ∈ intSuffixes, suf = s.toList) :
    fixSuffix (ds ++ suf) intSuffixes = ds := by
  rcases hs with rfl | ⟨s, hs, rfl⟩
  · rw [List.append_nil]
    have : ∀ l : List String, (∀ q ∈ l, q ∈ intSuffixes) → fixSuffix ds l = ds := by
      intro l
      induction l with
      | nil => intro _; rfl
      | cons q l ih =>
        intro h
        rw [fixSuffix, if_neg (by rw [List.isSuffixOf_iff_suffix]; exact suffix_of_digits (h q (by simp)) hd), ih (fun x hx => h x (by simp [hx]))]
    exact this _ (fun _ h => h)
  · have : ∀ l : List String, (∀ q ∈ l, q ∈ intSuffixes) → s ∈ l → fixSuffix (ds ++ s.toList) l = ds := by
      intro l
      induction l with
      | nil => intro _ h; cases h
      | cons q l ih =>
        intro h hm
        rw [fixSuffix]
        by_cases hq : q.toList.isSuffixOf (ds ++ s.toList) = true
        · rw [if_pos hq]
          rw [List.isSuffixOf_iff_suffix] at hq
          have : q = s := suffix_table q (h q (by simp)) s hs (suffix_or hq)
          subst this
          obtain ⟨c, t, h1, _⟩ := suffix_head q hs
          exact trimEnd_one (by rw [h1]; simp) (suffix_of_digits hs hd)
        · rw [if_neg hq]
          refine ih (fun x hx => h x (by simp [hx])) ?_
          rcases List.mem_cons.mp hm with rfl | hm
          · exact absurd (by rw [List.isSuffixOf_iff_suffix]; exact List.suffix_append _ _) hq
          · exact hm
    exact this _ (fun _ h => h) hs

theorem digits_all {ds : Str} (h : Digits ds) : ds.all isDigit = true := by
  rw [List.all_eq_true]
  exact fun c hc => (isDigit_iff c).mpr (h c hc)

theorem num_parse {ds suf : Str} (hne : ds ≠ []) (hd : Digits ds) (hv : natOf ds < 2 ^ 31) (hs : suf = [] ∨ ∃ s ∈ intSuffixes, suf = s.toList) :
    Lit.parse (.lit (ds ++ suf)) = some (.integer (natOf ds)) := by
  obtain ⟨c, r, rfl⟩ := List.exists_cons_of_ne_nil hne
  have hc := hd c (by simp)
  rw [Lit.parse, litOfText]
  rw [List.cons_append, fixQuoted_digit hc _ _ (by
    intro p hp
    simp only [List.mem_cons, List.not_mem_nil, or_false] at hp
    rcases hp with rfl | rfl | rfl | rfl | rfl <;> exact ⟨_, _, rfl, by decide⟩)]
  dsimp only
  rw [fixQuoted_digit hc _ _ (by
    intro p hp
    simp only [List.mem_cons, List.not_mem_nil, or_false] at hp
    rcases hp with rfl | rfl | rfl | rfl <;> exact ⟨_, _, rfl, by decide⟩)]
  dsimp only
  rw [show fixSuffix (c :: (r ++ suf)) ["u8", "u16", "u32", "u64", "u128", "usize", "i8", "i16", "i32", "i64", "i128", "isize"] = c :: r from fixSuffix_num hd hs]
  have hp : parseI32 (c :: r) = some (natOf (c :: r) : Int) := by
    unfold parseI32
    split
    rename_i neg d hm
    have hm : (neg, d) = (false, c :: r) := by
      rw [← hm]
      split
      · rename_i h; cases h; exact absurd hc (by unfold IsDigit; decide)
      · rename_i h; cases h; exact absurd hc (by unfold IsDigit; decide)
      · rfl
    cases hm
    rw [if_neg (by rw [digits_all hd]; simp), decVal_natOf]
    simp only [Bool.false_eq_true, if_false]
    rw [if_pos]
    constructor <;> omega
  rw [hp]

/-- A value without minus sign. -/
theorem val_parse {v : AVal} (h : v.Ok) (hn : ∀ ds suf, v ≠ .num true ds suf) : RLit.parse v.tok = some ⟨v.lit, v.tok.word⟩ := by
  unfold RLit.parse
  cases v with
  | str v => rw [AVal.tok, strLit_inside h]; rfl
  | flag b => cases b <;> rfl
  | num neg ds suf =>
    cases neg with
    | true => exact absurd rfl (hn ds suf)
    | false => rw [AVal.tok, num_parse h.1 h.2.1 h.2.2.1 h.2.2.2]; rfl

theorem val_neg_parse {ds suf : Str} (h : (AVal.num true ds suf).Ok) :
    (RLit.parse (.lit (ds ++ suf))).bind RLit.neg = some ⟨(AVal.num true ds suf).lit, ds ++ suf⟩ := by
  unfold RLit.parse
  rw [num_parse h.1 h.2.1 h.2.2.1 h.2.2.2]; rfl

theorem val_tok (v : AVal) : RLit.tok ⟨v.lit, v.tok.word⟩ = v.canon.tok ∧ v.canon.toks = [v.canon.tok] := by
  cases v with
  | str v => exact ⟨rfl, rfl⟩
  | flag b => cases b <;> exact ⟨rfl, rfl⟩
  | num neg ds suf => exact ⟨rfl, rfl⟩

/-! ### Attributes -/

theorem annsToks_eq : ∀ l, annsToks l = l.map Ann.toks
  | [] => rfl
  | a :: l => by rw [annsToks, annsToks_eq l]; rfl

theorem annsOk_iff : ∀ l, AnnsOk l ↔ ∀ a ∈ l, a.Ok
  | [] => by simp [AnnsOk]
  | a :: l => by simp [AnnsOk, annsOk_iff l]

theorem annsCanon_eq : ∀ l, annsCanon l = l.map Ann.canon
  | [] => rfl
  | a :: l => by rw [annsCanon, annsCanon_eq l]; rfl

theorem rmetasToks_eq : ∀ l, rmetasToks l = l.map RMeta.toks
  | [] => rfl
  | a :: l => by rw [rmetasToks, rmetasToks_eq l]; rfl

theorem ann_noComma {a : Ann} (h : a.Ok) : (∀ t ∈ a.toks, t.isPunct ',' = false) ∧ a.toks ≠ [] := by
  have hv : ∀ v : AVal, (∀ t ∈ v.toks, t.isPunct ',' = false) ∧ v.toks ≠ [] := by
    intro v
    cases v with
    | str v => exact ⟨by intro t ht; simp [AVal.toks, AVal.tok] at ht; subst ht; rfl, by simp [AVal.toks]⟩
    | flag b => exact ⟨by intro t ht; simp [AVal.toks, AVal.tok] at ht; subst ht; rfl, by simp [AVal.toks]⟩
    | num n ds suf =>
      cases n
      · exact ⟨by intro t ht; simp [AVal.toks, AVal.tok] at ht; subst ht; rfl, by simp [AVal.toks]⟩
      · exact ⟨by intro t ht; simp [AVal.toks] at ht; rcases ht with rfl | rfl <;> rfl, by simp [AVal.toks]⟩
  cases a with
  | word s => exact ⟨by intro t ht; simp [Ann.toks] at ht; subst ht; rfl, by simp [Ann.toks]⟩
  | lit v => exact hv v
  | pair k eq v =>
    refine ⟨?_, by simp [Ann.toks]⟩
    intro t ht
    simp only [Ann.toks, List.mem_cons] at ht
    rcases ht with rfl | rfl | ht
    · rfl
    · rcases h.1 with rfl | rfl <;> rfl
    · exact (hv v).1 t ht
  | list k d args c => exact ⟨by intro t ht; simp [Ann.toks] at ht; rcases ht with rfl | rfl <;> rfl, by simp [Ann.toks]⟩

theorem rmeta_pair (fuel : Nat) (k : Str) (eq : Char) (v : Tok) (he : eq = '=' ∨ eq = ':') (l : RLit) (hl : RLit.parse v = some l) :
    RMeta.parseF (fuel + 1) [.ident k, .punct eq, v] = some (.pair k l eq) := by
  rw [RMeta.parseF.eq_def]
  dsimp only
  rcases he with rfl | rfl
  · rw [if_pos (by rfl), hl]; rfl
  · rw [if_pos (by rfl), hl]; rfl

theorem rmeta_pair_neg (fuel : Nat) (k : Str) (eq : Char) (v : Tok) (he : eq = '=' ∨ eq = ':') (l : RLit) (hl : (RLit.parse v).bind RLit.neg = some l) :
    RMeta.parseF (fuel + 1) [.ident k, .punct eq, .punct '-', v] = some (.pair k l eq) := by
  rw [RMeta.parseF.eq_def]
  dsimp only
  rcases he with rfl | rfl
  · rw [if_pos (by rfl), if_pos (by rfl), hl]; rfl
  · rw [if_pos (by rfl), if_pos (by rfl), hl]; rfl

theorem rmeta_lit (fuel : Nat) {v : AVal} (h : v.Ok) : RMeta.parseF (fuel + 1) v.toks = some (.literal ⟨v.lit, v.tok.word⟩) := by
  cases v with
  | str v =>
    have := val_parse h (by simp)
    rw [AVal.toks, RMeta.parseF.eq_def, AVal.tok]
    dsimp only
    rw [AVal.tok] at this
    rw [this]; rfl
    simp
  | flag b =>
    cases b <;> (rw [AVal.toks, RMeta.parseF.eq_def, AVal.tok]; rfl; simp)
  | num neg ds suf =>
    cases neg with
    | true =>
      rw [AVal.toks, RMeta.parseF.eq_def]
      dsimp only
      rw [if_pos (by rfl), val_neg_parse h]; rfl
    | false =>
      have := val_parse h (by simp)
      rw [AVal.toks, RMeta.parseF.eq_def, AVal.tok]
      dsimp only
      rw [AVal.tok] at this
      rw [this]; rfl
      simp

theorem rmeta_pairVal (fuel : Nat) (k : Str) (eq : Char) (he : eq = '=' ∨ eq = ':') {v : AVal} (h : v.Ok) :
    RMeta.parseF (fuel + 1) (.ident k :: .punct eq :: v.toks) = some (.pair k ⟨v.lit, v.tok.word⟩ eq) := by
  by_cases hn : ∃ ds suf, v = .num true ds suf
  · obtain ⟨ds, suf, rfl⟩ := hn
    exact rmeta_pair_neg fuel k eq _ he _ (val_neg_parse h)
  · have hn' : ∀ ds suf, v ≠ .num true ds suf := fun ds suf e => hn ⟨ds, suf, e⟩
    have : v.toks = [v.tok] := by
      cases v with
      | str v => rfl
      | flag b => rfl
      | num neg ds suf =>
        cases neg with
        | true => exact absurd rfl (hn' ds suf)
        | false => rfl
    rw [this]
    exact rmeta_pair fuel k eq _ he _ (val_parse h hn')

theorem annsAre_of : ∀ (as : List Ann) (l : List RMeta), AllTwo AnnIs as l → AnnsAre as l
  | [], [], _ => rfl
  | a :: as, m :: ms, h => ⟨m, ms, rfl, h.1, annsAre_of as ms h.2⟩
  | [], _ :: _, h => h.elim
  | _ :: _, [], h => h.elim

/-- Accepted, read as what it is, written back in canonical form. -/
theorem ann_parse : ∀ (fuel : Nat) (a : Ann), toksSize a.toks < fuel → a.Ok → ∃ m, RMeta.parseF fuel a.toks = some m ∧ AnnIs a m ∧ m.toks = a.canon.toks := by
  intro fuel
  induction fuel with
  | zero => intro a h; omega
  | succ fuel ih =>
    intro a hf h
    cases a with
    | word s =>
      refine ⟨.ident s, ?_, rfl, rfl⟩
      rw [Ann.toks, RMeta.parseF.eq_def]
      dsimp only
      unfold RLit.parse
      rw [Lit.parse, if_neg h.1, if_neg h.2]; rfl
    | lit v =>
      refine ⟨_, rmeta_lit fuel h, ⟨_, rfl, rfl⟩, ?_⟩
      rw [RMeta.toks, (val_tok v).1, Ann.canon, Ann.toks, (val_tok v).2]
    | pair k eq v =>
      refine ⟨_, rmeta_pairVal fuel k eq h.1 h.2, ⟨_, rfl, rfl⟩, ?_⟩
      rw [RMeta.toks, (val_tok v).1, Ann.canon, Ann.toks, (val_tok v).2]
    | list k d args c =>
      rw [Ann.Ok, annsOk_iff] at h
      have hnc : ∀ x ∈ args.map Ann.toks, (∀ t ∈ x, t.isPunct ',' = false) ∧ x ≠ [] := by
        intro x hx
        obtain ⟨a, ha, rfl⟩ := List.mem_map.mp hx
        exact ann_noComma (h.2 a ha)
      have hsz : toksSize (joinWith [.punct ','] (args.map Ann.toks)) < fuel := by
        have h2 := toksSize_append (joinWith [.punct ','] (args.map Ann.toks)) (optComma c)
        simp only [Ann.toks, annsToks_eq, toksSize, Tok.size] at hf
        omega
      obtain ⟨ms, h1, h2⟩ := collectO_allTwo (fun a : Ann => RMeta.parseF fuel a.toks) (fun a m => AnnIs a m ∧ m.toks = a.canon.toks) args (by
        intro a ha
        have := toksSize_join [.punct ','] (args.map Ann.toks) a.toks (List.mem_map_of_mem ha)
        exact ih a (by omega) (h.2 a ha))
      have h3 : AllTwo AnnIs args ms ∧ ms.map RMeta.toks = (args.map Ann.canon).map Ann.toks := by
        clear h1 hsz hnc h hf ih
        induction args generalizing ms with
        | nil => cases ms with
          | nil => exact ⟨trivial, rfl⟩
          | cons => exact h2.elim
        | cons a args iha => cases ms with
          | nil => exact h2.elim
          | cons m ms =>
            obtain ⟨i1, i2⟩ := iha ms h2.2
            exact ⟨⟨h2.1.1, i1⟩, by simp only [List.map_cons]; rw [h2.1.2, i2]⟩
      refine ⟨.group k ms, ?_, ⟨ms, rfl, annsAre_of _ _ h3.1⟩, ?_⟩
      · rw [Ann.toks, RMeta.parseF.eq_def]
        dsimp only
        have hne : ¬ (joinWith [.punct ','] (annsToks args) ++ optComma c).isEmpty = true := by
          have := joinWith_ne_nil [.punct ','] (args.map Ann.toks) (by simpa using h.1) (fun a h => (hnc a h).2)
          rw [annsToks_eq]
          simp [this]
        rw [if_neg (by simp [Tok.isPunct]), if_neg hne, annsToks_eq,
          show optComma c = (if c then [.punct ','] else []) from rfl, splitComma_join _ c (by simpa using h.1) hnc, List.map_map]
        rw [show (RMeta.parseF fuel ∘ Ann.toks) = (fun a : Ann => RMeta.parseF fuel a.toks) from rfl, h1]
        rfl
      · rw [RMeta.toks, Ann.canon, Ann.toks, rmetasToks_eq, joinToks_eq, h3.2, annsToks_eq, annsCanon_eq]
        simp [optComma]

/-! ### The attributes in front of something -/

theorem rmetaLoop_hash (l : List (List Tok)) (rest : List Tok) (hr : ∀ t, rest.head? = some t → t.isPunct '#' = false) :
    rmetaLoop (hashToks l ++ rest) = collectO (l.map RMeta.parse) := by
  induction l with
  | nil =>
    rw [List.map_nil, collectO]
    match rest, hr with
    | [], _ => rfl
    | [t], hr => rw [show hashToks [] ++ [t] = [t] from rfl, rmetaLoop.eq_def]; simp [hr t rfl]
    | t :: g :: rest, hr => rw [show hashToks [] ++ t :: g :: rest = t :: g :: rest from rfl, rmetaLoop.eq_def]; simp [hr t rfl]
  | cons a l ih =>
    rw [show hashToks (a :: l) ++ rest = .punct '#' :: .group .bracket a :: (hashToks l ++ rest) from rfl, rmetaLoop.eq_def]
    dsimp only
    rw [if_pos (by rfl)]
    simp only [List.map_cons]
    cases h : RMeta.parse a with
    | none => rfl
    | some it => rw [ih, collectO]

theorem parseMetas_hash (a : List Tok) (l : List (List Tok)) (rest : List Tok) (hr : ∀ t, rest.head? = some t → t.isPunct '#' = false) :
    parseMetas (hashToks (a :: l) ++ rest) = collectO ((a :: l).map RMeta.parse) := by
  unfold parseMetas
  rw [if_neg (by simp [hashToks])]
  have h2 : (hashToks (a :: l) ++ rest).dropWhile (fun t => !isMetaTok t) = hashToks (a :: l) ++ rest := by
    rw [show hashToks (a :: l) ++ rest = .punct '#' :: .group .bracket a :: (hashToks l ++ rest) from rfl, List.dropWhile_cons_of_neg (by decide)]
  rw [h2, hash_takeWhile, rmetaLoop_hash]
  intro t ht
  cases rest with
  | nil => simp at ht
  | cons u rest =>
    rw [List.takeWhile_cons] at ht
    split at ht
    · simp at ht; subst ht; exact hr u rfl
    · simp at ht

/-- Leading attributes: all of them, in order, and what follows is left. -/
theorem takeMetas_hash (l : List (List Tok)) (rest : List Tok) (hr : ∀ t, rest.head? = some t → t.isPunct '#' = false) :
    takeMetas (hashToks l ++ rest) = if l.isEmpty then some (none, rest) else (collectO (l.map RMeta.parse)).map (fun m => (some m, rest)) := by
  unfold takeMetas
  cases l with
  | nil =>
    rw [if_neg]
    · rfl
    · cases rest with
      | nil => simp [hashToks]
      | cons t rest => simp [hashToks, hr t rfl]
  | cons a l =>
    have h1 : (hashToks (a :: l) ++ rest).head?.any (Tok.isPunct '#') = true := rfl
    rw [if_pos h1, if_neg (by simp), parseMetas_hash a l rest hr]
    cases h : collectO ((a :: l).map RMeta.parse) with
    | none => rfl
    | some m =>
      have := collectO_length _ _ h
      rw [List.length_map] at this
      simp only [Option.map_some]
      rw [this, hash_drop]

theorem annPart_eq (l : List Ann) : annPart l = hashToks (l.map Ann.toks) := by
  unfold annPart hashToks
  rw [annsToks_eq]

theorem metasToks_eq (l : List RMeta) : metasToks l = hashToks (l.map RMeta.toks) := by
  unfold metasToks hashToks
  rw [List.flatMap_map]

theorem anns_items : ∀ (l : List Ann), (∀ a ∈ l, a.Ok) → ∃ its, collectO ((l.map Ann.toks).map RMeta.parse) = some its ∧ AnnsAre l its ∧
    its.map RMeta.toks = (l.map Ann.canon).map Ann.toks
  | [], _ => ⟨[], rfl, rfl, rfl⟩
  | a :: l, h => by
    obtain ⟨it, h1, h2, h2'⟩ := ann_parse (toksSize a.toks + 1) a (by omega) (h a (by simp))
    obtain ⟨its, h3, h4, h5⟩ := anns_items l (fun x hx => h x (by simp [hx]))
    refine ⟨it :: its, ?_, ⟨it, its, rfl, h2, h4⟩, by simp only [List.map_cons]; rw [h2', h5]⟩
    rw [List.map_cons, List.map_cons, show RMeta.parse a.toks = some it from h1, collectO, h3]; rfl

/-- Attributes in front of something that does not start with `#`. -/
theorem takeMetas_anns {l : List Ann} (h : AnnsOk l) {rest : List Tok} (hr : ∀ t, rest.head? = some t → t.isPunct '#' = false) :
    ∃ m, takeMetas (annPart l ++ rest) = some (m, rest) ∧ AttrsAre l m ∧ optMetas m = annPart (annsCanon l) := by
  rw [annPart_eq, takeMetas_hash _ _ hr]
  cases l with
  | nil => exact ⟨none, rfl, .inl ⟨rfl, rfl⟩, rfl⟩
  | cons a l =>
    obtain ⟨its, h1, h2, h3⟩ := anns_items (a :: l) ((annsOk_iff _).mp h)
    refine ⟨some its, ?_, .inr ⟨by simp, its, rfl, h2⟩, ?_⟩
    · rw [if_neg (by simp), h1]; rfl
    · rw [optMetas, metasToks_eq, h3, annPart_eq, annsCanon_eq]

end RJ
