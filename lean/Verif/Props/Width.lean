import Verif.Proof.Width
import Verif.Props.Shortest
import Verif.Props.Accept
/-
  C76: how long printed texts get.
-/
set_option linter.unusedSectionVars false
namespace RJ
open Spec

/-! ### Numbers -/

theorem number_text (f : F64) : (Json.number f : Json F64).toString = printFl b64 f := by
  rw [Json.toString.eq_def]; rfl

/-- **C76.** A number is printed with at most 17 significant digits. -/
theorem C76_digits (f : F64) (v : ℚ) (hv : value64 f = some v) : ∃ n : NumLit, (Json.number f : Json F64).toString = n.text ∧ n.Valid ∧ n.precision ≤ 17 := by
  match f, hv with
  | .fin neg b hinf, hv =>
  rcases Nat.eq_zero_or_pos b with rfl | hb
  · refine ⟨⟨neg, ['0'], none, none⟩, ?_, ?_, by simp [NumLit.precision, NumLit.significant]⟩
    · rw [number_text]; cases neg <;> rfl
    · refine ⟨⟨⟨by simp, fun c hc => ?_⟩, fun s hs => (by cases hs), fun _ _ _ hs => (by cases hs)⟩, fun _ => rfl⟩
      rw [List.mem_singleton] at hc; subst hc; simp [IsDigit]
  obtain ⟨hc, hmax⟩ := shortest64 b hb hinf
  have hprint := printFl_short b64 neg b hinf (by omega)
  rw [number_text, hprint]
  generalize (shortest b64 b (2 * b64.u) (startExp b64 b)).1 = c at *
  generalize (shortest b64 b (2 * b64.u) (startExp b64 b)).2 = e at *
  have hp : 1 ≤ b64.p := by decide
  refine ⟨decLit neg c e, rfl, (decLit_valid neg c e).1, ?_⟩
  obtain ⟨h17, -, -⟩ := short_bounds b hb hinf c e hc hmax
  have hcop := short_coprime b64 hp b c hb e hc hmax
  obtain ⟨j, j1, j2, j3⟩ := decLit_digits neg c e
  obtain ⟨t', ht'⟩ := sig_val ((decLit neg c e).int ++ litFrac (decLit neg c e))
  have hcpos := short_pos b64 hp b c hb e hc hmax
  have hsne' : sig ((decLit neg c e).int ++ litFrac (decLit neg c e)) ≠ [] := by
    intro h0
    have := sig_nil _ h0
    rw [j1] at this
    have : 0 < c * 10 ^ j := by positivity
    omega
  obtain ⟨n1, n2, n3⟩ := sig_bounds _ j3 hsne'
  have hSn : c = decVal (sig ((decLit neg c e).int ++ litFrac (decLit neg c e))) 0 :=
    coprime_unique _ _ j t' hcop n3 (by rw [← j1, ht'])
  have hnl : (decLit neg c e).precision = (sig ((decLit neg c e).int ++ litFrac (decLit neg c e))).length := rfl
  rw [← hSn, ← hnl] at n1
  have := (Nat.pow_lt_pow_iff_right (show 1 < 10 by omega)).mp (Nat.lt_of_le_of_lt n1 h17)
  omega

/-- **C76.** ... and in at most 327 characters, finite or not. -/
theorem C76_number (f : F64) : (Json.number f : Json F64).toString.length ≤ 327 := by
  rw [number_text]
  match f with
  | .nan => decide
  | .inf neg => cases neg <;> decide
  | .fin neg b hinf =>
  have hneg : (if neg then ['-'] else [] : Str).length ≤ 1 := by cases neg <;> simp
  rcases Nat.eq_zero_or_pos b with rfl | hb
  · simp only [printFl, if_true, List.length_append, List.length_singleton]
    omega
  · obtain ⟨hc, hmax⟩ := shortest64 b hb hinf
    rw [printFl_short b64 neg b hinf (by omega), decLit_text, List.length_append]
    obtain ⟨h1, h2, h3⟩ := short_bounds b hb hinf _ _ hc hmax
    have := decText_len _ _ h1 h2 h3
    omega

/-- A number read from a literal. -/
theorem number_width (n : NumLit) (hn : n.Accepted) (f : F64) (h : NumLit.value n = some f) : (printFl b64 f).length ≤ 62 * n.text.length := by
  have hp := parse_lit b64 n hn.1 (fun f hf => (hn.2.1 f hf).1) hn.2.2
  rw [value_f64 n _ hp] at h
  have hne : 1 ≤ n.text.length := by
    rw [lit_length n]
    have : 1 ≤ n.int.length := List.length_pos_of_ne_nil hn.1.1
    omega
  split at h
  · rename_i hfin
    have hf : f = ofDecimal b64 n.neg (decVal (n.int ++ litFrac n) 0) (litExp n - (litFrac n).length) := (Option.some.inj h).symm
    have hnr : f = Fl.mk n.neg (near b64 (decVal (n.int ++ litFrac n) 0) (litExp n - (litFrac n).length)) := hf
    rw [← hf] at hfin
    clear hp h hf
    generalize hb' : near b64 (decVal (n.int ++ litFrac n) 0) (litExp n - (litFrac n).length) = b at hnr
    unfold Fl.mk at hnr
    split at hnr
    · rename_i hinf
      subst hnr
      have hnl : (if n.neg then ['-'] else [] : Str).length = if n.neg then 1 else 0 := by cases n.neg <;> simp
      rcases Nat.eq_zero_or_pos b with rfl | hb
      · simp only [printFl, if_true, List.length_append, List.length_singleton, hnl]
        have : (if n.neg then 1 else 0) ≤ 1 := by cases n.neg <;> simp
        omega
      · obtain ⟨hc, hmax⟩ := shortest64 b hb hinf
        rw [printFl_short b64 n.neg b hinf (by omega), decLit_text, List.length_append, hnl]
        exact decText_lit n hn b hb hinf _ _ hc hmax hb'
    · subst hnr; cases hfin
  · cases h

/-! ### Strings -/

theorem hex_len (u : Nat) (h : u < 65536) : (hex u).length = 6 := by
  rw [hex_eq u h]; rfl

theorem escapeChar_len (c : Char) : (escapeChar c).length ≤ 12 := by
  unfold escapeChar
  have hc : c.toNat < 0x110000 := by
    have := c.valid
    unfold UInt32.isValidChar Nat.isValidChar at this
    have e : c.toNat = c.val.toNat := rfl
    rw [e]; omega
  split
  · decide
  split
  · decide
  split
  · decide
  split
  · decide
  split
  · decide
  split
  · decide
  split
  · decide
  split
  · decide
  split
  · rw [hex_len _ (by omega)]; decide
  split
  · simp
  dsimp only
  split
  · rw [hex_len _ (by omega)]; decide
  · rw [List.length_append, hex_len _ (by omega), hex_len _ (by omega)]

theorem escapeBody_len (s : Str) : (escapeBody s).length ≤ 12 * s.length := by
  induction s with
  | nil => simp [escapeBody]
  | cons c s ih =>
    have := escapeChar_len c
    simp only [escapeBody, List.length_append, List.length_cons]
    omega

/-- **C76.** A string is printed with at most twelve characters for each of its own, and two quotes. -/
theorem C76_string (s : Str) : (Json.string s : Json F64).toString.length ≤ 12 * s.length + 2 := by
  rw [Json.toString.eq_def]
  have := escapeBody_len s
  simp only [escape, List.length_append, List.length_singleton]
  omega

theorem strVal_len : ∀ (n : Nat) (items : List StrItem) (s : Str), items.length ≤ n → strVal items = some s → s.length ≤ (bodyText items).length
  | _, [], s, _, h => by simp only [strVal, Option.some.injEq] at h; subst h; simp
  | 0, _ :: _, _, hn, _ => by simp at hn
  | n + 1, .plain c :: t, s, hn, h => by
    rw [strVal] at h
    split at h
    · obtain ⟨s', h1, rfl⟩ := Option.map_eq_some_iff.1 h
      have := strVal_len n t s' (by simpa using hn) h1
      simp only [bodyText, StrItem.text, List.length_append, List.length_cons, List.length_nil]; omega
    · cases h
  | n + 1, .esc c :: t, s, hn, h => by
    rw [strVal] at h
    split at h
    · obtain ⟨s', h1, rfl⟩ := Option.map_eq_some_iff.1 h
      have := strVal_len n t s' (by simpa using hn) h1
      simp only [bodyText, StrItem.text, List.length_append, List.length_cons, List.length_nil]; omega
    · cases h
  | n + 1, .uni a b c d :: t, s, hn, h => by
    rw [strVal.eq_def] at h
    dsimp only at h
    split at h
    · cases h
    · split at h
      · split at h
        · split at h
          · split at h
            · obtain ⟨s', h1, rfl⟩ := Option.map_eq_some_iff.1 h
              have := strVal_len n _ s' (by simp only [List.length_cons] at hn; omega) h1
              simp only [bodyText, StrItem.text, List.length_append, List.length_cons, List.length_nil]; omega
            · cases h
          · cases h
        · cases h
      · split at h
        · cases h
        · obtain ⟨s', h1, rfl⟩ := Option.map_eq_some_iff.1 h
          have := strVal_len n t s' (by simpa using hn) h1
          simp only [bodyText, StrItem.text, List.length_append, List.length_cons, List.length_nil]; omega

/-! ### Documents -/

/-- Lengths of texts, and two for each. -/
def lens (l : List Str) : Nat := (l.map (fun s => s.length + 2)).sum

theorem joinComma_len (l : List Str) : (joinComma l).length ≤ lens l ∧ (l ≠ [] → (joinComma l).length + 2 = lens l) := by
  induction l with
  | nil => simp [joinComma, lens]
  | cons x t ih =>
    cases t with
    | nil => simp [joinComma, lens]
    | cons y t =>
      have := ih.2 (by simp)
      have h : lens (x :: y :: t) = x.length + 2 + lens (y :: t) := by simp [lens]
      rw [h]
      simp only [joinComma, List.length_append]
      simp only [ne_eq, reduceCtorEq, not_false_eq_true, forall_const]
      have : ", ".toList.length = 2 := rfl
      omega

/-- The length of a member, and two. -/
def memLen (k : Str) (j : Json F64) : Nat := (memberText (k, j.toString)).length + 2

/-- The lengths of the members of an entry. -/
def entLen (e : Str × (Json F64 × List (Json F64))) : Nat := ((entryVals e).map (memLen e.1)).sum

theorem object_len (m : Obj F64) : (Json.object m).toString.length ≤ 2 + (m.map entLen).sum := by
  rw [toString_object]
  have h1 := (joinComma_len ((flatVals m).map (fun p => memberText (p.1, p.2.toString)))).1
  have h2 : lens ((flatVals m).map (fun p => memberText (p.1, p.2.toString))) = ((sortByKey m).map entLen).sum := by
    unfold lens flatVals
    rw [List.map_map, List.map_flatten, List.sum_flatten, List.map_map, List.map_map]
    congr 1
    refine List.map_congr_left (fun e _ => ?_)
    simp only [Function.comp_def, entLen, List.map_map]
    rfl
  have h3 : ((sortByKey m).map entLen).sum = (m.map entLen).sum := ((sortByKey_perm m).map entLen).sum_nat
  rw [h2, h3] at h1
  simp only [List.length_append, List.length_singleton]
  omega

theorem objectInsert_len (k : Str) (v : Json F64) (m : Obj F64) : ((objectInsert k v m).map entLen).sum = (m.map entLen).sum + memLen k v := by
  induction m with
  | nil => simp [objectInsert, mapGet, mapInsert, entLen, entryVals]
  | cons e m ih =>
    obtain ⟨k', old, list⟩ := e
    unfold objectInsert at ih ⊢
    rw [mapGet]
    by_cases hk : k' = k
    · subst hk
      rw [if_pos rfl]
      simp only [mapInsert, if_true, List.map_cons, List.sum_cons]
      have : entLen (k', v, old :: list) = entLen (k', old, list) + memLen k' v := by
        simp [entLen, entryVals, Nat.add_assoc]
      omega
    · rw [if_neg hk]
      cases hg : mapGet k m with
      | none =>
        rw [hg] at ih
        simp only [mapInsert, if_neg hk, List.map_cons, List.sum_cons] at ih ⊢
        omega
      | some o =>
        rw [hg] at ih
        simp only [mapInsert, if_neg hk, List.map_cons, List.sum_cons] at ih ⊢
        omega

theorem insertAll_len (ms : List (Str × Json F64)) : ∀ m : Obj F64, ((insertAll m ms).map entLen).sum = (m.map entLen).sum + (ms.map (fun p => memLen p.1 p.2)).sum := by
  induction ms with
  | nil => intro m; simp [insertAll]
  | cons p ms ih =>
    intro m
    have : insertAll m (p :: ms) = insertAll (objectInsert p.1 p.2 m) ms := rfl
    rw [this, ih, objectInsert_len]
    simp only [List.map_cons, List.sum_cons]
    omega

theorem elems_len {n : Nat} (ih : ∀ (s : Str) (j : Json F64), s.length ≤ n → parseRaw s = .ok j → j.toString.length ≤ 62 * s.length) {body : Str} {js : List (Json F64)}
    (h : ElemsR parseRaw body js) (hn : body.length ≤ n) : lens (js.map Json.toString) ≤ 62 * (body.length + 1) := by
  induction h with
  | one gs v hs hv =>
    have h1 := glyphs_squeeze_le IsWs gs
    have h2 := ih _ _ (Nat.le_trans h1 hn) hv
    simp only [lens, List.map_cons, List.map_nil, List.sum_cons, List.sum_nil]
    omega
  | cons gs v t vs hs hv ht iht =>
    simp only [List.length_append, List.length_cons] at hn ⊢
    have h1 := glyphs_squeeze_le IsWs gs
    have h2 := ih _ _ (by omega) hv
    have h3 := iht (by omega)
    have : lens ((v :: vs).map Json.toString) = v.toString.length + 2 + lens (vs.map Json.toString) := by simp [lens]
    omega

theorem members_len {n : Nat} (ih : ∀ (s : Str) (j : Json F64), s.length ≤ n → parseRaw s = .ok j → j.toString.length ≤ 62 * s.length) {body : Str} {ms : List (Str × Json F64)}
    (h : MembersR parseRaw body ms) (hn : body.length ≤ n) : (ms.map (fun p => memLen p.1 p.2)).sum ≤ 62 * (body.length + 1) := by
  have hm : ∀ (k : Str) (v : Json F64), memLen k v = (Json.string k : Json F64).toString.length + v.toString.length + 4 := by
    intro k v
    rw [Json.toString.eq_def]
    simp only [memLen, memberText, List.length_append]
    have : ": ".toList.length = 2 := rfl
    omega
  induction h with
  | one kg vg k v hk hkv hs hv =>
    simp only [List.length_append, List.length_cons] at hn ⊢
    have h1 := glyphs_squeeze_le IsWs kg
    have h2 := glyphs_squeeze_le ValueDrop vg
    have h3 := ih _ _ (by omega) hkv
    have h4 := ih _ _ (by omega) hv
    simp only [List.map_cons, List.map_nil, List.sum_cons, List.sum_nil, hm]
    omega
  | cons kg vg k v t ms hk hkv hs hv ht iht =>
    simp only [List.length_append, List.length_cons] at hn ⊢
    have h1 := glyphs_squeeze_le IsWs kg
    have h2 := glyphs_squeeze_le ValueDrop vg
    have h3 := ih _ _ (by omega) hkv
    have h4 := ih _ _ (by omega) hv
    have h5 := iht (by omega)
    simp only [List.map_cons, List.sum_cons, hm k v]
    omega

theorem raw_len : ∀ (n : Nat) (t : Str) (j : Json F64), t.length ≤ n → parseRaw t = .ok j → j.toString.length ≤ 62 * t.length := by
  intro n
  induction n with
  | zero =>
    intro t j hn h
    rw [List.length_eq_zero_iff.1 (Nat.le_zero.1 hn)] at h
    exact absurd h (parse_nil_bad j)
  | succ n ih =>
    intro t j hn h
    rcases parseRaw_cases _ _ h with ⟨e, e'⟩ | ⟨e, e'⟩ | ⟨e, e'⟩ | ⟨f, e', hnum, hfin, hc⟩ | ⟨s, u, e', hu, hs⟩ | ⟨u, l, hu, e', ha⟩ | ⟨u, m, hu, e', ha⟩
    · rw [e, e']; decide
    · rw [e, e']; decide
    · rw [e, e']; decide
    · obtain ⟨nl, h1, h2, h3⟩ := number_accepts hnum hfin hc
      rw [e', h2, number_text]
      exact number_width nl h1 f h3
    · rw [hu] at hs
      obtain ⟨items, w, h1, h2, h3⟩ := (parseStringRaw_iff u s).mp hs
      have h4 := C76_string s
      have h5 := strVal_len _ items s (Nat.le_refl _) h3
      rw [hu, h1, e']
      simp only [strText, List.length_append, List.length_singleton]
      omega
    · subst hu
      unfold parseArray at ha
      simp only [List.drop_succ_cons, List.drop_zero] at ha
      by_cases hh : u.head? = some ']'
      · rw [if_pos hh] at ha
        cases u with
        | nil => cases hh
        | cons c u =>
          rw [← Except.ok.inj ha]
          simp only [Json.toString, printList, joinComma, List.append_nil, List.length_append, List.length_nil, List.length_cons]
          omega
      · rw [if_neg hh] at ha
        obtain ⟨b, js, w, h1, h2, h3, h4⟩ := arr_sound parseRaw j u.length u [] [] (Nat.le_refl _) (NoStop.nil _) ha
        have hlen : b.length ≤ n := by
          rw [h1] at hn; simp only [List.length_cons, List.length_append] at hn; omega
        have h5 := elems_len ih h4 (by simpa [glyphs] using hlen)
        have h6 := (joinComma_len (js.map Json.toString)).1
        rw [h3, h1, List.nil_append]
        simp only [Json.toString, printList_eq, List.length_append, List.length_nil, List.length_cons]
        simp only [glyphs, List.flatMap_nil, List.nil_append] at h5
        omega
    · subst hu
      unfold parseObject at ha
      simp only [List.drop_succ_cons, List.drop_zero] at ha
      by_cases hh : u.head? = some '}'
      · rw [if_pos hh] at ha
        cases u with
        | nil => cases hh
        | cons c u =>
          rw [← Except.ok.inj ha]
          have := object_len []
          simp only [List.map_nil, List.sum_nil] at this
          simp only [List.length_cons]
          omega
      · rw [if_neg hh] at ha
        obtain ⟨b, js, w, h1, h2, h3, h4⟩ := obj_sound_key parseRaw j u.length u [] [] (Nat.le_refl _) (NoStop.nil _) ha
        have hlen : b.length ≤ n := by
          rw [h1] at hn; simp only [List.length_cons, List.length_append] at hn; omega
        have h5 := members_len ih h4 (by simpa [glyphs] using hlen)
        have h6 := object_len (insertAll [] js)
        rw [insertAll_len] at h6
        rw [h3, h1]
        simp only [List.length_append, List.length_cons]
        simp only [glyphs, List.flatMap_nil, List.nil_append, List.map_nil, List.sum_nil] at h5 h6
        omega

/-- **C76.** Whatever the text: what `parse` makes of it is printed with at most 62 times as many characters. -/
theorem C76_text (t : Str) (j : Json F64) (h : Json.parse t = .ok j) : j.toString.length ≤ 62 * t.length := by
  obtain ⟨a, b, ha, hb, ht⟩ := trimWs_split t
  have h1 := raw_len (trimWs t).length (trimWs t) j (Nat.le_refl _) h
  have h2 : (trimWs t).length ≤ t.length := by
    have := congrArg List.length ht
    simp only [List.length_append] at this
    omega
  omega

/-! ### The bounds are reached -/

/-- The least number below zero, -5e-324: 327 characters. -/
theorem C76_longest : (Json.number (.fin true 1 (by decide)) : Json F64).toString.length = 327 := by decide +kernel

/-- 0.1 + 0.2: 17 digits. -/
theorem C76_most_digits : (Json.number (.fin false 0x3FD3333333333334 (by decide)) : Json F64).toString = "0.30000000000000004".toList ∧
    NumLit.precision ⟨false, "0".toList, some "30000000000000004".toList, none⟩ = 17 := by
  constructor
  · decide +kernel
  · decide

/-- A character outside of the basic plane: 12 characters and the quotes. -/
theorem C76_longest_char : (Json.string [Char.ofNat 0x1F600] : Json F64).toString.length = 14 := by decide +kernel

theorem big308 : 0x7FE1CCF385EBC8A0 < b64.infBits := by decide

/-- `1e308` is printed in 309 characters: a factor of 61 would not do. -/
theorem C76_factor : ∃ j : Json F64, Json.parse "1e308".toList = .ok j ∧ 61 * "1e308".toList.length < j.toString.length := by
  have hacc : (⟨false, "1".toList, none, some ('e', [], "308".toList)⟩ : NumLit).Accepted := by
    refine ⟨⟨by decide, ?_⟩, ?_, ?_⟩
    · intro c hc; simp at hc; subst hc; unfold IsDigit; decide
    · intro f hf; cases hf
    · intro e sg ds hf
      simp only [Option.some.injEq, Prod.mk.injEq] at hf
      obtain ⟨rfl, rfl, rfl⟩ := hf
      refine ⟨.inl rfl, .inl rfl, by decide, ?_⟩
      intro c hc; simp at hc; rcases hc with rfl | rfl | rfl <;> (unfold IsDigit; decide)
  refine ⟨.number (.fin false 0x7FE1CCF385EBC8A0 big308), ?_, ?_⟩
  · refine (C12_number_iff _ _).mpr ⟨[], _, [], wsNil, wsNil, by decide +kernel, hacc, ?_⟩
    rw [value_f64 _ (.fin false 0x7FE1CCF385EBC8A0 big308) (by decide +kernel)]
    rfl
  · have : ((Json.number (.fin false 0x7FE1CCF385EBC8A0 big308) : Json F64).toString.length == 309) = true := by decide +kernel
    rw [beq_iff_eq.1 this]; decide

end RJ
