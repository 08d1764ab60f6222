import Verif.Proof.Accept
import Verif.Proof.Malformed
import Verif.Props.Parse
/-
  C58: which texts `parse` accepts, and with which values - for every text whatever.
-/
set_option linter.unusedSectionVars false
namespace RJ
open Spec
variable {F : Type} [FloatOps F]

/-! ### The pieces -/

theorem glyphs_squeeze_le (drop : Char → Prop) [DecidablePred drop] (gs : List Glyph) : (squeeze drop gs).length ≤ (glyphs gs).length := squeeze_length drop gs []

theorem elems_accepts {n : Nat} (ih : ∀ (s : Str) (j : Json F), s.length ≤ n → parseRaw s = .ok j → Reads s (absJ j)) {body : Str} {js : List (Json F)}
    (h : ElemsR parseRaw body js) (hn : body.length ≤ n) : ReadsElems body (js.map absJ) := by
  induction h with
  | one gs v hs hv => exact .one gs _ hs (ih _ _ (Nat.le_trans (glyphs_squeeze_le IsWs gs) hn) hv)
  | cons gs v t vs hs hv ht iht =>
    simp only [List.length_append, List.length_cons] at hn
    have := glyphs_squeeze_le IsWs gs
    exact .cons gs _ t _ hs (ih _ _ (by omega) hv) (iht (by omega))

theorem members_accepts {n : Nat} (ih : ∀ (s : Str) (j : Json F), s.length ≤ n → parseRaw s = .ok j → Reads s (absJ j)) {body : Str} {ms : List (Str × Json F)}
    (h : MembersR parseRaw body ms) (hn : body.length ≤ n) : ReadsMembers body (ms.map (fun m => (m.1, absJ m.2))) := by
  induction h with
  | one kg vg k v hk hkv hs hv =>
    simp only [List.length_append, List.length_cons] at hn
    have := glyphs_squeeze_le IsWs kg
    have := glyphs_squeeze_le ValueDrop vg
    exact .one kg vg k _ hk (ih _ _ (by omega) hkv) hs (ih _ _ (by omega) hv)
  | cons kg vg k v t ms hk hkv hs hv ht iht =>
    simp only [List.length_append, List.length_cons] at hn
    have := glyphs_squeeze_le IsWs kg
    have := glyphs_squeeze_le ValueDrop vg
    exact .cons kg vg k _ t _ hk (ih _ _ (by omega) hkv) hs (ih _ _ (by omega) hv) (iht (by omega))

theorem absMap_insertAll (ms : List (Str × Json F)) (q : Str) : ∀ obj : Obj F,
    absMap (insertAll obj ms) q = absMap obj q ++ named (ms.map (fun m => (m.1, absJ m.2))) q := by
  induction ms with
  | nil => intro obj; simp [insertAll, named]
  | cons m ms ih =>
    intro obj
    have : insertAll obj (m :: ms) = insertAll (objectInsert m.1 m.2 obj) ms := rfl
    rw [this, ih, absMap_objectInsert, List.map_cons, named_cons, List.append_assoc]

theorem absJ_insertAll (ms : List (Str × Json F)) : absJ (.object (insertAll [] ms)) = .obj (named (ms.map (fun m => (m.1, absJ m.2)))) := by
  rw [absJ]
  congr 1
  funext q
  rw [absMap_insertAll]
  simp [absMap]

/-- What the code's number parser accepts. -/
theorem number_accepts [LawfulFloat F] {t : Str} {f : F} (hn : parseNumber t = .ok (.number f : Json F)) (hfin : FloatOps.isFinite f = true)
    (hc : ∃ c s, t = c :: s ∧ (c = '-' ∨ IsDigit c)) : ∃ n : NumLit, n.Accepted ∧ t = n.text ∧ NumLit.value n = some f := by
  unfold parseNumber at hn
  by_cases hv : validNumber t = true
  · rw [if_pos hv] at hn
    cases hp : (FloatOps.parse t : Option F) with
    | none => rw [hp] at hn; cases hn
    | some g =>
      have hr : RustFloat t := (LawfulFloat.parse_isSome (F := F) _).mp (by rw [hp]; rfl)
      obtain ⟨n, hacc, htx⟩ := (accepted_iff _ hc).mp ⟨hv, hr⟩
      have hg : g = f := by
        rw [hp] at hn
        simp only at hn
        split at hn
        · cases hn; rfl
        · cases hn
      subst hg
      refine ⟨n, hacc, htx, ?_⟩
      rw [NumLit.value, ← htx, hp]
      simp [hfin]
  · rw [if_neg hv] at hn; cases hn

theorem raw_accepts [LawfulFloat F] : ∀ (n : Nat) (t : Str) (j : Json F), t.length ≤ n → parseRaw t = .ok j → Reads t (absJ j) := by
  intro n
  induction n with
  | zero =>
    intro t j hn h
    rw [List.length_eq_zero_iff.1 (Nat.le_zero.1 hn)] at h
    exact absurd h (parse_nil_bad j)
  | succ n ih =>
    intro t j hn h
    rcases parseRaw_cases _ _ h with ⟨e, e'⟩ | ⟨e, e'⟩ | ⟨e, e'⟩ | ⟨f, e', hnum, hfin, hc⟩ | ⟨s, u, e', hu, hs⟩ | ⟨u, l, hu, e', ha⟩ | ⟨u, m, hu, e', ha⟩
    · rw [e, e', absJ]; exact .null
    · rw [e, e', absJ]; exact .bool true
    · rw [e, e', absJ]; exact .bool false
    · rw [e'] at h
      obtain ⟨nl, h1, h2, h3⟩ := number_accepts hnum hfin hc
      rw [e', absJ, h2]; exact .num nl f h1 h3
    · rw [hu] at hs
      obtain ⟨items, w, h1, h2, h3⟩ := (parseStringRaw_iff u s).mp hs
      rw [hu, h1, e', absJ]; exact .str items s w h3 h2
    · subst hu
      unfold parseArray at ha
      simp only [List.drop_succ_cons, List.drop_zero] at ha
      by_cases hh : u.head? = some ']'
      · rw [if_pos hh] at ha
        cases u with
        | nil => cases hh
        | cons c u =>
          simp only [List.head?_cons, Option.some.injEq] at hh
          subst hh
          rw [← Except.ok.inj ha, absJ, absList]
          exact .emptyArr u
      · rw [if_neg hh] at ha
        obtain ⟨b, js, w, h1, h2, h3, h4⟩ := arr_sound parseRaw j u.length u [] [] (Nat.le_refl _) (NoStop.nil _) ha
        have hlen : b.length ≤ n := by
          rw [h1] at hn; simp only [List.length_cons, List.length_append] at hn; omega
        have := elems_accepts ih h4 (by simpa [glyphs] using hlen)
        rw [h3, h1, List.nil_append, absJ, absList_eq]
        exact .arr b _ w (by simpa [glyphs] using this) h2
    · subst hu
      unfold parseObject at ha
      simp only [List.drop_succ_cons, List.drop_zero] at ha
      by_cases hh : u.head? = some '}'
      · rw [if_pos hh] at ha
        cases u with
        | nil => cases hh
        | cons c u =>
          simp only [List.head?_cons, Option.some.injEq] at hh
          subst hh
          rw [← Except.ok.inj ha]
          exact .emptyObj u
      · rw [if_neg hh] at ha
        obtain ⟨b, js, w, h1, h2, h3, h4⟩ := obj_sound_key parseRaw j u.length u [] [] (Nat.le_refl _) (NoStop.nil _) ha
        have hlen : b.length ≤ n := by
          rw [h1] at hn; simp only [List.length_cons, List.length_append] at hn; omega
        have := members_accepts ih h4 (by simpa [glyphs] using hlen)
        rw [h3, h1, absJ_insertAll]
        exact .obj b _ w (by simpa [glyphs] using this) h2

/-- The text has the value `v` for the code. -/
def RawIs (t : Str) (v : Val F) : Prop := ∃ j : Json F, parseRaw t = .ok j ∧ absJ j = v

theorem accepts_raw [LawfulFloat F] {t : Str} {v : Val F} (h : Reads t v) : RawIs t v := by
  refine Reads.rec (motive_1 := fun t v _ => RawIs t v)
    (motive_2 := fun t vs _ => ∃ js : List (Json F), ElemsR parseRaw t js ∧ js.map absJ = vs)
    (motive_3 := fun t ms _ => ∃ js : List (Str × Json F), MembersR parseRaw t js ∧ js.map (fun m => (m.1, absJ m.2)) = ms)
    ?_ ?_ ?_ ?_ ?_ ?_ ?_ ?_ ?_ ?_ ?_ ?_ h
  · exact ⟨.null, rfl, rfl⟩
  · intro b; exact ⟨.boolean b, by cases b <;> rfl, rfl⟩
  · intro n f hn hf
    refine ⟨.number f, ?_, rfl⟩
    rw [parseRaw_num n hn, hf]
  · intro items s w hs hw
    exact ⟨.string s, parseRaw_str items w s hw hs, rfl⟩
  · intro g
    exact ⟨.array [], by rw [parseRaw_arr]; rfl, rfl⟩
  · rintro body vs w - hw ⟨js, h1, h2⟩
    refine ⟨.array js, ?_, by rw [absJ, absList_eq, h2]⟩
    rw [parseRaw_arr]
    unfold parseArray
    simp only [List.drop_succ_cons, List.drop_zero]
    rw [if_neg (elemsR_head (fun j => parse_nil_bad j) h1 _), arr_complete (fun j => parse_nil_bad j) hw h1]
    rfl
  · intro g
    refine ⟨.object [], by rw [parseRaw_obj]; rfl, ?_⟩
    rw [absJ]; congr 1
  · rintro body ms w - hw ⟨js, h1, h2⟩
    refine ⟨.object (insertAll [] js), ?_, by rw [absJ_insertAll, h2]⟩
    rw [parseRaw_obj]
    unfold parseObject
    simp only [List.drop_succ_cons, List.drop_zero]
    have hq : ∀ r k, (parseRaw ('}' :: r) : Res (Json F)) ≠ .ok (.string k) := fun r k => not_quote_no_string (by decide) r k
    rw [if_neg (membersR_head (fun j => parse_nil_bad _) hq h1 _), obj_complete (fun j => parse_nil_bad j) hq hw h1]
  · rintro gs v hs - ⟨j, h1, h2⟩
    exact ⟨[j], .one gs j hs h1, by rw [← h2]; rfl⟩
  · rintro gs v t vs hs - - ⟨j, h1, h2⟩ ⟨js, h3, h4⟩
    exact ⟨j :: js, .cons gs j t js hs h1 h3, by rw [← h2, ← h4]; rfl⟩
  · rintro kg vg k v hk - hs - ⟨jk, h1, h2⟩ ⟨j, h3, h4⟩
    cases jk <;> simp only [absJ, reduceCtorEq] at h2
    cases h2
    exact ⟨[(_, j)], .one kg vg _ j hk h1 hs h3, by rw [← h4]; rfl⟩
  · rintro kg vg k v t ms hk - hs - - ⟨jk, h1, h2⟩ ⟨j, h3, h4⟩ ⟨js, h5, h6⟩
    cases jk <;> simp only [absJ, reduceCtorEq] at h2
    cases h2
    exact ⟨(_, j) :: js, .cons kg vg _ j t js hk h1 hs h3 h5, by rw [← h4, ← h6]; rfl⟩

theorem raw_iff [LawfulFloat F] (t : Str) (v : Val F) : RawIs t v ↔ Reads t v :=
  ⟨fun ⟨j, h, e⟩ => e ▸ raw_accepts t.length t j (Nat.le_refl _) h, accepts_raw⟩

/-! ### Trimming -/

theorem trimWs_of_head {c : Char} (hc : ¬ IsWs c) (s : Str) : ∃ r w, c :: s = (c :: r) ++ w ∧ WsStr w ∧ trimWs (c :: s) = c :: r := by
  obtain ⟨a, b, ha, hb, e⟩ := trimWs_split (c :: s)
  cases a with
  | cons d a =>
    simp only [List.cons_append, List.cons.injEq] at e
    exact absurd (e.1 ▸ ha d (by simp)) hc
  | nil =>
    rw [List.nil_append] at e
    cases ht : trimWs (c :: s) with
    | nil =>
      rw [ht] at e
      exact absurd (hb c (by rw [List.nil_append] at e; rw [← e]; simp)) hc
    | cons d r =>
      rw [ht] at e
      have := (List.cons.inj e).1
      subst this
      exact ⟨r, b, e, hb, rfl⟩

/-- Cutting whitespace off the end of `x ++ [d] ++ w`. -/
theorem trimWs_tail {c d : Char} (hc : ¬ IsWs c) (hd : ¬ IsWs d) {w : Str} (hw : WsStr w) (x : Str) : trimWs (c :: (x ++ d :: w)) = c :: (x ++ [d]) := by
  have : c :: (x ++ d :: w) = (c :: (x ++ [d])) ++ w := by simp
  rw [this, trimWs_post _ _ hw]
  exact trimWs_self c (x ++ [d]) hc (c :: x) d hd (by simp)

theorem accepts_trim {t : Str} {v : Val F} (h : Reads t v) : Reads (trimWs t) v := by
  cases h with
  | null => exact .null
  | bool b =>
    cases b with
    | false => exact .bool (F := F) false
    | true => exact .bool (F := F) true
  | num n f hn hf =>
    obtain ⟨c, s, h1, hc⟩ := accepted_head hn
    have hw : ∀ c ∈ n.text, ¬ IsWs c := by
      intro c hc
      rw [← isWs_iff, (numChar_inert (accepted_chars hn c hc)).2.2.2.2.2.2.2.2]; simp
    have hne : n.text ≠ [] := by rw [h1]; simp
    have : trimWs n.text = n.text := by
      have e := (List.dropLast_concat_getLast hne).symm
      rw [h1]
      exact trimWs_self c s (hw c (by rw [h1]; simp)) n.text.dropLast (n.text.getLast hne) (hw _ (List.getLast_mem hne))
        (by rw [← h1]; exact e)
    rw [this]; exact .num n f hn hf
  | str items s w hs hw =>
    have e : strText items ++ w = '"' :: (bodyText items ++ '"' :: w) := by simp [strText]
    have e' : '"' :: (bodyText items ++ ['"']) = strText items ++ [] := by simp [strText]
    rw [e, trimWs_tail (by decide) (by decide) hw, e']
    exact .str items s [] hs (by simp [WsStr])
  | emptyArr g =>
    obtain ⟨r, w, h1, h2, h3⟩ := trimWs_of_head (c := '[') (by decide) (']' :: g)
    cases r with
    | nil =>
      simp only [List.cons_append, List.nil_append, List.cons.injEq, true_and] at h1
      exact absurd (h2 ']' (by rw [← h1]; simp)) (by decide)
    | cons d r =>
      simp only [List.cons_append, List.cons.injEq, true_and] at h1
      rw [h3, ← h1.1]; exact .emptyArr r
  | emptyObj g =>
    obtain ⟨r, w, h1, h2, h3⟩ := trimWs_of_head (c := '{') (by decide) ('}' :: g)
    cases r with
    | nil =>
      simp only [List.cons_append, List.nil_append, List.cons.injEq, true_and] at h1
      exact absurd (h2 '}' (by rw [← h1]; simp)) (by decide)
    | cons d r =>
      simp only [List.cons_append, List.cons.injEq, true_and] at h1
      rw [h3, ← h1.1]; exact .emptyObj r
  | arr body vs w hb hw =>
    rw [trimWs_tail (by decide) (by decide) hw]
    exact .arr body vs [] hb (by simp [WsStr])
  | obj body ms w hb hw =>
    rw [trimWs_tail (by decide) (by decide) hw]
    exact .obj body ms [] hb (by simp [WsStr])

/-! ### The theorems -/

/-- **C58.** Whatever the text: `parse` returns a value meaning `v` exactly when, apart from whitespace around it, the text is in the accepted language with the
value `v`. -/
theorem C58_exact_language [LawfulFloat F] (t : Str) (v : Val F) :
    (∃ j : Json F, Json.parse t = .ok j ∧ absJ j = v) ↔ ∃ pre s post, WsStr pre ∧ WsStr post ∧ t = pre ++ s ++ post ∧ Reads s v := by
  constructor
  · rintro ⟨j, h, e⟩
    obtain ⟨a, b, ha, hb, ht⟩ := trimWs_split t
    exact ⟨a, trimWs t, b, ha, hb, ht, (raw_iff _ _).1 ⟨j, h, e⟩⟩
  · rintro ⟨a, s, b, ha, hb, rfl, h⟩
    obtain ⟨j, h1, h2⟩ := (raw_iff _ _).2 (accepts_trim h)
    exact ⟨j, by rw [parse_around _ _ _ ha hb]; exact h1, h2⟩

/-- **C58.** `parse` fails exactly on the texts outside the accepted language. -/
theorem C58_exact_rejection [LawfulFloat F] (t : Str) :
    (∃ e, (Json.parse t : Res (Json F)) = .error e) ↔ ¬ ∃ pre s post, WsStr pre ∧ WsStr post ∧ t = pre ++ s ++ post ∧ ∃ v : Val F, Reads s v := by
  constructor
  · rintro ⟨e, he⟩ ⟨a, s, b, ha, hb, ht, v, hv⟩
    obtain ⟨j, hj, -⟩ := (C58_exact_language t v).2 ⟨a, s, b, ha, hb, ht, hv⟩
    rw [he] at hj; cases hj
  · intro h
    cases hp : (Json.parse t : Res (Json F)) with
    | error e => exact ⟨e, rfl⟩
    | ok j =>
      obtain ⟨a, s, b, ha, hb, ht, hv⟩ := (C58_exact_language t (absJ j)).1 ⟨j, hp, rfl⟩
      exact absurd ⟨a, s, b, ha, hb, ht, _, hv⟩ h

/-- **C58.** A text has at most one value. -/
theorem C58_one_value [LawfulFloat F] {t : Str} {v w : Val F} (h : Reads t v) (h' : Reads t w) : v = w := by
  obtain ⟨j, h1, h2⟩ := accepts_raw h
  obtain ⟨j', h3, h4⟩ := accepts_raw h'
  rw [h1] at h3
  cases h3
  rw [← h2, ← h4]

/-! ### Witnesses -/

/-- The condition on pieces, place by place. -/
def segCheck (stop : Char → Bool) (gs : List Glyph) : Bool :=
  (gs.all (fun g => match g with | .ch c => c != '\\' | .esc _ => true)) && decide (Outside gs) &&
    (List.range gs.length).all (fun i => match gs[i]? with | some (.ch c) => !(decide (Outside (gs.take i)) && stop c) | _ => true)

theorem segCheck_sound {stop : Char → Bool} {gs : List Glyph} (h : segCheck stop gs = true) : Segment (fun c => stop c = true) gs := by
  unfold segCheck at h
  simp only [Bool.and_eq_true, List.all_eq_true, decide_eq_true_eq] at h
  obtain ⟨⟨h1, h2⟩, h3⟩ := h
  refine ⟨?_, h2, ?_⟩
  · intro hm
    have := h1 _ hm
    simp at this
  · intro a c b e ho hs
    have := h3 a.length (by rw [e]; simp)
    subst e
    simp only [List.getElem?_append_right (Nat.le_refl _), Nat.sub_self, List.getElem?_cons_zero, List.take_left', hs, decide_eq_true ho] at this
    simp at this

/-- Every character by itself. -/
def chars (s : String) : List Glyph := s.toList.map .ch

theorem elemSeg {gs : List Glyph} (h : segCheck (fun c => c = ',' ∨ c = ']') gs = true) : Segment ElemStop gs := by
  have := segCheck_sound h; simpa [Segment, ElemStop] using this
theorem keySeg {gs : List Glyph} (h : segCheck (fun c => c = ':') gs = true) : Segment KeyStop gs := by
  have := segCheck_sound h; simpa [Segment, KeyStop] using this
theorem valueSeg {gs : List Glyph} (h : segCheck (fun c => c = ',' ∨ c = '}') gs = true) : Segment ValueStop gs := by
  have := segCheck_sound h; simpa [Segment, ValueStop] using this

/-- Spaces inside a literal: `[n u l l, t rue]`. -/
example [LawfulFloat F] : ∃ j : Json F, Json.parse "[n u l l, t rue]".toList = .ok j ∧ absJ j = .arr [.null, .bool true] :=
  (C58_exact_language _ _).2 ⟨[], "[n u l l, t rue]".toList, [], wsNil, wsNil, by simp,
    .arr "n u l l, t rue".toList [.null, .bool true] [] (.cons (chars "n u l l") .null " t rue".toList [.bool true] (elemSeg (by decide +kernel))
      (show Reads (squeeze IsWs (chars "n u l l")) Val.null from (show squeeze IsWs (chars "n u l l") = "null".toList by decide +kernel) ▸ .null)
      (.one (chars " t rue") (.bool true) (elemSeg (by decide +kernel)) ((show squeeze IsWs (chars " t rue") = "true".toList by decide +kernel) ▸ .bool (F := F) true))) wsNil⟩

/-- Brackets of the wrong kind after an empty array: `[[]}{]`. -/
theorem C58_witness [LawfulFloat F] : ∃ j : Json F, Json.parse "[[]}{]".toList = .ok j ∧ absJ j = .arr [.arr []] :=
  (C58_exact_language _ _).2 ⟨[], "[[]}{]".toList, [], wsNil, wsNil, by simp,
    .arr "[]}{".toList [.arr []] [] (.one (chars "[]}{") (.arr []) (elemSeg (by decide +kernel))
      ((show squeeze IsWs (chars "[]}{") = "[]}{".toList by decide +kernel) ▸ .emptyArr "}{".toList)) wsNil⟩

/-- Two colons: `{"a"::null}`. -/
example [LawfulFloat F] : ∃ j : Json F, Json.parse "{\"a\"::null}".toList = .ok j ∧ absJ j = .obj (named [("a".toList, .null)]) :=
  (C58_exact_language _ _).2 ⟨[], "{\"a\"::null}".toList, [], wsNil, wsNil, by simp,
    .obj "\"a\"::null".toList [("a".toList, .null)] [] (.one (chars "\"a\"") (chars ":null") "a".toList .null (keySeg (by decide +kernel))
      ((show squeeze IsWs (chars "\"a\"") = strText [.plain 'a'] ++ [] by decide +kernel) ▸ .str [.plain 'a'] "a".toList [] (by decide +kernel) wsNil) (valueSeg (by decide +kernel))
      ((show squeeze ValueDrop (chars ":null") = "null".toList by decide +kernel) ▸ .null)) wsNil⟩

/-- Whether the result is an error. -/
def failed {α : Type} : Res α → Bool
  | .error _ => true
  | .ok _ => false

theorem failed_sound {α : Type} {r : Res α} (h : failed r = true) : ∃ e, r = .error e := by
  cases r with
  | error e => exact ⟨e, rfl⟩
  | ok a => cases h

end RJ
