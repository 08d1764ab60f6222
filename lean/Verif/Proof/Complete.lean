import Verif.Proof.Scan
/-
  Completeness of the parser on RFC 8259 texts with bracket-balanced nested strings.
-/
set_option linter.unusedSectionVars false
namespace RJ
open Spec

section maps
variable {F : Type}

theorem mapGet_insert {β : Type} (k : Str) (v : β) (m : List (Str × β)) (q : Str) :
    mapGet q (mapInsert k v m) = if k = q then some v else mapGet q m := by
  induction m with
  | nil => simp [mapInsert, mapGet]
  | cons p t ih =>
    obtain ⟨k', v'⟩ := p
    simp only [mapInsert]
    by_cases h : k' = k
    · subst h
      simp only [if_true, mapGet]
      by_cases hq : k' = q <;> simp [hq]
    · rw [if_neg h]
      simp only [mapGet]
      by_cases hq : k' = q
      · subst hq
        rw [if_pos rfl, if_neg (fun e => h e.symm), if_pos rfl]
      · rw [if_neg hq, if_neg hq, ih]

theorem absMap_eq (m : Obj F) (q : Str) : absMap m q =
    match mapGet q m with
    | some (v, l) => (absList l).reverse ++ [absJ v]
    | none => [] := by
  induction m with
  | nil => rfl
  | cons p t ih =>
    obtain ⟨k, v, l⟩ := p
    simp only [absMap, mapGet]
    by_cases h : k = q
    · simp [h]
    · rw [if_neg h, if_neg h, ih]

theorem absList_eq (l : List (Json F)) : absList l = l.map absJ := by
  induction l with
  | nil => rfl
  | cons x t ih => simp [absList, ih]

theorem absMap_objectInsert (k : Str) (v : Json F) (m : Obj F) (q : Str) :
    absMap (objectInsert k v m) q = absMap m q ++ (if k = q then [absJ v] else []) := by
  rw [absMap_eq, absMap_eq]
  unfold objectInsert
  cases hk : mapGet k m with
  | none =>
    simp only
    rw [mapGet_insert]
    by_cases h : k = q
    · subst h; simp [hk, absList]
    · simp [h]
  | some p =>
    obtain ⟨old, l⟩ := p
    simp only
    rw [mapGet_insert]
    by_cases h : k = q
    · subst h; simp [hk, absList]
    · simp [h]

theorem named_cons (k : Str) (v : Val F) (l : List (Str × Val F)) (q : Str) :
    named ((k, v) :: l) q = (if k = q then [v] else []) ++ named l q := by
  unfold named
  by_cases h : k = q <;> simp [h]

end maps

section ws
variable {F : Type}

theorem ws_cases {c : Char} (h : IsWs c) : c = ' ' ∨ c = '\t' ∨ c = '\n' ∨ c = '\r' := by
  have := (isWs_iff c).mpr h
  simpa [isWs, or_assoc] using this

theorem arrLoop_ws (rec : Str → Res (Json F)) (w rest inner : Str) (array : List (Json F)) (h : WsStr w) :
    arrLoop rec (w ++ rest) 0 0 inner array = arrLoop rec rest 0 0 inner array := by
  induction w with
  | nil => rfl
  | cons c w ih =>
    have hc := h c (by simp)
    have hw := (isWs_iff c).mpr hc
    rw [List.cons_append, arrLoop_cons]
    have n : c ≠ '"' ∧ c ≠ '[' ∧ c ≠ ']' ∧ c ≠ '{' ∧ c ≠ '}' ∧ c ≠ '\\' ∧ c ≠ ',' ∧ c ≠ ':' := by
      rcases ws_cases hc with rfl | rfl | rfl | rfl <;> decide
    simp only [n.1, n.2.1, n.2.2.1, n.2.2.2.1, n.2.2.2.2.1, n.2.2.2.2.2.1, n.2.2.2.2.2.2.1, false_and, if_false, hw,
      and_self, if_true]
    exact ih (fun x hx => h x (by simp [hx]))

theorem objLoop_ws (rec : Str → Res (Json F)) (w rest : Str) (kv : Str × Str) (onKey : Bool) (object : Obj F)
    (h : WsStr w) :
    objLoop rec (w ++ rest) 0 0 kv onKey object = objLoop rec rest 0 0 kv onKey object := by
  induction w with
  | nil => rfl
  | cons c w ih =>
    have hc := h c (by simp)
    have hw := (isWs_iff c).mpr hc
    rw [List.cons_append, objLoop_cons]
    have n : c ≠ '"' ∧ c ≠ '[' ∧ c ≠ ']' ∧ c ≠ '{' ∧ c ≠ '}' ∧ c ≠ '\\' ∧ c ≠ ',' ∧ c ≠ ':' := by
      rcases ws_cases hc with rfl | rfl | rfl | rfl <;> decide
    rw [if_neg (fun e => n.2.2.2.2.1 e.1), if_neg (fun e => n.2.2.2.2.2.2.1 e.1), if_neg (fun e => n.2.2.2.2.2.2.2 e.1),
      if_neg n.1, if_neg n.2.1, if_neg n.2.2.1, if_neg n.2.2.2.1, if_neg n.2.2.2.2.1, if_neg n.2.2.2.2.2.1,
      if_pos ⟨rfl, rfl, hw⟩]
    exact ih (fun x hx => h x (by simp [hx]))
end ws

/-- Characters a value can start with. -/
def Starter (c : Char) : Prop :=
  c = 'n' ∨ c = 't' ∨ c = 'f' ∨ c = '-' ∨ IsDigit c ∨ c = '"' ∨ c = '[' ∨ c = '{'

theorem cst_head (x : Cst) (hv : x.Valid) : ∃ c t, x.text = c :: t ∧ Starter c := by
  cases x with
  | null => exact ⟨'n', _, rfl, .inl rfl⟩
  | true => exact ⟨'t', _, rfl, .inr (.inl rfl)⟩
  | false => exact ⟨'f', _, rfl, .inr (.inr (.inl rfl))⟩
  | num n =>
    obtain ⟨c, t, h, hc⟩ := accepted_head (NumLit.Loose.accepted hv.1)
    refine ⟨c, t, by rw [Cst.text, h], ?_⟩
    rcases hc with h | h
    · exact .inr (.inr (.inr (.inl h)))
    · exact .inr (.inr (.inr (.inr (.inl h))))
  | str s => exact ⟨'"', _, rfl, by simp [Starter]⟩
  | arr0 ws => exact ⟨'[', _, rfl, by simp [Starter]⟩
  | arr es => exact ⟨'[', _, rfl, by simp [Starter]⟩
  | obj0 ws => exact ⟨'{', _, rfl, by simp [Starter]⟩
  | obj ms => exact ⟨'{', _, rfl, by simp [Starter]⟩

theorem starter_ne {c : Char} (h : Starter c) : c ≠ ']' ∧ c ≠ '}' ∧ ¬ IsWs c ∧ c ≠ ',' ∧ c ≠ ':' := by
  have aux : ∀ d : Char, c = d ↔ c.toNat = d.toNat :=
    fun d => ⟨fun h => h ▸ rfl, fun h => Char.toNat_inj.mp h⟩
  unfold Starter IsDigit at h
  unfold IsWs
  simp only [ne_eq, aux] at *
  simp only [Char.reduceToNat] at *
  omega

/-- Characters a word, string or container can start with. -/
def Opens (c : Char) : Prop := c ≠ ']' ∧ c ≠ '}' ∧ ¬ IsWs c ∧ c ≠ ',' ∧ c ≠ ':'

theorem opens_lit (c : Char) (h : c = 'n' ∨ c = 't' ∨ c = 'f' ∨ c = '"' ∨ c = '[' ∨ c = '{') : Opens c :=
  starter_ne (by unfold Starter; rcases h with h | h | h | h | h | h <;> simp [h])

theorem word_head {w : Str} (h : AnyWord w) : ∃ c t, w = c :: t ∧ Opens c := by
  obtain ⟨c, t, rfl⟩ := List.exists_cons_of_ne_nil h.1
  obtain ⟨_, _, h3, _, h5, _, h7, h8, h9⟩ := h.2 c (by simp)
  exact ⟨c, t, rfl, h3, h5, h9, h7, h8⟩

theorem cst_opens (x : Cst) (hv : x.Wordy) : ∃ c t, x.text = c :: t ∧ Opens c := by
  cases x with
  | null => exact ⟨'n', _, rfl, opens_lit _ (by simp)⟩
  | true => exact ⟨'t', _, rfl, opens_lit _ (by simp)⟩
  | false => exact ⟨'f', _, rfl, opens_lit _ (by simp)⟩
  | num n => exact word_head hv
  | str s => exact ⟨'"', _, rfl, opens_lit _ (by simp)⟩
  | arr0 ws => exact ⟨'[', _, rfl, opens_lit _ (by simp)⟩
  | arr es => exact ⟨'[', _, rfl, opens_lit _ (by simp)⟩
  | obj0 ws => exact ⟨'{', _, rfl, opens_lit _ (by simp)⟩
  | obj ms => exact ⟨'{', _, rfl, opens_lit _ (by simp)⟩

theorem ws_head {w : Str} (hw : WsStr w) {c : Char} {t : Str} (hc : Opens c) :
    (w ++ c :: t).head? ≠ some ']' ∧ (w ++ c :: t).head? ≠ some '}' := by
  cases w with
  | nil => simp [hc.1, hc.2.1]
  | cons d w =>
    have : d ≠ ']' ∧ d ≠ '}' := by
      rcases ws_cases (hw d (by simp)) with rfl | rfl | rfl | rfl <;> decide
    simp [this]

theorem elems_head (es : Elems) (hv : es.Wordy) (rest : Str) :
    (es.text ++ rest).head? ≠ some ']' := by
  cases es with
  | one w1 x w2 =>
    obtain ⟨c, t, h, hc⟩ := cst_opens x hv.2.1
    simp only [Elems.text, h, List.append_assoc, List.cons_append]
    exact (ws_head hv.1 hc).1
  | cons w1 x w2 t =>
    obtain ⟨c, t, h, hc⟩ := cst_opens x hv.2.1
    simp only [Elems.text, h, List.append_assoc, List.cons_append]
    exact (ws_head hv.1 hc).1

theorem members_head (ms : Members) (hv : ms.Wordy) (rest : Str) :
    (ms.text ++ rest).head? ≠ some '}' := by
  cases ms with
  | one w1 k w2 w3 x w4 =>
    simp only [Members.text, strText, List.append_assoc, List.cons_append]
    exact (ws_head hv.1 (opens_lit _ (by simp))).2
  | cons w1 k w2 w3 x w4 t =>
    simp only [Members.text, strText, List.append_assoc, List.cons_append]
    exact (ws_head hv.1.1 (opens_lit _ (by simp))).2

variable {F : Type} [FloatOps F]

theorem parseRaw_str (items : List StrItem) (ws s : Str) (hw : WsStr ws) (h : strVal items = some s) :
    (parseRaw (strText items ++ ws) : Res (Json F)) = .ok (.string s) := by
  have e : strText items ++ ws = '"' :: (bodyText items ++ ['"'] ++ ws) := by simp [strText]
  have hp := (parseStringRaw_iff (bodyText items ++ ['"'] ++ ws) s).mpr ⟨items, ws, e.symm, hw, h⟩
  rw [parseRaw_eq, e, parseBody]
  simp only [List.head?_cons, Char.reduceEq, if_false, or_self, if_true]
  rw [if_neg (by decide)]
  rw [parseString, hp]

theorem parseRaw_arr (t : Str) : (parseRaw ('[' :: t) : Res (Json F)) = parseArray parseRaw ('[' :: t) := by
  rw [parseRaw_eq, parseBody]
  simp only [List.head?_cons, Char.reduceEq, if_false, or_self, if_true]
  rw [if_neg (by decide)]

theorem parseRaw_obj (t : Str) : (parseRaw ('{' :: t) : Res (Json F)) = parseObject parseRaw ('{' :: t) := by
  rw [parseRaw_eq, parseBody]
  simp only [List.head?_cons, Char.reduceEq, if_false, or_self, if_true]
  rw [if_neg (by decide)]

theorem num_head_dispatch {c : Char} {t : Str} (h : c = '-' ∨ IsDigit c) :
    (parseRaw (c :: t) : Res (Json F)) = parseNumber (c :: t) := by
  rw [parseRaw_eq, parseBody]
  simp only [List.head?_cons]
  have aux : ∀ d : Char, c = d ↔ c.toNat = d.toNat :=
    fun d => ⟨fun h => h ▸ rfl, fun h => Char.toNat_inj.mp h⟩
  have h1 : c ≠ 'n' ∧ c ≠ 't' ∧ c ≠ 'f' := by
    unfold IsDigit at h
    simp only [ne_eq, aux] at *
    simp only [Char.reduceToNat] at *
    omega
  rw [if_neg h1.1, if_neg (by simp [h1]), if_pos]
  rcases h with h | h
  · exact .inl h
  · exact .inr ((isDigit_iff c).mpr h)

theorem parseRaw_num [LawfulFloat F] (n : NumLit) (h : n.Accepted) :
    (parseRaw n.text : Res (Json F)) =
      match (NumLit.value n : Option F) with
      | some f => .ok (.number f)
      | none => fail .ParseNumberError "error number too large." := by
  obtain ⟨c, t, e, hc⟩ := accepted_head h
  have := (accepted_iff n.text ⟨c, t, e, hc⟩).mpr ⟨n, h, rfl⟩
  have hs := (LawfulFloat.parse_isSome (F := F) n.text).mpr this.2
  rw [e, num_head_dispatch hc, ← e, parseNumber, if_pos this.1]
  unfold NumLit.value
  cases hp : (FloatOps.parse n.text : Option F) with
  | none => rw [hp] at hs; cases hs
  | some f =>
    simp only
    split <;> simp_all

/-- One array element. -/
theorem arrLoop_item (w1 w2 : Str) (x : Cst) (rest : Str) (array : List (Json F)) (rec : Str → Res (Json F))
    (h1 : WsStr w1) (h2 : WsStr w2) (hv : x.Wordy) (hp : x.StrBal) :
    arrLoop rec (w1 ++ (x.text ++ (w2 ++ rest))) 0 0 [] array = arrLoop rec rest 0 0 x.text array := by
  have hs : scan 0 0 x.text = some (0, 0) := by
    have := scan_cst x 0 [] (by omega) hv hp
    rw [List.append_nil] at this
    rw [this]; rfl
  rw [arrLoop_ws _ _ _ _ _ h1, arrLoop_scan rec _ array _ _ 0 0 0 0 [] (Nat.le_refl _) hs, arrLoop_ws _ _ _ _ _ h2]
  simp

/-- One object member. -/
theorem objLoop_item (w1 w2 w3 w4 : Str) (k : List StrItem) (x : Cst) (rest : Str) (object : Obj F)
    (rec : Str → Res (Json F)) (h1 : WsStr w1) (h2 : WsStr w2) (h3 : WsStr w3) (h4 : WsStr w4)
    (hk : ∀ i ∈ k, i.Valid) (hkb : rawBrackets k = 0) (hv : x.Wordy) (hp : x.StrBal) :
    objLoop rec (w1 ++ (strText k ++ (w2 ++ ':' :: (w3 ++ (x.text ++ (w4 ++ rest)))))) 0 0 ([], []) true object =
      objLoop rec rest 0 0 (strText k, x.text) false object := by
  have hs : scan 0 0 x.text = some (0, 0) := by
    have := scan_cst x 0 [] (by omega) hv hp
    rw [List.append_nil] at this
    rw [this]; rfl
  have hks : scan 0 0 (strText k) = some (0, 0) := by
    have := scan_strText k 0 [] hk
    rw [List.append_nil] at this
    rw [this, hkb]; rfl
  rw [objLoop_ws _ _ _ _ _ _ h1, objLoop_scan rec _ true object _ _ 0 0 0 0 _ (Nat.le_refl _) hks,
    objLoop_ws _ _ _ _ _ _ h2, objLoop_cons]
  simp only [Char.reduceEq, false_and, if_false, and_self, if_true]
  rw [objLoop_ws _ _ _ _ _ _ h3, objLoop_scan rec _ false object _ _ 0 0 0 0 _ (Nat.le_refl _) hs,
    objLoop_ws _ _ _ _ _ _ h4]
  simp [pushKV]

theorem arrLoop_close (rec : Str → Res (Json F)) (ws inner : Str) (array : List (Json F)) (hw : WsStr ws) (v : Json F)
    (h : rec inner = .ok v) : arrLoop rec (']' :: ws) 0 0 inner array = .ok (.array (array ++ [v])) := by
  rw [arrLoop_cons, if_pos ⟨rfl, rfl, rfl⟩, h]
  simp only [(skipTrail_ok .ParseArrayError ws).mpr hw]

theorem arrLoop_comma (rec : Str → Res (Json F)) (rest inner : Str) (array : List (Json F)) (v : Json F)
    (hi : inner ≠ []) (hr : rest.head? ≠ some ']') (h : rec inner = .ok v) :
    arrLoop rec (',' :: rest) 0 0 inner array = arrLoop rec rest 0 0 [] (array ++ [v]) := by
  rw [arrLoop_cons, if_neg (by simp), if_pos ⟨rfl, rfl, rfl⟩, if_neg hi, if_neg hr, h]

theorem objLoop_close (rec : Str → Res (Json F)) (ws ks vs : Str) (object : Obj F) (hw : WsStr ws) (key : Str) (v : Json F)
    (hk : rec ks = .ok (.string key)) (h : rec vs = .ok v) :
    objLoop rec ('}' :: ws) 0 0 (ks, vs) false object = .ok (.object (objectInsert key v object)) := by
  rw [objLoop_cons, if_pos ⟨rfl, rfl, rfl, rfl⟩]
  simp only [hk, h, (skipTrail_ok .ParseObjectError ws).mpr hw]

theorem objLoop_comma (rec : Str → Res (Json F)) (rest ks vs : Str) (object : Obj F) (key : Str) (v : Json F)
    (hk0 : ks ≠ []) (hv0 : vs ≠ []) (hr : rest.head? ≠ some '}')
    (hk : rec ks = .ok (.string key)) (h : rec vs = .ok v) :
    objLoop rec (',' :: rest) 0 0 (ks, vs) false object =
      objLoop rec rest 0 0 ([], []) true (objectInsert key v object) := by
  rw [objLoop_cons, if_neg (by simp), if_pos ⟨rfl, rfl, rfl, rfl⟩, if_neg (by simp [hk0, hv0]), if_neg hr]
  simp only [hk, h]

theorem cst_ne_nil {x : Cst} (hv : x.Wordy) : x.text ≠ [] := by
  obtain ⟨c, t, h, _⟩ := cst_opens x hv
  rw [h]; simp

variable [LawfulFloat F]

/-- A word that denotes something is read as that. -/
theorem parseRaw_word (w : Str) (v : Val F) (h : wordVal w = some v) : ∃ j : Json F, parseRaw w = .ok j ∧ absJ j = v := by
  unfold wordVal at h
  split at h
  · rename_i e; subst e; cases h; exact ⟨.null, by rw [parseRaw_eq]; rfl, rfl⟩
  · split at h
    · rename_i e; subst e; cases h; exact ⟨.boolean true, by rw [parseRaw_eq]; rfl, rfl⟩
    · split at h
      · rename_i e; subst e; cases h; exact ⟨.boolean false, by rw [parseRaw_eq]; rfl, rfl⟩
      · split at h
        · rename_i e
          obtain ⟨n, hn, rfl⟩ := e
          rw [parseRaw_num n hn]
          unfold NumLit.value
          cases hp : (FloatOps.parse n.text : Option F) with
          | none => rw [hp] at h; cases h
          | some f =>
            rw [hp] at h
            dsimp only at h ⊢
            split at h
            · rename_i hf; cases h; rw [if_pos hf]; exact ⟨.number f, rfl, rfl⟩
            · cases h
        · cases h

/-- The numbers of RFC 8259 are such words. -/
theorem wordVal_num (n : NumLit) (hn : n.Accepted) : (wordVal n.text : Option (Val F)) = (NumLit.value n).map .num := by
  obtain ⟨c, t, e, hc⟩ := accepted_head hn
  have hne : n.text ≠ "null".toList ∧ n.text ≠ "true".toList ∧ n.text ≠ "false".toList := by
    rw [e]
    refine ⟨?_, ?_, ?_⟩ <;> (intro h; injection h with h1 _; subst h1; rcases hc with h | h <;> revert h <;> (try unfold IsDigit) <;> decide)
  unfold wordVal NumLit.value
  rw [if_neg hne.1, if_neg hne.2.1, if_neg hne.2.2, if_pos ⟨n, hn, rfl⟩]
  cases (FloatOps.parse n.text : Option F) with
  | none => rfl
  | some f => dsimp only; split <;> rfl

mutual
theorem cst_read_value : ∀ x : Cst, x.Valid → (x.read : Option (Val F)) = x.value
  | .null, _ => rfl
  | .true, _ => rfl
  | .false, _ => rfl
  | .num n, h => by rw [Cst.read, Cst.value, wordVal_num n (NumLit.Loose.accepted h.1)]
  | .str _, _ => rfl
  | .arr0 _, _ => rfl
  | .obj0 _, _ => rfl
  | .arr es, h => by rw [Cst.read, Cst.value, elems_read_value es h]
  | .obj ms, h => by rw [Cst.read, Cst.value, members_read_value ms h]
theorem elems_read_value : ∀ es : Elems, es.Valid → (es.read : Option (List (Val F))) = es.value
  | .one _ x _, h => by rw [Elems.read, Elems.value, cst_read_value x h.2.1]
  | .cons _ x _ t, h => by
    rw [Elems.read, Elems.value, cst_read_value x h.2.1, elems_read_value t h.2.2.2]
    cases (x.value : Option (Val F)) <;> cases (t.value : Option (List (Val F))) <;> rfl
theorem members_read_value : ∀ ms : Members, ms.Valid → (ms.read : Option (List (Str × Val F))) = ms.value
  | .one _ k _ _ x _, h => by
    rw [Members.read, Members.value, cst_read_value x h.2.2.2.2.1]
    cases strVal k <;> cases (x.value : Option (Val F)) <;> rfl
  | .cons _ k _ _ x _ t, h => by
    rw [Members.read, Members.value, cst_read_value x h.1.2.2.2.2.1, members_read_value t h.2]
    cases strVal k <;> cases (x.value : Option (Val F)) <;> cases (t.value : Option (List (Str × Val F))) <;> rfl
end

mutual
theorem complete_cst : ∀ (x : Cst) (v : Val F), x.Wordy → x.Plain → x.read = some v →
    ∃ j : Json F, parseRaw x.text = .ok j ∧ absJ j = v
  | .null, v, _, _, h => by
    simp only [Cst.read, Option.some.injEq] at h
    subst h
    exact ⟨.null, by rw [parseRaw_eq]; rfl, rfl⟩
  | .true, v, _, _, h => by
    simp only [Cst.read, Option.some.injEq] at h
    subst h
    exact ⟨.boolean true, by rw [parseRaw_eq]; rfl, rfl⟩
  | .false, v, _, _, h => by
    simp only [Cst.read, Option.some.injEq] at h
    subst h
    exact ⟨.boolean false, by rw [parseRaw_eq]; rfl, rfl⟩
  | .num n, v, hv, _, h => by
    simp only [Cst.read] at h
    exact parseRaw_word n.text v h
  | .str s, v, hv, _, h => by
    simp only [Cst.read] at h
    cases hs : strVal s with
    | none => rw [hs] at h; cases h
    | some t =>
      rw [hs] at h
      simp only [Option.map_some, Option.some.injEq] at h
      subst h
      have := parseRaw_str (F := F) s [] t (by intro c hc; cases hc) hs
      rw [List.append_nil] at this
      exact ⟨.string t, this, rfl⟩
  | .arr0 ws, v, _, hp, h => by
    simp only [Cst.read, Option.some.injEq] at h
    subst h
    have : ws = [] := hp
    subst this
    refine ⟨.array [], ?_, rfl⟩
    simp only [Cst.text, List.append_nil, List.cons_append, List.nil_append]
    rw [parseRaw_arr]; rfl
  | .arr es, v, hv, hp, h => by
    simp only [Cst.read] at h
    cases hes : (Elems.read es : Option (List (Val F))) with
    | none => rw [hes] at h; cases h
    | some vs =>
      rw [hes] at h
      simp only [Option.map_some, Option.some.injEq] at h
      subst h
      obtain ⟨js, h1, h2⟩ := complete_elems es vs [] [] hv hp hes (by intro c hc; cases hc)
      refine ⟨.array js, ?_, by simp [absJ, h2]⟩
      simp only [Cst.text, List.cons_append, List.nil_append]
      rw [parseRaw_arr, parseArray]
      simp only [List.drop_succ_cons, List.drop_zero]
      rw [if_neg (elems_head es hv _), h1]
      simp
  | .obj0 ws, v, _, hp, h => by
    simp only [Cst.read, Option.some.injEq] at h
    subst h
    have : ws = [] := hp
    subst this
    refine ⟨.object [], ?_, ?_⟩
    · simp only [Cst.text, List.append_nil, List.cons_append, List.nil_append]
      rw [parseRaw_obj]; rfl
    · simp only [absJ, Val.obj.injEq]
      funext q; rfl
  | .obj ms, v, hv, hp, h => by
    simp only [Cst.read] at h
    cases hms : (Members.read ms : Option (List (Str × Val F))) with
    | none => rw [hms] at h; cases h
    | some vs =>
      rw [hms] at h
      simp only [Option.map_some, Option.some.injEq] at h
      subst h
      obtain ⟨m, h1, h2⟩ := complete_members ms vs [] [] hv hp hms (by intro c hc; cases hc)
      refine ⟨.object m, ?_, ?_⟩
      · simp only [Cst.text, List.cons_append, List.nil_append]
        rw [parseRaw_obj, parseObject]
        simp only [List.drop_succ_cons, List.drop_zero]
        rw [if_neg (members_head ms hv _), h1]
      · simp only [absJ, Val.obj.injEq]
        funext q
        rw [h2 q]; rfl
theorem complete_elems : ∀ (es : Elems) (vs : List (Val F)) (array : List (Json F)) (ws : Str), es.Wordy → es.Plain →
    es.read = some vs → WsStr ws →
    ∃ js : List (Json F), arrLoop parseRaw (es.text ++ ']' :: ws) 0 0 [] array = .ok (.array (array ++ js)) ∧
      absList js = vs
  | .one w1 x w2, vs, array, ws, hv, hp, h, hw => by
    obtain ⟨h1, h2, h3⟩ := hv
    simp only [Elems.read] at h
    cases hx : (Cst.read x : Option (Val F)) with
    | none => rw [hx] at h; cases h
    | some v =>
      rw [hx] at h
      simp only [Option.map_some, Option.some.injEq] at h
      subst h
      obtain ⟨j, hj, ha⟩ := complete_cst x v h2 hp hx
      refine ⟨[j], ?_, by simp [absList, ha]⟩
      simp only [Elems.text, List.append_assoc]
      rw [arrLoop_item w1 w2 x _ array _ h1 h3 h2 (plain_strBal x hp)]
      exact arrLoop_close _ _ _ _ hw _ hj
  | .cons w1 x w2 t, vs, array, ws, hv, hp, h, hw => by
    obtain ⟨h1, h2, h3, h4⟩ := hv
    simp only [Elems.read] at h
    cases hx : (Cst.read x : Option (Val F)) with
    | none => rw [hx] at h; cases h
    | some v =>
      cases ht : (Elems.read t : Option (List (Val F))) with
      | none => rw [hx, ht] at h; cases h
      | some vs' =>
        rw [hx, ht] at h
        simp only [Option.some.injEq] at h
        subst h
        obtain ⟨j, hj, ha⟩ := complete_cst x v h2 hp.1 hx
        obtain ⟨js, hjs, has⟩ := complete_elems t vs' (array ++ [j]) ws h4 hp.2 ht hw
        refine ⟨j :: js, ?_, by simp [absList, ha, has]⟩
        simp only [Elems.text, List.append_assoc, List.cons_append, List.nil_append]
        rw [arrLoop_item w1 w2 x _ array _ h1 h3 h2 (plain_strBal x hp.1),
          arrLoop_comma _ _ _ _ j (cst_ne_nil h2) (elems_head t h4 _) hj, hjs]
        simp
theorem complete_members : ∀ (ms : Members) (vs : List (Str × Val F)) (object : Obj F) (ws : Str), ms.Wordy → ms.Plain →
    ms.read = some vs → WsStr ws →
    ∃ m : Obj F, objLoop parseRaw (ms.text ++ '}' :: ws) 0 0 ([], []) true object = .ok (.object m) ∧
      ∀ q, absMap m q = absMap object q ++ named vs q
  | .one w1 k w2 w3 x w4, vs, object, ws, hv, hp, h, hw => by
    obtain ⟨h1, h2, h3, h4, h5, h6⟩ := hv
    simp only [Members.read] at h
    cases hk : strVal k with
    | none => rw [hk] at h; simp at h
    | some key =>
      cases hx : (Cst.read x : Option (Val F)) with
      | none => rw [hk, hx] at h; simp at h
      | some v =>
        rw [hk, hx] at h
        simp only [Option.some.injEq] at h
        subst h
        obtain ⟨j, hj, ha⟩ := complete_cst x v h5 hp.2 hx
        have hks := parseRaw_str (F := F) k [] key (by intro c hc; cases hc) hk
        rw [List.append_nil] at hks
        refine ⟨objectInsert key j object, ?_, ?_⟩
        · simp only [Members.text, List.append_assoc, List.cons_append, List.nil_append]
          rw [objLoop_item w1 w2 w3 w4 k x _ object _ h1 h3 h4 h6 h2 hp.1 h5 (plain_strBal x hp.2)]
          exact objLoop_close _ _ _ _ _ hw _ _ hks hj
        · intro q
          rw [absMap_objectInsert, named_cons, ha]
          simp [named]
  | .cons w1 k w2 w3 x w4 t, vs, object, ws, hv, hp, h, hw => by
    obtain ⟨⟨h1, h2, h3, h4, h5, h6⟩, h7⟩ := hv
    simp only [Members.read] at h
    cases hk : strVal k with
    | none => rw [hk] at h; simp at h
    | some key =>
      cases hx : (Cst.read x : Option (Val F)) with
      | none => rw [hk, hx] at h; simp at h
      | some v =>
        cases ht : (Members.read t : Option (List (Str × Val F))) with
        | none => rw [hk, hx, ht] at h; simp at h
        | some vs' =>
          rw [hk, hx, ht] at h
          simp only [Option.some.injEq] at h
          subst h
          obtain ⟨j, hj, ha⟩ := complete_cst x v h5 hp.1.2 hx
          obtain ⟨m, hm, hma⟩ := complete_members t vs' (objectInsert key j object) ws h7 hp.2 ht hw
          have hks := parseRaw_str (F := F) k [] key (by intro c hc; cases hc) hk
          rw [List.append_nil] at hks
          refine ⟨m, ?_, ?_⟩
          · simp only [Members.text, List.append_assoc, List.cons_append, List.nil_append]
            rw [objLoop_item w1 w2 w3 w4 k x _ object _ h1 h3 h4 h6 h2 hp.1.1 h5 (plain_strBal x hp.1.2),
              objLoop_comma _ _ _ _ _ key j (by simp [strText]) (cst_ne_nil h5) (members_head t h7 _) hks hj, hm]
          · intro q
            rw [hma, absMap_objectInsert, named_cons, ha]
            simp
end

theorem complete_words (x : Cst) (v : Val F) (hv : x.Wordy) (hp : x.TopPlain) (h : x.read = some v) :
    ∃ j : Json F, parseRaw x.text = .ok j ∧ absJ j = v := by
  cases x with
  | str s =>
    simp only [Cst.read] at h
    cases hs : strVal s with
    | none => rw [hs] at h; cases h
    | some t =>
      rw [hs] at h
      simp only [Option.map_some, Option.some.injEq] at h
      subst h
      have := parseRaw_str (F := F) s [] t (by intro c hc; cases hc) hs
      rw [List.append_nil] at this
      exact ⟨.string t, this, rfl⟩
  | _ => exact complete_cst _ v hv hp h

theorem complete_top (x : Cst) (v : Val F) (hv : x.Valid) (hp : x.TopPlain) (h : x.value = some v) :
    ∃ j : Json F, parseRaw x.text = .ok j ∧ absJ j = v := complete_words x v (cst_wordy x hv) hp (by rw [cst_read_value x hv]; exact h)

end RJ
