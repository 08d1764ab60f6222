import Verif.Proof.TokRun
/-
  A valid document is never parsed to a wrong value: brackets inside strings can only make the parser fail.
-/
set_option linter.unusedSectionVars false
namespace RJ
open Spec
variable {F : Type} [FloatOps F]

/-! ### String literals are uniquely readable -/

theorem body_unique : ∀ (a b : List StrItem) (X Y : Str), (∀ i ∈ a, i.Valid) → (∀ i ∈ b, i.Valid) →
    bodyText a ++ '"' :: X = bodyText b ++ '"' :: Y → a = b ∧ X = Y := by
  intro a
  induction a with
  | nil =>
    intro b X Y _ hb h
    cases b with
    | nil => simp [bodyText] at h; exact ⟨rfl, h⟩
    | cons i b =>
      exfalso
      have hi := hb i (by simp)
      cases i with
      | plain c =>
        simp only [bodyText, StrItem.text, List.nil_append, List.cons_append, List.cons.injEq] at h
        exact hi.2.1 h.1.symm
      | esc c => simp [bodyText, StrItem.text] at h
      | uni => simp [bodyText, StrItem.text] at h
  | cons i a ih =>
    intro b X Y ha hb h
    have hi := ha i (by simp)
    have ha' : ∀ k ∈ a, k.Valid := fun k hk => ha k (by simp [hk])
    cases b with
    | nil =>
      exfalso
      cases i with
      | plain c =>
        simp only [bodyText, StrItem.text, List.nil_append, List.cons_append, List.cons.injEq] at h
        exact hi.2.1 h.1
      | esc c => simp [bodyText, StrItem.text] at h
      | uni => simp [bodyText, StrItem.text] at h
    | cons k b =>
      have hk := hb k (by simp)
      have hb' : ∀ x ∈ b, x.Valid := fun x hx => hb x (by simp [hx])
      cases i with
      | plain c =>
        cases k with
        | plain d =>
          simp only [bodyText, StrItem.text, List.nil_append, List.cons_append, List.cons.injEq] at h
          obtain ⟨rfl, h⟩ := h
          obtain ⟨rfl, rfl⟩ := ih b X Y ha' hb' h
          exact ⟨rfl, rfl⟩
        | esc d =>
          simp only [bodyText, StrItem.text, List.nil_append, List.cons_append, List.cons.injEq] at h
          exact absurd h.1 hi.2.2
        | uni =>
          simp only [bodyText, StrItem.text, List.nil_append, List.cons_append, List.cons.injEq] at h
          exact absurd h.1 hi.2.2
      | esc c =>
        obtain ⟨v, hv⟩ := Option.isSome_iff_exists.mp hi
        cases k with
        | plain d =>
          simp only [bodyText, StrItem.text, List.nil_append, List.cons_append, List.cons.injEq] at h
          exact absurd h.1.symm hk.2.2
        | esc d =>
          simp only [bodyText, StrItem.text, List.nil_append, List.cons_append, List.cons.injEq, true_and] at h
          obtain ⟨rfl, h⟩ := h
          obtain ⟨rfl, rfl⟩ := ih b X Y ha' hb' h
          exact ⟨rfl, rfl⟩
        | uni =>
          simp only [bodyText, StrItem.text, List.nil_append, List.cons_append, List.cons.injEq, true_and] at h
          exact absurd h.1 (escVal_ne_u hv)
      | uni =>
        cases k with
        | plain d =>
          simp only [bodyText, StrItem.text, List.nil_append, List.cons_append, List.cons.injEq] at h
          exact absurd h.1.symm hk.2.2
        | esc d =>
          obtain ⟨v, hv⟩ := Option.isSome_iff_exists.mp hk
          simp only [bodyText, StrItem.text, List.nil_append, List.cons_append, List.cons.injEq, true_and] at h
          exact absurd h.1.symm (escVal_ne_u hv)
        | uni =>
          simp only [bodyText, StrItem.text, List.nil_append, List.cons_append, List.cons.injEq, true_and] at h
          obtain ⟨rfl, rfl, rfl, rfl, h⟩ := h
          obtain ⟨rfl, rfl⟩ := ih b X Y ha' hb' h
          exact ⟨rfl, rfl⟩

theorem str_ok {k : List StrItem} {X : Str} {j : Json F} (hk : ∀ i ∈ k, i.Valid) (h : parseRaw (strText k ++ X) = .ok j) :
    WsStr X ∧ ∃ s, strVal k = some s ∧ j = .string s := by
  have e : strText k ++ X = '"' :: (bodyText k ++ '"' :: X) := by simp [strText]
  rw [e, parseRaw_eq, parseBody] at h
  simp only [List.head?_cons, Char.reduceEq, if_false, or_self, if_true] at h
  rw [if_neg (by decide), parseString] at h
  cases hp : parseStringRaw ('"' :: (bodyText k ++ '"' :: X)) with
  | error e => rw [hp] at h; cases h
  | ok s =>
    rw [hp] at h
    simp only [Except.ok.injEq] at h
    subst h
    obtain ⟨items, ws, h1, h2, h3⟩ := (parseStringRaw_iff _ _).mp hp
    simp only [strText, List.append_assoc, List.cons_append, List.nil_append, List.cons.injEq, true_and] at h1
    obtain ⟨rfl, rfl⟩ := body_unique _ _ _ _ hk (strVal_valid h3) h1
    exact ⟨h2, s, h3, rfl⟩

/-- A string literal with unbalanced brackets, completed to something with balanced brackets, is not parsed. -/
theorem str_bad {k : List StrItem} (hk : ∀ i ∈ k, i.Valid) (hn : rawBrackets k ≠ 0) {q : Str}
    (hb : bal 0 0 (strText k ++ q) = some (0, 0)) : Bad (parseRaw (strText k ++ q) : Res (Json F)) := by
  intro j hj
  obtain ⟨hw, _⟩ := str_ok hk hj
  rw [bal_str 0 k q hk] at hb
  have := bal_ws (0 + rawBrackets k) q [] hw
  rw [List.append_nil] at this
  rw [this] at hb
  simp [bal] at hb
  exact hn hb

/-! ### First characters -/

theorem tok_text_ne {t : JTok} (h : t.Ok) : t.text ≠ [] := by
  cases t with
  | sym c => simp [JTok.text]
  | str s => simp [JTok.text, strText]
  | lit t => exact h.1

theorem lead_ne {a : List JTok} {s : Str} (ha : a ≠ []) (hok : ∀ t ∈ a, t.Ok) (h : Lead a s) : s ≠ [] := by
  cases a with
  | nil => exact absurd rfl ha
  | cons t r =>
    obtain ⟨s', rfl, _⟩ := h
    have := tok_text_ne (hok t (by simp))
    simp [this]

theorem tok_first_head {t : JTok} (h : t.Ok) (hf : t.First) (r : Str) :
    ∃ c u, t.text ++ r = c :: u ∧ c ≠ ']' ∧ c ≠ '}' := by
  cases t with
  | sym c =>
    refine ⟨c, r, rfl, ?_⟩
    rcases hf with rfl | rfl <;> decide
  | str s => exact ⟨'"', bodyText s ++ ['"'] ++ r, by simp [JTok.text, strText], by decide, by decide⟩
  | lit t =>
    obtain ⟨h0, h1⟩ := h
    cases t with
    | nil => exact absurd rfl h0
    | cons c u =>
      refine ⟨c, u ++ r, rfl, ?_⟩
      have := h1 c (by simp)
      unfold Inert at this
      exact ⟨by intro e; subst e; revert this; decide, by intro e; subst e; revert this; decide⟩

theorem spells_head {t : JTok} {a : List JTok} {s q : Str} (h : t.Ok) (hf : t.First) (hs : Spells (t :: a) s) :
    (s ++ q).head? ≠ some ']' ∧ (s ++ q).head? ≠ some '}' := by
  obtain ⟨w, s', hw, rfl, _⟩ := hs
  cases w with
  | nil =>
    obtain ⟨c, u, e, h1, h2⟩ := tok_first_head h hf (s' ++ q)
    rw [List.nil_append, List.append_assoc, e]
    simp [h1, h2]
  | cons d w =>
    have : d ≠ ']' ∧ d ≠ '}' := by
      rcases ws_cases (hw d (by simp)) with rfl | rfl | rfl | rfl <;> decide
    simp [this]

/-- A proper non-empty part of a value's tokens does not consist of a separator. -/
theorem first_not_sep {x : Cst} {p r : List JTok} {t : JTok} (h : Cst.toks x = p ++ t :: r)
    (ht : t = .sym ']' ∨ t = .sym '}' ∨ t = .sym ',' ∨ t = .sym ':') : p ≠ [] := by
  rintro rfl
  obtain ⟨k, r', e, hf⟩ := cst_first x
  rw [h] at e
  simp only [List.nil_append, List.cons.injEq] at e
  obtain ⟨rfl, _⟩ := e
  rcases ht with rfl | rfl | rfl | rfl <;> simp [JTok.First] at hf

/-- Comparing two decompositions. -/
theorem split_cases {α : Type} {a b p r : List α} (h : a ++ b = p ++ r) :
    (∃ r', a = p ++ r' ∧ r = r' ++ b) ∨ (∃ c p', p = a ++ c :: p' ∧ b = c :: p' ++ r) := by
  rw [List.append_eq_append_iff] at h
  rcases h with ⟨p', rfl, h2⟩ | ⟨r', rfl, h2⟩
  · cases p' with
    | nil => exact .inl ⟨[], by simp, by simpa using h2.symm⟩
    | cons c p' => exact .inr ⟨c, p', rfl, h2⟩
  · exact .inl ⟨r', rfl, h2⟩

/-! ### Bad parts -/

/-- What is shown of a syntax tree: a part of its tokens at which a loop splits although it should not is never parsed
successfully. -/
def PB (F : Type) [FloatOps F] (x : Cst) : Prop :=
  ∀ (p r : List JTok) (s q : Str), Cst.toks x = p ++ r → p ≠ [] → ((r ≠ [] ∧ net p ≤ 0) ∨ (r = [] ∧ net p ≠ 0)) → Lead p s →
    bal 0 0 (s ++ q) = some (0, 0) → Bad (parseRaw (s ++ q) : Res (Json F))

theorem toks_split_ok {x : Cst} (hv : x.Wordy) {p r : List JTok} (h : Cst.toks x = p ++ r) : ∀ t ∈ p, t.Ok := by
  intro t ht
  exact cst_ok x hv t (by rw [h]; simp [ht])

/-- The array loop on a part of an element's tokens. -/
theorem arr_part {x : Cst} (hv : x.Wordy) (hx : PB F x) {p r : List JTok} (h : Cst.toks x = p ++ r) {s q : Str} (hs : Spells p s)
    (arr : List (Json F)) :
    Bad (arrLoop parseRaw (s ++ q) 0 0 [] arr) ∨
    ∃ us, Lead p us ∧ arrLoop parseRaw (s ++ q) 0 0 [] arr = arrLoop parseRaw q (net p) 0 us arr := by
  have := arr_run parseRaw q arr p [] [] s (toks_split_ok hv h) rfl hs (by
    intro p' t r' hb ht hn u hl
    rw [List.nil_append] at hn hl
    have e : Cst.toks x = p' ++ (t :: r' ++ r) := by rw [h, hb]; simp
    have hp' : p' ≠ [] := first_not_sep e (by rcases ht with h | h <;> simp [h])
    have := hx p' (t :: r' ++ r) u [] e hp' (.inl ⟨by simp, by omega⟩) hl (by
      rw [List.append_nil, bal_spells' (toks_split_ok hv e) (lead_spells hl), hn])
    rwa [List.append_nil] at this)
  simpa [net] using this

/-- The array loop cannot recover after such a part. -/
theorem arr_stuck {x : Cst} (hv : x.Wordy) (hx : PB F x) {p r : List JTok} (h : Cst.toks x = p ++ r) (hp : p ≠ [])
    (hc : (r ≠ [] ∧ net p ≤ 0) ∨ (r = [] ∧ net p ≠ 0)) {us q : Str} (hl : Lead p us) (arr : List (Json F)) :
    Bad (arrLoop parseRaw q (net p) 0 us arr) := by
  have := arr_past parseRaw us (fun q' hb => hx p r us q' h hp hc hl hb) _ q (net p) 0 [] arr (Nat.le_refl _) (by
    rw [List.append_nil]; exact bal_spells' (toks_split_ok hv h) (lead_spells hl))
  rwa [List.append_nil] at this

/-- The object loop on a part of a member value's tokens. -/
theorem obj_part {x : Cst} (hv : x.Wordy) (hx : PB F x) {p r : List JTok} (h : Cst.toks x = p ++ r) {s q ks : Str} (hs : Spells p s)
    (obj : Obj F) :
    Bad (objLoop parseRaw (s ++ q) 0 0 (ks, []) false obj) ∨
    ∃ us, Lead p us ∧ objLoop parseRaw (s ++ q) 0 0 (ks, []) false obj = objLoop parseRaw q (net p) 0 (ks, us) false obj := by
  have := obj_run parseRaw q ks obj p [] [] s (by simp) (toks_split_ok hv h) rfl hs (by
    intro p' t r' hb ht hn u q' hl hbal
    rw [List.nil_append] at hn hl
    have e : Cst.toks x = p' ++ (t :: r' ++ r) := by rw [h, hb]; simp
    have hp' : p' ≠ [] := first_not_sep e (by rcases ht with h | h | h <;> simp [h])
    exact hx p' (t :: r' ++ r) u q' e hp' (.inl ⟨by simp, by omega⟩) hl hbal)
  simpa [net] using this

theorem obj_stuck {x : Cst} (hv : x.Wordy) (hx : PB F x) {p r : List JTok} (h : Cst.toks x = p ++ r) (hp : p ≠ [])
    (hc : (r ≠ [] ∧ net p ≤ 0) ∨ (r = [] ∧ net p ≠ 0)) {us ks q : Str} (hl : Lead p us) (obj : Obj F) :
    Bad (objLoop parseRaw q (net p) 0 (ks, us) false obj) := by
  have := obj_pastV parseRaw us ks (fun q' hb => hx p r us q' h hp hc hl hb) _ q (net p) 0 [] obj (Nat.le_refl _) (by
    rw [List.append_nil]; exact bal_spells' (toks_split_ok hv h) (lead_spells hl))
  rwa [List.append_nil] at this

/-- The object loop on a key. -/
theorem obj_key {k : List StrItem} (hk : ∀ i ∈ k, i.Valid) {w q : Str} (hw : WsStr w) (obj : Obj F) :
    Bad (objLoop parseRaw (w ++ (strText k ++ q)) 0 0 ([], []) true obj) ∨
    (rawBrackets k = 0 ∧ objLoop parseRaw (w ++ (strText k ++ q)) 0 0 ([], []) true obj =
      objLoop parseRaw q 0 0 (strText k, []) true obj) := by
  rw [objLoop_ws _ _ _ _ _ _ hw]
  have := obj_tok (F := F) parseRaw (.str k) hk 0 ([], []) true q obj (by simp)
  simp only [JTok.text, JTok.net, pushKV, if_true, List.nil_append, Int.zero_add] at this
  rw [this]
  by_cases h0 : rawBrackets k = 0
  · rw [h0]; exact .inr ⟨rfl, rfl⟩
  · left
    have := obj_pastK (F := F) parseRaw (strText k) [] (fun q' hb s => str_bad hk h0 hb (.string s)) _ q (rawBrackets k) 0 [] obj
      (Nat.le_refl _) (by
        rw [bal_str 0 k [] hk]; simp [bal])
    rwa [List.append_nil] at this

theorem obj_colon (rec : Str → Res (Json F)) (q : Str) (kv : Str × Str) (onKey : Bool) (obj : Obj F) :
    objLoop rec (':' :: q) 0 0 kv onKey obj = objLoop rec q 0 0 kv false obj := by
  rw [objLoop_cons, if_neg (by simp), if_neg (by simp), if_pos ⟨rfl, rfl, rfl⟩]

/-- After an element at depth 0: the loop fails or goes on with the next element. -/
theorem arr_comma_step (rec : Str → Res (Json F)) (us q : Str) (arr : List (Json F)) :
    Bad (arrLoop rec (',' :: q) 0 0 us arr) ∨
    ∃ v, rec us = .ok v ∧ arrLoop rec (',' :: q) 0 0 us arr = arrLoop rec q 0 0 [] (arr ++ [v]) := by
  rw [arrLoop_cons, if_neg (by simp), if_pos ⟨rfl, rfl, rfl⟩]
  split
  · exact .inl (bad_fail _ _)
  · split
    · exact .inl (bad_fail _ _)
    · cases hr : rec us with
      | error e => exact .inl (bad_error _)
      | ok v => exact .inr ⟨v, rfl, rfl⟩

theorem obj_comma_step (rec : Str → Res (Json F)) (ks us q : Str) (obj : Obj F) :
    Bad (objLoop rec (',' :: q) 0 0 (ks, us) false obj) ∨
    ∃ k v, rec ks = .ok (.string k) ∧ rec us = .ok v ∧
      objLoop rec (',' :: q) 0 0 (ks, us) false obj = objLoop rec q 0 0 ([], []) true (objectInsert k v obj) := by
  rw [objLoop_cons, if_neg (by simp), if_pos ⟨rfl, rfl, rfl, rfl⟩]
  split
  · exact .inl (bad_fail _ _)
  · split
    · exact .inl (bad_fail _ _)
    · split
      · rename_i key hk
        cases hr : rec us with
        | error e => exact .inl (bad_error _)
        | ok v => exact .inr ⟨key, v, hk, rfl, by simp only⟩
      · exact .inl (bad_fail _ _)

theorem lead_sep {c : Char} {a : List JTok} {s : Str} (h : Spells (.sym c :: a) s) : ∃ w s', WsStr w ∧ s = w ++ c :: s' ∧ Spells a s' := by
  obtain ⟨w, s', hw, rfl, h⟩ := h
  exact ⟨w, s', hw, by simp [JTok.text], h⟩

mutual
theorem pb_cst : ∀ x : Cst, x.Wordy → PB F x
  | .null, _ => by
    intro p r s q h hp hc
    exfalso
    match p, hp, h with
    | [t], _, h => simp [Cst.toks] at h; obtain ⟨rfl, rfl⟩ := h; simp [net, JTok.net] at hc
    | _ :: _ :: _, _, h => simp [Cst.toks] at h
  | .true, _ => by
    intro p r s q h hp hc
    exfalso
    match p, hp, h with
    | [t], _, h => simp [Cst.toks] at h; obtain ⟨rfl, rfl⟩ := h; simp [net, JTok.net] at hc
    | _ :: _ :: _, _, h => simp [Cst.toks] at h
  | .false, _ => by
    intro p r s q h hp hc
    exfalso
    match p, hp, h with
    | [t], _, h => simp [Cst.toks] at h; obtain ⟨rfl, rfl⟩ := h; simp [net, JTok.net] at hc
    | _ :: _ :: _, _, h => simp [Cst.toks] at h
  | .num n, _ => by
    intro p r s q h hp hc
    exfalso
    match p, hp, h with
    | [t], _, h => simp [Cst.toks] at h; obtain ⟨rfl, rfl⟩ := h; simp [net, JTok.net] at hc
    | _ :: _ :: _, _, h => simp [Cst.toks] at h
  | .str k, hv => by
    intro p r s q h hp hc hl hb
    match p, hp, h with
    | [t], _, h =>
      simp [Cst.toks] at h
      obtain ⟨rfl, rfl⟩ := h
      simp [net, JTok.net] at hc
      obtain ⟨w, rfl, hw⟩ := hl
      simp only [JTok.text, List.append_assoc] at hb ⊢
      exact str_bad hv hc hb
    | _ :: _ :: _, _, h => simp [Cst.toks] at h
  | .arr0 _, _ => by
    intro p r s q h hp hc
    exfalso
    match p, hp, h with
    | [t], _, h => simp [Cst.toks] at h; obtain ⟨rfl, rfl⟩ := h; simp [net, JTok.net] at hc
    | [t, u], _, h => simp [Cst.toks] at h; obtain ⟨rfl, rfl, rfl⟩ := h; simp [net, JTok.net] at hc
    | _ :: _ :: _ :: _, _, h => simp [Cst.toks] at h
  | .obj0 _, _ => by
    intro p r s q h hp hc
    exfalso
    match p, hp, h with
    | [t], _, h => simp [Cst.toks] at h; obtain ⟨rfl, rfl⟩ := h; simp [net, JTok.net] at hc
    | [t, u], _, h => simp [Cst.toks] at h; obtain ⟨rfl, rfl, rfl⟩ := h; simp [net, JTok.net] at hc
    | _ :: _ :: _ :: _, _, h => simp [Cst.toks] at h
  | .arr es, hv => by
    intro p r s q h hp hc hl _
    match p, hp, h with
    | t :: p, _, h =>
      simp only [Cst.toks, List.cons_append, List.cons.injEq] at h
      obtain ⟨rfl, h⟩ := h
      obtain ⟨s', rfl, hs⟩ := hl
      simp only [net, JTok.net, true_or, if_true] at hc
      have hb := pb_elems es hv p r s' q [] h (by
        rcases hc with ⟨h1, h2⟩ | ⟨h1, h2⟩
        · exact .inl ⟨h1, by omega⟩
        · exact .inr ⟨h1, by omega⟩) hs
      simp only [JTok.text, List.cons_append, List.nil_append]
      rw [parseRaw_arr, parseArray]
      simp only [List.drop_succ_cons, List.drop_zero]
      rw [if_neg]
      · exact hb
      · have hne : p ≠ [] := by
          rintro rfl
          simp only [List.nil_append] at h
          simp only [net] at hc
          rcases hc with ⟨h1, h2⟩ | ⟨h1, h2⟩
          · omega
          · subst h1; simp at h
        obtain ⟨k, r', e, hf⟩ := elems_first es
        match p, hne, h, hs with
        | t :: p, _, h, hs =>
          rw [e] at h
          simp only [List.cons_append, List.cons.injEq] at h
          obtain ⟨rfl, _⟩ := h
          exact (spells_head (elems_ok es hv k (by rw [e]; simp)) hf hs).1
  | .obj ms, hv => by
    intro p r s q h hp hc hl _
    match p, hp, h with
    | t :: p, _, h =>
      simp only [Cst.toks, List.cons_append, List.cons.injEq] at h
      obtain ⟨rfl, h⟩ := h
      obtain ⟨s', rfl, hs⟩ := hl
      simp only [net, JTok.net, or_true, if_true] at hc
      have hb := pb_members ms hv p r s' q [] h (by
        rcases hc with ⟨h1, h2⟩ | ⟨h1, h2⟩
        · exact .inl ⟨h1, by omega⟩
        · exact .inr ⟨h1, by omega⟩) hs
      simp only [JTok.text, List.cons_append, List.nil_append]
      rw [parseRaw_obj, parseObject]
      simp only [List.drop_succ_cons, List.drop_zero]
      rw [if_neg]
      · exact hb
      · have hne : p ≠ [] := by
          rintro rfl
          simp only [List.nil_append] at h
          simp only [net] at hc
          rcases hc with ⟨h1, h2⟩ | ⟨h1, h2⟩
          · omega
          · subst h1; simp at h
        match p, hne, h, hs with
        | t :: p, _, h, hs =>
          have : ∃ k, t = .str k ∧ ∀ i ∈ k, i.Valid := by
            cases ms with
            | one w1 k => simp only [Members.toks, List.cons_append, List.cons.injEq] at h; exact ⟨k, h.1.symm, hv.2.1⟩
            | cons w1 k => simp only [Members.toks, List.cons_append, List.cons.injEq] at h; exact ⟨k, h.1.symm, hv.1.2.1⟩
          obtain ⟨k, rfl, hk⟩ := this
          exact (spells_head (t := .str k) hk trivial hs).2
theorem pb_elems : ∀ es : Elems, es.Wordy → ∀ (p r : List JTok) (s q : Str) (arr : List (Json F)), Elems.toks es ++ [.sym ']'] = p ++ r →
    ((r ≠ [] ∧ net p < 0) ∨ (r = [] ∧ net p ≠ -1)) → Spells p s → Bad (arrLoop parseRaw (s ++ q) 0 0 [] arr)
  | .one w1 x w2, hv, p, r, s, q, arr, h, hc, hs => by
    have hx : PB F x := pb_cst x hv.2.1
    simp only [Elems.toks] at h
    rcases split_cases h with ⟨r', e, hr⟩ | ⟨c, p', rfl, e⟩
    · have hr0 : r ≠ [] := by rw [hr]; simp
      have hn : net p < 0 := hc.elim (fun h => h.2) (fun h => absurd h.1 hr0)
      have hp : p ≠ [] := by rintro rfl; simp [net] at hn
      rcases arr_part hv.2.1 hx e hs arr (q := q) with hb | ⟨us, hl, e2⟩
      · exact hb
      · rw [e2]
        refine arr_stuck hv.2.1 hx e hp ?_ hl arr
        by_cases h0 : r' = []
        · exact .inr ⟨h0, by omega⟩
        · exact .inl ⟨h0, by omega⟩
    · simp only [List.cons_append, List.cons.injEq] at e
      obtain ⟨rfl, e⟩ := e
      have e' := List.append_eq_nil_iff.mp e.symm
      obtain ⟨rfl, rfl⟩ := e'
      have hn : net (Cst.toks x) ≠ 0 := by
        rcases hc with h | h
        · exact absurd rfl h.1
        · have := h.2
          simp only [net_append, net, JTok.net] at this
          intro h0; rw [h0] at this; simp at this
      obtain ⟨s1, s2, rfl, h1, h2⟩ := spells_split hs
      rw [List.append_assoc]
      obtain ⟨k, r', ek, _⟩ := cst_first x
      rcases arr_part hv.2.1 hx (r := []) (by simp) h1 arr (q := s2 ++ q) with hb | ⟨us, hl, e2⟩
      · exact hb
      · rw [e2]
        exact arr_stuck hv.2.1 hx (r := []) (by simp) (by rw [ek]; simp) (.inr ⟨rfl, hn⟩) hl arr
  | .cons w1 x w2 t, hv, p, r, s, q, arr, h, hc, hs => by
    have hx : PB F x := pb_cst x hv.2.1
    simp only [Elems.toks, List.append_assoc, List.cons_append] at h
    obtain ⟨k, r'', ek, _⟩ := cst_first x
    rcases split_cases h with ⟨r', e, hr⟩ | ⟨c, p', rfl, e⟩
    · have hr0 : r ≠ [] := by rw [hr]; simp
      have hn : net p < 0 := hc.elim (fun h => h.2) (fun h => absurd h.1 hr0)
      have hp : p ≠ [] := by rintro rfl; simp [net] at hn
      rcases arr_part hv.2.1 hx e hs arr (q := q) with hb | ⟨us, hl, e2⟩
      · exact hb
      · rw [e2]
        refine arr_stuck hv.2.1 hx e hp ?_ hl arr
        by_cases h0 : r' = []
        · exact .inr ⟨h0, by omega⟩
        · exact .inl ⟨h0, by omega⟩
    · simp only [List.cons_append, List.cons.injEq] at e
      obtain ⟨rfl, e⟩ := e
      obtain ⟨s1, s2, rfl, h1, h2⟩ := spells_split hs
      rw [List.append_assoc]
      rcases arr_part hv.2.1 hx (r := []) (by simp) h1 arr (q := s2 ++ q) with hb | ⟨us, hl, e2⟩
      · exact hb
      · rw [e2]
        by_cases hn : net (Cst.toks x) = 0
        · rw [hn]
          obtain ⟨w, s3, hw, rfl, h3⟩ := lead_sep h2
          rw [List.append_assoc, arrLoop_ws _ _ _ _ _ hw, List.cons_append]
          rcases arr_comma_step (F := F) parseRaw us (s3 ++ q) arr with hb | ⟨v, _, e3⟩
          · exact hb
          · rw [e3]
            refine pb_elems t hv.2.2.2 p' r s3 q _ e ?_ h3
            simp only [net_append, net, JTok.net, hn] at hc
            simpa using hc
        · exact arr_stuck hv.2.1 hx (r := []) (by simp) (by rw [ek]; simp) (.inr ⟨rfl, hn⟩) hl arr
theorem pb_members : ∀ ms : Members, ms.Wordy → ∀ (p r : List JTok) (s q : Str) (obj : Obj F), Members.toks ms ++ [.sym '}'] = p ++ r →
    ((r ≠ [] ∧ net p < 0) ∨ (r = [] ∧ net p ≠ -1)) → Spells p s → Bad (objLoop parseRaw (s ++ q) 0 0 ([], []) true obj)
  | .one w1 k w2 w3 x w4, hv, p, r, s, q, obj, h, hc, hs => by
    obtain ⟨v1, v2, v3, v4, v5, v6⟩ := hv
    have hx : PB F x := pb_cst x v5
    simp only [Members.toks, List.cons_append] at h
    match p, h, hc, hs with
    | [], h, hc, _ =>
      simp only [List.nil_append] at h
      subst h
      simp [net] at hc
    | t :: p, h, hc, hs =>
      simp only [List.cons_append, List.cons.injEq] at h
      obtain ⟨rfl, h⟩ := h
      obtain ⟨w, s', hw, rfl, hs1⟩ := hs
      clear hs
      simp only [List.append_assoc, JTok.text]
      rcases obj_key (F := F) v2 hw obj (q := s' ++ q) with hb | ⟨hk0, e1⟩
      · exact hb
      rw [e1]
      match p, h, hc, hs1 with
      | [], h, hc, _ =>
        simp only [List.nil_append] at h
        subst h
        simp [net, JTok.net, hk0] at hc
      | t :: p, h, hc, hs1 =>
        simp only [List.cons_append, List.cons.injEq] at h
        obtain ⟨rfl, h⟩ := h
        obtain ⟨w, s', hw, rfl, hs⟩ := lead_sep hs1
        rw [List.append_assoc, objLoop_ws _ _ _ _ _ _ hw, List.cons_append, obj_colon]
        have hc' : (r ≠ [] ∧ net p < 0) ∨ (r = [] ∧ net p ≠ -1) := by
          simp only [net, JTok.net, hk0] at hc
          simpa using hc
        obtain ⟨tk, r'', ek, _⟩ := cst_first x
        rcases split_cases h with ⟨r', e, hr⟩ | ⟨c, p', rfl, e⟩
        · have hr0 : r ≠ [] := by rw [hr]; simp
          have hn : net p < 0 := hc'.elim (fun h => h.2) (fun h => absurd h.1 hr0)
          have hp : p ≠ [] := by rintro rfl; simp [net] at hn
          rcases obj_part v5 hx e hs obj (q := q) (ks := strText k) with hb | ⟨us, hl, e2⟩
          · exact hb
          · rw [e2]
            refine obj_stuck v5 hx e hp ?_ hl obj
            by_cases h0 : r' = []
            · exact .inr ⟨h0, by omega⟩
            · exact .inl ⟨h0, by omega⟩
        · simp only [List.cons_append, List.cons.injEq] at e
          obtain ⟨rfl, e⟩ := e
          have e' := List.append_eq_nil_iff.mp e.symm
          obtain ⟨rfl, rfl⟩ := e'
          have hn : net (Cst.toks x) ≠ 0 := by
            rcases hc' with h | h
            · exact absurd rfl h.1
            · have := h.2
              simp only [net_append, net, JTok.net] at this
              intro h0; rw [h0] at this; simp at this
          obtain ⟨s1, s2, rfl, h1, h2⟩ := spells_split hs
          rw [List.append_assoc]
          rcases obj_part v5 hx (r := []) (by simp) h1 obj (q := s2 ++ q) (ks := strText k) with hb | ⟨us, hl, e2⟩
          · exact hb
          · rw [e2]
            exact obj_stuck v5 hx (r := []) (by simp) (by rw [ek]; simp) (.inr ⟨rfl, hn⟩) hl obj
  | .cons w1 k w2 w3 x w4 t, hv, p, r, s, q, obj, h, hc, hs => by
    obtain ⟨⟨v1, v2, v3, v4, v5, v6⟩, v7⟩ := hv
    have hx : PB F x := pb_cst x v5
    simp only [Members.toks, List.cons_append, List.append_assoc] at h
    match p, h, hc, hs with
    | [], h, hc, _ =>
      simp only [List.nil_append] at h
      subst h
      simp [net] at hc
    | t :: p, h, hc, hs =>
      simp only [List.cons_append, List.cons.injEq] at h
      obtain ⟨rfl, h⟩ := h
      obtain ⟨w, s', hw, rfl, hs1⟩ := hs
      clear hs
      simp only [List.append_assoc, JTok.text]
      rcases obj_key (F := F) v2 hw obj (q := s' ++ q) with hb | ⟨hk0, e1⟩
      · exact hb
      rw [e1]
      match p, h, hc, hs1 with
      | [], h, hc, _ =>
        simp only [List.nil_append] at h
        subst h
        simp [net, JTok.net, hk0] at hc
      | t :: p, h, hc, hs1 =>
        simp only [List.cons_append, List.cons.injEq] at h
        obtain ⟨rfl, h⟩ := h
        obtain ⟨w, s', hw, rfl, hs⟩ := lead_sep hs1
        rw [List.append_assoc, objLoop_ws _ _ _ _ _ _ hw, List.cons_append, obj_colon]
        have hc' : (r ≠ [] ∧ net p < 0) ∨ (r = [] ∧ net p ≠ -1) := by
          simp only [net, JTok.net, hk0] at hc
          simpa using hc
        obtain ⟨tk, r'', ek, _⟩ := cst_first x
        rcases split_cases h with ⟨r', e, hr⟩ | ⟨c, p', rfl, e⟩
        · have hr0 : r ≠ [] := by rw [hr]; simp
          have hn : net p < 0 := hc'.elim (fun h => h.2) (fun h => absurd h.1 hr0)
          have hp : p ≠ [] := by rintro rfl; simp [net] at hn
          rcases obj_part v5 hx e hs obj (q := q) (ks := strText k) with hb | ⟨us, hl, e2⟩
          · exact hb
          · rw [e2]
            refine obj_stuck v5 hx e hp ?_ hl obj
            by_cases h0 : r' = []
            · exact .inr ⟨h0, by omega⟩
            · exact .inl ⟨h0, by omega⟩
        · simp only [List.cons_append, List.cons.injEq] at e
          obtain ⟨rfl, e⟩ := e
          obtain ⟨s1, s2, rfl, h1, h2⟩ := spells_split hs
          rw [List.append_assoc]
          rcases obj_part v5 hx (r := []) (by simp) h1 obj (q := s2 ++ q) (ks := strText k) with hb | ⟨us, hl, e2⟩
          · exact hb
          · rw [e2]
            by_cases hn : net (Cst.toks x) = 0
            · rw [hn]
              obtain ⟨w, s3, hw, rfl, h3⟩ := lead_sep h2
              rw [List.append_assoc, objLoop_ws _ _ _ _ _ _ hw, List.cons_append]
              rcases obj_comma_step (F := F) parseRaw (strText k) us (s3 ++ q) obj with hb | ⟨_, v, _, _, e3⟩
              · exact hb
              · rw [e3]
                refine pb_members _ v7 p' r s3 q _ e ?_ h3
                simp only [net_append, net, JTok.net, hn] at hc'
                simpa using hc'
            · exact obj_stuck v5 hx (r := []) (by simp) (by rw [ek]; simp) (.inr ⟨rfl, hn⟩) hl obj
end

end RJ
