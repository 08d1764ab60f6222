import Verif.Proof.Unambiguous
/-
  A printed value whose text has the shape of an RFC 8259 value has finite numbers only.
-/
set_option linter.unusedSectionVars false
namespace RJ
open Spec
variable {F : Type} [FloatOps F] [LawfulFloat F]

/-- What `f64::to_string` returns for numbers that are not finite. -/
def PrintsBad (F : Type) [FloatOps F] : Prop := ∀ f : F, ¬ FloatOps.isFinite f = true →
  FloatOps.print f = ['N', 'a', 'N'] ∨ FloatOps.print f = ['i', 'n', 'f'] ∨ FloatOps.print f = ['-', 'i', 'n', 'f']

/-- First character of a printed value: not whitespace, not a closing bracket. -/
theorem print_head (hb : PrintsBad F) (j : Json F) (r : Str) : ∃ c, (j.toString ++ r).head? = some c ∧ ¬ IsWs c ∧ c ≠ ']' ∧ c ≠ '}' := by
  have fin : ∀ j : Json F, Finite j → ∃ c, (j.toString ++ r).head? = some c ∧ ¬ IsWs c ∧ c ≠ ']' ∧ c ≠ '}' := by
    intro j hj
    obtain ⟨c, h1, h2⟩ := starts_lead (cstOf j) (cstOf_valid j hj) r
    exact ⟨c, by rw [cstOf_text j hj]; exact h1, h2.notWs⟩
  cases j with
  | object m => exact ⟨'{', by rw [toString_object]; rfl, by simp [IsWs], by decide, by decide⟩
  | array m => exact ⟨'[', by rw [Json.toString]; rfl, by simp [IsWs], by decide, by decide⟩
  | string s => exact ⟨'"', by rw [Json.toString]; rfl, by simp [IsWs], by decide, by decide⟩
  | boolean b => exact fin _ trivial
  | null => exact fin _ trivial
  | number f =>
    by_cases hf : FloatOps.isFinite f = true
    · exact fin _ hf
    · rw [Json.toString]
      rcases hb f hf with h | h | h <;> rw [h]
      · exact ⟨'N', rfl, by simp [IsWs], by decide, by decide⟩
      · exact ⟨'i', rfl, by simp [IsWs], by decide, by decide⟩
      · exact ⟨'-', rfl, by simp [IsWs], by decide, by decide⟩

theorem print_nws (hb : PrintsBad F) (j : Json F) (r : Str) : ∀ d, (j.toString ++ r).head? = some d → ¬ IsWs d := by
  intro d hd
  obtain ⟨c, h1, h2, _⟩ := print_head hb j r
  rw [h1] at hd; cases hd; exact h2

/-- What is proved for every printed value. -/
def OnlyFin (j : Json F) : Prop := ∀ (x : Cst) (r r' : Str), x.Valid → Stop r → Stop r' → j.toString ++ r = x.text ++ r' → Finite j ∧ r = r'

theorem onlyFin_of (j : Json F) (hj : Finite j) : OnlyFin j := by
  intro x r r' hx hr hr' h
  rw [cstOf_text j hj] at h
  exact ⟨hj, (cst_unique _ _ _ _ (cstOf_valid j hj) hx hr hr' h).2⟩

theorem printList_map (l : List (Json F)) : printList l = l.map Json.toString := by
  induction l with
  | nil => rfl
  | cons x t ih => simp [printList, ih]

theorem elems_fin (hb : PrintsBad F) : ∀ (t : List (Json F)) (a : Json F) (w : Str) (es : Elems) (r r' : Str), (∀ x ∈ a :: t, OnlyFin x) → WsStr w → es.Valid →
    w ++ (joinComma ((a :: t).map Json.toString) ++ ']' :: r) = es.text ++ ']' :: r' → (∀ x ∈ a :: t, Finite x) ∧ r = r'
  | [], a, w, .one w1 x w2, r, r', ih, hw, ⟨b1, b2, b3⟩, h => by
    simp only [Elems.text, List.append_assoc, List.map_cons, List.map_nil, joinComma] at h
    obtain ⟨_, h⟩ := ws_unique _ _ _ _ hw b1 (print_nws hb a _) (nws_value x b2 _) h
    obtain ⟨h1, h2⟩ := ih a (by simp) x _ _ b2 (stop_char _ _ (by simp)) (stop_ws _ _ b3 (stop_char _ _ (by simp))) h
    obtain ⟨_, h⟩ := ws_unique [] _ _ _ (by simp [WsStr]) b3 (nws_char _ _ (by simp [IsWs])) (nws_char _ _ (by simp [IsWs])) h2
    exact ⟨by simpa using h1, by simpa using h⟩
  | [], a, w, .cons w1 x w2 t', r, r', ih, hw, ⟨b1, b2, b3, b4⟩, h => by
    exfalso
    simp only [Elems.text, List.append_assoc, List.map_cons, List.map_nil, joinComma] at h
    obtain ⟨_, h⟩ := ws_unique _ _ _ _ hw b1 (print_nws hb a _) (nws_value x b2 _) h
    obtain ⟨h1, h2⟩ := ih a (by simp) x _ _ b2 (stop_char _ _ (by simp)) (stop_ws _ _ b3 (stop_char _ _ (by simp))) h
    obtain ⟨_, h⟩ := ws_unique [] _ _ _ (by simp [WsStr]) b3 (nws_char _ _ (by simp [IsWs])) (nws_char _ _ (by simp [IsWs])) h2
    simp at h
  | b :: t, a, w, .one w1 x w2, r, r', ih, hw, ⟨b1, b2, b3⟩, h => by
    exfalso
    simp only [Elems.text, List.append_assoc, List.map_cons, joinComma] at h
    obtain ⟨_, h⟩ := ws_unique _ _ _ _ hw b1 (print_nws hb a _) (nws_value x b2 _) h
    obtain ⟨h1, h2⟩ := ih a (by simp) x (',' :: ' ' :: _) _ b2 (stop_char _ _ (by simp)) (stop_ws _ _ b3 (stop_char _ _ (by simp))) h
    obtain ⟨_, h⟩ := ws_unique [] _ _ _ (by simp [WsStr]) b3 (nws_char _ _ (by simp [IsWs])) (nws_char _ _ (by simp [IsWs])) h2
    simp at h
  | b :: t, a, w, .cons w1 x w2 t', r, r', ih, hw, ⟨b1, b2, b3, b4⟩, h => by
    simp only [Elems.text, List.append_assoc, List.map_cons, joinComma] at h
    obtain ⟨_, h⟩ := ws_unique _ _ _ _ hw b1 (print_nws hb a _) (nws_value x b2 _) h
    obtain ⟨h1, h2⟩ := ih a (by simp) x (',' :: ' ' :: _) _ b2 (stop_char _ _ (by simp)) (stop_ws _ _ b3 (stop_char _ _ (by simp))) h
    obtain ⟨_, h⟩ := ws_unique [] _ _ _ (by simp [WsStr]) b3 (nws_char _ _ (by simp [IsWs])) (nws_char _ _ (by simp [IsWs])) h2
    obtain ⟨h3, h4⟩ := elems_fin hb t b [' '] t' r r' (fun x hx => ih x (List.mem_cons_of_mem _ hx)) (by simp [WsStr, IsWs]) b4 (by simpa using h)
    refine ⟨fun y hy => ?_, h4⟩
    rcases List.mem_cons.mp hy with rfl | hy
    · exact h1
    · exact h3 y hy

theorem members_fin (hb : PrintsBad F) : ∀ (t : List (Str × Json F)) (a : Str × Json F) (w : Str) (es : Members) (r r' : Str), (∀ x ∈ a :: t, OnlyFin x.2) → WsStr w → es.Valid →
    w ++ (joinComma ((a :: t).map (fun p => memberText (p.1, p.2.toString))) ++ '}' :: r) = es.text ++ '}' :: r' → (∀ x ∈ a :: t, Finite x.2) ∧ r = r'
  | t, (k, a), w, es, r, r', ih, hw, hes, h => by
    have key : ∀ (w1 : Str) (k' : List StrItem) (w2 w3 : Str) (x : Cst) (w4 q q' : Str), WsStr w1 → (∀ i ∈ k', i.Valid) → WsStr w2 → WsStr w3 → x.Valid → WsStr w4 →
        Stop q → Stop q' → (∀ d, q.head? = some d → ¬ IsWs d) → (∀ d, q'.head? = some d → ¬ IsWs d) →
        w ++ (memberText (k, a.toString) ++ q) = w1 ++ (strText k' ++ (w2 ++ (':' :: (w3 ++ (x.text ++ (w4 ++ q')))))) → Finite a ∧ q = q' := by
      intro w1 k' w2 w3 x w4 q q' h1 h2 h3 h4 h5 h6 hq hq' nq nq' h
      simp only [memberText, escape_eq, List.append_assoc] at h
      obtain ⟨_, h⟩ := ws_unique _ _ _ _ hw h1 (nws_str _ _) (nws_str k' _) h
      obtain ⟨_, h⟩ := str_unique _ k' _ _ (escapeItems_valid k) h2 h
      obtain ⟨_, h⟩ := ws_unique [] _ (':' :: ' ' :: (a.toString ++ q)) _ (by simp [WsStr]) h3 (nws_char _ _ (by simp [IsWs])) (nws_char _ _ (by simp [IsWs])) h
      simp only [List.cons.injEq, true_and] at h
      obtain ⟨_, h⟩ := ws_unique [' '] _ (a.toString ++ q) _ (by simp [WsStr, IsWs]) h4 (print_nws hb a _) (nws_value x h5 _) h
      obtain ⟨f1, h⟩ := ih (k, a) (by simp) x q _ h5 hq (stop_ws _ _ h6 hq') h
      exact ⟨f1, (ws_unique [] _ _ _ (by simp [WsStr]) h6 nq nq' h).2⟩
    match t, es, hes with
    | [], .one w1 k' w2 w3 x w4, ⟨b1, b2, b3, b4, b5, b6⟩ =>
      simp only [Members.text, List.append_assoc, List.map_cons, List.map_nil, joinComma] at h
      obtain ⟨h1, h2⟩ := key w1 k' w2 w3 x w4 ('}' :: r) ('}' :: r') b1 b2 b3 b4 b5 b6 (stop_char _ _ (by simp)) (stop_char _ _ (by simp)) (nws_char _ _ (by simp [IsWs])) (nws_char _ _ (by simp [IsWs])) h
      exact ⟨by simpa using h1, by simpa using h2⟩
    | [], .cons w1 k' w2 w3 x w4 t', ⟨⟨b1, b2, b3, b4, b5, b6⟩, b7⟩ =>
      exfalso
      simp only [Members.text, List.append_assoc, List.map_cons, List.map_nil, joinComma] at h
      obtain ⟨h1, h2⟩ := key w1 k' w2 w3 x w4 ('}' :: r) (',' :: _) b1 b2 b3 b4 b5 b6 (stop_char _ _ (by simp)) (stop_char _ _ (by simp)) (nws_char _ _ (by simp [IsWs])) (nws_char _ _ (by simp [IsWs])) h
      simp at h2
    | b :: t, .one w1 k' w2 w3 x w4, ⟨b1, b2, b3, b4, b5, b6⟩ =>
      exfalso
      simp only [Members.text, List.append_assoc, List.map_cons, joinComma] at h
      obtain ⟨h1, h2⟩ := key w1 k' w2 w3 x w4 (',' :: ' ' :: _) ('}' :: r') b1 b2 b3 b4 b5 b6 (stop_char _ _ (by simp)) (stop_char _ _ (by simp)) (nws_char _ _ (by simp [IsWs])) (nws_char _ _ (by simp [IsWs])) h
      simp at h2
    | b :: t, .cons w1 k' w2 w3 x w4 t', ⟨⟨b1, b2, b3, b4, b5, b6⟩, b7⟩ =>
      simp only [Members.text, List.append_assoc, List.map_cons, joinComma] at h
      obtain ⟨h1, h2⟩ := key w1 k' w2 w3 x w4 (',' :: ' ' :: _) (',' :: _) b1 b2 b3 b4 b5 b6 (stop_char _ _ (by simp)) (stop_char _ _ (by simp)) (nws_char _ _ (by simp [IsWs])) (nws_char _ _ (by simp [IsWs])) h
      obtain ⟨h3, h4⟩ := members_fin hb t b [' '] t' r r' (fun x hx => ih x (List.mem_cons_of_mem _ hx)) (by simp [WsStr, IsWs]) b7 (by simpa using h2)
      refine ⟨fun y hy => ?_, h4⟩
      rcases List.mem_cons.mp hy with rfl | hy
      · exact h1
      · exact h3 y hy

theorem onlyFin (hb : PrintsBad F) (j : Json F) : OnlyFin j := by
  induction j using Json.ind with
  | hstr s => exact onlyFin_of _ trivial
  | hbool b => exact onlyFin_of _ trivial
  | hnull => exact onlyFin_of _ trivial
  | hnum f =>
    by_cases hf : FloatOps.isFinite f = true
    · exact onlyFin_of _ hf
    · intro x r r' hx hr hr' h
      exfalso
      rw [Json.toString] at h
      obtain ⟨c, h1, h2⟩ := starts_lead x hx r'
      rcases hb f hf with e | e | e <;> rw [e] at h <;> rw [← h] at h1 <;> cases h1
      · cases h2; rename_i hd; revert hd; simp [IsDigit]
      · cases h2; rename_i hd; revert hd; simp [IsDigit]
      · cases h2 with
        | digit hd => revert hd; simp [IsDigit]
        | minus =>
          rename_i n
          obtain ⟨⟨⟨⟨hi0, hi⟩, _⟩, _⟩⟩ := (show n.Valid ∧ True from ⟨hx, trivial⟩)
          obtain ⟨c, t, ht⟩ := List.exists_cons_of_ne_nil hi0
          have hc := hi c (by rw [ht]; simp)
          rw [Cst.text, num_text, ht] at h
          cases hn : n.neg
          · rw [hn] at h
            simp at h
            rw [← h.1] at hc; revert hc; simp [IsDigit]
          · rw [hn] at h
            simp at h
            rw [← h.1] at hc; revert hc; simp [IsDigit]
  | harr l ih =>
    intro x r r' hx hr hr' h
    cases l with
    | nil => exact onlyFin_of (Json.array []) trivial x r r' hx hr hr' h
    | cons a t =>
      obtain ⟨c, h1, h2⟩ := starts_lead x hx r'
      rw [← h, Json.toString] at h1; cases h1
      rw [Json.toString, printList_map] at h
      cases h2 with
      | digit hd => revert hd; simp [IsDigit]
      | arr0 =>
        exfalso
        rename_i w
        simp only [Cst.text, List.append_assoc, List.cons_append, List.nil_append, List.cons.injEq, true_and] at h
        obtain ⟨q, e⟩ : ∃ q, joinComma ((a :: t).map Json.toString) ++ ']' :: r = a.toString ++ q := by
          cases t with
          | nil => exact ⟨']' :: r, by simp [joinComma]⟩
          | cons y u => exact ⟨", ".toList ++ joinComma (Json.toString y :: u.map Json.toString) ++ ']' :: r, by simp [joinComma]⟩
        obtain ⟨c, g1, g2, g3, _⟩ := print_head hb a q
        rw [e] at h
        obtain ⟨_, h⟩ := ws_unique [] w _ _ (by simp [WsStr]) hx (print_nws hb a _) (nws_char _ _ (by simp [IsWs])) h
        rw [h] at g1; cases g1; exact g3 rfl
      | arr =>
        rename_i es
        simp only [Cst.text, List.append_assoc, List.cons_append, List.nil_append, List.cons.injEq, true_and] at h
        obtain ⟨h1, h2⟩ := elems_fin hb t a [] es r r' ih (by simp [WsStr]) hx h
        exact ⟨(AllNumList_iff _ _).mpr h1, h2⟩
  | hobj m ih =>
    intro x r r' hx hr hr' h
    have ih' : ∀ p ∈ flatVals m, OnlyFin p.2 := by
      intro p hp
      obtain ⟨v, l, h1, h2⟩ := mem_flatVals hp
      rcases h2 with h2 | h2
      · rw [h2]; exact (ih _ _ _ h1).1
      · exact (ih _ _ _ h1).2 _ h2
    have fin : (∀ p ∈ flatVals m, Finite p.2) → Finite (.object m) := by
      intro hall
      refine (AllNumMap_iff _ _).mpr fun k v l hm => ⟨?_, fun y hy => ?_⟩
      · exact hall (k, v) (flatVals_mem hm v (.inl rfl))
      · exact hall (k, y) (flatVals_mem hm y (.inr hy))
    cases hl : flatVals m with
    | nil => exact onlyFin_of (Json.object m) (fin (by rw [hl]; simp)) x r r' hx hr hr' h
    | cons a t =>
      obtain ⟨c, h1, h2⟩ := starts_lead x hx r'
      rw [← h, toString_object] at h1; cases h1
      rw [toString_object, hl] at h
      rw [hl] at ih'
      cases h2 with
      | digit hd => revert hd; simp [IsDigit]
      | obj0 =>
        exfalso
        rename_i w
        simp only [Cst.text, List.append_assoc, List.cons_append, List.nil_append, List.cons.injEq, true_and] at h
        obtain ⟨q, e⟩ : ∃ q, joinComma ((a :: t).map (fun p => memberText (p.1, p.2.toString))) ++ '}' :: r = '"' :: q := by
          cases t <;> simp [joinComma, memberText, escape]
        rw [e] at h
        obtain ⟨_, h⟩ := ws_unique [] w ('"' :: q) _ (by simp [WsStr]) hx (nws_char _ _ (by simp [IsWs])) (nws_char _ _ (by simp [IsWs])) h
        simp at h
      | obj =>
        rename_i es
        simp only [Cst.text, List.append_assoc, List.cons_append, List.nil_append, List.cons.injEq, true_and] at h
        obtain ⟨h1, h2⟩ := members_fin hb t a [] es r r' ih' (by simp [WsStr]) hx h
        exact ⟨fin (by rw [hl]; exact h1), h2⟩

end RJ
