import Verif.Proof.Complete
/-
  `trim_matches(is_whitespace)` and whitespace around documents.
-/
set_option linter.unusedSectionVars false
namespace RJ
open Spec

theorem dropWhile_ws (w s : Str) (h : WsStr w) : (w ++ s).dropWhile isWs = s.dropWhile isWs := by
  induction w with
  | nil => rfl
  | cons c w ih =>
    have hc : isWs c = true := (isWs_iff c).mpr (h c (by simp))
    rw [List.cons_append, List.dropWhile_cons_of_pos hc, ih (fun x hx => h x (by simp [hx]))]

theorem wsStr_iff (w : Str) : WsStr w ↔ ∀ c ∈ w, isWs c = true := by
  simp [WsStr, isWs_iff]

theorem dropWhile_split (s : Str) : ∃ w, WsStr w ∧ s = w ++ s.dropWhile isWs := by
  induction s with
  | nil => exact ⟨[], (by intro c hc; cases hc), rfl⟩
  | cons c s ih =>
    by_cases hc : isWs c = true
    · obtain ⟨w, hw, h⟩ := ih
      refine ⟨c :: w, ?_, ?_⟩
      · intro d hd
        rcases List.mem_cons.mp hd with rfl | hd
        · exact (isWs_iff _).mp hc
        · exact hw d hd
      · rw [List.dropWhile_cons_of_pos hc, List.cons_append, ← h]
    · exact ⟨[], (by intro c hc; cases hc), by rw [List.dropWhile_cons_of_neg hc]; rfl⟩

/-- The text is its trimmed form with whitespace around. -/
theorem trimWs_split (s : Str) : ∃ a b, WsStr a ∧ WsStr b ∧ s = a ++ trimWs s ++ b := by
  obtain ⟨a, ha, h1⟩ := dropWhile_split s
  obtain ⟨b, hb, h2⟩ := dropWhile_split (s.dropWhile isWs).reverse
  refine ⟨a, b.reverse, ha, ?_, ?_⟩
  · intro c hc; exact hb c (List.mem_reverse.mp hc)
  · have h3 : s.dropWhile isWs = trimWs s ++ b.reverse := by
      have := congrArg List.reverse h2
      rw [List.reverse_reverse, List.reverse_append] at this
      exact this
    rw [List.append_assoc, ← h3]; exact h1

theorem trimWs_pre (a s : Str) (h : WsStr a) : trimWs (a ++ s) = trimWs s := by
  unfold trimWs; rw [dropWhile_ws a s h]

theorem trimWs_post (s b : Str) (h : WsStr b) : trimWs (s ++ b) = trimWs s := by
  unfold trimWs
  have hb : WsStr b.reverse := fun c hc => h c (List.mem_reverse.mp hc)
  have : (s ++ b).dropWhile isWs = s.dropWhile isWs ++ b ∨ ((s ++ b).dropWhile isWs = [] ∧ s.dropWhile isWs = []) := by
    induction s with
    | nil =>
      right
      refine ⟨?_, rfl⟩
      have := dropWhile_ws b [] h
      simpa using this
    | cons c s ih =>
      by_cases hc : isWs c = true
      · rw [List.cons_append, List.dropWhile_cons_of_pos hc, List.dropWhile_cons_of_pos hc]; exact ih
      · left
        rw [List.cons_append, List.dropWhile_cons_of_neg hc, List.dropWhile_cons_of_neg hc]; rfl
  rcases this with h1 | ⟨h1, h2⟩
  · rw [h1, List.reverse_append, dropWhile_ws _ _ hb]
  · rw [h1, h2]

theorem trimWs_around (a s b : Str) (ha : WsStr a) (hb : WsStr b) : trimWs (a ++ s ++ b) = trimWs s := by
  rw [trimWs_post _ _ hb, trimWs_pre _ _ ha]

/-- Texts that neither start nor end with whitespace are unchanged. -/
theorem trimWs_self (c : Char) (s : Str) (hc : ¬ IsWs c) (t : Str) (d : Char) (hd : ¬ IsWs d) (h : c :: s = t ++ [d]) :
    trimWs (c :: s) = c :: s := by
  have hc' : ¬ isWs c = true := fun h => hc ((isWs_iff c).mp h)
  have hd' : ¬ isWs d = true := fun h => hd ((isWs_iff d).mp h)
  unfold trimWs
  rw [List.dropWhile_cons_of_neg hc', h, List.reverse_append]
  simp only [List.reverse_cons, List.reverse_nil, List.nil_append, List.cons_append]
  rw [List.dropWhile_cons_of_neg hd']
  simp

theorem trimWs_eq {s u : Str} (h : trimWs s = u) : ∃ a b, WsStr a ∧ WsStr b ∧ s = a ++ u ++ b := by
  subst h; exact trimWs_split s

theorem word_last (x : Cst) (hv : x.Wordy) : ∃ t d, x.text = t ++ [d] ∧ ¬ IsWs d := by
  cases x with
  | null => exact ⟨"nul".toList, 'l', rfl, by simp [IsWs]⟩
  | true => exact ⟨"tru".toList, 'e', rfl, by simp [IsWs]⟩
  | false => exact ⟨"fals".toList, 'e', rfl, by simp [IsWs]⟩
  | num n =>
    have hne : n.text ≠ [] := hv.1
    exact ⟨n.text.dropLast, n.text.getLast hne, (List.dropLast_concat_getLast hne).symm, (hv.2 _ (List.getLast_mem hne)).2.2.2.2.2.2.2.2⟩
  | str s => exact ⟨['"'] ++ bodyText s, '"', rfl, by simp [IsWs]⟩
  | arr0 w => exact ⟨['['] ++ w, ']', rfl, by simp [IsWs]⟩
  | arr es => exact ⟨['['] ++ es.text, ']', rfl, by simp [IsWs]⟩
  | obj0 w => exact ⟨['{'] ++ w, '}', rfl, by simp [IsWs]⟩
  | obj es => exact ⟨['{'] ++ es.text, '}', rfl, by simp [IsWs]⟩

theorem trimWs_words (x : Cst) (hv : x.Wordy) : trimWs x.text = x.text := by
  obtain ⟨c, s, h1, hs⟩ := cst_opens x hv
  obtain ⟨t, d, h2, hd⟩ := word_last x hv
  rw [h1]
  exact trimWs_self c s hs.2.2.1 t d hd (by rw [← h1, h2])

theorem trimWs_cst (x : Cst) (hv : x.Valid) : trimWs x.text = x.text := trimWs_words x (cst_wordy x hv)

theorem trimWs_doc (d : Doc) (hv : d.Valid) : trimWs d.text = d.body.text := by
  unfold Doc.text
  rw [trimWs_around _ _ _ hv.1 hv.2.2, trimWs_cst _ hv.2.1]

end RJ
