import Verif.Proof.PrintCst
/-
  The printed text is printable ASCII (C03) and does not depend on hash order (C04).
-/
set_option linter.unusedSectionVars false
namespace RJ
open Spec

/-- Printable ASCII. -/
def Pr (c : Char) : Prop := 0x20 ≤ c.toNat ∧ c.toNat ≤ 0x7E

theorem hexDigit_pr (u : Nat) : Pr (hexDigit u) := by
  have := hexDigit_range u
  unfold Pr; omega

theorem hex_pr (u : Nat) (h : u < 65536) : ∀ c ∈ hex u, Pr c := by
  rw [hex_eq u h]
  intro c hc
  simp only [List.mem_cons, List.not_mem_nil, or_false] at hc
  rcases hc with rfl | rfl | rfl | rfl | rfl | rfl
  · simp [Pr]
  · simp [Pr]
  all_goals exact hexDigit_pr _

theorem pair_pr (a b : Char) (ha : Pr a) (hb : Pr b) : ∀ c ∈ [a, b], Pr c := by
  intro c hc
  simp only [List.mem_cons, List.not_mem_nil, or_false] at hc
  rcases hc with rfl | rfl
  · exact ha
  · exact hb

theorem escapeChar_pr (ch : Char) : ∀ c ∈ escapeChar ch, Pr c := by
  have hc := char_le ch
  have b : Pr '\\' := by simp [Pr]
  unfold escapeChar
  by_cases h0 : ch = '"'
  · rw [if_pos h0]; exact pair_pr _ _ b (by simp [Pr])
  rw [if_neg h0]
  by_cases h1 : ch = '\\'
  · rw [if_pos h1]; exact pair_pr _ _ b (by simp [Pr])
  rw [if_neg h1]
  by_cases h2 : ch = '/'
  · rw [if_pos h2]; exact pair_pr _ _ b (by simp [Pr])
  rw [if_neg h2]
  by_cases h3 : ch = '\x08'
  · rw [if_pos h3]; exact pair_pr _ _ b (by simp [Pr])
  rw [if_neg h3]
  by_cases h4 : ch = '\x0C'
  · rw [if_pos h4]; exact pair_pr _ _ b (by simp [Pr])
  rw [if_neg h4]
  by_cases h5 : ch = '\n'
  · rw [if_pos h5]; exact pair_pr _ _ b (by simp [Pr])
  rw [if_neg h5]
  by_cases h6 : ch = '\r'
  · rw [if_pos h6]; exact pair_pr _ _ b (by simp [Pr])
  rw [if_neg h6]
  by_cases h7 : ch = '\t'
  · rw [if_pos h7]; exact pair_pr _ _ b (by simp [Pr])
  rw [if_neg h7]
  by_cases h8 : ch.toNat ≤ 0x1F
  · rw [if_pos h8]; exact hex_pr _ (by omega)
  rw [if_neg h8]
  by_cases h9 : 0x20 ≤ ch.toNat ∧ ch.toNat ≤ 0x7E
  · rw [if_pos h9]
    intro c hc
    rw [List.mem_singleton.mp hc]; exact h9
  rw [if_neg h9]
  simp only
  split
  · exact hex_pr _ (by omega)
  · intro c hc
    rcases List.mem_append.mp hc with h | h
    · exact hex_pr _ (by omega) c h
    · exact hex_pr _ (by omega) c h

theorem escape_pr (s : Str) : ∀ c ∈ escape s, Pr c := by
  have hb : ∀ c ∈ escapeBody s, Pr c := by
    induction s with
    | nil => intro c hc; cases hc
    | cons x s ih =>
      intro c hc
      rcases List.mem_append.mp hc with h | h
      · exact escapeChar_pr x c h
      · exact ih c h
  intro c hc
  simp only [escape, List.mem_append, List.mem_singleton] at hc
  rcases hc with (rfl | h) | rfl
  · simp [Pr]
  · exact hb c h
  · simp [Pr]

theorem joinComma_pr (l : List Str) (h : ∀ s ∈ l, ∀ c ∈ s, Pr c) : ∀ c ∈ joinComma l, Pr c := by
  induction l with
  | nil => intro c hc; cases hc
  | cons x t ih =>
    cases t with
    | nil => exact h x (by simp)
    | cons y t =>
      intro c hc
      simp only [joinComma, List.mem_append] at hc
      rcases hc with (hc | hc) | hc
      · exact h x (by simp) c hc
      · exact pair_pr ',' ' ' (by simp [Pr]) (by simp [Pr]) c hc
      · exact ih (fun s hs => h s (List.mem_cons_of_mem _ hs)) c hc

theorem numChar_pr {c : Char} (h : NumChar c) : Pr c := by
  have aux : ∀ d : Char, c = d ↔ c.toNat = d.toNat :=
    fun d => ⟨fun h => h ▸ rfl, fun h => Char.toNat_inj.mp h⟩
  unfold NumChar IsDigit at h
  simp only [aux, Char.reduceToNat] at h
  unfold Pr
  omega

variable {F : Type} [FloatOps F] [LawfulFloat F]

theorem toString_pr (j : Json F) (hf : Finite j) : ∀ c ∈ j.toString, Pr c := by
  induction j using Json.ind with
  | hobj m ih =>
    rw [toString_object]
    intro c hc
    simp only [List.mem_append, List.mem_singleton] at hc
    rcases hc with (rfl | hc) | rfl
    · simp [Pr]
    · refine joinComma_pr _ ?_ c hc
      intro s hs
      obtain ⟨p, hp, rfl⟩ := List.mem_map.mp hs
      obtain ⟨v, l, hm, hx⟩ := mem_flatVals hp
      have hfin := (AllNumMap_iff _ m).mp hf _ _ _ hm
      have hih := ih _ _ _ hm
      have hp2 : ∀ c ∈ p.2.toString, Pr c := by
        rcases hx with h | h
        · rw [h]; exact hih.1 hfin.1
        · exact hih.2 _ h (hfin.2 _ h)
      intro c hc
      simp only [memberText, List.mem_append] at hc
      rcases hc with (hc | hc) | hc
      · exact escape_pr _ c hc
      · exact pair_pr ':' ' ' (by simp [Pr]) (by simp [Pr]) c hc
      · exact hp2 c hc
    · simp [Pr]
  | harr l ih =>
    rw [Json.toString, printList_eq]
    intro c hc
    simp only [List.mem_append, List.mem_singleton] at hc
    rcases hc with (rfl | hc) | rfl
    · simp [Pr]
    · refine joinComma_pr _ ?_ c hc
      intro s hs
      obtain ⟨p, hp, rfl⟩ := List.mem_map.mp hs
      exact ih p hp ((AllNumList_iff _ l).mp hf p hp)
    · simp [Pr]
  | hstr s => rw [Json.toString]; exact escape_pr s
  | hnum f =>
    obtain ⟨n, hv, _, h⟩ := LawfulFloat.print_shape f hf
    rw [Json.toString, h]
    intro c hc
    exact numChar_pr (accepted_chars (NumLit.Loose.accepted hv.1) c hc)
  | hbool b =>
    cases b
    · intro c hc
      simp [Json.toString] at hc
      rcases hc with rfl | rfl | rfl | rfl | rfl <;> simp [Pr]
    · intro c hc
      simp [Json.toString] at hc
      rcases hc with rfl | rfl | rfl | rfl <;> simp [Pr]
  | hnull =>
    intro c hc
    simp [Json.toString] at hc
    rcases hc with rfl | rfl | rfl <;> simp [Pr]

end RJ

namespace RJ
open Spec
variable {F : Type} [FloatOps F]

theorem mapGet_mem {β : Type} {k : Str} {v : β} {m : List (Str × β)} (h : mapGet k m = some v) : (k, v) ∈ m := by
  induction m with
  | nil => cases h
  | cons e t ih =>
    obtain ⟨k', v'⟩ := e
    rw [mapGet] at h
    split at h
    · rename_i hk; cases h; subst hk; simp
    · exact List.mem_cons_of_mem _ (ih h)

theorem mapGet_of_mem {β : Type} {k : Str} {v : β} {m : List (Str × β)} (hn : (m.map (·.1)).Nodup) (h : (k, v) ∈ m) :
    mapGet k m = some v := by
  induction m with
  | nil => cases h
  | cons e t ih =>
    obtain ⟨k', v'⟩ := e
    have hn' := List.nodup_cons.mp hn
    rw [mapGet]
    rcases List.mem_cons.mp h with h | h
    · cases h; rw [if_pos rfl]
    · rw [if_neg, ih hn'.2 h]
      rintro rfl
      exact hn'.1 (List.mem_map.mpr ⟨_, h, rfl⟩)

/-- Maps with distinct keys and the same contents are permutations of each other. -/
theorem perm_of_mapGet {β : Type} (m m' : List (Str × β)) (hn : (m.map (·.1)).Nodup) (hn' : (m'.map (·.1)).Nodup)
    (h : ∀ q, mapGet q m = mapGet q m') : m.Perm m' := by
  have nd : ∀ l : List (Str × β), (l.map (·.1)).Nodup → l.Nodup := fun l h => (List.pairwise_map.mp h).imp (fun hab e => hab (by rw [e]))
  rw [List.perm_ext_iff_of_nodup (nd _ hn) (nd _ hn')]
  intro ⟨k, v⟩
  constructor
  · intro hm; exact mapGet_mem ((h k) ▸ mapGet_of_mem hn hm)
  · intro hm; exact mapGet_mem ((h k).symm ▸ mapGet_of_mem hn' hm)

theorem mapGet_map {β γ : Type} (g : Str × β → γ) (m : List (Str × β)) (q : Str) :
    mapGet q (m.map (fun e => (e.1, g e))) = (mapGet q m).map (fun v => g (q, v)) := by
  induction m with
  | nil => rfl
  | cons e t ih =>
    obtain ⟨k, v⟩ := e
    simp only [List.map_cons, mapGet]
    by_cases h : k = q
    · subst h; simp
    · simp [h, ih]

/-- The abstract value determines the text. -/
theorem toString_abs (j : Json F) : ∀ j' : Json F, WF j → WF j' → absJ j = absJ j' → j.toString = j'.toString := by
  induction j using Json.ind with
  | hobj m ih =>
    intro j' hw hw' h
    cases j' with
    | object m' =>
      simp only [absJ, Val.obj.injEq] at h
      rw [Json.toString, Json.toString]
      congr 4
      rw [printEntries_eq, printEntries_eq]
      have key : ∀ m : Obj F, (m.map (fun e => (e.1, printEntry e.1 e.2.1.toString (e.2.2.map Json.toString)))).map (·.1) = m.map (·.1) := by
        intro m; simp [Function.comp_def]
      apply sortByKey_perm_eq
      · apply perm_of_mapGet
        · rw [key]; exact hw.1
        · rw [key]; exact hw'.1
        intro q
        rw [mapGet_map (fun e : Str × (Json F × List (Json F)) => printEntry e.1 e.2.1.toString (e.2.2.map Json.toString)),
          mapGet_map (fun e : Str × (Json F × List (Json F)) => printEntry e.1 e.2.1.toString (e.2.2.map Json.toString))]
        have hq := congrFun h q
        rw [absMap_eq, absMap_eq] at hq
        cases h1 : mapGet q m with
        | none =>
          cases h2 : mapGet q m' with
          | none => rfl
          | some p' => rw [h1, h2] at hq; simp at hq
        | some p =>
          cases h2 : mapGet q m' with
          | none => rw [h1, h2] at hq; simp at hq
          | some p' =>
            obtain ⟨v, l⟩ := p
            obtain ⟨v', l'⟩ := p'
            rw [h1, h2] at hq
            simp only at hq
            have hq' := List.append_inj' hq rfl
            have hl : absList l = absList l' := List.reverse_inj.mp hq'.1
            have hv : absJ v = absJ v' := by simpa using hq'.2
            have m1 := mapGet_mem h1
            have m2 := mapGet_mem h2
            have w1 := (WFMap_iff m).mp hw.2 _ _ _ m1
            have w2 := (WFMap_iff m').mp hw'.2 _ _ _ m2
            have i1 := ih _ _ _ m1
            simp only [Option.map_some, Option.some.injEq]
            rw [i1.1 v' w1.1 w2.1 hv]
            congr 1
            rw [absList_eq, absList_eq] at hl
            have hlen : l.length = l'.length := by simpa using congrArg List.length hl
            apply List.ext_getElem (by simp [hlen])
            intro i a b
            simp only [List.length_map] at a b
            simp only [List.getElem_map]
            apply i1.2 _ (List.getElem_mem a) _ (w1.2 _ (List.getElem_mem a)) (w2.2 _ (List.getElem_mem b))
            have := congrArg (fun L => L[i]?) hl
            simpa [a, b] using this
      · rw [key]; exact hw.1
    | _ => simp [absJ] at h
  | harr l ih =>
    intro j' hw hw' h
    cases j' with
    | array l' =>
      simp only [absJ, Val.arr.injEq] at h
      rw [Json.toString, Json.toString, printList_eq, printList_eq]
      congr 3
      rw [absList_eq, absList_eq] at h
      have hlen : l.length = l'.length := by simpa using congrArg List.length h
      apply List.ext_getElem (by simp [hlen])
      intro i a b
      simp only [List.length_map] at a b
      simp only [List.getElem_map]
      apply ih _ (List.getElem_mem a) _ ((WFList_iff l).mp hw _ (List.getElem_mem a)) ((WFList_iff l').mp hw' _ (List.getElem_mem b))
      have := congrArg (fun L => L[i]?) h
      simpa [a, b] using this
    | _ => simp [absJ] at h
  | hstr s => intro j' _ _ h; cases j' <;> simp [absJ] at h; subst h; rfl
  | hnum s => intro j' _ _ h; cases j' <;> simp [absJ] at h; subst h; rfl
  | hbool s => intro j' _ _ h; cases j' <;> simp [absJ] at h; subst h; rfl
  | hnull => intro j' _ _ h; cases j' <;> simp [absJ] at h; rfl

end RJ
