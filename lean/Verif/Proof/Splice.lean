import Verif.Spec.Splice
import Verif.Proof.Flatten
import Verif.Proof.PrintCst
import Verif.Proof.JsonEq
import Verif.Props.Print
/-
  Where the values of a document are in its text (C99).
-/
namespace RJ
open Spec

theorem join_focus (A B : List Str) : ∃ a b, ∀ x, joinComma (A ++ x :: B) = a ++ x ++ b := by
  refine ⟨(A.map (fun s => s ++ ", ".toList)).flatten, match B with | [] => [] | y :: t => ", ".toList ++ joinComma (y :: t), fun x => ?_⟩
  rw [joinComma_append A (x :: B) (by simp)]
  cases B <;> simp [joinComma]

theorem join_insert (A B : List Str) : ∃ a b l r, ((l = [] ∧ r = [] ∧ a = [] ∧ b = []) ∨ (l = [',', ' '] ∧ r = []) ∨ (l = [] ∧ r = [',', ' '])) ∧
    joinComma (A ++ B) = a ++ b ∧ ∀ x, joinComma (A ++ x :: B) = a ++ (l ++ x ++ r) ++ b := by
  cases B with
  | nil =>
    cases A with
    | nil => exact ⟨[], [], [], [], .inl ⟨rfl, rfl, rfl, rfl⟩, rfl, fun x => by simp [joinComma]⟩
    | cons y A =>
      refine ⟨joinComma (y :: A), [], [',', ' '], [], .inr (.inl ⟨rfl, rfl⟩), by simp, fun x => ?_⟩
      rw [joinComma_append _ [x] (by simp)]
      have hne : (y :: A) ≠ [] := by simp
      generalize y :: A = L at *
      have e : L = L.dropLast ++ [L.getLast hne] := (List.dropLast_concat_getLast hne).symm
      rw [e, joinComma_append _ [L.getLast hne] (by simp)]
      simp [joinComma]
  | cons y B =>
    refine ⟨(A.map (fun s => s ++ ", ".toList)).flatten, joinComma (y :: B), [], [',', ' '], .inr (.inr ⟨rfl, rfl⟩), joinComma_append A _ (by simp), fun x => ?_⟩
    rw [joinComma_append A (x :: y :: B) (by simp)]
    simp [joinComma]

/-- Where a new key goes depends on the key only. -/
theorem insert_split {β : Type} (k : Str) (t : List (Str × β)) : ∃ A B, t = A ++ B ∧ ∀ y, insertByKey (k, y) t = A ++ (k, y) :: B := by
  induction t with
  | nil => exact ⟨[], [], rfl, fun y => rfl⟩
  | cons x t ih =>
    by_cases h : strLe k x.1 = true
    · exact ⟨[], x :: t, rfl, fun y => by simp [insertByKey, h]⟩
    · obtain ⟨A, B, e, h1⟩ := ih
      exact ⟨x :: A, B, by rw [e]; rfl, fun y => by simp [insertByKey, h, h1 y]⟩

section
variable {F : Type} [FloatOps F]

/-- The text of a hash map entry. -/
def entryText (e : Str × (Json F × List (Json F))) : Str := printEntry e.1 e.2.1.toString (e.2.2.map Json.toString)

theorem object_text (m : Obj F) : (Json.object m).toString = ['{'] ++ joinComma ((sortByKey m).map entryText) ++ ['}'] := by
  rw [Json.toString, printEntries_eq, sortByKey_map]
  simp only [List.map_map, Function.comp_def]
  rfl

theorem entry_focus (k : Str) (l : List (Json F)) : ∃ a, ∀ v : Json F, entryText (k, (v, l)) = a ++ v.toString := by
  refine ⟨((l.map Json.toString).reverse.map (fun d => escape k ++ ": ".toList ++ d ++ ", ".toList)).flatten ++ (escape k ++ ": ".toList), fun v => ?_⟩
  simp [entryText, printEntry]

/-- An entry in front of other entries: where its text is, and what the text is without it. -/
theorem object_insert (k : Str) (rest : Obj F) : ∃ a b l r, Commas a l r b ∧ (Json.object rest).toString = a ++ b ∧
    ∀ y, (Json.object ((k, y) :: rest)).toString = a ++ (l ++ entryText (k, y) ++ r) ++ b := by
  obtain ⟨A, B, e, h1⟩ := insert_split (β := Json F × List (Json F)) k (sortByKey rest)
  obtain ⟨a, b, l, r, h2, h3, h4⟩ := join_insert (A.map entryText) (B.map entryText)
  refine ⟨['{'] ++ a, b ++ ['}'], l, r, ?_, ?_, fun y => ?_⟩
  · rcases h2 with ⟨rfl, rfl, rfl, rfl⟩ | h | h
    · exact .inl ⟨rfl, rfl, [], [], .inr ⟨rfl, rfl⟩⟩
    · exact .inr (.inl h)
    · exact .inr (.inr h)
  · rw [object_text, e, List.map_append, h3]; simp
  · rw [object_text, sortByKey, h1, List.map_append, List.map_cons, h4]; simp

theorem object_focus (k : Str) (l : List (Json F)) (rest : Obj F) : ∃ a b, ∀ v, (Json.object ((k, (v, l)) :: rest)).toString = a ++ v.toString ++ b := by
  obtain ⟨a, b, p, q, _, _, h⟩ := object_insert k rest
  obtain ⟨c, h1⟩ := entry_focus k l
  refine ⟨a ++ p ++ c, q ++ b, fun v => ?_⟩
  rw [h, h1]; simp

theorem array_text (l : List (Json F)) : (Json.array l).toString = ['['] ++ joinComma (l.map Json.toString) ++ [']'] := by
  rw [Json.toString, printList_eq]

theorem array_insert (A B : List (Json F)) : ∃ a b l r, Commas a l r b ∧ (Json.array (A ++ B)).toString = a ++ b ∧
    ∀ y, (Json.array (A ++ y :: B)).toString = a ++ (l ++ y.toString ++ r) ++ b := by
  obtain ⟨a, b, l, r, h2, h3, h4⟩ := join_insert (A.map Json.toString) (B.map Json.toString)
  refine ⟨['['] ++ a, b ++ [']'], l, r, ?_, ?_, fun y => ?_⟩
  · rcases h2 with ⟨rfl, rfl, rfl, rfl⟩ | h | h
    · exact .inl ⟨rfl, rfl, [], [], .inl ⟨rfl, rfl⟩⟩
    · exact .inr (.inl h)
    · exact .inr (.inr h)
  · rw [array_text, List.map_append, h3]; simp
  · rw [array_text, List.map_append, List.map_cons, h4]; simp

theorem array_focus (A B : List (Json F)) : ∃ a b, ∀ y, (Json.array (A ++ y :: B)).toString = a ++ y.toString ++ b := by
  obtain ⟨a, b, p, q, _, _, h⟩ := array_insert A B
  exact ⟨a ++ p, q ++ b, fun v => by rw [h]; simp⟩

end
variable {F : Type}

/-- The value at a path replaced (older values of the keys stay). -/
def plug : List Finder → Val F → Val F → Val F
  | [], w, _ => w
  | f :: r, w, d => grow f (plug r w (child f d)) d

theorem child_of {f : Finder} {d z : Val F} (h : look [f] d = some z) : child f d = z := by rw [child, h]; rfl

theorem plug_set (pre gs : List Finder) (hg : gs ≠ []) (v d c : Val F) (h : look pre d = some c) : setV (pre ++ gs) v d = plug pre (setV gs v c) d := by
  induction pre generalizing d with
  | nil => cases h; rfl
  | cons f r ih =>
    rw [look_step] at h
    cases hz : look [f] d with
    | none => rw [hz] at h; cases h
    | some z =>
      rw [hz] at h
      rw [List.cons_append, setV_more f _ (by simp [hg]), child_of hz, plug, child_of hz, ih z h]

theorem plug_del (pre : List Finder) (f : Finder) (d c : Val F) (h : look pre d = some c) : delV (pre ++ [f]) d = plug pre (delV [f] c) d := by
  induction pre generalizing d with
  | nil => cases h; rfl
  | cons g r ih =>
    rw [look_step] at h
    cases hz : look [g] d with
    | none => rw [hz] at h; cases h
    | some z =>
      rw [hz] at h
      rw [List.cons_append, delV_more g _ (by simp) d z hz, plug, child_of hz, ih z h]

theorem plug_append (pre gs : List Finder) (w d c : Val F) (h : look pre d = some c) : plug (pre ++ gs) w d = plug pre (plug gs w c) d := by
  induction pre generalizing d with
  | nil => cases h; rfl
  | cons f r ih =>
    rw [look_step] at h
    cases hz : look [f] d with
    | none => rw [hz] at h; cases h
    | some z =>
      rw [hz] at h
      rw [List.cons_append, plug, plug, child_of hz, ih z h]

theorem plug_sole (fs : List Finder) (v d b : Val F) (h : look fs d = some b) (hs : Sole fs d) : setV fs v d = plug fs v d := by
  rcases List.eq_nil_or_concat fs with rfl | ⟨pre, f, rfl⟩
  · rfl
  · rw [List.concat_eq_append] at *
    cases hc : look pre d with
    | none =>
      exfalso
      clear hs
      induction pre generalizing d with
      | nil => cases hc
      | cons g r ih =>
        rw [List.cons_append, look_step] at h
        rw [look_step] at hc
        cases hz : look [g] d with
        | none => rw [hz] at h; cases h
        | some z => rw [hz] at h hc; exact ih z h hc
    | some c =>
      rw [plug_set pre [f] (by simp) v d c hc, plug_append pre [f] v d c hc]
      congr 1
      rw [setV_one, plug, plug]
      cases f with
      | index i => rfl
      | key k =>
        cases c with
        | obj m =>
          have := hs pre k m rfl hc
          have e : (m k).dropLast = [] := by rcases short_cases this with e | ⟨a, e⟩ <;> rw [e] <;> rfl
          simp [over, grow, e]
        | _ => rfl

theorem absMap_front [FloatOps F] {m m1 m2 : Obj F} {k : Str} {v : Json F} {l : List (Json F)} (e : m = m1 ++ (k, (v, l)) :: m2) (hn : (m.map (·.1)).Nodup) :
    ((k, (v, l)) :: (m1 ++ m2)).Perm m ∧ absMap (m1 ++ m2) = upd (absMap m) k [] := by
  have hp : ((k, (v, l)) :: (m1 ++ m2)).Perm m := by rw [e]; exact List.perm_middle.symm
  refine ⟨hp, ?_⟩
  have hn' : (((k, (v, l)) :: (m1 ++ m2)).map (·.1)).Nodup := (hp.map (·.1)).nodup_iff.2 hn
  have hk : k ∉ (m1 ++ m2).map (·.1) := (List.nodup_cons.1 hn').1
  funext q
  unfold upd
  split
  · rename_i e'; subst e'; exact absMap_eq_nil.2 hk
  · rename_i h
    rw [e]
    clear hp hn hn' hk e
    induction m1 with
    | nil => simp only [List.nil_append, absMap]; rw [if_neg (fun e => h e.symm)]
    | cons x t ih => obtain ⟨a, b, c⟩ := x; simp only [List.cons_append, absMap, ih]

/-- A value of a document is a stretch of its text; with another value there, the rest of the text stays. -/
theorem focus [FloatOps F] (fs : List Finder) (j : Json F) (hj : WF j) (b : Val F) (hb : look fs (absJ j) = some b) :
    ∃ (x : Json F) (pre post : Str) (f : Json F → Json F), absJ x = b ∧ WF x ∧ j.toString = pre ++ x.toString ++ post ∧
      ∀ y, WF y → WF (f y) ∧ absJ (f y) = plug fs (absJ y) (absJ j) ∧ (f y).toString = pre ++ y.toString ++ post := by
  induction fs generalizing j with
  | nil => cases hb; exact ⟨j, [], [], id, rfl, hj, by simp, fun y hy => ⟨hy, rfl, by simp⟩⟩
  | cons g r ih =>
    rw [look_step] at hb
    cases hz : look [g] (absJ j) with
    | none => rw [hz] at hb; cases hb
    | some z =>
      rw [hz] at hb
      have hc := child_of hz
      cases g with
      | key k =>
        cases j with
        | object m =>
          simp only [absJ, look] at hz
          cases e : (absMap m k).getLast? with
          | none => rw [e] at hz; cases hz
          | some w =>
            rw [e] at hz; cases hz
            obtain ⟨v, l, hm, rfl⟩ := absMap_last m k _ e
            obtain ⟨hn, hw⟩ := hj
            rw [WFMap_iff] at hw
            obtain ⟨m1, m2, em⟩ := List.append_of_mem hm
            obtain ⟨hp, ha⟩ := absMap_front em hn
            obtain ⟨x, pre, post, f, h1, h2, h3, h4⟩ := ih v (hw k v l hm).1 hb
            obtain ⟨a, b', h5⟩ := object_focus k l (m1 ++ m2)
            have hwf : ∀ y, WF y → WF (.object ((k, (y, l)) :: (m1 ++ m2))) := by
              intro y hy
              refine ⟨by simpa using (hp.map (·.1)).nodup_iff.2 hn, (WFMap_iff _).2 fun k' v' l' h => ?_⟩
              rcases List.mem_cons.1 h with e' | h
              · cases e'; exact ⟨hy, (hw k v l hm).2⟩
              · exact hw k' v' l' (hp.subset (List.mem_cons_of_mem _ h))
            have habs : ∀ y, absJ (.object ((k, (y, l)) :: (m1 ++ m2))) = .obj (upd (absMap m) k ((absMap m k).dropLast ++ [absJ y])) := by
              intro y
              simp only [absJ]
              congr 1
              funext q
              simp only [absMap]
              rw [absMap_of_mem hn hm, List.dropLast_concat]
              unfold upd
              by_cases hq : k = q
              · rw [if_pos hq, if_pos hq.symm]
              · rw [if_neg hq, if_neg (fun e' => hq e'.symm), ha, upd_off _ _ _ _ (fun e' => hq e'.symm)]
            refine ⟨x, a ++ pre, post ++ b', fun y => .object ((k, (f y, l)) :: (m1 ++ m2)), h1, h2, ?_, fun y hy => ?_⟩
            · have : (Json.object m).toString = (Json.object ((k, (v, l)) :: (m1 ++ m2))).toString :=
                C04_order_independent _ _ ⟨hn, (WFMap_iff _).2 hw⟩ (hwf v (hw k v l hm).1) (by rw [habs, absMap_of_mem hn hm, List.dropLast_concat, ← absMap_of_mem hn hm, upd_self _ _ _ rfl]; rfl)
              rw [this, h5, h3]; simp
            · obtain ⟨h6, h7, h8⟩ := h4 y hy
              refine ⟨hwf _ h6, ?_, ?_⟩
              · rw [habs, plug, hc, h7]; rfl
              · rw [h5, h8]; simp
        | _ => cases hz
      | index i =>
        cases j with
        | array l =>
          simp only [absJ, look, absList_map, List.getElem?_map] at hz
          cases e : l[i]? with
          | none => rw [e] at hz; cases hz
          | some w =>
            rw [e] at hz; cases hz
            have hw : ∀ x ∈ l, WF x := (WFList_iff l).1 hj
            have hi := (List.getElem?_eq_some_iff.1 e).1
            have hl : l = l.take i ++ w :: l.drop (i + 1) := by
              have := (List.getElem?_eq_some_iff.1 e).2
              rw [← this, List.getElem_cons_drop, List.take_append_drop]
            obtain ⟨x, pre, post, f, h1, h2, h3, h4⟩ := ih w (hw w (List.mem_of_getElem? e)) hb
            obtain ⟨a, b', h5⟩ := array_focus (l.take i) (l.drop (i + 1))
            refine ⟨x, a ++ pre, post ++ b', fun y => .array (l.take i ++ f y :: l.drop (i + 1)), h1, h2, ?_, fun y hy => ?_⟩
            · have := h5 w
              rw [← hl] at this
              rw [this, h3]; simp
            · obtain ⟨h6, h7, h8⟩ := h4 y hy
              refine ⟨?_, ?_, ?_⟩
              · refine (WFList_iff _).2 fun z hz => ?_
                rcases List.mem_append.1 hz with hz | hz
                · exact hw z (List.mem_of_mem_take hz)
                · rcases List.mem_cons.1 hz with rfl | hz
                  · exact h6
                  · exact hw z (List.mem_of_mem_drop hz)
              · rw [plug, hc]
                simp only [absJ, grow, absList_map, setElem, List.map_append, List.map_cons, h7, List.map_take, List.map_drop, List.length_map]
                rw [show i - l.length = 0 by omega]
                simp
              · rw [h5, h8]; simp
        | _ => cases hz

end RJ
