import Verif.Spec.Flatten
import Verif.Proof.Laws
import Verif.Proof.JsonInd
import Verif.Props.Path
/-
  Rebuilding a document from its leaves (C98).
-/
namespace RJ
open Spec
variable {F : Type}

theorem look_leaf {x : Val F} (h : IsLeaf x) {p : List Finder} (hp : p ≠ []) : look p x = none := by
  cases p with
  | nil => exact absurd rfl hp
  | cons f r =>
    rw [look_step]
    cases f with
    | key k => cases x <;> first | rfl | (simp only [IsLeaf] at h; simp [look, h])
    | index i => cases x <;> first | rfl | (simp only [IsLeaf] at h; simp [look, h])

/-- `x` is a part of `y` that is being built: leaves of `x` may stand for anything. -/
inductive Built : Val F → Val F → Prop
  | leaf (x y : Val F) : IsLeaf x → Built x y
  | obj (m m' : Str → List (Val F)) : (∀ k, (m k).length ≤ (m' k).length) → (∀ k, (m' k).length ≤ 1) → (∀ k a b, m k = [a] → m' k = [b] → Built a b) → Built (.obj m) (.obj m')
  | arr (l l' : List (Val F)) : l.length ≤ l'.length → (∀ (i : Nat) (a b : Val F), l[i]? = some a → l'[i]? = some b → Built a b) → Built (.arr l) (.arr l')

theorem built_obj {x : Val F} {m' : Str → List (Val F)} (h : Built x (.obj m')) (hl : ∀ k, (m' k).length ≤ 1) :
    (∃ m, x = .obj m ∧ (∀ k, (m k).length ≤ (m' k).length) ∧ ∀ k a b, m k = [a] → m' k = [b] → Built a b) ∨ (IsLeaf x ∧ ∀ m, x ≠ .obj m) := by
  cases h with
  | leaf _ _ h =>
    cases x with
    | obj m =>
      simp only [IsLeaf] at h
      exact .inl ⟨m, rfl, fun k => by simp [h k], fun k a b e => by rw [h k] at e; cases e⟩
    | _ => exact .inr ⟨h, fun m e => by cases e⟩
  | obj m _ h1 h2 h3 => exact .inl ⟨m, rfl, h1, h3⟩

theorem built_arr {x : Val F} {l' : List (Val F)} (h : Built x (.arr l')) :
    (∃ l, x = .arr l ∧ l.length ≤ l'.length ∧ ∀ (i : Nat) (a b : Val F), l[i]? = some a → l'[i]? = some b → Built a b) ∨ (IsLeaf x ∧ ∀ l, x ≠ .arr l) := by
  cases h with
  | leaf _ _ h =>
    cases x with
    | arr l =>
      simp only [IsLeaf] at h
      subst h
      exact .inl ⟨[], rfl, by simp, fun i a b e => by simp at e⟩
    | _ => exact .inr ⟨h, fun m e => by cases e⟩
  | arr l _ h1 h3 => exact .inl ⟨l, rfl, h1, h3⟩

theorem last_one {α : Type} {l : List α} {z : α} (hl : l.length ≤ 1) (h : l.getLast? = some z) : l = [z] := by
  cases l with
  | nil => cases h
  | cons a t =>
    cases t with
    | nil => cases h; rfl
    | cons b t => simp at hl

theorem short_cases {α : Type} {l : List α} (hl : l.length ≤ 1) : l = [] ∨ ∃ a, l = [a] := by
  cases l with
  | nil => exact .inl rfl
  | cons a t => cases t with
    | nil => exact .inr ⟨a, rfl⟩
    | cons b t => simp at hl

/-- Setting a place of `y` to what is there in `y` keeps a part a part. -/
theorem built_setV (fs : List Finder) (x y v : Val F) (h : Built x y) (hy : Built y y) (hv : look fs y = some v) : Built (setV fs v x) y := by
  induction fs generalizing x y with
  | nil => cases hv; exact hy
  | cons f r ih =>
    rw [look_step] at hv
    cases hz : look [f] y with
    | none => rw [hz] at hv; cases hv
    | some z =>
      rw [hz] at hv
      simp only [Option.bind_some] at hv
      rw [setV_cons]
      cases f with
      | key k =>
        cases y with
        | obj m' =>
          have hz' : (m' k).getLast? = some z := by
            simp only [look] at hz
            cases e : (m' k).getLast? with
            | none => rw [e] at hz; cases hz
            | some w => rw [e] at hz; exact hz
          cases hy with
          | leaf _ _ hl => simp only [IsLeaf] at hl; rw [hl k] at hz'; cases hz'
          | obj _ _ _ hl hc =>
            have hk := last_one (hl k) hz'
            have main : ∀ (m : Str → List (Val F)) (c : Val F), Built c z → (∀ q, (m q).length ≤ (m' q).length) → (∀ q a b, m q = [a] → m' q = [b] → Built a b) →
                Built (.obj (upd m k [setV r v c])) (.obj m') := by
              intro m c hb h1 h2
              refine .obj _ _ (fun q => ?_) hl (fun q a b ha hb' => ?_)
              · unfold upd; split
                · rename_i e; subst e; simp [hk]
                · exact h1 q
              · unfold upd at ha
                split at ha
                · rename_i e; subst e
                  rw [hk] at hb'; cases hb'; cases ha
                  exact ih c z hb (hc q _ _ hk hk) hv
                · exact h2 q a b ha hb'
            rcases built_obj h hl with ⟨m, rfl, h1, h2⟩ | ⟨h1, h2⟩
            · have hm : (m k).length ≤ 1 := Nat.le_trans (h1 k) (hl k)
              have hd : (m k).dropLast = [] := by rcases short_cases hm with e | ⟨a, e⟩ <;> rw [e] <;> rfl
              have hp : put r.isEmpty (.key k) (setV r v (child (.key k) (.obj m))) (.obj m) = .obj (upd m k [setV r v (child (.key k) (.obj m))]) := by
                unfold put; split
                · rfl
                · simp [grow, hd]
              rw [hp]
              refine main m _ ?_ h1 h2
              rcases short_cases hm with e | ⟨a, e⟩
              · have : child (.key k) (.obj m) = .null := by simp [child, look, e]
                rw [this]; exact .leaf _ _ trivial
              · have : child (.key k) (.obj m) = a := by simp [child, look, e]
                rw [this]; exact h2 k a z e hk
            · have hc' : child (.key k) x = .null := by rw [child, look_leaf h1 (by simp)]; rfl
              have hp : ∀ w, put r.isEmpty (.key k) w x = .obj (upd (fun _ => []) k [w]) := by
                intro w
                unfold put
                cases x with
                | obj m => exact absurd rfl (h2 m)
                | _ => split <;> rfl
              rw [hp, hc']
              exact main (fun _ => []) .null (.leaf _ _ trivial) (fun q => Nat.zero_le _) (fun q a b e => nomatch e)
        | _ => cases hz
      | index i =>
        cases y with
        | arr l' =>
          have hz' : l'[i]? = some z := by
            simp only [look] at hz
            cases e : l'[i]? with
            | none => rw [e] at hz; cases hz
            | some w => rw [e] at hz; exact hz
          have hi := idx_lt hz'
          cases hy with
          | leaf _ _ hl => simp only [IsLeaf] at hl; rw [hl] at hz'; cases hz'
          | arr _ _ _ hc =>
            have main : ∀ (l : List (Val F)) (c : Val F), Built c z → l.length ≤ l'.length → (∀ (q : Nat) (a b : Val F), l[q]? = some a → l'[q]? = some b → Built a b) →
                Built (.arr (setElem l i (setV r v c))) (.arr l') := by
              intro l c hb h1 h2
              refine .arr _ _ ?_ (fun q a b ha hb' => ?_)
              · unfold setElem; simp; omega
              · rw [setElem_get] at ha
                split at ha
                · rename_i e; subst e
                  rw [hz'] at hb'; cases hb'; cases ha
                  exact ih c z hb (hc q _ _ hz' hz') hv
                · split at ha
                  · exact h2 q a b ha hb'
                  · split at ha
                    · cases ha; exact .leaf _ _ trivial
                    · cases ha
            rcases built_arr h with ⟨l, rfl, h1, h2⟩ | ⟨h1, h2⟩
            · have hp : ∀ w, put r.isEmpty (.index i) w (.arr l) = .arr (setElem l i w) := by
                intro w; unfold put; split <;> rfl
              rw [hp]
              refine main l _ ?_ h1 h2
              cases e : l[i]? with
              | none =>
                have : child (.index i) (.arr l) = .null := by simp [child, look, e]
                rw [this]; exact .leaf _ _ trivial
              | some a =>
                have : child (.index i) (.arr l) = a := by simp [child, look, e]
                rw [this]; exact h2 i a z e hz'
            · have hc' : child (.index i) x = .null := by rw [child, look_leaf h1 (by simp)]; rfl
              have hp : ∀ w, put r.isEmpty (.index i) w x = .arr (setElem [] i w) := by
                intro w
                unfold put
                cases x with
                | arr l => exact absurd rfl (h2 l)
                | _ => split <;> rfl
              rw [hp, hc']
              exact main [] .null (.leaf _ _ trivial) (Nat.zero_le _) (fun q a b e => by simp at e)
        | _ => cases hz

/-- Two paths that lead somewhere in the same value: one is longer than the other, or they part. -/
theorem paths_part (fs gs : List Finder) (y v w : Val F) (hf : look fs y = some v) (hg : look gs y = some w) :
    (∃ t, fs = gs ++ t) ∨ (∃ t, t ≠ [] ∧ gs = fs ++ t) ∨ Diverge gs fs := by
  induction fs generalizing gs y with
  | nil =>
    cases gs with
    | nil => exact .inl ⟨[], rfl⟩
    | cons g gs => exact .inr (.inl ⟨g :: gs, by simp, rfl⟩)
  | cons f fs ih =>
    cases gs with
    | nil => exact .inl ⟨f :: fs, rfl⟩
    | cons g gs =>
      by_cases e : f = g
      · subst e
        rw [look_step] at hf hg
        cases hz : look [f] y with
        | none => rw [hz] at hf; cases hf
        | some z =>
          rw [hz] at hf hg
          rcases ih gs z hf hg with ⟨t, rfl⟩ | ⟨t, ht, rfl⟩ | ⟨pre, a, b, s, t, rfl, rfl, hab⟩
          · exact .inl ⟨t, rfl⟩
          · exact .inr (.inl ⟨t, ht, rfl⟩)
          · exact .inr (.inr ⟨f :: pre, a, b, s, t, rfl, rfl, hab⟩)
      · refine .inr (.inr ⟨[], g, f, gs, fs, rfl, rfl, ?_⟩)
        cases f with
        | key k =>
          cases g with
          | key k' => exact fun e' => e (by rw [e'])
          | index i => cases y <;> first | cases hf | cases hg
        | index i =>
          cases g with
          | key k' => cases y <;> first | cases hf | cases hg
          | index n => exact fun e' => e (by rw [e'])

/-- A leaf that is in place stays when another place gets its value, and is in place when a place at or above it does. -/
theorem leaf_kept (fs gs : List Finder) (x y v w : Val F) (hf : LeafAt y fs v) (hg : look gs y = some w) (h : look fs x = some v ∨ ∃ t, fs = gs ++ t) :
    look fs (setV gs w x) = some v := by
  have above : ∀ t, fs = gs ++ t → look fs (setV gs w x) = some v := by
    rintro t rfl
    rw [look_append _ _ _ _ (look_setV_self gs w x), ← look_append _ t _ _ hg]
    exact hf.1
  rcases h with h | ⟨t, ht⟩
  · rcases paths_part fs gs y v w hf.1 hg with ⟨t, ht⟩ | ⟨t, ht, rfl⟩ | hd
    · exact above t ht
    · rw [look_append _ _ _ _ hf.1, look_leaf hf.2 ht] at hg; cases hg
    · exact look_setV_diverge gs fs hd w x v h
  · exact above t ht

/-- A part with all the leaves is the whole. -/
theorem built_done (x y : Val F) (h : Built x y) (hg : ∀ p b, look p y = some b → ∃ q v, LeafAt b q v) (hl : ∀ p v, LeafAt y p v → look p x = some v) : x = y := by
  induction h with
  | leaf x y hx =>
    by_cases hy : IsLeaf y
    · have := hl [] y ⟨rfl, hy⟩
      simpa [look] using this
    · obtain ⟨q, v, hq⟩ := hg [] y rfl
      have h1 := hl q v hq
      have hne : q ≠ [] := by rintro rfl; have := hq.1; simp only [look, Option.some.injEq] at this; subst this; exact hy hq.2
      rw [look_leaf hx hne] at h1; cases h1
  | obj m m' h1 h2 h3 ih =>
    congr 1
    funext k
    rcases short_cases (h2 k) with e | ⟨b, e⟩
    · have := h1 k; rw [e] at this ⊢; exact List.length_eq_zero_iff.1 (by simpa using this)
    · have hb : ∀ p, look (.key k :: p) (.obj m') = look p b := fun p => by simp [look, e]
      obtain ⟨q, v, hq⟩ := hg [.key k] b (by rw [hb]; rfl)
      have h4 := hl (.key k :: q) v ⟨by rw [hb]; exact hq.1, hq.2⟩
      have hm : (m k).length ≤ 1 := Nat.le_trans (h1 k) (h2 k)
      rcases short_cases hm with e' | ⟨a, e'⟩
      · simp [look, e'] at h4
      · have ha : ∀ p, look (.key k :: p) (.obj m) = look p a := fun p => by simp [look, e']
        have := ih k a b e' e (fun p c hp => hg (.key k :: p) c (by rw [hb]; exact hp)) (fun p c hp => by rw [← ha]; exact hl _ c ⟨by rw [hb]; exact hp.1, hp.2⟩)
        rw [e', e, this]
  | arr l l' h1 h3 ih =>
    congr 1
    apply List.ext_getElem?
    intro i
    cases e : l'[i]? with
    | none =>
      rw [List.getElem?_eq_none_iff] at e ⊢
      omega
    | some b =>
      have hb : ∀ p, look (.index i :: p) (.arr l') = look p b := fun p => by simp [look, e]
      obtain ⟨q, v, hq⟩ := hg [.index i] b (by rw [hb]; rfl)
      have h4 := hl (.index i :: q) v ⟨by rw [hb]; exact hq.1, hq.2⟩
      cases e' : l[i]? with
      | none => simp [look, e'] at h4
      | some a =>
        have ha : ∀ p, look (.index i :: p) (.arr l) = look p a := fun p => by simp [look, e']
        have := ih i a b e' e (fun p c hp => hg (.index i :: p) c (by rw [hb]; exact hp)) (fun p c hp => by rw [← ha]; exact hl _ c ⟨by rw [hb]; exact hp.1, hp.2⟩)
        rw [this]

theorem absList_map (l : List (Json F)) : absList l = l.map absJ := by
  induction l with
  | nil => rfl
  | cons x t ih => simp [absList, ih]

theorem absMap_last (m : Obj F) (k : Str) (b : Val F) (h : (absMap m k).getLast? = some b) : ∃ v l, (k, (v, l)) ∈ m ∧ b = absJ v := by
  induction m with
  | nil => cases h
  | cons e t ih =>
    obtain ⟨q, v, l⟩ := e
    simp only [absMap] at h
    split at h
    · rename_i e; subst e
      simp at h
      exact ⟨v, l, by simp, h.symm⟩
    · obtain ⟨v', l', h1, h2⟩ := ih h
      exact ⟨v', l', by simp [h1], h2⟩

/-- What is at a path of a document is a document. -/
theorem look_json (p : List Finder) (j : Json F) (b : Val F) (h : look p (absJ j) = some b) : ∃ j', b = absJ j' := by
  induction p generalizing j with
  | nil => cases h; exact ⟨j, rfl⟩
  | cons f r ih =>
    rw [look_step] at h
    cases hz : look [f] (absJ j) with
    | none => rw [hz] at h; cases h
    | some z =>
      rw [hz] at h
      have : ∃ j', z = absJ j' := by
        cases f with
        | key k =>
          cases j with
          | object m =>
            simp only [absJ, look] at hz
            cases e : (absMap m k).getLast? with
            | none => rw [e] at hz; cases hz
            | some w =>
              rw [e] at hz; cases hz
              obtain ⟨v, l, _, h2⟩ := absMap_last m k _ e
              exact ⟨v, h2⟩
          | _ => cases hz
        | index i =>
          cases j with
          | array l =>
            simp only [absJ, look, absList_map, List.getElem?_map] at hz
            cases e : l[i]? with
            | none => rw [e] at hz; cases hz
            | some w => rw [e] at hz; cases hz; exact ⟨w, rfl⟩
          | _ => cases hz
      obtain ⟨j', rfl⟩ := this
      exact ih j' h

theorem has_leaf (j : Json F) : ∃ q v, LeafAt (absJ j) q v := by
  induction j using Json.ind with
  | hobj m ih =>
    cases m with
    | nil => exact ⟨[], _, rfl, fun k => rfl⟩
    | cons e t =>
      obtain ⟨k, v, l⟩ := e
      obtain ⟨q, w, h1, h2⟩ := (ih k v l (by simp)).1
      exact ⟨.key k :: q, w, by simpa [absJ, absMap, look] using h1, h2⟩
  | harr l ih =>
    cases l with
    | nil => exact ⟨[], _, rfl, rfl⟩
    | cons x t =>
      obtain ⟨q, w, h1, h2⟩ := ih x (by simp)
      exact ⟨.index 0 :: q, w, by simpa [absJ, absList, look] using h1, h2⟩
  | hstr s => exact ⟨[], _, rfl, trivial⟩
  | hnum s => exact ⟨[], _, rfl, trivial⟩
  | hbool s => exact ⟨[], _, rfl, trivial⟩
  | hnull => exact ⟨[], _, rfl, trivial⟩

theorem grounded (j : Json F) (p : List Finder) (b : Val F) (h : look p (absJ j) = some b) : ∃ q v, LeafAt b q v := by
  obtain ⟨j', rfl⟩ := look_json p j b h
  exact has_leaf j'

/-- A document without duplicates is a part of itself. -/
theorem built_self (j : Json F) (h : NoDuplicates (absJ j)) : Built (absJ j) (absJ j) := by
  induction j using Json.ind with
  | hobj m ih =>
    have h0 := h [] (absMap m) rfl
    refine .obj _ _ (fun k => Nat.le_refl _) h0 (fun k a b ha hb => ?_)
    rw [ha] at hb; cases hb
    obtain ⟨v, l, h1, rfl⟩ := absMap_last m k a (by rw [ha]; rfl)
    refine (ih k v l h1).1 (fun p m' hp => h (.key k :: p) m' ?_)
    simpa [absJ, look, ha] using hp
  | harr l ih =>
    refine .arr _ _ (Nat.le_refl _) (fun i a b ha hb => ?_)
    rw [ha] at hb; cases hb
    have ha' := ha
    rw [absList_map, List.getElem?_map] at ha
    cases e : l[i]? with
    | none => rw [e] at ha; cases ha
    | some x =>
      rw [e] at ha; cases ha
      refine ih x (List.mem_of_getElem? e) (fun p m' hp => h (.index i :: p) m' ?_)
      simpa [absJ, look, ha'] using hp
  | hstr s => exact .leaf _ _ trivial
  | hnum s => exact .leaf _ _ trivial
  | hbool s => exact .leaf _ _ trivial
  | hnull => exact .leaf _ _ trivial

/-! ### The list of leaves -/

theorem elementLeaves_mem (i : Nat) (l : List (Json F)) (p : List Finder) (w : Json F) :
    (p, w) ∈ elementLeaves i l ↔ ∃ n x q, l[n]? = some x ∧ (q, w) ∈ leavesOf x ∧ p = .index (i + n) :: q := by
  induction l generalizing i with
  | nil => simp [elementLeaves]
  | cons x t ih =>
    simp only [elementLeaves, List.mem_append, List.mem_map, Prod.mk.injEq, ih, Prod.exists]
    constructor
    · rintro (⟨q, w', h, rfl, rfl⟩ | ⟨n, y, q, h1, h2, rfl⟩)
      · exact ⟨0, x, q, rfl, h, rfl⟩
      · exact ⟨n + 1, y, q, by simpa using h1, h2, by rw [Nat.add_assoc, Nat.add_comm 1]⟩
    · rintro ⟨n, y, q, h1, h2, rfl⟩
      cases n with
      | zero => simp at h1; subst h1; exact .inl ⟨q, w, h2, rfl, rfl⟩
      | succ n => exact .inr ⟨n, y, q, by simpa using h1, h2, by rw [Nat.add_assoc, Nat.add_comm 1]⟩

theorem memberLeaves_mem (m : Obj F) (p : List Finder) (w : Json F) :
    (p, w) ∈ memberLeaves m ↔ ∃ k v l q, (k, (v, l)) ∈ m ∧ (q, w) ∈ leavesOf v ∧ p = .key k :: q := by
  induction m with
  | nil => simp [memberLeaves]
  | cons e t ih =>
    obtain ⟨k, v, l⟩ := e
    simp only [memberLeaves, List.mem_append, List.mem_map, Prod.mk.injEq, ih, Prod.exists]
    constructor
    · rintro (⟨q, w', h, rfl, rfl⟩ | ⟨k', v', l', q, h1, h2, rfl⟩)
      · exact ⟨k, v, l, q, by simp, h, rfl⟩
      · exact ⟨k', v', l', q, by simp [h1], h2, rfl⟩
    · rintro ⟨k', v', l', q, h1, h2, rfl⟩
      rcases List.mem_cons.1 h1 with e | h1
      · cases e; exact .inl ⟨q, w, h2, rfl, rfl⟩
      · exact .inr ⟨k', v', l', q, h1, h2, rfl⟩

theorem absMap_found {m : Obj F} (hn : (m.map (·.1)).Nodup) {k : Str} {v : Json F} {l : List (Json F)} (h : (k, (v, l)) ∈ m) : (absMap m k).getLast? = some (absJ v) := by
  induction m with
  | nil => cases h
  | cons e t ih =>
    obtain ⟨q, v', l'⟩ := e
    simp only [List.map_cons, List.nodup_cons] at hn
    simp only [absMap]
    rcases List.mem_cons.1 h with e | h
    · cases e; simp
    · have : q ≠ k := by rintro rfl; exact hn.1 (List.mem_map.2 ⟨_, h, rfl⟩)
      rw [if_neg this]
      exact ih hn.2 h

/-- The list has the leaves, and nothing else. -/
theorem leavesOf_iff (j : Json F) (hw : WF j) : (∀ p w, (p, w) ∈ leavesOf j → LeafAt (absJ j) p (absJ w)) ∧ ∀ p v, LeafAt (absJ j) p v → ∃ w, (p, w) ∈ leavesOf j ∧ absJ w = v := by
  have scalar : ∀ j : Json F, leavesOf j = [([], j)] → IsLeaf (absJ j) → (∀ p w, (p, w) ∈ leavesOf j → LeafAt (absJ j) p (absJ w)) ∧ ∀ p v, LeafAt (absJ j) p v → ∃ w, (p, w) ∈ leavesOf j ∧ absJ w = v := by
    intro j e hl
    rw [e]
    refine ⟨fun p w h => ?_, fun p v h => ?_⟩
    · simp at h; obtain ⟨rfl, rfl⟩ := h; exact ⟨rfl, hl⟩
    · by_cases hp : p = []
      · subst hp; have := h.1; simp only [look, Option.some.injEq] at this; exact ⟨j, by simp, this⟩
      · have := h.1; rw [look_leaf hl hp] at this; cases this
  induction j using Json.ind with
  | hobj m ih =>
    by_cases hm : m = []
    · subst hm; exact scalar _ rfl (fun k => rfl)
    have e : leavesOf (.object m) = memberLeaves m := by
      rw [leavesOf, if_neg (by simpa using hm)]
    obtain ⟨hn, hw'⟩ := hw
    rw [WFMap_iff] at hw'
    rw [e]
    refine ⟨fun p w h => ?_, fun p v h => ?_⟩
    · obtain ⟨k, v, l, q, h1, h2, rfl⟩ := (memberLeaves_mem m p w).1 h
      have h3 := ((ih k v l h1).1 (hw' k v l h1).1).1 q w h2
      exact ⟨by simpa [absJ, look, absMap_found hn h1] using h3.1, h3.2⟩
    · cases p with
      | nil =>
        have := h.1; simp only [look, Option.some.injEq] at this; subst this
        obtain ⟨⟨k, v, l⟩, t, rfl⟩ : ∃ a t, m = a :: t := by cases m with | nil => exact absurd rfl hm | cons a t => exact ⟨a, t, rfl⟩
        have := h.2 k
        simp [absMap] at this
      | cons f r =>
        have h1 := h.1
        rw [look_step] at h1
        cases f with
        | index i => cases h1
        | key k =>
          simp only [absJ, look] at h1
          cases e : (absMap m k).getLast? with
          | none => rw [e] at h1; cases h1
          | some b =>
            rw [e] at h1
            obtain ⟨x, l, h2, rfl⟩ := absMap_last m k _ e
            obtain ⟨w, h3, h4⟩ := ((ih k x l h2).1 (hw' k x l h2).1).2 r v ⟨h1, h.2⟩
            exact ⟨w, (memberLeaves_mem m _ w).2 ⟨k, x, l, r, h2, h3, rfl⟩, h4⟩
  | harr l ih =>
    by_cases hm : l = []
    · subst hm; exact scalar _ rfl rfl
    have e : leavesOf (.array l) = elementLeaves 0 l := by
      rw [leavesOf, if_neg (by simpa using hm)]
    have hw' : ∀ x ∈ l, WF x := (WFList_iff l).1 hw
    rw [e]
    refine ⟨fun p w h => ?_, fun p v h => ?_⟩
    · obtain ⟨n, x, q, h1, h2, rfl⟩ := (elementLeaves_mem 0 l p w).1 h
      have h3 := (ih x (List.mem_of_getElem? h1) (hw' x (List.mem_of_getElem? h1))).1 q w h2
      exact ⟨by simpa [absJ, look, absList_map, h1] using h3.1, h3.2⟩
    · cases p with
      | nil =>
        have := h.1; simp only [look, Option.some.injEq] at this; subst this
        have := h.2
        simp only [absJ, IsLeaf, absList_map, List.map_eq_nil_iff] at this
        exact absurd this hm
      | cons f r =>
        have h1 := h.1
        rw [look_step] at h1
        cases f with
        | key k => cases h1
        | index i =>
          simp only [absJ, look, absList_map, List.getElem?_map] at h1
          cases e : l[i]? with
          | none => rw [e] at h1; cases h1
          | some x =>
            rw [e] at h1
            obtain ⟨w, h3, h4⟩ := (ih x (List.mem_of_getElem? e) (hw' x (List.mem_of_getElem? e))).2 r v ⟨h1, h.2⟩
            exact ⟨w, (elementLeaves_mem 0 l _ w).2 ⟨i, x, r, e, h3, by simp⟩, h4⟩
  | hstr s => exact scalar _ rfl trivial
  | hnum s => exact scalar _ rfl trivial
  | hbool s => exact scalar _ rfl trivial
  | hnull => exact scalar _ rfl trivial

end RJ
