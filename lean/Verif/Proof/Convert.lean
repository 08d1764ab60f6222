import Verif.Spec.Convert
import Verif.Proof.Path
/-
  Lemmas about the conversions.
-/
set_option linter.unusedSectionVars false
namespace RJ
open Spec
variable {F : Type} [FloatOps F]

/-! ### Pointwise relations, collect -/

theorem AllTwo.imp {α β : Type} {R S : α → β → Prop} (h : ∀ a b, R a b → S a b) : ∀ {l l'}, AllTwo R l l' → AllTwo S l l'
  | [], [], _ => trivial
  | _ :: _, _ :: _, ⟨h1, h2⟩ => ⟨h _ _ h1, AllTwo.imp h h2⟩
  | [], _ :: _, h => h.elim
  | _ :: _, [], h => h.elim

theorem AllTwo.length {α β : Type} {R : α → β → Prop} : ∀ {l l'}, AllTwo R l l' → l.length = l'.length
  | [], [], _ => rfl
  | _ :: _, _ :: _, ⟨_, h2⟩ => by simp [AllTwo.length h2]
  | [], _ :: _, h => h.elim
  | _ :: _, [], h => h.elim

theorem AllTwo.refl {α : Type} {R : α → α → Prop} (l : List α) (h : ∀ a ∈ l, R a a) : AllTwo R l l := by
  induction l with
  | nil => trivial
  | cons a t ih => exact ⟨h a (by simp), ih (fun b hb => h b (by simp [hb]))⟩

theorem AllTwo.eq {α : Type} : ∀ {l l' : List α}, AllTwo (· = ·) l l' → l = l'
  | [], [], _ => rfl
  | _ :: _, _ :: _, ⟨h1, h2⟩ => by rw [h1, AllTwo.eq h2]
  | [], _ :: _, h => h.elim
  | _ :: _, [], h => h.elim

/-- Decode a list of values whose abstract values are those of an encoded list. -/
theorem collect_enc {α : Type} (enc : α → Json F) (dec : Json F → Res α) (R : α → α → Prop) (l : List α)
    (h : ∀ x ∈ l, ∀ j : Json F, WF j → absJ j = absJ (enc x) → ∃ y, dec j = .ok y ∧ R y x)
    (vs : List (Json F)) (hw : ∀ v ∈ vs, WF v) (ha : vs.map absJ = l.map (fun x => absJ (enc x))) :
    ∃ ys, collect (vs.map dec) = .ok ys ∧ AllTwo R ys l := by
  induction l generalizing vs with
  | nil =>
    cases vs with
    | nil => exact ⟨[], rfl, trivial⟩
    | cons v t => simp at ha
  | cons x l ih =>
    cases vs with
    | nil => simp at ha
    | cons v t =>
      simp only [List.map_cons, List.cons.injEq] at ha
      obtain ⟨y, hy, hr⟩ := h x (by simp) v (hw v (by simp)) ha.1
      obtain ⟨ys, hys, hrs⟩ := ih (fun z hz => h z (by simp [hz])) t (fun z hz => hw z (by simp [hz])) ha.2
      exact ⟨y :: ys, by simp only [List.map_cons, hy, collect, hys], hr, hrs⟩

theorem collect_append {α : Type} (a b : List (Res α)) (x y : List α) (ha : collect a = .ok x) (hb : collect b = .ok y) :
    collect (a ++ b) = .ok (x ++ y) := by
  induction a generalizing x with
  | nil => cases ha; exact hb
  | cons r t ih =>
    cases r with
    | error e => cases ha
    | ok v =>
      simp only [collect] at ha
      cases ht : collect t with
      | error e => rw [ht] at ha; cases ha
      | ok l =>
        rw [ht] at ha; cases ha
        simp only [List.cons_append, collect, ih l ht]

/-- `collect` succeeds iff everything does, and keeps the values in order; else it returns the first error. -/
theorem collect_ok {α : Type} (rs : List (Res α)) (l : List α) : collect rs = .ok l ↔ rs = l.map .ok := by
  induction rs generalizing l with
  | nil =>
    simp only [collect, Except.ok.injEq]
    constructor
    · rintro rfl; rfl
    · intro h; exact (List.map_eq_nil_iff.mp h.symm).symm
  | cons r t ih =>
    cases r with
    | error e =>
      simp only [collect]
      constructor
      · intro h; cases h
      · intro h; cases l <;> simp at h
    | ok a =>
      simp only [collect]
      cases ht : collect t with
      | error e =>
        constructor
        · intro h; cases h
        · intro h
          cases l with
          | nil => simp at h
          | cons b l =>
            simp only [List.map_cons, List.cons.injEq] at h
            rw [(ih l).mpr h.2] at ht; cases ht
      | ok l' =>
        have := (ih l').mp ht
        constructor
        · intro h; cases h; simp [this]
        · intro h
          cases l with
          | nil => simp at h
          | cons b l =>
            simp only [List.map_cons, List.cons.injEq, Except.ok.injEq] at h
            have h2 := (ih l).mpr h.2
            rw [ht] at h2
            cases h2
            rw [h.1]

theorem collect_error {α : Type} (rs : List (Res α)) (e : Error) :
    collect rs = .error e ↔ ∃ (l : List α) (t : List (Res α)), rs = l.map .ok ++ .error e :: t := by
  induction rs with
  | nil => simp [collect]
  | cons r t ih =>
    cases r with
    | error e' =>
      simp only [collect, Except.error.injEq]
      constructor
      · rintro rfl; exact ⟨[], t, rfl⟩
      · rintro ⟨l, t', h⟩
        cases l with
        | nil => simp at h; exact h.1
        | cons a l => simp at h
    | ok a =>
      simp only [collect]
      have key : (∃ (l : List α) (t_1 : List (Res α)), Except.ok a :: t = l.map .ok ++ .error e :: t_1) ↔
          ∃ (l : List α) (t' : List (Res α)), t = l.map .ok ++ .error e :: t' := by
        constructor
        · rintro ⟨l, t', h⟩
          cases l with
          | nil => simp at h
          | cons b l => simp only [List.map_cons, List.cons_append, List.cons.injEq] at h; exact ⟨l, t', h.2⟩
        · rintro ⟨l, t', h⟩; exact ⟨a :: l, t', by simp [h]⟩
      rw [key, ← ih]
      cases collect t with
      | error e' => simp
      | ok l => simp

/-! ### Encoded objects -/

theorem valsOf_eq {K α : Type} [DecidableEq K] (k : K) (l : List (K × α)) :
    valsOf k l = (l.filter (fun p => p.1 = k)).map (·.2) := rfl

theorem absMap_encPairs {α : Type} (κ : KeyCodec) (enc : α → Json F) (l : List (κ.K × α)) (m0 : Obj F) (q : Str) :
    absMap (l.foldl (fun m p => objectInsert (κ.toStr p.1) (enc p.2) m) m0) q =
      absMap m0 q ++ (l.filter (fun p => κ.toStr p.1 = q)).map (fun p => absJ (enc p.2)) := by
  induction l generalizing m0 with
  | nil => simp
  | cons p l ih =>
    rw [List.foldl_cons, ih, absMap_objectInsert]
    by_cases h : κ.toStr p.1 = q <;> simp [h]

theorem wf_encPairs {α : Type} (κ : KeyCodec) (enc : α → Json F) (l : List (κ.K × α)) (h : ∀ p ∈ l, WF (enc p.2)) (m0 : Obj F)
    (hw : WF (.object m0)) : WF (.object (l.foldl (fun m p => objectInsert (κ.toStr p.1) (enc p.2) m) m0)) := by
  induction l generalizing m0 with
  | nil => exact hw
  | cons p l ih =>
    rw [List.foldl_cons]
    exact ih (fun q hq => h q (by simp [hq])) _ (wf_objectInsert hw _ _ (h p (by simp)))

theorem absMap_encMap {α : Type} (κ : KeyCodec) (enc : α → Json F) (hinj : ∀ a b, κ.toStr a = κ.toStr b → a = b)
    (l : List (κ.K × α)) (hn : (l.map (·.1)).Nodup) (m0 : Obj F) (hd : ∀ p ∈ l, absMap m0 (κ.toStr p.1) = []) (q : Str) :
    absMap (l.foldl (fun m p => mapInsert (κ.toStr p.1) (enc p.2, []) m) m0) q =
      absMap m0 q ++ (l.filter (fun p => κ.toStr p.1 = q)).map (fun p => absJ (enc p.2)) := by
  induction l generalizing m0 with
  | nil => simp
  | cons p l ih =>
    simp only [List.map_cons, List.nodup_cons] at hn
    rw [List.foldl_cons, ih hn.2, absMap_insert]
    · by_cases h : κ.toStr p.1 = q
      · subst h
        simp [upd, absList, hd p (by simp)]
      · have h' : ¬ q = κ.toStr p.1 := fun e => h e.symm
        simp [upd, h, h']
    · intro p' hp'
      rw [absMap_insert, upd]
      split
      · rename_i he
        exact absurd (List.mem_map_of_mem (f := (·.1)) hp') (by rw [hinj _ _ he]; exact hn.1)
      · exact hd p' (by simp [hp'])

theorem wf_encMap {α : Type} (κ : KeyCodec) (enc : α → Json F) (l : List (κ.K × α)) (h : ∀ p ∈ l, WF (enc p.2)) (m0 : Obj F)
    (hw : WF (.object m0)) : WF (.object (l.foldl (fun m p => mapInsert (κ.toStr p.1) (enc p.2, []) m) m0)) := by
  induction l generalizing m0 with
  | nil => exact hw
  | cons p l ih =>
    rw [List.foldl_cons]
    exact ih (fun q hq => h q (by simp [hq])) _ (wf_mapInsert hw _ _ ⟨h p (by simp), by simp⟩)

theorem wf_nil : WF (.object [] : Json F) := ⟨by simp, trivial⟩

theorem wf_enc (t : Ty) (x : t.T F) (hg : Good t x) : WF (t.enc x) := by
  induction t with
  | json => exact hg
  | string => exact trivial
  | bool => exact trivial
  | f64 => exact trivial
  | f32 => exact trivial
  | int => exact trivial
  | vec t ih =>
    refine (wf_array_iff _).mpr ?_
    intro y hy
    obtain ⟨a, ha, rfl⟩ := List.mem_map.mp hy
    exact ih a (hg a ha)
  | option t ih =>
    match x with
    | none => exact trivial
    | some a => exact ih a (hg a rfl)
  | pairs κ t ih => exact wf_encPairs κ _ _ (fun p hp => ih p.2 (hg p hp)) [] wf_nil
  | map κ t ih => exact wf_encMap κ _ _ (fun p hp => ih p.2 (hg.2 p hp)) [] wf_nil

/-! ### Decoding encoded objects -/

section
variable {α : Type} (κ : KeyCodec) (enc : α → Json F) (dec : Json F → Res α) (R : α → α → Prop)

theorem toStr_inj (hk : ∀ k, κ.fromStr (κ.toStr k) = some k) (a b : κ.K) (h : κ.toStr a = κ.toStr b) : a = b := by
  have := hk a
  rw [h, hk b] at this
  exact (Option.some.inj this).symm

theorem filter_toStr (hk : ∀ k, κ.fromStr (κ.toStr k) = some k) (k : κ.K) (l : List (κ.K × α)) :
    (l.filter (fun p => κ.toStr p.1 = κ.toStr k)) = l.filter (fun p => p.1 = k) := by
  apply List.filter_congr
  intro p _
  have : κ.toStr p.1 = κ.toStr k ↔ p.1 = k := ⟨toStr_inj κ hk _ _, fun h => by rw [h]⟩
  simp [this]

/-- What is known about one entry of an object with the same abstract value as an encoded list of pairs. -/
theorem entry_of_abs (hk : ∀ k, κ.fromStr (κ.toStr k) = some k) (l : List (κ.K × α)) (m : Obj F) (hw : WF (.object m))
    (ha : ∀ q, absMap m q = (l.filter (fun p => κ.toStr p.1 = q)).map (fun p => absJ (enc p.2)))
    (mk : Str) (mj : Json F) (mv : List (Json F)) (he : (mk, (mj, mv)) ∈ m) :
    ∃ k, κ.toStr k = mk ∧ κ.fromStr mk = some k ∧
      (mv.reverse ++ [mj]).map absJ = (valsOf k l).map (fun x => absJ (enc x)) ∧ (∀ v ∈ mv.reverse ++ [mj], WF v) := by
  have hg := mapGet_of_mem hw.1 he
  have hh : absMap m mk = (mv.reverse ++ [mj]).map absJ := by
    rw [absMap_hist, hg]; simp [hist, absList_eq]
  rw [ha mk] at hh
  have hne : l.filter (fun p => κ.toStr p.1 = mk) ≠ [] := by
    intro h0; rw [h0] at hh; simp at hh
  obtain ⟨p, t, hp⟩ := List.exists_cons_of_ne_nil hne
  have hmem : p ∈ l.filter (fun p => κ.toStr p.1 = mk) := by rw [hp]; simp
  have hpk : κ.toStr p.1 = mk := by simpa using (List.mem_filter.mp hmem).2
  refine ⟨p.1, hpk, by rw [← hpk]; exact hk p.1, ?_, ?_⟩
  · rw [← hh, ← hpk, filter_toStr κ hk p.1 l, valsOf, List.map_map]; rfl
  · have hew := ((wf_object_iff m).mp hw).2 _ _ he
    intro v hv
    rcases List.mem_append.mp hv with hv | hv
    · exact hew.2 v (by simpa using hv)
    · simp only [List.mem_singleton] at hv; subst hv; exact hew.1

theorem collect_member (mk : Str) (k : κ.K) (hk : κ.fromStr mk = some k) (vs : List (Json F)) (ys : List α)
    (h : collect (vs.map dec) = .ok ys) : collect (vs.map (decMember κ dec mk)) = .ok (ys.map (fun y => (k, y))) := by
  rw [collect_ok] at h ⊢
  induction vs generalizing ys with
  | nil => cases ys with | nil => rfl | cons => simp at h
  | cons v vs ih =>
    cases ys with
    | nil => simp at h
    | cons y ys =>
      simp only [List.map_cons, List.cons.injEq] at h
      simp only [List.map_cons, List.cons.injEq]
      exact ⟨by simp [decMember, hk, h.1], ih ys h.2⟩

/-- Decoding as `Vec<(K, V)>`: one group per key, the values of a key in their order. -/
theorem decPairs_groups (hk : ∀ k, κ.fromStr (κ.toStr k) = some k) (l : List (κ.K × α))
    (h : ∀ p ∈ l, ∀ j : Json F, WF j → absJ j = absJ (enc p.2) → ∃ y, dec j = .ok y ∧ R y p.2)
    (m : Obj F) (hw : WF (.object m))
    (ha : ∀ q, absMap m q = (l.filter (fun p => κ.toStr p.1 = q)).map (fun p => absJ (enc p.2))) :
    ∃ groups : List (κ.K × List α),
      decPairs κ dec (.object m) = .ok (groups.flatMap (fun g => g.2.map (fun y => (g.1, y)))) ∧
      groups.map (fun g => κ.toStr g.1) = m.map (·.1) ∧
      ∀ g ∈ groups, AllTwo R g.2 (valsOf g.1 l) := by
  simp only [decPairs]
  have hent := entry_of_abs κ enc hk l m hw ha
  clear hw ha
  induction m with
  | nil => exact ⟨[], rfl, rfl, by simp⟩
  | cons e m ih =>
    obtain ⟨mk, mj, mv⟩ := e
    obtain ⟨k, h1, h2, h3, h4⟩ := hent mk mj mv (by simp)
    obtain ⟨ys, hys, hr⟩ := collect_enc enc dec R (valsOf k l) (by
      intro x hx
      obtain ⟨p, hp, rfl⟩ := List.mem_map.mp hx
      exact h p (List.mem_filter.mp hp).1) _ h4 h3
    obtain ⟨gs, g1, g2, g3⟩ := ih (fun a b c hm => hent a b c (by simp [hm]))
    refine ⟨(k, ys) :: gs, ?_, by simp [h1, g2], ?_⟩
    · simp only [List.flatMap_cons]
      exact collect_append _ _ _ _ (collect_member κ dec mk k h2 _ _ hys) g1
    · intro g hg
      rcases List.mem_cons.mp hg with rfl | hg
      · exact hr
      · exact g3 g hg

theorem groups_nodup {β : Type} {m : Obj F} (hn : (m.map (·.1)).Nodup) {groups : List (κ.K × β)}
    (h : groups.map (fun g => κ.toStr g.1) = m.map (·.1)) : (groups.map (·.1)).Nodup := by
  rw [← h] at hn
  clear h
  induction groups with
  | nil => simp
  | cons g gs ih =>
    simp only [List.map_cons, List.nodup_cons, List.mem_map, not_exists, not_and] at hn ⊢
    exact ⟨fun x hx he => hn.1 x hx (by rw [he]), ih hn.2⟩

theorem valsOf_groups (groups : List (κ.K × List α)) (hn : (groups.map (·.1)).Nodup) (k : κ.K) :
    (∃ g ∈ groups, g.1 = k ∧ valsOf k (groups.flatMap (fun g => g.2.map (fun y => (g.1, y)))) = g.2) ∨
    ((∀ g ∈ groups, g.1 ≠ k) ∧ valsOf k (groups.flatMap (fun g => g.2.map (fun y => (g.1, y)))) = []) := by
  have app : ∀ (a b : List (κ.K × α)), valsOf k (a ++ b) = valsOf k a ++ valsOf k b := by intro a b; simp [valsOf]
  have one : ∀ g : κ.K × List α, valsOf k (g.2.map (fun y => (g.1, y))) = if g.1 = k then g.2 else [] := by
    intro g
    by_cases hg : g.1 = k
    · rw [if_pos hg]; simp [valsOf, List.filter_map, hg, Function.comp_def]
    · rw [if_neg hg]; simp [valsOf, List.filter_map, hg, Function.comp_def]
  induction groups with
  | nil => exact .inr ⟨by simp, rfl⟩
  | cons g gs ih =>
    simp only [List.map_cons, List.nodup_cons] at hn
    rw [List.flatMap_cons, app, one]
    by_cases hg : g.1 = k
    · left
      refine ⟨g, by simp, hg, ?_⟩
      rw [if_pos hg]
      rcases ih hn.2 with ⟨g', hg', he, _⟩ | ⟨_, h⟩
      · exact absurd (List.mem_map_of_mem (f := (·.1)) hg') (by rw [he, ← hg]; exact hn.1)
      · rw [h, List.append_nil]
    · rw [if_neg hg, List.nil_append]
      rcases ih hn.2 with ⟨g', hg', he, h⟩ | ⟨h1, h2⟩
      · exact .inl ⟨g', by simp [hg'], he, h⟩
      · refine .inr ⟨?_, h2⟩
        intro x hx
        rcases List.mem_cons.mp hx with rfl | hx
        · exact hg
        · exact h1 x hx

/-! HashMap -/

theorem hmGet_insert {K : Type} [DecidableEq K] (k : K) (v : α) (m : List (K × α)) (q : K) :
    hmGet q (hmInsert k v m) = if k = q then some v else hmGet q m := by
  induction m with
  | nil => simp [hmInsert, hmGet]
  | cons e t ih =>
    obtain ⟨k', v'⟩ := e
    simp only [hmInsert]
    by_cases h : k' = k
    · subst h; simp only [if_true, hmGet]; split <;> simp_all
    · rw [if_neg h]
      simp only [hmGet, ih]
      by_cases h2 : k' = q
      · subst h2
        have h' : ¬ k = k' := fun e => h e.symm
        simp [h']
      · simp [h2]

theorem hmGet_foldl {K : Type} [DecidableEq K] (l m : List (K × α)) (q : K) :
    hmGet q (l.foldl (fun m p => hmInsert p.1 p.2 m) m) = ((valsOf q l).getLast?).or (hmGet q m) := by
  induction l generalizing m with
  | nil => simp [valsOf]
  | cons p l ih =>
    rw [List.foldl_cons, ih, hmGet_insert]
    by_cases h : p.1 = q
    · simp only [valsOf, h, decide_true, List.filter_cons_of_pos, List.map_cons, if_true]
      cases hv : (List.map (·.2) (List.filter (fun p => decide (p.1 = q)) l)) with
      | nil => simp
      | cons a t => simp [List.getLast?_cons_cons]; cases h' : (a :: t).getLast? with
        | none => simp at h'
        | some b => rfl
    · simp [valsOf, h]

theorem hmGet_valsOf {K : Type} [DecidableEq K] (l : List (K × α)) (hn : (l.map (·.1)).Nodup) (q : K) :
    (hmGet q l).toList = valsOf q l := by
  induction l with
  | nil => rfl
  | cons p l ih =>
    obtain ⟨k, v⟩ := p
    simp only [List.map_cons, List.nodup_cons] at hn
    simp only [hmGet]
    by_cases h : k = q
    · subst h
      have : valsOf k l = [] := by
        rw [valsOf, List.map_eq_nil_iff, List.filter_eq_nil_iff]
        intro p hp
        simp only [decide_eq_true_eq]
        intro he
        exact hn.1 (he ▸ List.mem_map_of_mem (f := (·.1)) hp)
      have h2 : valsOf k ((k, v) :: l) = v :: valsOf k l := by simp [valsOf]
      rw [h2, this]; simp
    · have h2 : valsOf q ((k, v) :: l) = valsOf q l := by simp [valsOf, h]
      rw [if_neg h, h2]; exact ih hn.2

theorem hmGet_mem {K : Type} [DecidableEq K] {k : K} {x : α} {l : List (K × α)} (h : hmGet k l = some x) : (k, x) ∈ l := by
  induction l with
  | nil => cases h
  | cons p l ih =>
    obtain ⟨k', v⟩ := p
    simp only [hmGet] at h
    split at h
    · rename_i e; cases h; subst e; simp
    · exact List.mem_cons_of_mem _ (ih h)

/-- Reading every entry of an object as a member. -/
theorem decMap_entries (hk : ∀ k, κ.fromStr (κ.toStr k) = some k) (l : List (κ.K × α)) (hnl : (l.map (·.1)).Nodup)
    (h : ∀ p ∈ l, ∀ j : Json F, WF j → absJ j = absJ (enc p.2) → ∃ y, dec j = .ok y ∧ R y p.2)
    (m : Obj F) (hw : WF (.object m))
    (ha : ∀ q, absMap m q = (l.filter (fun p => κ.toStr p.1 = q)).map (fun p => absJ (enc p.2))) :
    ∃ ys : List (κ.K × α),
      collect (m.map (fun e => decMember κ dec e.1 e.2.1)) = .ok ys ∧
      ys.map (fun g => κ.toStr g.1) = m.map (·.1) ∧
      ∀ g ∈ ys, ∃ x, hmGet g.1 l = some x ∧ R g.2 x := by
  have hent := entry_of_abs κ enc hk l m hw ha
  clear hw ha
  induction m with
  | nil => exact ⟨[], rfl, rfl, by simp⟩
  | cons e m ih =>
    obtain ⟨mk, mj, mv⟩ := e
    obtain ⟨k, h1, h2, h3, h4⟩ := hent mk mj mv (by simp)
    obtain ⟨ys, i1, i2, i3⟩ := ih (fun a b c hm => hent a b c (by simp [hm]))
    rw [← hmGet_valsOf l hnl k] at h3
    cases hx : hmGet k l with
    | none => rw [hx] at h3; simp at h3
    | some x =>
      rw [hx] at h3
      simp only [Option.toList_some, List.map_cons, List.map_nil, List.map_append, List.map_reverse] at h3
      have hlen := congrArg List.length h3
      simp only [List.length_append, List.length_reverse, List.length_map, List.length_singleton] at hlen
      have hmv : mv = [] := List.length_eq_zero_iff.mp (by omega)
      subst hmv
      simp only [List.map_nil, List.reverse_nil, List.nil_append, List.cons.injEq, and_true] at h3
      have hxmem : (k, x) ∈ l := hmGet_mem hx
      obtain ⟨y, hy, hr⟩ := h (k, x) hxmem mj (h4 mj (by simp)) h3
      refine ⟨(k, y) :: ys, ?_, by simp [h1, i2], ?_⟩
      · have hd : decMember κ dec mk mj = .ok (k, y) := by simp [decMember, h2, hy]
        simp only [List.map_cons, hd, collect, i1]
      · intro g hg
        rcases List.mem_cons.mp hg with rfl | hg
        · exact ⟨x, hx, hr⟩
        · exact i3 g hg

theorem dec_enc_pairs (hk : ∀ k, κ.fromStr (κ.toStr k) = some k) (l : List (κ.K × α))
    (h : ∀ p ∈ l, ∀ j : Json F, WF j → absJ j = absJ (enc p.2) → ∃ y, dec j = .ok y ∧ R y p.2)
    (j : Json F) (hw : WF j) (ha : absJ j = absJ (encPairs κ enc l)) :
    ∃ ys, decPairs κ dec j = .ok ys ∧ ∀ k, AllTwo R (valsOf k ys) (valsOf k l) := by
  cases j with
  | object m =>
    have ha' : ∀ q, absMap m q = (l.filter (fun p => κ.toStr p.1 = q)).map (fun p => absJ (enc p.2)) := by
      simp only [encPairs, absJ, Val.obj.injEq] at ha
      intro q
      rw [ha, absMap_encPairs]; rfl
    obtain ⟨groups, h1, h2, h3⟩ := decPairs_groups κ enc dec R hk l h m hw ha'
    refine ⟨_, h1, fun k => ?_⟩
    rcases valsOf_groups κ groups (groups_nodup κ hw.1 h2) k with ⟨g, hg', rfl, he⟩ | ⟨hno, he⟩
    · rw [he]; exact h3 g hg'
    · rw [he]
      have : valsOf k l = [] := by
        unfold valsOf
        rw [← filter_toStr κ hk, List.map_eq_nil_iff]
        have hnone : mapGet (κ.toStr k) m = none := by
          rw [mapGet_none_iff, ← h2]
          intro hm
          obtain ⟨g, hg1, hg2⟩ := List.mem_map.mp hm
          exact hno g hg1 (toStr_inj κ hk _ _ hg2)
        have := ha' (κ.toStr k)
        rw [absMap_hist, hnone] at this
        simpa [hist] using this.symm
      rw [this]; trivial
  | _ => cases ha

theorem dec_enc_map (hk : ∀ k, κ.fromStr (κ.toStr k) = some k) (l : List (κ.K × α)) (hnl : (l.map (·.1)).Nodup)
    (h : ∀ p ∈ l, ∀ j : Json F, WF j → absJ j = absJ (enc p.2) → ∃ y, dec j = .ok y ∧ R y p.2)
    (j : Json F) (hw : WF j) (ha : absJ j = absJ (encMap κ enc l)) :
    ∃ ys, decMap κ dec j = .ok ys ∧ ∀ k, OptTwo R (hmGet k ys) (hmGet k l) := by
  cases j with
  | object m =>
    have ha' : ∀ q, absMap m q = (l.filter (fun p => κ.toStr p.1 = q)).map (fun p => absJ (enc p.2)) := by
      simp only [encMap, absJ, Val.obj.injEq] at ha
      intro q
      rw [ha, absMap_encMap κ enc (toStr_inj κ hk) l hnl [] (fun _ _ => rfl)]; rfl
    obtain ⟨ys, h1, h2, h3⟩ := decMap_entries κ enc dec R hk l hnl h m hw ha'
    refine ⟨ys.foldl (fun m p => hmInsert p.1 p.2 m) [], by simp only [decMap, h1], fun k => ?_⟩
    have hnd : (ys.map (·.1)).Nodup := groups_nodup κ hw.1 h2
    rw [hmGet_foldl, ← hmGet_valsOf ys hnd]
    have : ((hmGet k ys).toList.getLast?).or (hmGet k []) = hmGet k ys := by cases hmGet k ys <;> rfl
    rw [this]
    cases hy : hmGet k ys with
    | some y =>
      obtain ⟨z, hz, hr⟩ := h3 _ (hmGet_mem hy)
      simp only at hz
      rw [hz]; exact hr
    | none =>
      have hvx : valsOf k l = [] := by
        unfold valsOf
        rw [← filter_toStr κ hk, List.map_eq_nil_iff]
        have hnone : mapGet (κ.toStr k) m = none := by
          rw [mapGet_none_iff, ← h2]
          intro hm
          obtain ⟨g, hg1, hg2⟩ := List.mem_map.mp hm
          have hgk := toStr_inj κ hk _ _ hg2
          have : g.2 ∈ valsOf k ys := by
            refine List.mem_map.mpr ⟨g, ?_, rfl⟩
            exact List.mem_filter.mpr ⟨hg1, by simp [hgk]⟩
          rw [← hmGet_valsOf ys hnd, hy] at this
          cases this
        have := ha' (κ.toStr k)
        rw [absMap_hist, hnone] at this
        simpa [hist] using this.symm
      have := hmGet_valsOf l hnl k
      rw [hvx] at this
      cases hx : hmGet k l with
      | none => trivial
      | some z => rw [hx] at this; cases this
  | _ => cases ha

theorem dec_enc_vec (l : List α)
    (h : ∀ x ∈ l, ∀ j : Json F, WF j → absJ j = absJ (enc x) → ∃ y, dec j = .ok y ∧ R y x)
    (j : Json F) (hw : WF j) (ha : absJ j = absJ (encVec enc l)) : ∃ ys, decVec dec j = .ok ys ∧ AllTwo R ys l := by
  cases j with
  | array vs =>
    have ha' : vs.map absJ = l.map (fun a => absJ (enc a)) := by
      simp only [encVec, absJ, Val.arr.injEq, absList_eq, List.map_map] at ha
      exact ha
    exact collect_enc enc dec R l h vs ((wf_array_iff vs).mp hw) ha'
  | _ => cases ha

theorem dec_enc_option (x : Option α)
    (h : ∀ a, x = some a → ∀ j : Json F, WF j → absJ j = absJ (enc a) → ∃ y, dec j = .ok y ∧ R y a)
    (hn : ∀ a, x = some a → absJ (enc a) ≠ .null)
    (j : Json F) (hw : WF j) (ha : absJ j = absJ (encOption enc x)) : ∃ y, decOption dec j = .ok y ∧ OptTwo R y x := by
  cases x with
  | none =>
    cases j with
    | null => exact ⟨none, rfl, trivial⟩
    | _ => cases ha
  | some a =>
    obtain ⟨y, hy, hr⟩ := h a rfl j hw ha
    refine ⟨some y, ?_, hr⟩
    cases j with
    | null => exact absurd ha.symm (hn a rfl)
    | _ => simp only [decOption, hy]

end

/-! ### Main theorem -/

theorem dec_enc [LawfulCast F] (t : Ty) (hl : Invertible t) (x : t.T F) (hg : Good t x) (j : Json F) (hw : WF j)
    (ha : absJ j = absJ (t.enc x)) : ∃ y, t.dec j = .ok y ∧ Same t y x := by
  induction t generalizing j with
  | json => exact ⟨j, rfl, ha⟩
  | string =>
    cases j with
    | string s => exact ⟨s, rfl, Val.str.inj ha⟩
    | _ => cases ha
  | bool =>
    cases j with
    | boolean s => exact ⟨s, rfl, Val.bool.inj ha⟩
    | _ => cases ha
  | f64 =>
    cases j with
    | number s => exact ⟨s, rfl, Val.num.inj ha⟩
    | _ => cases ha
  | f32 =>
    cases j with
    | number s =>
      cases ha
      exact ⟨_, rfl, LawfulCast.narrow_widen x⟩
    | _ => cases ha
  | int name lo hi =>
    cases j with
    | number s =>
      cases ha
      obtain ⟨h1, h2, h3, h4⟩ := hg
      exact ⟨_, rfl, LawfulCast.toInt_ofInt lo hi x h1 h2 h3 h4⟩
    | _ => cases ha
  | vec t ih => exact dec_enc_vec t.enc t.dec (Same t) x (fun a hm j hw ha => ih hl a (hg a hm) j hw ha) j hw ha
  | option t ih =>
    refine dec_enc_option t.enc t.dec (Same t) x (fun a hm j hw ha => ih hl.2 a (hg a hm) j hw ha) (fun a hm => ?_) j hw ha
    have hn := hl.1
    cases t with
    | json => exact hn.elim
    | option => exact hn.elim
    | _ => intro h; cases h
  | pairs κ t ih =>
    exact dec_enc_pairs κ t.enc t.dec (Same t) hl.1 x (fun p hp j hw ha => ih hl.2 p.2 (hg p hp) j hw ha) j hw ha
  | map κ t ih =>
    exact dec_enc_map κ t.enc t.dec (Same t) hl.1 x hg.1 (fun p hp j hw ha => ih hl.2 p.2 (hg.2 p hp) j hw ha) j hw ha

theorem Same.refl (t : Ty) (x : t.T F) : Same t x x := by
  induction t with
  | json => exact rfl
  | string => exact rfl
  | bool => exact rfl
  | f64 => exact rfl
  | f32 => exact rfl
  | int => exact rfl
  | vec t ih => exact AllTwo.refl _ (fun a _ => ih a)
  | option t ih =>
    match x with
    | none => exact trivial
    | some a => exact ih a
  | pairs κ t ih => exact fun k => AllTwo.refl _ (fun a _ => ih a)
  | map κ t ih =>
    intro k
    cases hmGet k (x : List (κ.K × t.T F)) with
    | none => exact trivial
    | some a => exact ih a

theorem Same.plain_eq (t : Ty) (h : Plain t) (x y : t.T F) (hs : Same t x y) : x = y := by
  induction t with
  | json => exact h.elim
  | string => exact hs
  | bool => exact hs
  | f64 => exact hs
  | f32 => exact hs
  | int => exact hs
  | vec t ih => exact AllTwo.eq (AllTwo.imp (fun a b => ih h a b) hs)
  | option t ih =>
    match x, y, hs with
    | none, none, _ => rfl
    | some a, some b, hs => exact congrArg some (ih h a b hs)
    | some _, none, hs => exact hs.elim
    | none, some _, hs => exact hs.elim
  | pairs κ t ih => exact h.elim
  | map κ t ih => exact h.elim

end RJ
