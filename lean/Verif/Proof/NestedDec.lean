import Verif.Proof.Nested
/-
  Decoding at the types of a program: exactly what is read (`Spec.ReadsN`) and which error is given (`Spec.FailsN`).
-/
set_option linter.unusedSectionVars false
namespace RJ
open Spec
variable {F : Type} [FloatOps F] {P : Program F} {decl : P.N → Struct}

/-- Decoding `j` at type `t` agrees with the specification. -/
def DecOk (P : Program F) (decl : P.N → Struct) (t : P.Ty) (j : Json F) : Prop :=
  (∀ v, P.dec t j = .ok v ↔ ReadsN P decl t j v) ∧ ∀ e, P.dec t j = .error e ↔ FailsN P decl t j e

theorem res_map_ok {α β : Type} {r : Res α} {f : α → β} {b : β} : r.map f = .ok b ↔ ∃ a, r = .ok a ∧ b = f a := by
  cases r with
  | error e => exact ⟨fun h => (nomatch h), fun ⟨_, h, _⟩ => (nomatch h)⟩
  | ok a =>
    constructor
    · intro h; cases h; exact ⟨a, rfl, rfl⟩
    · rintro ⟨_, h, rfl⟩; cases h; rfl

theorem res_map_error {α β : Type} {r : Res α} {f : α → β} {e : Error} : r.map f = .error e ↔ r = .error e := by
  cases r with
  | error e' => exact ⟨fun h => by cases h; rfl, fun h => by cases h; rfl⟩
  | ok a => exact ⟨fun h => (nomatch h), fun h => (nomatch h)⟩

theorem readsAll_iff {t : P.Ty} : ∀ (l : List (Json F)), (∀ x ∈ l, DecOk P decl t x) → ∀ vs, l.map (P.dec t) = vs.map .ok ↔ ReadsAllN P decl t l vs := by
  intro l
  induction l with
  | nil =>
    intro _ vs
    constructor
    · intro h
      cases vs with
      | nil => exact .nil t
      | cons _ _ => cases h
    · intro h; cases h; rfl
  | cons x l ih =>
    intro h vs
    cases vs with
    | nil => exact ⟨fun h => (nomatch h), fun h => (nomatch h)⟩
    | cons v vs =>
      rw [List.map_cons, List.map_cons, List.cons.injEq, (h x (by simp)).1 v, ih (fun y hy => h y (by simp [hy])) vs]
      exact ⟨fun ⟨a, b⟩ => .cons a b, fun h => by cases h with | cons a b => exact ⟨a, b⟩⟩

theorem firstFail {t : P.Ty} {l : List (Json F)} (h : ∀ x ∈ l, DecOk P decl t x) (e : Error) :
    collect (l.map (P.dec t)) = .error e ↔ ∃ pre x post, l = pre ++ x :: post ∧ (∀ y ∈ pre, ∃ v, ReadsN P decl t y v) ∧ FailsN P decl t x e := by
  rw [collect_error]
  constructor
  · rintro ⟨vs, rest, hl⟩
    rw [List.map_eq_append_iff] at hl
    obtain ⟨pre, tl, rfl, h1, h2⟩ := hl
    rw [List.map_eq_cons_iff] at h2
    obtain ⟨x, post, rfl, h3, _⟩ := h2
    refine ⟨pre, x, post, rfl, ?_, ((h x (by simp)).2 e).1 h3⟩
    intro y hy
    have : P.dec t y ∈ pre.map (P.dec t) := List.mem_map.2 ⟨y, hy, rfl⟩
    rw [h1] at this
    obtain ⟨v, _, hv⟩ := List.mem_map.1 this
    exact ⟨v, ((h y (by simp [hy])).1 v).1 hv.symm⟩
  · rintro ⟨pre, x, post, rfl, h1, h2⟩
    have : ∃ vs : List P.Val, pre.map (P.dec t) = vs.map .ok := by
      clear h2
      induction pre with
      | nil => exact ⟨[], rfl⟩
      | cons y pre ih =>
        obtain ⟨vs, hvs⟩ := ih (fun z hz => h z (by simp at hz ⊢; rcases hz with hz | hz | hz <;> simp [hz])) (fun z hz => h1 z (by simp [hz]))
        obtain ⟨v, hv⟩ := h1 y (by simp)
        exact ⟨v :: vs, by rw [List.map_cons, List.map_cons, hvs, ((h y (by simp)).1 v).2 hv]⟩
    obtain ⟨vs, hvs⟩ := this
    refine ⟨vs, post.map (P.dec t), ?_⟩
    rw [List.map_append, List.map_cons, hvs, ((h x (by simp)).2 e).2 h2]

/-! ### Members as pairs -/

theorem decMember_ok {α : Type} {κ : KeyCodec} {dec : Json F → Res α} {k : Str} {j : Json F} {p : κ.K × α} :
    decMember κ dec k j = .ok p ↔ κ.fromStr k = some p.1 ∧ dec j = .ok p.2 := by
  obtain ⟨a, b⟩ := p
  unfold decMember
  cases κ.fromStr k with
  | none => exact ⟨fun h => (nomatch h), fun h => (nomatch h.1)⟩
  | some k' =>
    dsimp only
    cases dec j with
    | error e => exact ⟨fun h => (nomatch h), fun h => (nomatch h.2)⟩
    | ok v => simp

theorem decMember_error {α : Type} {κ : KeyCodec} {dec : Json F → Res α} {k : Str} {j : Json F} {e : Error} :
    decMember κ dec k j = .error e ↔ (κ.fromStr k = none ∧ e = badKey k) ∨ ((∃ k', κ.fromStr k = some k') ∧ dec j = .error e) := by
  unfold decMember
  cases κ.fromStr k with
  | none =>
    dsimp only
    constructor
    · intro h; cases h; exact .inl ⟨rfl, rfl⟩
    · rintro (⟨_, rfl⟩ | ⟨⟨_, h⟩, _⟩)
      · rfl
      · cases h
  | some k' =>
    dsimp only
    cases dec j with
    | error e' => simp
    | ok v => simp

theorem membersN_ok {i : P.ι} {t : P.Ty} (ms : List (Str × Json F)) (h : ∀ p ∈ ms, DecOk P decl t p.2) (l : List ((P.key i).K × P.Val)) :
    collect (ms.map (fun p => decMember (P.key i) (P.dec t) p.1 p.2)) = .ok l ↔
      ∃ (ks : List (P.key i).K) (vs : List P.Val), l = ks.zip vs ∧ ms.map (fun p => (P.key i).fromStr p.1) = ks.map some ∧ ReadsAllN P decl t (ms.map (·.2)) vs := by
  rw [collect_ok]
  have h' : ∀ x ∈ ms.map (·.2), DecOk P decl t x := by
    intro x hx
    obtain ⟨p, hp, rfl⟩ := List.mem_map.1 hx
    exact h p hp
  constructor
  · intro hl
    refine ⟨l.map (·.1), l.map (·.2), ?_, ?_, ?_⟩
    · clear hl; induction l with
      | nil => rfl
      | cons p l ih => rw [List.map_cons, List.map_cons, List.zip_cons_cons, ← ih]
    · clear h h'
      induction ms generalizing l with
      | nil =>
        cases l with
        | nil => rfl
        | cons _ _ => cases hl
      | cons p ms ih =>
        cases l with
        | nil => cases hl
        | cons q l =>
          rw [List.map_cons, List.map_cons, List.cons.injEq] at hl
          rw [List.map_cons, List.map_cons, List.map_cons, (decMember_ok.1 hl.1).1, ih l hl.2]
    · rw [← readsAll_iff _ h']
      clear h h'
      induction ms generalizing l with
      | nil =>
        cases l with
        | nil => rfl
        | cons _ _ => cases hl
      | cons p ms ih =>
        cases l with
        | nil => cases hl
        | cons q l =>
          rw [List.map_cons, List.map_cons, List.cons.injEq] at hl
          rw [List.map_cons, List.map_cons, List.map_cons, List.map_cons, (decMember_ok.1 hl.1).2, ih l hl.2]
  · rintro ⟨ks, vs, rfl, h1, h2⟩
    rw [← readsAll_iff _ h'] at h2
    clear h h'
    induction ms generalizing ks vs with
    | nil =>
      cases ks with
      | nil => rfl
      | cons _ _ => cases h1
    | cons p ms ih =>
      cases ks with
      | nil => cases h1
      | cons k ks =>
        cases vs with
        | nil => cases h2
        | cons v vs =>
          rw [List.map_cons, List.map_cons, List.cons.injEq] at h1
          rw [List.map_cons, List.map_cons, List.map_cons, List.cons.injEq] at h2
          rw [List.map_cons, List.zip_cons_cons, List.map_cons, ih ks vs h1.2 h2.2, decMember_ok (p := (k, v)) |>.2 ⟨h1.1, h2.1⟩]

theorem membersN_error {i : P.ι} {t : P.Ty} (ms : List (Str × Json F)) (h : ∀ p ∈ ms, DecOk P decl t p.2) (e : Error) :
    collect (ms.map (fun p => decMember (P.key i) (P.dec t) p.1 p.2)) = .error e ↔
      ∃ pre k j post, ms = pre ++ (k, j) :: post ∧ (∀ p ∈ pre, (∃ k', (P.key i).fromStr p.1 = some k') ∧ ∃ v, ReadsN P decl t p.2 v) ∧
        (((P.key i).fromStr k = none ∧ e = badKey k) ∨ ((∃ k', (P.key i).fromStr k = some k') ∧ FailsN P decl t j e)) := by
  rw [collect_error]
  constructor
  · rintro ⟨vs, rest, hl⟩
    rw [List.map_eq_append_iff] at hl
    obtain ⟨pre, tl, rfl, h1, h2⟩ := hl
    rw [List.map_eq_cons_iff] at h2
    obtain ⟨⟨k, j⟩, post, rfl, h3, _⟩ := h2
    refine ⟨pre, k, j, post, rfl, ?_, ?_⟩
    · intro y hy
      have : decMember (P.key i) (P.dec t) y.1 y.2 ∈ pre.map (fun p => decMember (P.key i) (P.dec t) p.1 p.2) := List.mem_map.2 ⟨y, hy, rfl⟩
      rw [h1] at this
      obtain ⟨v, _, hv⟩ := List.mem_map.1 this
      have := decMember_ok.1 hv.symm
      exact ⟨⟨_, this.1⟩, v.2, ((h y (by simp [hy])).1 _).1 this.2⟩
    · rcases decMember_error.1 h3 with h4 | ⟨h4, h5⟩
      · exact .inl h4
      · exact .inr ⟨h4, ((h (k, j) (by simp)).2 e).1 h5⟩
  · rintro ⟨pre, k, j, post, rfl, h1, h2⟩
    have : ∃ vs : List ((P.key i).K × P.Val), pre.map (fun p => decMember (P.key i) (P.dec t) p.1 p.2) = vs.map .ok := by
      clear h2
      induction pre with
      | nil => exact ⟨[], rfl⟩
      | cons y pre ih =>
        obtain ⟨vs, hvs⟩ := ih (fun z hz => h z (by rw [List.cons_append]; exact List.mem_cons_of_mem _ hz)) (fun z hz => h1 z (by simp [hz]))
        obtain ⟨⟨k', hk'⟩, v, hv⟩ := h1 y (by simp)
        refine ⟨(k', v) :: vs, ?_⟩
        rw [List.map_cons, List.map_cons, hvs, decMember_ok (p := (k', v)) |>.2 ⟨hk', ((h y (by simp)).1 v).2 hv⟩]
    obtain ⟨vs, hvs⟩ := this
    refine ⟨vs, post.map (fun p => decMember (P.key i) (P.dec t) p.1 p.2), ?_⟩
    rw [List.map_append, List.map_cons, hvs]
    have : decMember (P.key i) (P.dec t) k j = .error e := by
      rw [decMember_error]
      rcases h2 with h2 | ⟨h2, h3⟩
      · exact .inl h2
      · exact .inr ⟨h2, ((h (k, j) (by simp)).2 e).2 h3⟩
    rw [this]

theorem size_membersOf {m : Obj F} {p : Str × Json F} (h : p ∈ membersOf m) : sizeOf p.2 < sizeOf (Json.object m) := by
  unfold membersOf at h
  obtain ⟨e, he, hp⟩ := List.mem_flatMap.1 h
  obtain ⟨x, hx, rfl⟩ := List.mem_map.1 hp
  rcases List.mem_append.1 hx with hx | hx
  · exact (json_size_object he).2 x (List.mem_reverse.1 hx)
  · rw [List.mem_singleton.1 hx]; exact (json_size_object he).1

theorem size_currentOf {m : Obj F} {p : Str × Json F} (h : p ∈ currentOf m) : sizeOf p.2 < sizeOf (Json.object m) := by
  unfold currentOf at h
  obtain ⟨e, he, rfl⟩ := List.mem_map.1 h
  exact (json_size_object he).1

theorem decPairs_members {α : Type} (κ : KeyCodec) (dec : Json F → Res α) (m : Obj F) :
    decPairs κ dec (.object m) = collect ((membersOf m).map (fun p => decMember κ dec p.1 p.2)) := by
  unfold decPairs membersOf
  dsimp only
  rw [List.map_flatMap]
  congr 1
  congr 1
  funext e
  rw [List.map_map]; rfl

theorem decMap_members {α : Type} (κ : KeyCodec) (dec : Json F → Res α) (m : Obj F) :
    decMap κ dec (.object m) = (collect ((currentOf m).map (fun p => decMember κ dec p.1 p.2))).map (fun l => l.foldl (fun h p => hmInsert p.1 p.2 h) []) := by
  unfold decMap currentOf
  dsimp only
  rw [List.map_map]
  show _ = Except.map _ (collect (m.map (fun e => decMember κ dec e.1 e.2.1)))
  cases collect (m.map (fun e => decMember κ dec e.1 e.2.1)) <;> rfl

/-! ### Fields -/

theorem readFieldsN_ok {n : P.N} {m : Obj F} (h : ∀ e ∈ m, ∀ t, DecOk P decl t e.2.1) : ∀ (fs : List Field) (l : List (Str × P.Val)),
    readFields P P.dec n m fs = .ok l ↔ ReadsFieldsN P decl n m fs l := by
  intro fs
  induction fs with
  | nil =>
    intro l
    exact ⟨fun h => by cases h; exact .nil n m, fun h => by cases h; rfl⟩
  | cons f fs ih =>
    intro l
    rw [readFields]
    cases hg : mapGet f.key m with
    | none =>
      refine ⟨fun h => (nomatch h), fun h => ?_⟩
      cases h with
      | cons h1 _ _ => rw [hg] at h1; cases h1
    | some vr =>
      obtain ⟨v, r⟩ := vr
      dsimp only
      have hv := h _ (mapGet_mem hg) (P.fieldTy n f.name)
      constructor
      · intro h
        cases hd : P.dec (P.fieldTy n f.name) v with
        | error e => rw [hd] at h; cases h
        | ok x =>
          rw [hd] at h
          dsimp only at h
          cases hr : readFields P P.dec n m fs with
          | error e => rw [hr] at h; cases h
          | ok l' =>
            rw [hr] at h
            cases h
            exact .cons hg ((hv.1 x).1 hd) ((ih l').1 hr)
      · intro h
        cases h with
        | cons h1 h2 h3 =>
          rw [hg] at h1
          cases h1
          rw [(hv.1 _).2 h2]
          dsimp only
          rw [(ih _).2 h3]

theorem readFieldsN_error {n : P.N} {m : Obj F} (h : ∀ e ∈ m, ∀ t, DecOk P decl t e.2.1) (e : Error) : ∀ (fs : List Field),
    readFields P P.dec n m fs = .error e ↔ ∃ pre f post l, fs = pre ++ f :: post ∧ ReadsFieldsN P decl n m pre l ∧
      ((mapGet f.key m = none ∧ e = ⟨.MissingKey, "missing key \"".toList ++ f.key ++ "\".".toList⟩) ∨
        ∃ j dups, mapGet f.key m = some (j, dups) ∧ FailsN P decl (P.fieldTy n f.name) j e) := by
  intro fs
  induction fs with
  | nil =>
    refine ⟨fun h => (nomatch h), ?_⟩
    rintro ⟨pre, f, post, l, h1, _⟩
    cases pre <;> cases h1
  | cons f fs ih =>
    rw [readFields]
    constructor
    · intro hr
      cases hg : mapGet f.key m with
      | none =>
        rw [hg] at hr
        cases hr
        exact ⟨[], f, fs, [], rfl, .nil n m, .inl ⟨hg, rfl⟩⟩
      | some vr =>
        obtain ⟨v, r⟩ := vr
        rw [hg] at hr
        dsimp only at hr
        have hv := h _ (mapGet_mem hg) (P.fieldTy n f.name)
        cases hd : P.dec (P.fieldTy n f.name) v with
        | error e' =>
          rw [hd] at hr
          cases hr
          exact ⟨[], f, fs, [], rfl, .nil n m, .inr ⟨v, r, hg, (hv.2 e).1 hd⟩⟩
        | ok x =>
          rw [hd] at hr
          dsimp only at hr
          cases hr' : readFields P P.dec n m fs with
          | ok l => rw [hr'] at hr; cases hr
          | error e' =>
            rw [hr'] at hr
            cases hr
            obtain ⟨pre, g, post, l, rfl, h1, h2⟩ := ih.1 hr'
            exact ⟨f :: pre, g, post, (f.name, x) :: l, rfl, .cons hg ((hv.1 x).1 hd) h1, h2⟩
    · rintro ⟨pre, g, post, l, h1, h2, h3⟩
      cases pre with
      | nil =>
        cases h1
        rcases h3 with ⟨h3, rfl⟩ | ⟨j, dups, h3, h4⟩
        · rw [h3]; rfl
        · rw [h3]
          dsimp only
          rw [((h _ (mapGet_mem h3) _).2 e).2 h4]
      | cons q pre =>
        rw [List.cons_append, List.cons.injEq] at h1
        obtain ⟨rfl, rfl⟩ := h1
        cases h2 with
        | cons hg hx hl =>
          rw [hg]
          dsimp only
          rw [((h _ (mapGet_mem hg) _).1 _).2 hx]
          dsimp only
          rw [ih.2 ⟨pre, g, post, _, rfl, hl, h3⟩]

/-! ### Together -/

theorem convert_cannot {α : Type} (j : Json F) (s : String) : (convertErr j s : Res α) = .error (cannot j s.toList) := rfl

theorem dec_exact (hD : Declared P decl) : ∀ (N : Nat) (j : Json F), sizeOf j < N → ∀ t, DecOk P decl t j := by
  intro N
  induction N with
  | zero => intro j h; omega
  | succ N IH =>
    intro j hj t
    have down : ∀ x : Json F, sizeOf x < sizeOf j → ∀ t, DecOk P decl t x := fun x hx => IH x (by omega)
    clear IH hj
    induction t with
    | json =>
      refine ⟨fun v => ?_, fun e => ?_⟩
      · exact ⟨fun h => by cases h; exact .json j, fun h => by cases h; rfl⟩
      · exact ⟨fun h => (nomatch h), fun h => (nomatch h)⟩
    | string =>
      refine ⟨fun v => ?_, fun e => ?_⟩
      · cases j with
        | string s => exact ⟨fun h => by cases h; exact .string s, fun h => by cases h; rfl⟩
        | _ => exact ⟨fun h => (nomatch h), fun h => (nomatch h)⟩
      · cases j with
        | string s => exact ⟨fun h => (nomatch h), fun h => by cases h with | string h => exact absurd rfl (h s)⟩
        | _ => exact ⟨fun h => by cases h; exact .string (by intro _ h; cases h), fun h => by cases h; rfl⟩
    | bool =>
      refine ⟨fun v => ?_, fun e => ?_⟩
      · cases j with
        | boolean s => exact ⟨fun h => by cases h; exact .bool s, fun h => by cases h; rfl⟩
        | _ => exact ⟨fun h => (nomatch h), fun h => (nomatch h)⟩
      · cases j with
        | boolean s => exact ⟨fun h => (nomatch h), fun h => by cases h with | bool h => exact absurd rfl (h s)⟩
        | _ => exact ⟨fun h => by cases h; exact .bool (by intro _ h; cases h), fun h => by cases h; rfl⟩
    | f64 =>
      refine ⟨fun v => ?_, fun e => ?_⟩
      · cases j with
        | number s => exact ⟨fun h => by cases h; exact .f64 s, fun h => by cases h; rfl⟩
        | _ => exact ⟨fun h => (nomatch h), fun h => (nomatch h)⟩
      · cases j with
        | number s => exact ⟨fun h => (nomatch h), fun h => by cases h with | f64 h => exact absurd rfl (h s)⟩
        | _ => exact ⟨fun h => by cases h; exact .f64 (by intro _ h; cases h), fun h => by cases h; rfl⟩
    | f32 =>
      refine ⟨fun v => ?_, fun e => ?_⟩
      · cases j with
        | number s => exact ⟨fun h => by cases h; exact .f32 s, fun h => by cases h; rfl⟩
        | _ => exact ⟨fun h => (nomatch h), fun h => (nomatch h)⟩
      · cases j with
        | number s => exact ⟨fun h => (nomatch h), fun h => by cases h with | f32 h => exact absurd rfl (h s)⟩
        | _ => exact ⟨fun h => by cases h; exact .f32 (by intro _ h; cases h), fun h => by cases h; rfl⟩
    | int name lo hi =>
      have hs : (name ++ ".").toList = name.toList ++ ".".toList := by simp
      have he : ∀ j : Json F, (∀ x, j ≠ .number x) → P.dec (.int name lo hi) j = .error (cannot j (name.toList ++ ".".toList)) := by
        intro j hj
        cases j with
        | number x => exact absurd rfl (hj x)
        | _ =>
          show Except.map NVal.int (convertErr (α := Int) _ (name ++ ".")) = _
          rw [convert_cannot, hs]; rfl
      refine ⟨fun v => ?_, fun e => ?_⟩
      · cases j with
        | number s => exact ⟨fun h => by cases h; exact .int name lo hi s, fun h => by cases h; rfl⟩
        | _ => exact ⟨fun h => (nomatch h), fun h => (nomatch h)⟩
      · cases j with
        | number s => exact ⟨fun h => (nomatch h), fun h => by cases h with | int _ _ _ h => exact absurd rfl (h s)⟩
        | _ =>
          rw [he _ (by intro _ h; cases h)]
          exact ⟨fun h => by cases h; exact .int name lo hi (by intro _ h; cases h), fun h => by cases h; rfl⟩
    | vec t _ =>
      unfold DecOk
      rw [dec_vec hD]
      cases j with
      | array l =>
        have hl : ∀ x ∈ l, DecOk P decl t x := fun x hx => down x (json_size_array hx) t
        refine ⟨fun v => ?_, fun e => ?_⟩
        · rw [res_map_ok]
          constructor
          · rintro ⟨vs, h, rfl⟩
            exact .vec ((readsAll_iff l hl vs).1 ((collect_ok _ _).1 h))
          · intro h
            cases h with
            | vec h => exact ⟨_, (collect_ok _ _).2 ((readsAll_iff l hl _).2 h), rfl⟩
        · rw [res_map_error]
          refine (firstFail hl e).trans ?_
          constructor
          · rintro ⟨pre, x, post, rfl, h1, h2⟩; exact .vec h1 h2
          · intro h
            generalize hj : Json.array l = j at h
            cases h with
            | vecKind h => exact absurd hj.symm (h l)
            | vec h1 h2 => cases hj; exact ⟨_, _, _, rfl, h1, h2⟩
      | _ =>
        refine ⟨fun v => ⟨fun h => (nomatch h), fun h => (nomatch h)⟩, fun e => ?_⟩
        exact ⟨fun h => by cases h; exact .vecKind (by intro _ h; cases h), fun h => by cases h; rfl⟩
    | option t ih =>
      unfold DecOk
      rw [dec_option hD]
      by_cases hn : j = .null
      · subst hn
        refine ⟨fun v => ?_, fun e => ?_⟩
        · exact ⟨fun h => by cases h; exact .null t, fun h => by cases h with | null => rfl | some h _ => exact absurd rfl h⟩
        · exact ⟨fun h => (nomatch h), fun h => by cases h with | some h _ => exact absurd rfl h⟩
      · have hs : decOption (P.dec t) j = (P.dec t j).map some := by
          cases j with
          | null => exact absurd rfl hn
          | _ => simp only [decOption]; cases P.dec t _ <;> rfl
        rw [hs]
        refine ⟨fun v => ?_, fun e => ?_⟩
        · rw [res_map_ok]
          constructor
          · rintro ⟨o, h, rfl⟩
            obtain ⟨x, h', rfl⟩ := res_map_ok.1 h
            exact .some hn ((ih.1 x).1 h')
          · intro h
            cases h with
            | null => exact absurd rfl hn
            | some _ h => exact ⟨_, res_map_ok.2 ⟨_, (ih.1 _).2 h, rfl⟩, rfl⟩
        · rw [res_map_error, res_map_error, ih.2 e]
          exact ⟨.some hn, fun h => by cases h with | some _ h => exact h⟩
    | pairs i t _ =>
      unfold DecOk
      rw [dec_pairs hD]
      cases j with
      | object m =>
        have hm : ∀ p ∈ membersOf m, DecOk P decl t p.2 := fun p hp => down _ (size_membersOf hp) t
        rw [decPairs_members]
        refine ⟨fun v => ?_, fun e => ?_⟩
        · rw [res_map_ok]
          constructor
          · rintro ⟨l, h, rfl⟩
            obtain ⟨ks, vs, rfl, h1, h2⟩ := (membersN_ok _ hm l).1 h
            exact .pairs h1 h2
          · intro h
            cases h with
            | pairs h1 h2 => exact ⟨_, (membersN_ok _ hm _).2 ⟨_, _, rfl, h1, h2⟩, rfl⟩
        · rw [res_map_error, membersN_error _ hm]
          constructor
          · rintro ⟨pre, k, j, post, h1, h2, ⟨h3, rfl⟩ | ⟨⟨k', h3⟩, h4⟩⟩
            · exact .pairsKey h1 h2 h3
            · exact .pairs h1 h2 h3 h4
          · intro h
            cases h with
            | pairsKind h => exact absurd rfl (h m)
            | pairsKey h1 h2 h3 => exact ⟨_, _, _, _, h1, h2, .inl ⟨h3, rfl⟩⟩
            | pairs h1 h2 h3 h4 => exact ⟨_, _, _, _, h1, h2, .inr ⟨⟨_, h3⟩, h4⟩⟩
      | _ =>
        refine ⟨fun v => ⟨fun h => (nomatch h), fun h => (nomatch h)⟩, fun e => ?_⟩
        exact ⟨fun h => by cases h; exact .pairsKind (by intro _ h; cases h), fun h => by cases h; rfl⟩
    | map i t _ =>
      unfold DecOk
      rw [dec_map hD]
      cases j with
      | object m =>
        have hm : ∀ p ∈ currentOf m, DecOk P decl t p.2 := fun p hp => down _ (size_currentOf hp) t
        rw [decMap_members]
        refine ⟨fun v => ?_, fun e => ?_⟩
        · rw [res_map_ok]
          constructor
          · rintro ⟨l, h, rfl⟩
            obtain ⟨l, h', rfl⟩ := res_map_ok.1 h
            obtain ⟨ks, vs, rfl, h1, h2⟩ := (membersN_ok _ hm l).1 h'
            exact .map h1 h2
          · intro h
            cases h with
            | map h1 h2 => exact ⟨_, res_map_ok.2 ⟨_, (membersN_ok _ hm _).2 ⟨_, _, rfl, h1, h2⟩, rfl⟩, rfl⟩
        · rw [res_map_error, res_map_error, membersN_error _ hm]
          constructor
          · rintro ⟨pre, k, j, post, h1, h2, ⟨h3, rfl⟩ | ⟨⟨k', h3⟩, h4⟩⟩
            · exact .mapKey h1 h2 h3
            · exact .map h1 h2 h3 h4
          · intro h
            cases h with
            | mapKind h => exact absurd rfl (h m)
            | mapKey h1 h2 h3 => exact ⟨_, _, _, _, h1, h2, .inl ⟨h3, rfl⟩⟩
            | map h1 h2 h3 h4 => exact ⟨_, _, _, _, h1, h2, .inr ⟨⟨_, h3⟩, h4⟩⟩
      | _ =>
        refine ⟨fun v => ⟨fun h => (nomatch h), fun h => (nomatch h)⟩, fun e => ?_⟩
        exact ⟨fun h => by cases h; exact .mapKind (by intro _ h; cases h), fun h => by cases h; rfl⟩
    | named n =>
      unfold DecOk
      rw [dec_struct hD n j (fail .ConvertError "")]
      by_cases hj : ∃ m, j = .object m
      · obtain ⟨m, rfl⟩ := hj
        have hm : ∀ e ∈ m, ∀ t, DecOk P decl t e.2.1 := fun e he => down _ (json_size_object he).1
        rw [decStruct_object hD]
        refine ⟨fun v => ?_, fun e => ?_⟩
        · rw [res_map_ok]
          constructor
          · rintro ⟨l, h, rfl⟩; exact .struct ((readFieldsN_ok hm _ l).1 h)
          · intro h
            cases h with
            | struct h => exact ⟨_, (readFieldsN_ok hm _ _).2 h, rfl⟩
        · rw [res_map_error, readFieldsN_error hm]
          constructor
          · rintro ⟨pre, f, post, l, h1, h2, ⟨h3, rfl⟩ | ⟨j, dups, h3, h4⟩⟩
            · exact .missing h1 h2 h3
            · exact .field h1 h2 h3 h4
          · intro h
            cases h with
            | structKind h => exact absurd rfl (h m)
            | missing h1 h2 h3 => exact ⟨_, _, _, _, h1, h2, .inl ⟨h3, rfl⟩⟩
            | field h1 h2 h3 h4 => exact ⟨_, _, _, _, h1, h2, .inr ⟨_, _, h3, h4⟩⟩
      · have hj' : ∀ m, j ≠ .object m := fun m h => hj ⟨m, h⟩
        rw [decStruct_other hD _ _ _ _ hj']
        refine ⟨fun v => ⟨fun h => (nomatch h), fun h => ?_⟩, fun e => ?_⟩
        · cases h with | struct _ => exact absurd rfl (hj' _)
        · have hc : (⟨.ConvertError, "cannot convert ".toList ++ j.kindName ++ " to ".toList ++ (decl n).name ++ ".".toList⟩ : Error) =
              cannot j ((decl n).name ++ ".".toList) := by
            unfold cannot; rw [List.append_assoc _ (decl n).name]
          rw [hc]
          constructor
          · intro h; cases h; exact .structKind hj'
          · intro h
            cases h with
            | structKind _ => rfl
            | missing _ _ _ => exact absurd rfl (hj' _)
            | field _ _ _ _ => exact absurd rfl (hj' _)

end RJ
