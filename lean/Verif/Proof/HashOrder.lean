import Verif.Spec.HashOrder
import Verif.Proof.NestedDec
import Verif.Proof.JsonEq
/-
  Lemmas for C82: decoding and the order of hash maps.
-/
set_option linter.unusedSectionVars false
namespace RJ
open Spec
variable {F : Type} [FloatOps F]

/-! ### Members -/

theorem members_abs {m : Obj F} (hn : (m.map (·.1)).Nodup) (q : Str) :
    ((membersOf m).filter (fun p => p.1 = q)).map (fun p => absJ p.2) = absMap m q := by
  induction m with
  | nil => rfl
  | cons e m ih =>
    obtain ⟨k, v, l⟩ := e
    simp only [List.map_cons, List.nodup_cons] at hn
    have h1 : membersOf ((k, v, l) :: m) = (l.reverse ++ [v]).map (fun x => (k, x)) ++ membersOf m := rfl
    rw [h1, List.filter_append, List.map_append, ih hn.2]
    by_cases hk : k = q
    · subst hk
      have h0 : absMap m k = [] := absMap_eq_nil.2 hn.1
      have h2 : absMap ((k, v, l) :: m) k = (absList l).reverse ++ [absJ v] := by rw [absMap_hist]; simp [mapGet, hist]
      rw [h0, h2, List.append_nil, List.filter_eq_self.2 (by intro p hp; obtain ⟨x, _, rfl⟩ := List.mem_map.1 hp; simp), absList_eq]
      simp [Function.comp_def]
    · have h2 : absMap ((k, v, l) :: m) q = absMap m q := by rw [absMap_hist, absMap_hist]; simp [mapGet, hk]
      rw [h2, List.filter_eq_nil_iff.2 (by intro p hp; obtain ⟨x, _, rfl⟩ := List.mem_map.1 hp; simpa using hk)]
      rfl

theorem current_abs {m : Obj F} (hn : (m.map (·.1)).Nodup) (q : Str) :
    ((currentOf m).filter (fun p => p.1 = q)).map (fun p => absJ p.2) = ((absMap m q).getLast?).toList := by
  induction m with
  | nil => rfl
  | cons e m ih =>
    obtain ⟨k, v, l⟩ := e
    simp only [List.map_cons, List.nodup_cons] at hn
    have h1 : currentOf ((k, v, l) :: m) = (k, v) :: currentOf m := rfl
    by_cases hk : k = q
    · subst hk
      have h0 : absMap m k = [] := absMap_eq_nil.2 hn.1
      have h2 : absMap ((k, v, l) :: m) k = (absList l).reverse ++ [absJ v] := by rw [absMap_hist]; simp [mapGet, hist]
      rw [h1, List.filter_cons, if_pos (by simp), List.map_cons, ih hn.2, h0, h2]
      simp
    · have h2 : absMap ((k, v, l) :: m) q = absMap m q := by rw [absMap_hist, absMap_hist]; simp [mapGet, hk]
      rw [h1, List.filter_cons, if_neg (by simpa using hk), ih hn.2, h2]

theorem members_wf {m : Obj F} (hw : WF (.object m)) : ∀ p ∈ membersOf m, WF p.2 := by
  intro p hp
  obtain ⟨e, he, hp⟩ := List.mem_flatMap.1 hp
  obtain ⟨x, hx, rfl⟩ := List.mem_map.1 hp
  have := ((wf_object_iff m).1 hw).2 _ _ he
  rcases List.mem_append.1 hx with hx | hx
  · exact this.2 x (List.mem_reverse.1 hx)
  · rw [List.mem_singleton.1 hx]; exact this.1

theorem current_wf {m : Obj F} (hw : WF (.object m)) : ∀ p ∈ currentOf m, WF p.2 := by
  intro p hp
  obtain ⟨e, he, rfl⟩ := List.mem_map.1 hp
  exact (((wf_object_iff m).1 hw).2 _ _ he).1

theorem members_name {m : Obj F} {p : Str × Json F} (h : p ∈ membersOf m) : ∃ e ∈ m, e.1 = p.1 := by
  obtain ⟨e, he, hp⟩ := List.mem_flatMap.1 h
  obtain ⟨x, hx, rfl⟩ := List.mem_map.1 hp
  exact ⟨e, he, rfl⟩

theorem current_name {m : Obj F} {p : Str × Json F} (h : p ∈ currentOf m) : ∃ e ∈ m, e.1 = p.1 := by
  obtain ⟨e, he, rfl⟩ := List.mem_map.1 h
  exact ⟨e, he, rfl⟩

/-! ### Reading two lists of members with the same content -/

section
variable {α : Type} (κ : KeyCodec) (dec : Json F → Res α) (R : α → α → Prop)

/-- What is read, member by member. -/
theorem collect_members (ms : List (Str × Json F)) (x : List (κ.K × α)) :
    collect (ms.map (fun p => decMember κ dec p.1 p.2)) = .ok x ↔ AllTwo (fun p q => κ.fromStr p.1 = some q.1 ∧ dec p.2 = .ok q.2) ms x := by
  rw [collect_ok]
  induction ms generalizing x with
  | nil => cases x with
    | nil => exact ⟨fun _ => trivial, fun _ => rfl⟩
    | cons => exact ⟨fun h => (nomatch h), fun h => h.elim⟩
  | cons p ms ih =>
    cases x with
    | nil => exact ⟨fun h => (nomatch h), fun h => h.elim⟩
    | cons q x =>
      rw [List.map_cons, List.map_cons, List.cons.injEq, ih x]
      have : decMember κ dec p.1 p.2 = .ok q ↔ κ.fromStr p.1 = some q.1 ∧ dec p.2 = .ok q.2 := by
        unfold decMember
        cases κ.fromStr p.1 with
        | none => simp [failS]
        | some k =>
          dsimp only
          cases dec p.2 with
          | error e => simp
          | ok v =>
            obtain ⟨a, b⟩ := q
            simp
      rw [this]; rfl

/-- The values read for key `k`. -/
theorem valsOf_members (ms : List (Str × Json F)) (x : List (κ.K × α))
    (h : AllTwo (fun p q => κ.fromStr p.1 = some q.1 ∧ dec p.2 = .ok q.2) ms x) (k : κ.K) :
    AllTwo (fun v y => dec v = .ok y) ((ms.filter (fun p => κ.fromStr p.1 = some k)).map (·.2)) (valsOf k x) := by
  induction ms generalizing x with
  | nil => cases x with
    | nil => trivial
    | cons => exact h.elim
  | cons p ms ih =>
    cases x with
    | nil => exact h.elim
    | cons q x =>
      have h1 := ih x h.2
      unfold valsOf at *
      by_cases hk : q.1 = k
      · have hp : κ.fromStr p.1 = some k := by rw [h.1.1, hk]
        rw [List.filter_cons, if_pos (by simpa using hp), List.filter_cons, if_pos (by simpa using hk)]
        exact ⟨h.1.2, h1⟩
      · have hp : ¬ κ.fromStr p.1 = some k := by rw [h.1.1]; intro e; exact hk (Option.some.inj e)
        rw [List.filter_cons, if_neg (by simpa using hp), List.filter_cons, if_neg (by simpa using hk)]
        exact h1

theorem allTwo_dec (vs vs' : List (Json F)) (ys ys' : List α) (ha : vs'.map absJ = vs.map absJ) (hw : ∀ v ∈ vs', WF v)
    (h : ∀ v ∈ vs, ∀ v', WF v' → absJ v' = absJ v → ∀ y, dec v = .ok y → ∃ y', dec v' = .ok y' ∧ R y y')
    (h1 : AllTwo (fun v y => dec v = .ok y) vs ys) (h2 : AllTwo (fun v y => dec v = .ok y) vs' ys') : AllTwo R ys ys' := by
  induction vs generalizing vs' ys ys' with
  | nil =>
    cases vs' with
    | cons => cases ha
    | nil =>
      cases ys with
      | cons => exact h1.elim
      | nil => cases ys' with
        | cons => exact h2.elim
        | nil => trivial
  | cons v vs ih =>
    cases vs' with
    | nil => cases ha
    | cons v' vs' =>
      cases ys with
      | nil => exact h1.elim
      | cons y ys => cases ys' with
        | nil => exact h2.elim
        | cons y' ys' =>
          simp only [List.map_cons, List.cons.injEq] at ha
          obtain ⟨z, hz, hr⟩ := h v (by simp) v' (hw v' (by simp)) ha.1 y h1.1
          have : z = y' := by
            have h3 : dec v' = .ok y' := h2.1
            rw [hz] at h3; exact Except.ok.inj h3
          exact ⟨this ▸ hr, ih vs' ys ys' ha.2 (fun v hv => hw v (by simp [hv])) (fun v hv => h v (by simp [hv])) h1.2 h2.2⟩

/-- Two lists of members with the same content: both are read, to values related by `R`. -/
theorem members_alike (ms ms' : List (Str × Json F))
    (hs : ∀ q, (ms'.filter (fun p => p.1 = q)).map (fun p => absJ p.2) = (ms.filter (fun p => p.1 = q)).map (fun p => absJ p.2))
    (hw' : ∀ p ∈ ms', WF p.2)
    (h : ∀ p ∈ ms, ∀ v', WF v' → absJ v' = absJ p.2 → ∀ y, dec p.2 = .ok y → ∃ y', dec v' = .ok y' ∧ R y y')
    (x : List (κ.K × α)) (hx : collect (ms.map (fun p => decMember κ dec p.1 p.2)) = .ok x) :
    ∃ x', collect (ms'.map (fun p => decMember κ dec p.1 p.2)) = .ok x' ∧
      ((∀ p ∈ ms, ∀ p' ∈ ms, ∀ k, κ.fromStr p.1 = some k → κ.fromStr p'.1 = some k → p.1 = p'.1) → ∀ k, AllTwo R (valsOf k x) (valsOf k x')) := by
  rw [collect_members] at hx
  -- every member of one list has a partner in the other
  have partner : ∀ (a b : List (Str × Json F)), (∀ q, (a.filter (fun p => p.1 = q)).map (fun p => absJ p.2) = (b.filter (fun p => p.1 = q)).map (fun p => absJ p.2)) →
      ∀ p ∈ a, ∃ p' ∈ b, p'.1 = p.1 ∧ absJ p'.2 = absJ p.2 := by
    intro a b hab p hp
    have h1 : absJ p.2 ∈ (a.filter (fun p' => p'.1 = p.1)).map (fun p => absJ p.2) := List.mem_map.2 ⟨p, List.mem_filter.2 ⟨hp, by simp⟩, rfl⟩
    rw [hab] at h1
    obtain ⟨p', h2, h3⟩ := List.mem_map.1 h1
    exact ⟨p', (List.mem_filter.1 h2).1, by simpa using (List.mem_filter.1 h2).2, h3⟩
  have read : ∀ p ∈ ms, ∃ q : κ.K × α, κ.fromStr p.1 = some q.1 ∧ dec p.2 = .ok q.2 := by
    clear hs h partner
    induction ms generalizing x with
    | nil => intro p hp; cases hp
    | cons p ms ih =>
      cases x with
      | nil => exact hx.elim
      | cons q x =>
        intro p' hp'
        rcases List.mem_cons.1 hp' with rfl | hp'
        · exact ⟨q, hx.1⟩
        · exact ih x hx.2 p' hp'
  have ex : ∃ x' : List (κ.K × α), AllTwo (fun (p : Str × Json F) (q : κ.K × α) => κ.fromStr p.1 = some q.1 ∧ dec p.2 = .ok q.2) ms' x' := by
    have each : ∀ p ∈ ms', ∃ q : κ.K × α, κ.fromStr p.1 = some q.1 ∧ dec p.2 = .ok q.2 := by
      intro p hp
      obtain ⟨p', h1, h2, h3⟩ := partner ms' ms hs p hp
      obtain ⟨q, h4, h5⟩ := read p' h1
      obtain ⟨y', h6, _⟩ := h p' h1 p.2 (hw' p hp) h3.symm q.2 h5
      exact ⟨(q.1, y'), by rw [← h2]; exact h4, h6⟩
    clear hs hw' partner
    induction ms' with
    | nil => exact ⟨[], trivial⟩
    | cons p ms' ih =>
      obtain ⟨q, hq⟩ := each p (by simp)
      obtain ⟨x', hx'⟩ := ih (fun p hp => each p (by simp [hp]))
      exact ⟨q :: x', hq, hx'⟩
  obtain ⟨x', hx'⟩ := ex
  refine ⟨x', (collect_members κ dec ms' x').2 hx', fun hd k => ?_⟩
  have h1 := valsOf_members κ dec ms x hx k
  have h2 := valsOf_members κ dec ms' x' hx' k
  refine allTwo_dec dec R _ _ _ _ ?_ ?_ ?_ h1 h2
  · by_cases hq : ∃ p ∈ ms, κ.fromStr p.1 = some k
    · obtain ⟨p, hp, hpk⟩ := hq
      have e1 : ms.filter (fun r => κ.fromStr r.1 = some k) = ms.filter (fun r => r.1 = p.1) := by
        apply List.filter_congr
        intro r hr
        have : κ.fromStr r.1 = some k ↔ r.1 = p.1 := ⟨fun h => hd r hr p hp k h hpk, fun h => by rw [h, hpk]⟩
        simp [this]
      have e2 : ms'.filter (fun r => κ.fromStr r.1 = some k) = ms'.filter (fun r => r.1 = p.1) := by
        apply List.filter_congr
        intro r hr
        obtain ⟨r', hr', hn, _⟩ := partner ms' ms hs r hr
        have : κ.fromStr r.1 = some k ↔ r.1 = p.1 := ⟨fun h => by rw [← hn]; exact hd r' hr' p hp k (by rw [hn]; exact h) hpk, fun h => by rw [h, hpk]⟩
        simp [this]
      rw [e1, e2, List.map_map, List.map_map]
      exact hs p.1
    · have e1 : ms.filter (fun r => κ.fromStr r.1 = some k) = [] := List.filter_eq_nil_iff.2 (fun r hr he => hq ⟨r, hr, by simpa using he⟩)
      have e2 : ms'.filter (fun r => κ.fromStr r.1 = some k) = [] := List.filter_eq_nil_iff.2 (fun r hr he => by
        obtain ⟨r', hr', hn, _⟩ := partner ms' ms hs r hr
        exact hq ⟨r', hr', by rw [hn]; simpa using he⟩)
      rw [e1, e2]
  · intro v hv
    obtain ⟨p, hp, rfl⟩ := List.mem_map.1 hv
    exact hw' p (List.mem_filter.1 hp).1
  · intro v hv
    obtain ⟨p, hp, rfl⟩ := List.mem_map.1 hv
    exact h p (List.mem_filter.1 hp).1

theorem pairs_alike {m m' : Obj F} (hw : WF (.object m)) (hw' : WF (.object m')) (ha : absMap m' = absMap m)
    (h : ∀ p ∈ membersOf m, ∀ v', WF v' → absJ v' = absJ p.2 → ∀ y, dec p.2 = .ok y → ∃ y', dec v' = .ok y' ∧ R y y')
    (x : List (κ.K × α)) (hx : decPairs κ dec (.object m) = .ok x) :
    ∃ x', decPairs κ dec (.object m') = .ok x' ∧ (DistinctKeys κ m → ∀ k, AllTwo R (valsOf k x) (valsOf k x')) := by
  rw [decPairs_members] at hx
  obtain ⟨x', h1, h2⟩ := members_alike κ dec R (membersOf m) (membersOf m')
    (fun q => by rw [members_abs hw'.1, members_abs hw.1, ha]) (members_wf hw') h x hx
  refine ⟨x', by rw [decPairs_members]; exact h1, fun hd => h2 ?_⟩
  intro p hp p' hp' k hk hk'
  obtain ⟨e, he, h3⟩ := members_name hp
  obtain ⟨e', he', h4⟩ := members_name hp'
  rw [← h3, ← h4]
  exact hd e he e' he' k (h3 ▸ hk) (h4 ▸ hk')

theorem allTwo_last : ∀ (a b : List α), AllTwo R a b → OptTwo R a.getLast? b.getLast?
  | [], [], _ => trivial
  | [_], [_], h => h.1
  | x :: y :: a, z :: w :: b, h => by
    rw [List.getLast?_cons_cons, List.getLast?_cons_cons]
    exact allTwo_last (y :: a) (w :: b) h.2
  | [], _ :: _, h => h.elim
  | _ :: _, [], h => h.elim
  | [_], _ :: _ :: _, h => h.2.elim
  | _ :: _ :: _, [_], h => h.2.elim

theorem map_alike {m m' : Obj F} (hw : WF (.object m)) (hw' : WF (.object m')) (ha : absMap m' = absMap m)
    (h : ∀ p ∈ currentOf m, ∀ v', WF v' → absJ v' = absJ p.2 → ∀ y, dec p.2 = .ok y → ∃ y', dec v' = .ok y' ∧ R y y')
    (x : List (κ.K × α)) (hx : decMap κ dec (.object m) = .ok x) :
    ∃ x', decMap κ dec (.object m') = .ok x' ∧ (DistinctKeys κ m → ∀ k, OptTwo R (hmGet k x) (hmGet k x')) := by
  rw [decMap_members] at hx
  cases hc : collect ((currentOf m).map (fun p => decMember κ dec p.1 p.2)) with
  | error e => rw [hc] at hx; cases hx
  | ok z =>
    rw [hc] at hx
    cases hx
    obtain ⟨z', h1, h2⟩ := members_alike κ dec R (currentOf m) (currentOf m')
      (fun q => by rw [current_abs hw'.1, current_abs hw.1, ha]) (current_wf hw') h z hc
    refine ⟨z'.foldl (fun h p => hmInsert p.1 p.2 h) [], by rw [decMap_members, h1]; rfl, fun hd k => ?_⟩
    have h3 := h2 (fun p hp p' hp' k hk hk' => by
      obtain ⟨e, he, h3⟩ := current_name hp
      obtain ⟨e', he', h4⟩ := current_name hp'
      rw [← h3, ← h4]
      exact hd e he e' he' k (h3 ▸ hk) (h4 ▸ hk')) k
    rw [hmGet_foldl, hmGet_foldl]
    simp only [hmGet, Option.or_none]
    exact allTwo_last R _ _ h3

theorem vec_alike {l l' : List (Json F)} (hw' : ∀ v ∈ l', WF v) (ha : l'.map absJ = l.map absJ)
    (h : ∀ v ∈ l, ∀ v', WF v' → absJ v' = absJ v → ∀ y, dec v = .ok y → ∃ y', dec v' = .ok y' ∧ R y y')
    (x : List α) (hx : decVec dec (.array l) = .ok x) : ∃ x', decVec dec (.array l') = .ok x' ∧ AllTwo R x x' := by
  replace hx : collect (l.map dec) = .ok x := hx
  rw [collect_ok] at hx
  suffices hs : ∃ x' : List α, l'.map dec = x'.map .ok ∧ AllTwo R x x' by
    obtain ⟨x', h1, h2⟩ := hs
    exact ⟨x', (collect_ok _ _).2 h1, h2⟩
  induction l generalizing l' x with
  | nil =>
    cases l' with
    | cons => cases ha
    | nil => cases x with
      | cons => cases hx
      | nil => exact ⟨[], rfl, trivial⟩
  | cons v l ih =>
    cases l' with
    | nil => cases ha
    | cons v' l' =>
      cases x with
      | nil => cases hx
      | cons y x =>
        simp only [List.map_cons, List.cons.injEq] at ha hx
        obtain ⟨y', h1, h2⟩ := h v (by simp) v' (hw' v' (by simp)) ha.1 y hx.1
        obtain ⟨x', h3, h4⟩ := ih (fun v hv => hw' v (by simp [hv])) ha.2 (fun v hv => h v (by simp [hv])) x hx.2
        exact ⟨y' :: x', by rw [List.map_cons, List.map_cons, h1, h3], h2, h4⟩

theorem option_alike {j j' : Json F} (ha : absJ j' = absJ j) (h : ∀ y, dec j = .ok y → ∃ y', dec j' = .ok y' ∧ R y y')
    (x : Option α) (hx : decOption dec j = .ok x) : ∃ x', decOption dec j' = .ok x' ∧ OptTwo R x x' := by
  by_cases hj : j = .null
  · subst hj
    cases j' with
    | null => cases hx; exact ⟨none, rfl, trivial⟩
    | _ => cases ha
  · have e : ∀ k : Json F, k ≠ .null → decOption dec k = (match dec k with | .ok x => .ok (some x) | .error e => .error e) := by
      intro k hk
      cases k with
      | null => exact absurd rfl hk
      | _ => rfl
    have hj' : j' ≠ .null := by
      rintro rfl
      cases j with
      | null => exact hj rfl
      | _ => cases ha
    rw [e j hj] at hx
    rw [e j' hj']
    cases hd : dec j with
    | error er => rw [hd] at hx; cases hx
    | ok y =>
      rw [hd] at hx
      cases hx
      obtain ⟨y', h1, h2⟩ := h y hd
      exact ⟨some y', by rw [h1], h2⟩
end

/-! ### Built-in types -/

theorem abs_array {l : List (Json F)} {j : Json F} (h : absJ j = absJ (.array l)) : ∃ l', j = .array l' ∧ l'.map absJ = l.map absJ := by
  cases j with
  | array l' =>
    simp only [absJ, Val.arr.injEq, absList_eq] at h
    exact ⟨l', rfl, h⟩
  | _ => simp [absJ] at h

theorem abs_object {m : Obj F} {j : Json F} (h : absJ j = absJ (.object m)) : ∃ m', j = .object m' ∧ absMap m' = absMap m := by
  cases j with
  | object m' =>
    simp only [absJ, Val.obj.injEq] at h
    exact ⟨m', rfl, h⟩
  | _ => simp [absJ] at h

/-- Values without members do not differ. -/
theorem abs_atom {j j' : Json F} (h : absJ j' = absJ j) (h1 : ∀ l, j ≠ .array l) (h2 : ∀ m, j ≠ .object m) : j' = j := by
  cases j with
  | array l => exact absurd rfl (h1 l)
  | object m => exact absurd rfl (h2 m)
  | _ => cases j' <;> simp [absJ] at h ⊢ <;> exact h

theorem abs_kind {j j' : Json F} (h : absJ j' = absJ j) : j'.kindName = j.kindName := by
  cases j with
  | array l => obtain ⟨l', rfl, _⟩ := abs_array h; rfl
  | object m => obtain ⟨m', rfl, _⟩ := abs_object h; rfl
  | _ => rw [abs_atom h (by intro _ h; cases h) (by intro _ h; cases h)]

theorem dec_outcome (t : Ty) : ∀ j j' : Json F, WF j → WF j' → absJ j' = absJ j → ∀ y, t.dec j = .ok y → ∃ y', t.dec j' = .ok y' ∧ True := by
  induction t with
  | json => intro j j' _ _ _ y _; exact ⟨j', rfl, trivial⟩
  | vec t ih =>
    intro j j' hw hw' ha y hy
    cases j with
    | array l =>
      obtain ⟨l', rfl, hl⟩ := abs_array ha
      obtain ⟨x', h1, _⟩ := vec_alike t.dec (fun _ _ => True) ((wf_array_iff l').1 hw') hl
        (fun v hv v' hv' hav y hy => ih v v' ((wf_array_iff l).1 hw v hv) hv' hav y hy) y hy
      exact ⟨x', h1, trivial⟩
    | _ => cases hy
  | option t ih =>
    intro j j' hw hw' ha y hy
    obtain ⟨x', h1, _⟩ := option_alike t.dec (fun _ _ => True) ha (ih j j' hw hw' ha) y hy
    exact ⟨x', h1, trivial⟩
  | pairs κ t ih =>
    intro j j' hw hw' ha y hy
    cases j with
    | object m =>
      obtain ⟨m', rfl, hm⟩ := abs_object ha
      obtain ⟨x', h1, _⟩ := pairs_alike κ t.dec (fun _ _ => True) hw hw' hm (fun p hp v' hv' hav => ih p.2 v' (members_wf hw p hp) hv' hav) y hy
      exact ⟨x', h1, trivial⟩
    | _ => cases hy
  | map κ t ih =>
    intro j j' hw hw' ha y hy
    cases j with
    | object m =>
      obtain ⟨m', rfl, hm⟩ := abs_object ha
      obtain ⟨x', h1, _⟩ := map_alike κ t.dec (fun _ _ => True) hw hw' hm (fun p hp v' hv' hav => ih p.2 v' (current_wf hw p hp) hv' hav) y hy
      exact ⟨x', h1, trivial⟩
    | _ => cases hy
  | _ =>
    intro j j' _ _ ha y hy
    cases j with
    | array l => cases hy
    | object m => cases hy
    | _ => rw [abs_atom ha (by intro _ h; cases h) (by intro _ h; cases h)]; exact ⟨y, hy, trivial⟩

theorem dec_same (t : Ty) : ∀ j j' : Json F, WF j → WF j' → absJ j' = absJ j → NoClash t j → ∀ y, t.dec j = .ok y → ∃ y', t.dec j' = .ok y' ∧ Same t y y' := by
  induction t with
  | json =>
    intro j j' _ _ ha _ y hy
    cases hy
    exact ⟨j', rfl, ha.symm⟩
  | vec t ih =>
    intro j j' hw hw' ha hc y hy
    cases j with
    | array l =>
      obtain ⟨l', rfl, hl⟩ := abs_array ha
      unfold NoClash at hc
      exact vec_alike t.dec (Same t) ((wf_array_iff l').1 hw') hl
        (fun v hv v' hv' hav y hy => ih v v' ((wf_array_iff l).1 hw v hv) hv' hav (hc v hv) y hy) y hy
    | _ => cases hy
  | option t ih =>
    intro j j' hw hw' ha hc y hy
    unfold NoClash at hc
    exact option_alike t.dec (Same t) ha (ih j j' hw hw' ha hc) y hy
  | pairs κ t ih =>
    intro j j' hw hw' ha hc y hy
    cases j with
    | object m =>
      obtain ⟨m', rfl, hm⟩ := abs_object ha
      unfold NoClash at hc
      obtain ⟨x', h1, h2⟩ := pairs_alike κ t.dec (Same t) hw hw' hm (fun p hp v' hv' hav => ih p.2 v' (members_wf hw p hp) hv' hav (hc.2 p hp)) y hy
      exact ⟨x', h1, h2 hc.1⟩
    | _ => cases hy
  | map κ t ih =>
    intro j j' hw hw' ha hc y hy
    cases j with
    | object m =>
      obtain ⟨m', rfl, hm⟩ := abs_object ha
      unfold NoClash at hc
      obtain ⟨x', h1, h2⟩ := map_alike κ t.dec (Same t) hw hw' hm (fun p hp v' hv' hav => ih p.2 v' (current_wf hw p hp) hv' hav (hc.2 p hp)) y hy
      exact ⟨x', h1, h2 hc.1⟩
    | _ => cases hy
  | _ =>
    intro j j' _ _ ha _ y hy
    cases j with
    | array l => cases hy
    | object m => cases hy
    | _ => rw [abs_atom ha (by intro _ h; cases h) (by intro _ h; cases h)]; exact ⟨y, hy, Same.refl _ y⟩

theorem collect_same {α : Type} {dec : Json F → Res α} : ∀ {l l' : List (Json F)}, l'.map absJ = l.map absJ →
    (∀ v ∈ l, ∀ v', absJ v' = absJ v → dec v' = dec v) → l'.map dec = l.map dec
  | [], [], _, _ => rfl
  | v :: l, v' :: l', h, hd => by
    simp only [List.map_cons, List.cons.injEq] at h
    rw [List.map_cons, List.map_cons, hd v (by simp) v' h.1, collect_same h.2 (fun v hv => hd v (by simp [hv]))]
  | [], _ :: _, h, _ => by cases h
  | _ :: _, [], h, _ => by cases h

theorem decVec_congr' {α : Type} {dec : Json F → Res α} {j j' : Json F} (ha : absJ j' = absJ j)
    (h : ∀ l, j = .array l → ∀ v ∈ l, ∀ v', absJ v' = absJ v → dec v' = dec v) : decVec dec j' = decVec dec j := by
  cases j with
  | array l =>
    obtain ⟨l', rfl, hl⟩ := abs_array ha
    show collect _ = collect _
    rw [collect_same hl (h l rfl)]
  | object m =>
    obtain ⟨m', rfl, _⟩ := abs_object ha
    rfl
  | _ => rw [abs_atom ha (by intro _ h; cases h) (by intro _ h; cases h)]

theorem decOption_congr' {α : Type} {dec : Json F → Res α} {j j' : Json F} (ha : absJ j' = absJ j)
    (h : dec j' = dec j) : decOption dec j' = decOption dec j := by
  cases j with
  | array l =>
    obtain ⟨l', rfl, hl⟩ := abs_array ha
    simp only [decOption, h]
  | object m =>
    obtain ⟨m', rfl, _⟩ := abs_object ha
    simp only [decOption, h]
  | _ => rw [abs_atom ha (by intro _ h; cases h) (by intro _ h; cases h)]

theorem dec_exactly (t : Ty) (hp : Plain t) : ∀ j j' : Json F, absJ j' = absJ j → t.dec j' = t.dec j := by
  induction t with
  | json => exact hp.elim
  | pairs _ _ _ => exact hp.elim
  | map _ _ _ => exact hp.elim
  | vec t ih =>
    intro j j' ha
    exact decVec_congr' ha (fun l _ v _ v' hv => ih hp v v' hv)
  | option t ih =>
    intro j j' ha
    exact decOption_congr' ha (ih hp j j' ha)
  | _ =>
    intro j j' ha
    cases j with
    | array l => obtain ⟨l', rfl, hl⟩ := abs_array ha; rfl
    | object m => obtain ⟨m', rfl, _⟩ := abs_object ha; rfl
    | _ => rw [abs_atom ha (by intro _ h; cases h) (by intro _ h; cases h)]

/-! ### Programs with derived types -/

section
variable {P : Program F} {decl : P.N → Struct}

theorem mapGet_abs {m m' : Obj F} (ha : absMap m' = absMap m) (k : Str) :
    (mapGet k m = none ∧ mapGet k m' = none) ∨ ∃ v l v' l', mapGet k m = some (v, l) ∧ mapGet k m' = some (v', l') ∧ absJ v' = absJ v := by
  have h1 := mapGet_abs_last m k
  have h2 := mapGet_abs_last m' k
  rw [ha, h1] at h2
  cases hm : mapGet k m with
  | none =>
    rw [hm] at h2
    cases hm' : mapGet k m' with
    | none => exact .inl ⟨rfl, rfl⟩
    | some e => rw [hm'] at h2; cases h2
  | some e =>
    obtain ⟨v, l⟩ := e
    rw [hm] at h2
    cases hm' : mapGet k m' with
    | none => rw [hm'] at h2; cases h2
    | some e =>
      obtain ⟨v', l'⟩ := e
      rw [hm'] at h2
      exact .inr ⟨v, l, v', l', rfl, rfl, (Option.some.inj h2).symm⟩

theorem fields_alike {n : P.N} {m m' : Obj F} (hw' : WF (.object m')) (ha : absMap m' = absMap m) (R : P.Ty → P.Val → P.Val → Prop) :
    ∀ (fs : List Field), (∀ f ∈ fs, ∀ v l, mapGet f.key m = some (v, l) → ∀ v', WF v' → absJ v' = absJ v → ∀ y, P.dec (P.fieldTy n f.name) v = .ok y →
      ∃ y', P.dec (P.fieldTy n f.name) v' = .ok y' ∧ R (P.fieldTy n f.name) y y') → ∀ x, readFields P P.dec n m fs = .ok x →
    ∃ x', readFields P P.dec n m' fs = .ok x' ∧ AllTwo (fun f p => p.1 = f.name) fs x ∧
      AllTwo (fun p p' => p.1 = p'.1 ∧ R (P.fieldTy n p.1) p.2 p'.2) x x' := by
  intro fs
  induction fs with
  | nil => intro _ x hx; cases hx; exact ⟨[], rfl, trivial, trivial⟩
  | cons f fs ih =>
    intro h x hx
    rw [readFields] at hx
    rcases mapGet_abs ha f.key with ⟨h1, _⟩ | ⟨v, l, v', l', h1, h2, h3⟩
    · rw [h1] at hx; cases hx
    · rw [h1] at hx
      dsimp only at hx
      cases hd : P.dec (P.fieldTy n f.name) v with
      | error e => rw [hd] at hx; cases hx
      | ok y =>
        rw [hd] at hx
        dsimp only at hx
        cases hr : readFields P P.dec n m fs with
        | error e => rw [hr] at hx; cases hx
        | ok x1 =>
          rw [hr] at hx
          cases hx
          obtain ⟨x', h4, h5, h6⟩ := ih (fun g hg => h g (by simp [hg])) x1 hr
          obtain ⟨y', h7, h8⟩ := h f (by simp) v l h1 v' (((wf_object_iff m').1 hw').2 _ _ (mapGet_mem h2)).1 h3 y hd
          refine ⟨(f.name, y') :: x', ?_, ⟨rfl, h5⟩, ⟨rfl, h8⟩, h6⟩
          rw [readFields, h2]
          dsimp only
          rw [h7]
          dsimp only
          rw [h4]

theorem dec_outcomeN (hD : Declared P decl) : ∀ (N : Nat) (j : Json F), sizeOf j < N → ∀ (t : P.Ty) (j' : Json F), WF j → WF j' → absJ j' = absJ j →
    ∀ y, P.dec t j = .ok y → ∃ y', P.dec t j' = .ok y' ∧ True := by
  intro N
  induction N with
  | zero => intro j h; omega
  | succ N IH =>
    intro j hj t
    have down : ∀ x : Json F, sizeOf x < sizeOf j → ∀ (t : P.Ty) (j' : Json F), WF x → WF j' → absJ j' = absJ x →
      ∀ y, P.dec t x = .ok y → ∃ y', P.dec t j' = .ok y' ∧ True := fun x hx => IH x (by omega)
    clear IH hj
    induction t with
    | json => intro j' _ _ _ y _; exact ⟨.json j', rfl, trivial⟩
    | vec t ih =>
      intro j' hw hw' ha y hy
      rw [dec_vec hD] at hy ⊢
      obtain ⟨x, hx, rfl⟩ := res_map_ok.1 hy
      cases j with
      | array l =>
        obtain ⟨l', rfl, hl⟩ := abs_array ha
        obtain ⟨x', h1, _⟩ := vec_alike (P.dec t) (fun _ _ => True) ((wf_array_iff l').1 hw') hl
          (fun v hv v' hv' hav => down v (json_size_array hv) t v' ((wf_array_iff l).1 hw v hv) hv' hav) x hx
        exact ⟨.vec x', res_map_ok.2 ⟨x', h1, rfl⟩, trivial⟩
      | _ => cases hx
    | option t ih =>
      intro j' hw hw' ha y hy
      rw [dec_option hD] at hy ⊢
      obtain ⟨x, hx, rfl⟩ := res_map_ok.1 hy
      obtain ⟨x', h1, _⟩ := option_alike (P.dec t) (fun _ _ => True) ha (ih j' hw hw' ha) x hx
      exact ⟨.option x', res_map_ok.2 ⟨x', h1, rfl⟩, trivial⟩
    | pairs i t ih =>
      intro j' hw hw' ha y hy
      rw [dec_pairs hD] at hy ⊢
      obtain ⟨x, hx, rfl⟩ := res_map_ok.1 hy
      cases j with
      | object m =>
        obtain ⟨m', rfl, hm⟩ := abs_object ha
        obtain ⟨x', h1, _⟩ := pairs_alike (P.key i) (P.dec t) (fun _ _ => True) hw hw' hm
          (fun p hp v' hv' hav => down p.2 (size_membersOf hp) t v' (members_wf hw p hp) hv' hav) x hx
        exact ⟨_, res_map_ok.2 ⟨x', h1, rfl⟩, trivial⟩
      | _ => cases hx
    | map i t ih =>
      intro j' hw hw' ha y hy
      rw [dec_map hD] at hy ⊢
      obtain ⟨x, hx, rfl⟩ := res_map_ok.1 hy
      cases j with
      | object m =>
        obtain ⟨m', rfl, hm⟩ := abs_object ha
        obtain ⟨x', h1, _⟩ := map_alike (P.key i) (P.dec t) (fun _ _ => True) hw hw' hm
          (fun p hp v' hv' hav => down p.2 (size_currentOf hp) t v' (current_wf hw p hp) hv' hav) x hx
        exact ⟨_, res_map_ok.2 ⟨x', h1, rfl⟩, trivial⟩
      | _ => cases hx
    | named n =>
      intro j' hw hw' ha y hy
      rw [dec_struct hD n _ (fail .ConvertError "")] at hy ⊢
      by_cases ho : ∃ m, j = .object m
      · obtain ⟨m, rfl⟩ := ho
        obtain ⟨m', rfl, hm⟩ := abs_object ha
        rw [decStruct_object hD] at hy ⊢
        obtain ⟨x, hx, rfl⟩ := res_map_ok.1 hy
        obtain ⟨x', h1, _⟩ := fields_alike hw' hm (fun _ _ _ => True) (decl n).kept
          (fun f _ v l hg v' hv' hav => down v (json_size_object (mapGet_mem hg)).1 _ v' (((wf_object_iff m).1 hw).2 _ _ (mapGet_mem hg)).1 hv' hav) x hx
        exact ⟨_, res_map_ok.2 ⟨x', h1, rfl⟩, trivial⟩
      · rw [decStruct_other hD _ _ _ _ (fun m h => ho ⟨m, h⟩)] at hy
        cases hy
    | _ =>
      intro j' _ _ ha y hy
      cases j with
      | array l => cases hy
      | object m => cases hy
      | _ => rw [abs_atom ha (by intro _ h; cases h) (by intro _ h; cases h)]; exact ⟨y, hy, trivial⟩

theorem optTwo_some {α : Type} {R : α → α → Prop} {x : α} {b : Option α} (h : OptTwo R (some x) b) : ∃ y, b = some y ∧ R x y := by
  cases b with
  | none => exact h.elim
  | some y => exact ⟨y, rfl, h⟩

theorem optTwo_none {α : Type} {R : α → α → Prop} {b : Option α} (h : OptTwo R none b) : b = none := by
  cases b with
  | none => rfl
  | some y => exact h.elim

theorem noClash_atom {t : P.Ty} {j : Json F} {y : P.Val} (h : P.dec t j = .ok y) (h1 : ∀ l, j ≠ .array l) (h2 : ∀ m, j ≠ .object m) (hD : Declared P decl) :
    Back P decl t y y := by
  induction t generalizing y with
  | json => cases h; exact .json rfl
  | string => cases j <;> cases h; exact .string _
  | bool => cases j <;> cases h; exact .bool _
  | f64 => cases j <;> cases h; exact .f64 _
  | f32 => cases j <;> cases h; exact .f32 _
  | int name lo hi => cases j <;> cases h; exact .int _ _ _ _
  | vec t ih =>
    rw [dec_vec hD] at h
    cases j with
    | array l => exact absurd rfl (h1 l)
    | _ => cases h
  | option t ih =>
    rw [dec_option hD] at h
    obtain ⟨x, hx, rfl⟩ := res_map_ok.1 h
    cases x with
    | none => exact .none t
    | some x =>
      refine .some (ih ?_)
      cases j with
      | null => cases hx
      | _ =>
        simp only [decOption] at hx
        split at hx
        · cases hx; assumption
        · cases hx
  | pairs i t ih =>
    rw [dec_pairs hD] at h
    cases j with
    | object m => exact absurd rfl (h2 m)
    | _ => cases h
  | map i t ih =>
    rw [dec_map hD] at h
    cases j with
    | object m => exact absurd rfl (h2 m)
    | _ => cases h
  | named n =>
    rw [dec_struct hD n _ (fail .ConvertError ""), decStruct_other hD _ _ _ _ h2] at h
    cases h

theorem dec_sameN (hD : Declared P decl) {t : P.Ty} {j : Json F} (hc : NoClashN P decl t j) : ∀ j' : Json F, WF j → WF j' → absJ j' = absJ j →
    ∀ y, P.dec t j = .ok y → ∃ y', P.dec t j' = .ok y' ∧ Back P decl t y y' := by
  induction hc with
  | @atom t j h1 h2 =>
    intro j' _ _ ha y hy
    rw [abs_atom ha h1 h2]
    exact ⟨y, hy, noClash_atom hy h1 h2 hD⟩
  | json j =>
    intro j' _ _ ha y hy
    cases hy
    exact ⟨.json j', rfl, .json ha.symm⟩
  | @vec t l _ ih =>
    intro j' hw hw' ha y hy
    rw [dec_vec hD] at hy ⊢
    obtain ⟨x, hx, rfl⟩ := res_map_ok.1 hy
    obtain ⟨l', rfl, hl⟩ := abs_array ha
    obtain ⟨x', h1, h2⟩ := vec_alike (P.dec t) (Back P decl t) ((wf_array_iff l').1 hw') hl
      (fun v hv v' hv' hav => ih v hv v' ((wf_array_iff l).1 hw v hv) hv' hav) x hx
    obtain ⟨h3, h4⟩ := allTwo_get h2
    exact ⟨.vec x', res_map_ok.2 ⟨x', h1, rfl⟩, .vec h3 h4⟩
  | @option t j _ ih =>
    intro j' hw hw' ha y hy
    rw [dec_option hD] at hy ⊢
    obtain ⟨x, hx, rfl⟩ := res_map_ok.1 hy
    obtain ⟨x', h1, h2⟩ := option_alike (P.dec t) (Back P decl t) ha (ih j' hw hw' ha) x hx
    refine ⟨.option x', res_map_ok.2 ⟨x', h1, rfl⟩, ?_⟩
    cases x with
    | none => rw [optTwo_none h2]; exact .none t
    | some x => obtain ⟨z, rfl, h3⟩ := optTwo_some h2; exact .some h3
  | @pairs i t m hd _ ih =>
    intro j' hw hw' ha y hy
    rw [dec_pairs hD] at hy ⊢
    obtain ⟨x, hx, rfl⟩ := res_map_ok.1 hy
    obtain ⟨m', rfl, hm⟩ := abs_object ha
    obtain ⟨x', h1, h2⟩ := pairs_alike (P.key i) (P.dec t) (Back P decl t) hw hw' hm
      (fun p hp v' hv' hav => ih p hp v' (members_wf hw p hp) hv' hav) x hx
    refine ⟨_, res_map_ok.2 ⟨x', h1, rfl⟩, .pairs (fun k => (allTwo_get (h2 hd k)).1) (fun k => (allTwo_get (h2 hd k)).2)⟩
  | @map i t m hd _ ih =>
    intro j' hw hw' ha y hy
    rw [dec_map hD] at hy ⊢
    obtain ⟨x, hx, rfl⟩ := res_map_ok.1 hy
    obtain ⟨m', rfl, hm⟩ := abs_object ha
    obtain ⟨x', h1, h2⟩ := map_alike (P.key i) (P.dec t) (Back P decl t) hw hw' hm
      (fun p hp v' hv' hav => ih p hp v' (current_wf hw p hp) hv' hav) x hx
    refine ⟨_, res_map_ok.2 ⟨x', h1, rfl⟩, .map (decMap_nodup h1) (fun k => ?_) (fun k a b ha hb => ?_)⟩
    · rw [← hmGet_isSome, ← hmGet_isSome]
      have h3 := h2 hd k
      cases hg : hmGet k x with
      | none => rw [hg] at h3; rw [optTwo_none h3]
      | some z => rw [hg] at h3; obtain ⟨w, h4, _⟩ := optTwo_some h3; rw [h4]; simp
    · have h3 := h2 hd k
      rw [hmGet_of_mem (decMap_nodup hx) ha, hmGet_of_mem (decMap_nodup h1) hb] at h3
      exact h3
  | @struct n m _ ih =>
    intro j' hw hw' ha y hy
    rw [dec_struct hD n _ (fail .ConvertError "")] at hy ⊢
    obtain ⟨m', rfl, hm⟩ := abs_object ha
    rw [decStruct_object hD] at hy ⊢
    obtain ⟨x, hx, rfl⟩ := res_map_ok.1 hy
    obtain ⟨x', h1, h2, h3⟩ := fields_alike hw' hm (Back P decl) (decl n).kept
      (fun f hf v l hg v' hv' hav => ih f hf v l hg v' (((wf_object_iff m).1 hw).2 _ _ (mapGet_mem hg)).1 hv' hav) x hx
    have names : ∀ (fs : List Field) (x : List (Str × P.Val)), AllTwo (fun f p => p.1 = f.name) fs x → x.map (·.1) = fs.map Field.name := by
      intro fs
      induction fs with
      | nil => intro x h; cases x with
        | nil => rfl
        | cons => exact h.elim
      | cons f fs ih => intro x h; cases x with
        | nil => exact h.elim
        | cons p x => rw [List.map_cons, List.map_cons, ih x h.2, h.1]
    have same : ∀ (x x' : List (Str × P.Val)), AllTwo (fun p p' => p.1 = p'.1 ∧ Back P decl (P.fieldTy n p.1) p.2 p'.2) x x' → x'.map (·.1) = x.map (·.1) := by
      intro x
      induction x with
      | nil => intro x h; cases x with
        | nil => rfl
        | cons => exact h.elim
      | cons f fs ih => intro x h; cases x with
        | nil => exact h.elim
        | cons p x => rw [List.map_cons, List.map_cons, ih x h.2, h.1.1]
    have e0 : ∀ (z : List (Str × P.Val)), z.map (·.1) = (decl n).kept.map Field.name →
        (z ++ (decl n).ignored.map (fun f => (f.name, P.dflt n f.name))).map (·.1) = fieldNames (decl n) := by
      intro z hz
      unfold fieldNames
      rw [List.map_append, List.map_append, hz, List.map_map]; rfl
    have n1 := e0 x (names _ _ h2)
    have n2 := e0 x' ((same _ _ h3).trans (names _ _ h2))
    refine ⟨_, res_map_ok.2 ⟨x', h1, rfl⟩, .struct n1 n2 ?_ ?_⟩
    · intro f hf a b ha hb
      have hn : (fieldNames (decl n)).Nodup := hD.names n
      obtain ⟨a', ha'⟩ : ∃ a', (f.name, a') ∈ x := by
        have : f.name ∈ x.map (·.1) := by rw [names _ _ h2]; exact List.mem_map.2 ⟨f, hf, rfl⟩
        obtain ⟨⟨p, q⟩, hp, rfl⟩ := List.mem_map.1 this
        exact ⟨q, hp⟩
      have uniq : ∀ (z : List (Str × P.Val)) (u w : P.Val), (z.map (·.1)).Nodup → (f.name, u) ∈ z → (f.name, w) ∈ z → u = w := by
        intro z u w hz hu hv
        have h1 := mapGet_of_mem hz hu
        rw [mapGet_of_mem hz hv] at h1
        exact (Option.some.inj h1).symm
      have part : ∀ (x x' : List (Str × P.Val)), AllTwo (fun p p' => p.1 = p'.1 ∧ Back P decl (P.fieldTy n p.1) p.2 p'.2) x x' →
          ∀ p ∈ x, ∃ p' ∈ x', p.1 = p'.1 ∧ Back P decl (P.fieldTy n p.1) p.2 p'.2 := by
        intro x
        induction x with
        | nil => intro _ _ p hp; cases hp
        | cons q x ih =>
          intro x' h p hp
          cases x' with
          | nil => exact h.elim
          | cons q' x' =>
            rcases List.mem_cons.1 hp with rfl | hp
            · exact ⟨q', by simp, h.1⟩
            · obtain ⟨p', h1, h2⟩ := ih x' h.2 p hp
              exact ⟨p', by simp [h1], h2⟩
      obtain ⟨⟨q, b'⟩, hb', hq, hB⟩ := part _ _ h3 _ ha'
      dsimp only at hq hB
      subst hq
      rw [uniq _ a a' (n1 ▸ hn) ha (List.mem_append.2 (.inl ha')), uniq _ b b' (n2 ▸ hn) hb (List.mem_append.2 (.inl hb'))]
      exact hB
    · intro f hf
      exact List.mem_append.2 (.inr (List.mem_map.2 ⟨f, hf, rfl⟩))

theorem dec_exactlyN (hD : Declared P decl) (hF : ∀ n, ∀ f ∈ (decl n).kept, PlainN (P.fieldTy n f.name)) :
    ∀ (N : Nat) (j : Json F), sizeOf j < N → ∀ t : P.Ty, PlainN t → ∀ j' : Json F, absJ j' = absJ j → P.dec t j' = P.dec t j := by
  intro N
  induction N with
  | zero => intro j h; omega
  | succ N IH =>
    intro j hj t
    have down : ∀ x : Json F, sizeOf x < sizeOf j → ∀ t : P.Ty, PlainN t → ∀ j' : Json F, absJ j' = absJ x → P.dec t j' = P.dec t x := fun x hx => IH x (by omega)
    clear IH hj
    induction t with
    | json => intro h; exact h.elim
    | pairs => intro h; exact h.elim
    | map => intro h; exact h.elim
    | vec t ih =>
      intro hp j' ha
      rw [dec_vec hD, dec_vec hD]
      refine congrArg _ (decVec_congr' ha (fun l hl v hv v' hav => ?_))
      subst hl
      exact down v (json_size_array hv) t hp v' hav
    | option t ih =>
      intro hp j' ha
      rw [dec_option hD, dec_option hD, decOption_congr' ha (ih hp j' ha)]
    | named n =>
      intro _ j' ha
      rw [dec_struct hD n _ (fail .ConvertError ""), dec_struct hD n _ (fail .ConvertError "")]
      by_cases ho : ∃ m, j = .object m
      · obtain ⟨m, rfl⟩ := ho
        obtain ⟨m', rfl, hm⟩ := abs_object ha
        rw [decStruct_object hD, decStruct_object hD]
        refine congrArg _ ?_
        have key : ∀ fs : List Field, (∀ f ∈ fs, f ∈ (decl n).kept) → readFields P P.dec n m' fs = readFields P P.dec n m fs := by
          intro fs
          induction fs with
          | nil => intro _; rfl
          | cons f fs ih =>
            intro hfs
            rw [readFields, readFields, ih (fun g hg => hfs g (by simp [hg]))]
            rcases mapGet_abs hm f.key with ⟨h1, h2⟩ | ⟨v, l, v', l', h1, h2, h3⟩
            · rw [h1, h2]
            · rw [h1, h2]
              dsimp only
              rw [down v (json_size_object (mapGet_mem h1)).1 _ (hF n f (hfs f (by simp))) v' h3]
        exact key _ (fun _ h => h)
      · have ho' : ∀ m, j' ≠ .object m := by
          rintro m rfl
          cases j with
          | object m => exact ho ⟨m, rfl⟩
          | _ => simp [absJ] at ha
        rw [decStruct_other hD _ _ _ _ (fun m h => ho ⟨m, h⟩), decStruct_other hD _ _ _ _ ho', abs_kind ha]
    | _ =>
      intro _ j' ha
      cases j with
      | array l => obtain ⟨l', rfl, hl⟩ := abs_array ha; rfl
      | object m => obtain ⟨m', rfl, _⟩ := abs_object ha; rfl
      | _ => rw [abs_atom ha (by intro _ h; cases h) (by intro _ h; cases h)]

theorem collect_each {α : Type} {rs : List (Res α)} {l : List α} (h : collect rs = .ok l) : ∀ r ∈ rs, ∃ a, r = .ok a := by
  rw [collect_ok] at h
  subst h
  intro r hr
  obtain ⟨a, _, rfl⟩ := List.mem_map.1 hr
  exact ⟨a, rfl⟩

theorem decMember_value {α : Type} {κ : KeyCodec} {dec : Json F → Res α} {k : Str} {j : Json F} {a : κ.K × α} (h : decMember κ dec k j = .ok a) : dec j = .ok a.2 := by
  unfold decMember at h
  split at h
  · cases h
  · split at h
    · cases h; assumption
    · cases h

theorem readFields_each {n : P.N} {m : Obj F} : ∀ (fs : List Field) (x : List (Str × P.Val)), readFields P P.dec n m fs = .ok x → ∀ f ∈ fs, ∀ j dups,
    mapGet f.key m = some (j, dups) → ∃ y, P.dec (P.fieldTy n f.name) j = .ok y := by
  intro fs
  induction fs with
  | nil => intro _ _ f hf; cases hf
  | cons f fs ih =>
    intro x hx g hg j dups hj
    rw [readFields] at hx
    cases h1 : mapGet f.key m with
    | none => rw [h1] at hx; cases hx
    | some e =>
      obtain ⟨v, l⟩ := e
      rw [h1] at hx
      dsimp only at hx
      cases hd : P.dec (P.fieldTy n f.name) v with
      | error e => rw [hd] at hx; cases hx
      | ok y =>
        rw [hd] at hx
        dsimp only at hx
        cases hr : readFields P P.dec n m fs with
        | error e => rw [hr] at hx; cases hx
        | ok x1 =>
          rcases List.mem_cons.1 hg with rfl | hg
          · rw [h1] at hj; cases hj; exact ⟨y, hd⟩
          · exact ih x1 hr g hg j dups hj

/-- If every text is at most one key, nothing clashes. -/
theorem noClash_exact (hD : Declared P decl) (hk : ∀ i s s' k, (P.key i).fromStr s = some k → (P.key i).fromStr s' = some k → s = s') :
    ∀ (N : Nat) (j : Json F), sizeOf j < N → ∀ (t : P.Ty) (y : P.Val), P.dec t j = .ok y → NoClashN P decl t j := by
  intro N
  induction N with
  | zero => intro j h; omega
  | succ N IH =>
    intro j hj t
    have down : ∀ x : Json F, sizeOf x < sizeOf j → ∀ (t : P.Ty) (y : P.Val), P.dec t x = .ok y → NoClashN P decl t x := fun x hx => IH x (by omega)
    clear IH hj
    induction t with
    | json => intro y _; exact .json j
    | vec t ih =>
      intro y hy
      rw [dec_vec hD] at hy
      obtain ⟨x, hx, rfl⟩ := res_map_ok.1 hy
      cases j with
      | array l =>
        refine .vec (fun v hv => ?_)
        obtain ⟨a, ha⟩ := collect_each hx _ (List.mem_map.2 ⟨v, hv, rfl⟩)
        exact down v (json_size_array hv) t a ha
      | _ => cases hx
    | option t ih =>
      intro y hy
      rw [dec_option hD] at hy
      obtain ⟨x, hx, rfl⟩ := res_map_ok.1 hy
      refine .option ?_
      by_cases hn : j = .null
      · subst hn; exact .atom (by intro _ h; cases h) (by intro _ h; cases h)
      · have : ∃ a, P.dec t j = .ok a := by
          cases j with
          | null => exact absurd rfl hn
          | _ =>
            simp only [decOption] at hx
            split at hx
            · exact ⟨_, by assumption⟩
            · cases hx
        obtain ⟨a, ha⟩ := this
        exact ih a ha
    | pairs i t ih =>
      intro y hy
      rw [dec_pairs hD] at hy
      obtain ⟨x, hx, rfl⟩ := res_map_ok.1 hy
      cases j with
      | object m =>
        rw [decPairs_members] at hx
        refine .pairs (fun e _ e' _ k h h' => hk i _ _ k h h') (fun p hp => ?_)
        obtain ⟨a, ha⟩ := collect_each hx _ (List.mem_map.2 ⟨p, hp, rfl⟩)
        exact down p.2 (size_membersOf hp) t a.2 (decMember_value ha)
      | _ => cases hx
    | map i t ih =>
      intro y hy
      rw [dec_map hD] at hy
      obtain ⟨x, hx, rfl⟩ := res_map_ok.1 hy
      cases j with
      | object m =>
        rw [decMap_members] at hx
        obtain ⟨z, hz, _⟩ := res_map_ok.1 hx
        refine .map (fun e _ e' _ k h h' => hk i _ _ k h h') (fun p hp => ?_)
        obtain ⟨a, ha⟩ := collect_each hz _ (List.mem_map.2 ⟨p, hp, rfl⟩)
        exact down p.2 (size_currentOf hp) t a.2 (decMember_value ha)
      | _ => cases hx
    | named n =>
      intro y hy
      rw [dec_struct hD n _ (fail .ConvertError "")] at hy
      by_cases ho : ∃ m, j = .object m
      · obtain ⟨m, rfl⟩ := ho
        rw [decStruct_object hD] at hy
        obtain ⟨x, hx, rfl⟩ := res_map_ok.1 hy
        refine .struct (fun f hf j dups hg => ?_)
        obtain ⟨a, ha⟩ := readFields_each _ _ hx f hf j dups hg
        exact down j (json_size_object (mapGet_mem hg)).1 _ a ha
      · rw [decStruct_other hD _ _ _ _ (fun m h => ho ⟨m, h⟩)] at hy
        cases hy
    | _ =>
      intro y hy
      cases j with
      | array l => cases hy
      | object m => cases hy
      | _ => exact .atom (by intro _ h; cases h) (by intro _ h; cases h)
end

end RJ
