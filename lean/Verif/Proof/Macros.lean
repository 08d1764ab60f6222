import Verif.Proof.MacroArgs
/- `__translate` is expansion. -/
namespace RJ
open Spec

/-! ### Values and texts -/

theorem settled_append : ∀ {a b : List QTok}, Settled a → Settled b → Settled (a ++ b)
  | [], _, _, hb => hb
  | t :: a, b, ha, hb => by
    refine ⟨fun ht => ?_, settled_append ha.2 hb⟩
    obtain ⟨u, hu, hn⟩ := ha.1 ht
    cases a with
    | nil => cases hu
    | cons u' a => exact ⟨u, hu, hn⟩

theorem settled_remain : ∀ {v : List QTok}, Settled v → remain v = false
  | [], _ => rfl
  | [_], _ => rfl
  | t :: u :: r, h => by
    have ih := settled_remain h.2
    simp only [remain, ih, Bool.or_false]
    by_cases ht : t.isPunct '#' = true
    · obtain ⟨u', hu, hn⟩ := h.1 ((isPunct_hash t).1 ht)
      cases hu
      rw [ht, Bool.true_and]
      cases u with
      | ident s => exact absurd trivial hn
      | group d g => cases d <;> first | exact absurd trivial hn | rfl
      | punct c j => rfl
      | lit s => rfl
    · rw [Bool.not_eq_true] at ht
      rw [ht]; rfl

theorem tame_split : ∀ {a : List QTok} {j : Bool} {r : List QTok}, Tame (a ++ .punct ',' j :: r) → Tame a ∧ Tame r
  | [], _, _, h => ⟨trivial, h.2.2⟩
  | t :: a, j, r, h => by
    obtain ⟨h1, h2⟩ := tame_split h.2.2
    refine ⟨⟨h.1, fun ht => ?_, h1⟩, h2⟩
    obtain ⟨u, hu, hn, hc⟩ := h.2.1 ht
    cases a with
    | nil => cases hu; exact absurd rfl hc
    | cons u' a => exact ⟨u, hu, hn, hc⟩

theorem tame_args {ts : List QTok} {acts : List (List QTok)} (h : ArgList ts acts) : Tame ts → ∀ a ∈ acts, Tame a := by
  induction h with
  | one _ => intro h a ha; simp only [List.mem_singleton] at ha; exact ha ▸ h
  | trail _ _ => intro h a ha; simp only [List.mem_singleton] at ha; exact ha ▸ (tame_split h).1
  | more _ _ _ _ ih =>
    intro h a ha
    rcases List.mem_cons.1 ha with rfl | ha
    · exact (tame_split h).1
    · exact ih (tame_split h).2 a ha

/-- Two lists, element by element. -/
inductive Matched {α β : Type} (R : α → β → Prop) : List α → List β → Prop
  | nil : Matched R [] []
  | cons {a b l r} : R a b → Matched R l r → Matched R (a :: l) (b :: r)

/-! ### The map -/

/-- The map holds the definitions. -/
structure Keeps (m : QMap) (e : Env) : Prop where
  value : ∀ x, Named x → mapGet x m = e.value x
  params : ∀ f, mapGet (f ++ ['-']) m = (e.mac f).map (fun p => lexTTs (formalToks p.1))
  body : ∀ f, mapGet (f ++ ['+']) m = (e.mac f).map (fun p => p.2)
  settled : ∀ x v, e.value x = some v → Settled v
  tame : ∀ f p, e.mac f = some p → Tame p.2 ∧ ∀ x ∈ p.1, Named x
  nodup : (m.map (·.1)).Nodup

theorem keeps_empty : Keeps [] Env.empty :=
  ⟨fun _ _ => rfl, fun _ => rfl, fun _ => rfl, fun _ _ h => (nomatch h), fun _ _ h => (nomatch h), List.nodup_nil⟩

theorem named_minus {x f : Str} (h : Named x) : f ++ ['-'] ≠ x := by
  intro e; exact h.1 (by rw [← e]; simp)
theorem named_plus {x f : Str} (h : Named x) : f ++ ['+'] ≠ x := by
  intro e; exact h.2 (by rw [← e]; simp)
theorem minus_plus (f g : Str) : f ++ ['-'] ≠ g ++ ['+'] := by
  intro e; have := congrArg List.getLast? e; simp at this

theorem keeps_set {m : QMap} {e : Env} (h : Keeps m e) {x : Str} (hx : Named x) {v : List QTok} (hv : Settled v) : Keeps (mapInsert x v m) (e.set x (some v)) where
  value := by
    intro y hy
    rw [mapGet_insert', h.value y hy]; rfl
  params := by
    intro f
    rw [mapGet_insert', if_neg (named_minus hx)]; exact h.params f
  body := by
    intro f
    rw [mapGet_insert', if_neg (named_plus hx)]; exact h.body f
  settled := by
    intro y w hw
    unfold Env.set Defs.set at hw
    by_cases e' : y = x
    · simp only [e', if_true] at hw; cases hw; exact hv
    · simp only [e', if_false] at hw; exact h.settled y w hw
  tame := h.tame
  nodup := nodup_insert _ _ _ h.nodup

theorem keeps_unset {m : QMap} {e : Env} (h : Keeps m e) {x : Str} (hx : Named x) : Keeps (mapRemove x m) (e.set x none) where
  value := by
    intro y hy
    rw [mapGet_remove x m h.nodup, h.value y hy]
    unfold Env.set Defs.set
    by_cases e' : x = y
    · rw [if_pos e']; simp [e']
    · rw [if_neg e']; simp [Ne.symm e']
  params := by
    intro f
    rw [mapGet_remove x m h.nodup, if_neg (fun e' => named_minus hx e'.symm)]; exact h.params f
  body := by
    intro f
    rw [mapGet_remove x m h.nodup, if_neg (fun e' => named_plus hx e'.symm)]; exact h.body f
  settled := by
    intro y w hw
    unfold Env.set Defs.set at hw
    by_cases e' : y = x
    · simp only [e', if_true] at hw; cases hw
    · simp only [e', if_false] at hw; exact h.settled y w hw
  tame := h.tame
  nodup := by
    rw [mapRemove_keys x m h.nodup]
    exact h.nodup.erase x

theorem keeps_mac {m : QMap} {e : Env} (h : Keeps m e) (f : Str) {ps : List Str} (hps : ∀ p ∈ ps, Named p) {b : List QTok} (hb : Tame b) :
    Keeps (mapInsert (f ++ ['-']) (lexTTs (formalToks ps)) (mapInsert (f ++ ['+']) b m)) (e.setMac f ps b) where
  value := by
    intro y hy
    rw [mapGet_insert', if_neg (fun e' => named_minus hy e'.symm), mapGet_insert', if_neg (fun e' => named_plus hy e'.symm), h.value y hy]; rfl
  params := by
    intro g
    rw [mapGet_insert', mapGet_insert', if_neg (minus_plus g f), h.params g]
    unfold Env.setMac
    by_cases e' : g = f
    · simp [e']
    · simp [e']
  body := by
    intro g
    rw [mapGet_insert', if_neg (fun e' => minus_plus f g e'.symm), mapGet_insert', h.body g]
    unfold Env.setMac
    by_cases e' : g = f
    · simp [e']
    · simp [e']
  settled := h.settled
  tame := by
    intro g p hp
    unfold Env.setMac at hp
    by_cases e' : g = f
    · simp only [e', if_true] at hp; cases hp; exact ⟨hb, hps⟩
    · simp only [e', if_false] at hp; exact h.tame g p hp
  nodup := nodup_insert _ _ _ (nodup_insert _ _ _ h.nodup)

/-- Binding the arguments. -/
theorem bind_keeps (tr : QMap → List QTok → QOut) (outer : QMap) : ∀ (ks acts vals : List (List QTok)) (inner : QMap) (e : Env), Keeps inner e →
    (∀ k ∈ ks, Named (qStr k)) → ks.length = acts.length → Matched (fun a v => tr outer a = .ok v ∧ Settled v) acts vals →
    ∃ m', bindArgs tr outer ks acts inner = .inr m' ∧ Keeps m' (e.bind (ks.map qStr) vals)
  | [], [], _, inner, e, h, _, _, hv => by
    cases hv; exact ⟨inner, rfl, by simpa [Env.bind] using h⟩
  | [], _ :: _, _, _, _, _, _, hl, _ => by simp at hl
  | _ :: _, [], _, _, _, _, _, hl, _ => by simp at hl
  | k :: ks, a :: acts, _, inner, e, h, hk, hl, hv => by
    cases hv with
    | @cons _ v _ vals h1 h2 =>
      simp only [bindArgs, h1.1, List.map_cons, Env.bind]
      exact bind_keeps tr outer ks acts vals _ _ (keeps_set h (hk k (by simp)) h1.2) (fun x hx => hk x (by simp [hx])) (by simpa using hl) h2

theorem formals_named {ps : List Str} (h : ∀ p ∈ ps, Named p) : ∀ k ∈ qSplit (lexTTs (formalToks ps)) ",", Named (qStr k) := by
  intro k hk
  have : qStr k ∈ formals ps := by rw [← formals_split]; exact List.mem_map_of_mem hk
  unfold formals at this
  by_cases e : ps = []
  · rw [if_pos e] at this
    simp only [List.mem_singleton] at this
    rw [this]; exact ⟨by simp, by simp⟩
  · rw [if_neg e] at this; exact h _ this

/-! ### Steps of the loop -/

theorem pass_keep (tr : QMap → List QTok → QOut) (m : QMap) (t : QTok) (r : List QTok) (h : Kept t) :
    translatePass tr m false (t :: r) = (translatePass tr m false r).bind (fun rest => .ok (t :: rest)) := by
  cases t with
  | punct c j =>
    have hc : c ≠ '#' := h
    rw [translatePass]
    · intro j' e; cases e; exact hc rfl
    · simp
  | ident s => rw [translatePass] <;> simp
  | lit s => rw [translatePass] <;> simp
  | group d g => exact absurd h id
theorem pass_group (tr : QMap → List QTok → QOut) (m : QMap) (d : Delim) (g r : List QTok) :
    translatePass tr m false (.group d g :: r) = (tr m g).bind (fun w => (translatePass tr m false r).bind (fun rest => .ok (.group d w :: rest))) := by
  simp [translatePass]
theorem pass_var (tr : QMap → List QTok → QOut) (m : QMap) (j : Bool) (x : Str) (r : List QTok) :
    translatePass tr m false (.punct '#' j :: .ident x :: r) = (translatePass tr m false r).bind (fun rest => .ok ((mapGet x m).getD [] ++ rest)) := by
  simp [translatePass, afterPound, QOut.bind]
theorem pass_hash (tr : QMap → List QTok → QOut) (m : QMap) (j : Bool) (r : List QTok) (h : ∀ u, r.head? = some u → ¬ Applied u) :
    translatePass tr m false (.punct '#' j :: r) = (translatePass tr m false r).bind (fun rest => .ok (.punct '#' false :: rest)) := by
  have key : afterPound tr m r.head? = (.ok [.punct '#' false], false) := by
    cases e : r.head? with
    | none => rfl
    | some u =>
      have hu := h u e
      cases u with
      | ident s => exact absurd trivial hu
      | group d g => cases d <;> first | exact absurd trivial hu | rfl
      | punct c j => rfl
      | lit s => rfl
  simp [translatePass, key, QOut.bind]
theorem pass_paren (tr : QMap → List QTok → QOut) (m : QMap) (j : Bool) (g r : List QTok) :
    translatePass tr m false (.punct '#' j :: .group .paren g :: r) =
      (afterPound tr m (some (.group .paren g))).1.bind (fun w => (translatePass tr m false r).bind (fun rest => .ok (w ++ rest))) := by
  have key : (afterPound tr m (some (.group .paren g))).2 = true := by
    simp only [afterPound]; split <;> rfl
  rw [translatePass]
  simp only [List.head?_cons, key, translatePass]

/-- Is it a call? -/
theorem call_or (g : List QTok) : (∃ f as, g = [.ident f, .group .paren as]) ∨ ∀ f as, g ≠ [.ident f, .group .paren as] := by
  by_cases h : ∃ f as, g = [.ident f, .group .paren as]
  · exact .inl h
  · exact .inr (fun f as e => h ⟨f, as, e⟩)

theorem after_call (tr : QMap → List QTok → QOut) (m : QMap) (f : Str) (as : List QTok) :
    (afterPound tr m (some (.group .paren [.ident f, .group .paren as]))).1 = callMacro tr m f as := rfl
theorem after_nocall (tr : QMap → List QTok → QOut) (m : QMap) (g : List QTok) (h : ∀ f as, g ≠ [.ident f, .group .paren as]) :
    (afterPound tr m (some (.group .paren g))).1 = .ok [] := by
  simp only [afterPound]

theorem QOut.bind_ok {o : QOut} {f : List QTok → QOut} {v : List QTok} (h : o.bind f = .ok v) : ∃ w, o = .ok w ∧ f w = .ok v := by
  cases o with
  | ok w => exact ⟨w, rfl, h⟩
  | panic => cases h
  | more => cases h

theorem call_unknown (tr : QMap → List QTok → QOut) {m : QMap} {e : Env} (hm : Keeps m e) {f : Str} (h : e.mac f = none) (as : List QTok) : callMacro tr m f as = .ok [] := by
  have := hm.params f
  rw [h] at this
  simp [callMacro, this]

theorem call_known (tr : QMap → List QTok → QOut) {m : QMap} {e : Env} (hm : Keeps m e) {f : Str} {ps : List Str} {body : List QTok} (h : e.mac f = some (ps, body)) (as : List QTok) :
    callMacro tr m f as = if (formals ps).length ≠ (qSplit as ",").length then .panic else
      match bindArgs tr m (qSplit (lexTTs (formalToks ps)) ",") (qSplit as ",") m with
      | .inr inner => tr inner body
      | .inl o => o := by
  have h1 := hm.params f
  have h2 := hm.body f
  rw [h] at h1 h2
  simp only [Option.map_some] at h1 h2
  have h3 : (qSplit (lexTTs (formalToks ps)) ",").length = (formals ps).length := by rw [← formals_split, List.length_map]
  simp only [callMacro, h1, h2, h3]
  rfl

/-! ### Expansion gives what `__translate` gives -/

/-- The head of a result. -/
def HeadSame (ts v : List QTok) : Prop := ∀ t r, ts = t :: r → ¬ Applied t → ¬ IsHash t → ∃ u s, v = u :: s ∧ ¬ Applied u

theorem headSame_hash (j : Bool) (r v : List QTok) : HeadSame (.punct '#' j :: r) v := by
  intro t r' e _ h; cases e; exact absurd rfl h

theorem settled_hash {j : Bool} {r v : List QTok} (ht : Tame (.punct '#' j :: r)) (hh : ∀ u, r.head? = some u → ¬ Applied u) (hs : Settled v) (hd : HeadSame r v) :
    Settled (.punct '#' false :: v) := by
  refine ⟨fun _ => ?_, hs⟩
  obtain ⟨u, hu, hn, _⟩ := ht.2.1 rfl
  cases r with
  | nil => cases hu
  | cons u' r =>
    cases hu
    obtain ⟨w, s, hv, hw⟩ := hd u r rfl (hh u rfl) hn
    exact ⟨w, by rw [hv]; rfl, hw⟩

/-- One result of `__translate`, from one pass. -/
theorem translate_of_pass {n : Nat} {m : QMap} {ts v : List QTok} (h : translatePass (translate n) m false ts = .ok v) (hs : Settled v) : translate (n + 1) m ts = .ok v := by
  simp [translate, h, QOut.bind, settled_remain hs]

theorem translate_more {n k : Nat} (hk : n ≤ k) {m : QMap} {ts v : List QTok} (h : translate n m ts = .ok v) : translate k m ts = .ok v := by
  rw [translate_mono hk m ts (by rw [h]; simp), h]

/-- The results of a pass with more fuel. -/
theorem pass_more {n k : Nat} (hk : n ≤ k) {m : QMap} {ts v : List QTok} (h : translatePass (translate n) m false ts = .ok v) : translatePass (translate k) m false ts = .ok v := by
  rw [pass_ext (tr := translate n) (fun m ts h => translate_mono hk m ts h) m false ts (by rw [h]; simp), h]

theorem forall2_more {n k : Nat} (hk : n ≤ k) {m : QMap} {acts vals : List (List QTok)}
    (h : Matched (fun a v => translate n m a = .ok v ∧ Settled v) acts vals) : Matched (fun a v => translate k m a = .ok v ∧ Settled v) acts vals := by
  induction h with
  | nil => exact .nil
  | cons h1 _ ih => exact .cons ⟨translate_more hk h1.1, h1.2⟩ ih

theorem forall2_len {α β : Type} {R : α → β → Prop} {l : List α} {r : List β} (h : Matched R l r) : l.length = r.length := by
  induction h with
  | nil => rfl
  | cons _ _ ih => simp [ih]

/-- Expansions are reached. -/
theorem expand_reached {e : Env} {ts v : List QTok} (h : Expand e ts v) : ∀ m, Keeps m e → Tame ts →
    Settled v ∧ HeadSame ts v ∧ ∃ n, translatePass (translate n) m false ts = .ok v := by
  refine Expand.rec (motive_1 := fun e ts v _ => ∀ m, Keeps m e → Tame ts → Settled v ∧ HeadSame ts v ∧ ∃ n, translatePass (translate n) m false ts = .ok v)
    (motive_2 := fun e acts vals _ => ∀ m, Keeps m e → (∀ a ∈ acts, Tame a) → ∃ n, Matched (fun a v => translate n m a = .ok v ∧ Settled v) acts vals)
    ?_ ?_ ?_ ?_ ?_ ?_ ?_ ?_ ?_ h
  · intro e m _ _
    exact ⟨trivial, fun t r e => (nomatch e), 0, rfl⟩
  · intro e t r v hk _ ih m hm ht
    obtain ⟨h1, _, n, h3⟩ := ih m hm ht.2.2
    have hn : ¬ IsHash t := by
      cases t with
      | group d g => exact fun h => h
      | _ => exact hk
    exact ⟨⟨fun h => absurd h hn, h1⟩, fun t' r' e' ha _ => ⟨t, v, rfl, by cases e'; exact ha⟩, n, by rw [pass_keep _ _ _ _ hk, h3]; rfl⟩
  · intro e d g w r v _ _ ih1 ih2 m hm ht
    obtain ⟨h1, _, n1, h3⟩ := ih1 m hm ht.1
    obtain ⟨h1', _, n2, h3'⟩ := ih2 m hm ht.2.2
    refine ⟨⟨fun h => absurd h (by simp [IsHash]), h1'⟩, fun t' r' e' ha _ => ⟨.group d w, v, rfl, ?_⟩, max (n1 + 1) n2, ?_⟩
    · cases e'; cases d <;> first | exact fun h => h | exact absurd trivial ha
    · rw [pass_group, translate_more (Nat.le_max_left (n1 + 1) n2) (translate_of_pass h3 h1)]
      simp only [QOut.bind]
      rw [pass_more (Nat.le_max_right (n1 + 1) n2) h3']
  · intro e j x r v _ ih m hm ht
    obtain ⟨h1, _, n, h3⟩ := ih m hm ht.2.2.2.2
    refine ⟨settled_append ?_ h1, headSame_hash _ _ _, n, ?_⟩
    · cases e' : e.value x with
      | none => trivial
      | some w => exact hm.settled x w e'
    · rw [pass_var, h3, hm.value x ht.2.2.1]; rfl
  · intro e j r v hh _ ih m hm ht
    obtain ⟨h1, h2, n, h3⟩ := ih m hm ht.2.2
    exact ⟨settled_hash ht hh h1 h2, headSame_hash _ _ _, n, by rw [pass_hash _ _ _ _ hh, h3]; rfl⟩
  · intro e j g r v hg _ ih m hm ht
    obtain ⟨h1, _, n, h3⟩ := ih m hm ht.2.2.2.2
    refine ⟨h1, headSame_hash _ _ _, n, ?_⟩
    have key : (afterPound (translate n) m (some (.group .paren g))).1 = .ok [] := by
      rcases call_or g with ⟨f, as, rfl⟩ | hc
      · rw [after_call, call_unknown _ hm (hg f as rfl)]
      · exact after_nocall _ _ _ hc
    rw [pass_paren, key, h3]; rfl
  · intro e j f as r ps body acts vals w v hf ha hlen _ _ _ ih1 ih2 ih3 m hm ht
    obtain ⟨n1, h1⟩ := ih1 m hm (tame_args ha ht.2.2.1.2.2.1)
    obtain ⟨hbt, hps⟩ := hm.tame f _ hf
    have hl : (qSplit (lexTTs (formalToks ps)) ",").length = acts.length := by rw [hlen, ← formals_split, List.length_map]
    obtain ⟨h3, _, n3, h3'⟩ := ih3 m hm ht.2.2.2.2
    obtain ⟨m1, hb1, hk1⟩ := bind_keeps (translate n1) m _ acts vals m e hm (formals_named hps) hl h1
    rw [formals_split] at hk1
    obtain ⟨h2, _, n2, h2'⟩ := ih2 m1 hk1 hbt
    refine ⟨settled_append h2 h3, headSame_hash _ _ _, max n1 (max (n2 + 1) n3), ?_⟩
    have hcall : callMacro (translate (max n1 (max (n2 + 1) n3))) m f as = .ok w := by
      rw [call_known _ hm hf, qSplit_args ha, if_neg (by rw [hlen]; simp)]
      rw [bindArgs_ext (tr := translate n1) (fun m ts h => translate_mono (by omega) m ts h) m _ _ _ (by rw [hb1]; simp), hb1]
      exact translate_more (by omega) (translate_of_pass h2' h2)
    rw [pass_paren, after_call, hcall]
    simp only [QOut.bind]
    rw [pass_more (by omega) h3']
  · intro e m _ _
    exact ⟨0, .nil⟩
  · intro e a v as vs _ _ ih1 ih2 m hm ht
    obtain ⟨h1, _, n1, h3⟩ := ih1 m hm (ht a (by simp))
    obtain ⟨n2, h2⟩ := ih2 m hm (fun x hx => ht x (by simp [hx]))
    exact ⟨max (n1 + 1) n2, .cons ⟨translate_more (by omega) (translate_of_pass h3 h1), h1⟩ (forall2_more (by omega) h2)⟩

/-! ### And only that -/

/-- The translations of the arguments, from their binding. -/
theorem bind_inr (tr : QMap → List QTok → QOut) (outer : QMap) : ∀ (ks acts : List (List QTok)) (inner m' : QMap), ks.length = acts.length →
    bindArgs tr outer ks acts inner = .inr m' → ∃ vals, Matched (fun a v => tr outer a = .ok v) acts vals
  | [], [], _, _, _, _ => ⟨[], .nil⟩
  | [], _ :: _, _, _, hl, _ => by simp at hl
  | _ :: _, [], _, _, hl, _ => by simp at hl
  | k :: ks, a :: acts, inner, m', hl, h => by
    simp only [bindArgs] at h
    cases e : tr outer a with
    | ok v =>
      rw [e] at h
      obtain ⟨vals, hv⟩ := bind_inr tr outer ks acts _ m' (by simpa using hl) h
      exact ⟨v :: vals, .cons e hv⟩
    | panic => rw [e] at h; cases h
    | more => rw [e] at h; cases h

theorem all_sound {n : Nat} (ih : ∀ m e ts v, Keeps m e → Tame ts → translate n m ts = .ok v → Expand e ts v) {m : QMap} {e : Env} (hm : Keeps m e)
    {acts vals : List (List QTok)} (hv : Matched (fun a v => translate n m a = .ok v) acts vals) :
    (∀ a ∈ acts, Tame a) → ExpandAll e acts vals ∧ Matched (fun a v => translate n m a = .ok v ∧ Settled v) acts vals := by
  induction hv with
  | nil => intro _; exact ⟨.nil, .nil⟩
  | @cons a v as vs h1 _ ih2 =>
    intro hta
    have ha := ih m e a v hm (hta a (by simp)) h1
    obtain ⟨i1, i2⟩ := ih2 (fun x hx => hta x (by simp [hx]))
    exact ⟨.cons ha i1, .cons ⟨h1, (expand_reached ha m hm (hta a (by simp))).1⟩ i2⟩

theorem expand_of_pass {n : Nat} (ih : ∀ m e ts v, Keeps m e → Tame ts → translate n m ts = .ok v → Expand e ts v) {m : QMap} {e : Env} (hm : Keeps m e) :
    ∀ (k : Nat) (ts v : List QTok), ts.length ≤ k → Tame ts → translatePass (translate n) m false ts = .ok v → Expand e ts v
  | _, [], v, _, _, h => by
    simp only [translatePass] at h; cases h; exact .nil
  | 0, _ :: _, _, hl, _, _ => by simp at hl
  | k + 1, t :: r, v, hl, ht, h => by
    have hl' : r.length ≤ k := by simp only [List.length_cons] at hl; omega
    by_cases hh : IsHash t
    · obtain ⟨j, rfl⟩ : ∃ j, t = .punct '#' j := by
        cases t with
        | punct c j => exact ⟨j, by rw [show c = '#' from hh]⟩
        | _ => exact absurd hh id
      obtain ⟨u, hu, _, _⟩ := ht.2.1 hh
      cases r with
      | nil => cases hu
      | cons u' r =>
        cases hu
        have hl2 : r.length ≤ k := by simp only [List.length_cons] at hl'; omega
        by_cases ha : Applied u
        · cases u with
          | ident x =>
            rw [pass_var] at h
            obtain ⟨w, h1, h2⟩ := QOut.bind_ok h
            cases h2
            rw [hm.value x ht.2.2.1]
            exact .var (expand_of_pass ih hm k r w hl2 ht.2.2.2.2 h1)
          | group d g =>
            have hd : d = .paren := by cases d <;> first | rfl | exact absurd ha id
            subst hd
            rw [pass_paren] at h
            obtain ⟨w, h1, h2⟩ := QOut.bind_ok h
            obtain ⟨v', h3, h4⟩ := QOut.bind_ok h2
            cases h4
            have hr := expand_of_pass ih hm k r v' hl2 ht.2.2.2.2 h3
            rcases call_or g with ⟨f, as, rfl⟩ | hc
            · rw [after_call] at h1
              cases ef : e.mac f with
              | none =>
                rw [call_unknown _ hm ef] at h1
                cases h1
                exact .other (fun f' as' e' => by cases e'; exact ef) hr
              | some p =>
                obtain ⟨ps, body⟩ := p
                rw [call_known _ hm ef] at h1
                by_cases hlen : (formals ps).length ≠ (qSplit as ",").length
                · rw [if_pos hlen] at h1; cases h1
                · rw [if_neg hlen] at h1
                  simp only [ne_eq, Decidable.not_not] at hlen
                  obtain ⟨hbt, hps⟩ := hm.tame f _ ef
                  have hl3 : (qSplit (lexTTs (formalToks ps)) ",").length = (qSplit as ",").length := by rw [← hlen, ← formals_split, List.length_map]
                  have hta := tame_args (argList_split as) ht.2.2.1.2.2.1
                  cases eb : bindArgs (translate n) m (qSplit (lexTTs (formalToks ps)) ",") (qSplit as ",") m with
                  | inl o =>
                    rw [eb] at h1
                    exact absurd h1 (by
                      have : ∀ (ks acts : List (List QTok)) (inner : QMap) (o : QOut), bindArgs (translate n) m ks acts inner = .inl o → ∀ w, o ≠ .ok w := by
                        intro ks
                        induction ks with
                        | nil => intro acts inner o h; simp [bindArgs] at h
                        | cons k ks ihk =>
                          intro acts inner o h
                          cases acts with
                          | nil => simp [bindArgs] at h
                          | cons a acts =>
                            simp only [bindArgs] at h
                            cases et : translate n m a with
                            | ok ts => rw [et] at h; exact ihk _ _ _ h
                            | panic => rw [et] at h; cases h; simp
                            | more => rw [et] at h; cases h; simp
                      exact this _ _ _ _ eb w)
                  | inr m1 =>
                    rw [eb] at h1
                    dsimp only at h1
                    obtain ⟨vals, hv⟩ := bind_inr _ _ _ _ _ _ hl3 eb
                    have hall := all_sound ih hm hv hta
                    obtain ⟨m2, hb2, hk2⟩ := bind_keeps (translate n) m _ _ vals m e hm (formals_named hps) hl3 hall.2
                    rw [eb] at hb2
                    cases hb2
                    rw [formals_split] at hk2
                    exact .call ef (argList_split as) hlen.symm hall.1 (ih m1 _ body w hk2 hbt h1) hr
            · rw [after_nocall _ _ _ hc] at h1
              cases h1
              exact .other (fun f' as' e' => absurd e' (hc f' as')) hr
          | punct c j => exact absurd ha id
          | lit s => exact absurd ha id
        · have hn : ∀ w, (u :: r).head? = some w → ¬ Applied w := by intro w hw; cases hw; exact ha
          rw [pass_hash _ _ _ _ hn] at h
          obtain ⟨w, h1, h2⟩ := QOut.bind_ok h
          cases h2
          exact .hash hn (expand_of_pass ih hm k (u :: r) w hl' ht.2.2 h1)
    · cases t with
      | group d g =>
        rw [pass_group] at h
        obtain ⟨w, h1, h2⟩ := QOut.bind_ok h
        obtain ⟨v', h3, h4⟩ := QOut.bind_ok h2
        cases h4
        exact .group (ih m e g w hm ht.1 h1) (expand_of_pass ih hm k r v' hl' ht.2.2 h3)
      | punct c j =>
        rw [pass_keep _ _ (.punct c j) _ (show Kept (.punct c j) from hh)] at h
        obtain ⟨w, h1, h2⟩ := QOut.bind_ok h
        cases h2
        exact .keep hh (expand_of_pass ih hm k r w hl' ht.2.2 h1)
      | ident s =>
        rw [pass_keep _ _ (.ident s) _ (show Kept (.ident s) from hh)] at h
        obtain ⟨w, h1, h2⟩ := QOut.bind_ok h
        cases h2
        exact .keep hh (expand_of_pass ih hm k r w hl' ht.2.2 h1)
      | lit s =>
        rw [pass_keep _ _ (.lit s) _ (show Kept (.lit s) from hh)] at h
        obtain ⟨w, h1, h2⟩ := QOut.bind_ok h
        cases h2
        exact .keep hh (expand_of_pass ih hm k r w hl' ht.2.2 h1)

theorem expand_sound : ∀ (n : Nat) (m : QMap) (e : Env) (ts v : List QTok), Keeps m e → Tame ts → translate n m ts = .ok v → Expand e ts v
  | 0, _, _, _, _, _, _, h => by cases h
  | n + 1, m, e, ts, v, hm, ht, h => by
    rw [translate] at h
    obtain ⟨w, h1, h2⟩ := QOut.bind_ok h
    have hw := expand_of_pass (expand_sound n) hm ts.length ts w (Nat.le_refl _) ht h1
    rw [if_neg (by rw [settled_remain (expand_reached hw m hm ht).1]; simp)] at h2
    cases h2
    exact hw

/-- `__translate` is expansion. -/
theorem expand_iff {m : QMap} {e : Env} (hm : Keeps m e) {ts : List QTok} (ht : Tame ts) (v : List QTok) : Expand e ts v ↔ ∃ n0, ∀ n, n0 ≤ n → translate n m ts = .ok v := by
  constructor
  · intro h
    obtain ⟨h1, _, n, h2⟩ := expand_reached h m hm ht
    exact ⟨n + 1, fun k hk => translate_more hk (translate_of_pass h2 h1)⟩
  · intro ⟨n, h⟩
    exact expand_sound n m e ts v hm ht (h n (Nat.le_refl _))

end RJ
