import Verif.Spec.Subst
import Verif.Proof.Quote
/- `__translate` is one-pass substitution. -/
namespace RJ
open Spec

/-- The values have no `#` of their own and there are no macros. -/
structure GoodMap (m : QMap) : Prop where
  values : ∀ x v, mapGet x m = some v → ∀ t ∈ v, ¬ IsHash t
  noMacro : ∀ x, mapGet (x ++ ['-']) m = none

theorem isPunct_hash (t : QTok) : t.isPunct '#' = true ↔ IsHash t := by
  cases t <;> simp [QTok.isPunct, IsHash]

theorem remain_append : ∀ (a b : List QTok), (∀ t ∈ a, ¬ IsHash t) → remain (a ++ b) = remain b
  | [], b, _ => rfl
  | [t], [], h => rfl
  | [t], u :: b, h => by
    have : ¬ t.isPunct '#' = true := fun e => h t (by simp) ((isPunct_hash t).1 e)
    simp [remain, this]
  | t :: u :: a, b, h => by
    have h1 : ¬ t.isPunct '#' = true := fun e => h t (by simp) ((isPunct_hash t).1 e)
    have ih := remain_append (u :: a) b (fun x hx => h x (by simp [hx]))
    simp only [List.cons_append] at ih ⊢
    simp only [remain, h1, ih]
    simp

theorem remain_cons {t : QTok} (h : ¬ IsHash t) (b : List QTok) : remain (t :: b) = remain b := remain_append [t] b (by simpa using h)

theorem subst_hash_nil (f : Str → Option (List QTok)) (j : Bool) : subst f [.punct '#' j] = [.punct '#' false] := by simp [subst]
theorem subst_hash_ident (f : Str → Option (List QTok)) (j : Bool) (x : Str) (r : List QTok) :
    subst f (.punct '#' j :: .ident x :: r) = (f x).getD [] ++ subst f r := by simp [subst]
theorem subst_hash_paren (f : Str → Option (List QTok)) (j : Bool) (g : List QTok) (r : List QTok) :
    subst f (.punct '#' j :: .group .paren g :: r) = subst f r := by simp [subst]
theorem subst_hash_other (f : Str → Option (List QTok)) (j : Bool) (u : QTok) (r : List QTok) (h1 : ∀ x, u ≠ .ident x) (h2 : ∀ g, u ≠ .group .paren g) :
    subst f (.punct '#' j :: u :: r) = .punct '#' false :: subst f (u :: r) := by
  rw [subst]
  · intro x r' e; exact h1 x (by simp at e; exact e.1)
  · intro g r' e; exact h2 g (by simp at e; exact e.1)
theorem subst_group (f : Str → Option (List QTok)) (d : Delim) (g r : List QTok) : subst f (.group d g :: r) = .group d (subst f g) :: subst f r := by simp [subst]
theorem subst_punct (f : Str → Option (List QTok)) (c : Char) (j : Bool) (r : List QTok) (h : c ≠ '#') : subst f (.punct c j :: r) = .punct c j :: subst f r := by
  rw [subst] <;> simp_all
theorem subst_ident (f : Str → Option (List QTok)) (x : Str) (r : List QTok) : subst f (.ident x :: r) = .ident x :: subst f r := by simp [subst]
theorem subst_lit (f : Str → Option (List QTok)) (x : Str) (r : List QTok) : subst f (.lit x :: r) = .lit x :: subst f r := by simp [subst]

theorem pass_other (tr : QMap → List QTok → QOut) (m : QMap) (j : Bool) (u : QTok) (r : List QTok) (h1 : ∀ x, u ≠ .ident x) (h2 : ∀ g, u ≠ .group .paren g) :
    afterPound tr m (some u) = (.ok [.punct '#' false], false) := by
  unfold afterPound
  split <;> simp_all

theorem pass_subst (tr : QMap → List QTok → QOut) {m : QMap} (hm : GoodMap m) : ∀ (n : Nat) (ts : List QTok), ts.length ≤ n → NoDouble ts →
    (∀ d g, QTok.group d g ∈ ts → tr m g = .ok (subst (fun x => mapGet x m) g)) →
    translatePass tr m false ts = .ok (subst (fun x => mapGet x m) ts) ∧ remain (subst (fun x => mapGet x m) ts) = false
  | _, [], _, _, _ => by simp [translatePass, subst, remain]
  | 0, _ :: _, hl, _, _ => by simp at hl
  | n + 1, .ident x :: r, hl, h, ht => by
    obtain ⟨i1, i2⟩ := pass_subst tr hm n r (by simp only [List.length_cons] at hl ⊢; omega) h.2.2 (fun d g hg => ht d g (by simp [hg]))
    rw [subst_ident, remain_cons (by simp [IsHash]), translatePass, i1]
    · exact ⟨rfl, i2⟩
    · simp
    · simp
  | n + 1, .lit x :: r, hl, h, ht => by
    obtain ⟨i1, i2⟩ := pass_subst tr hm n r (by simp only [List.length_cons] at hl ⊢; omega) h.2.2 (fun d g hg => ht d g (by simp [hg]))
    rw [subst_lit, remain_cons (by simp [IsHash]), translatePass, i1]
    · exact ⟨rfl, i2⟩
    · simp
    · simp
  | n + 1, .group d g :: r, hl, h, ht => by
    obtain ⟨i1, i2⟩ := pass_subst tr hm n r (by simp only [List.length_cons] at hl ⊢; omega) h.2.2 (fun d g hg => ht d g (by simp [hg]))
    rw [subst_group, remain_cons (by simp [IsHash]), translatePass, i1, ht d g (by simp)]
    exact ⟨rfl, i2⟩
  | n + 1, .punct c j :: r, hl, h, ht => by
    by_cases hc : c = '#'
    · subst hc
      match r, hl, h, ht with
      | [], _, _, _ => simp [translatePass, afterPound, subst_hash_nil, QOut.bind, remain]
      | .ident x :: r, hl, h, ht =>
        obtain ⟨i1, i2⟩ := pass_subst tr hm n r (by simp only [List.length_cons] at hl ⊢; omega) h.2.2.2.2 (fun d g hg => ht d g (by simp [hg]))
        rw [subst_hash_ident, remain_append]
        · refine ⟨?_, i2⟩
          simp only [translatePass, List.head?_cons, afterPound, QOut.bind, i1]
        · intro t ht'
          cases e : mapGet x m with
          | none => rw [e] at ht'; simp at ht'
          | some v => rw [e] at ht'; exact hm.values x v e t ht'
      | .group .paren g :: r, hl, h, ht =>
        obtain ⟨i1, i2⟩ := pass_subst tr hm n r (by simp only [List.length_cons] at hl ⊢; omega) h.2.2.2.2 (fun d g hg => ht d g (by simp [hg]))
        rw [subst_hash_paren]
        refine ⟨?_, i2⟩
        have key : (afterPound tr m (some (.group .paren g))) = (.ok [], true) := by
          simp only [afterPound]
          split
          · simp only [callMacro, hm.noMacro]
          · rfl
        rw [translatePass]
        simp only [List.head?_cons, key, QOut.bind, translatePass, i1, List.nil_append]
      | .lit x :: r, hl, h, ht =>
        obtain ⟨i1, i2⟩ := pass_subst tr hm n (.lit x :: r) (by simp only [List.length_cons] at hl ⊢; omega) h.2.2 (fun d g hg => ht d g (by simp at hg ⊢; exact hg))
        rw [subst_hash_other _ _ _ _ (by simp) (by simp), translatePass]
        simp only [List.head?_cons, pass_other tr m j (.lit x) r (by simp) (by simp), QOut.bind, i1]
        refine ⟨rfl, ?_⟩
        rw [subst_lit] at i2 ⊢
        simp only [remain, i2]; simp
      | .punct c' j' :: r, hl, h, ht =>
        obtain ⟨i1, i2⟩ := pass_subst tr hm n (.punct c' j' :: r) (by simp only [List.length_cons] at hl ⊢; omega) h.2.2 (fun d g hg => ht d g (by simp at hg ⊢; exact hg))
        have hne : c' ≠ '#' := h.2.1 rfl _ rfl
        rw [subst_hash_other _ _ _ _ (by simp) (by simp), translatePass]
        simp only [List.head?_cons, pass_other tr m j (.punct c' j') r (by simp) (by simp), QOut.bind, i1]
        refine ⟨rfl, ?_⟩
        rw [subst_punct _ _ _ _ hne] at i2 ⊢
        simp only [remain, i2]; simp
      | .group .brace g :: r, hl, h, ht =>
        obtain ⟨i1, i2⟩ := pass_subst tr hm n (.group .brace g :: r) (by simp only [List.length_cons] at hl ⊢; omega) h.2.2 (fun d g hg => ht d g (by simp at hg ⊢; exact hg))
        rw [subst_hash_other _ _ _ _ (by simp) (by simp), translatePass]
        simp only [List.head?_cons, pass_other tr m j (.group .brace g) r (by simp) (by simp), QOut.bind, i1]
        refine ⟨rfl, ?_⟩
        rw [subst_group] at i2 ⊢
        simp only [remain, i2]; simp
      | .group .bracket g :: r, hl, h, ht =>
        obtain ⟨i1, i2⟩ := pass_subst tr hm n (.group .bracket g :: r) (by simp only [List.length_cons] at hl ⊢; omega) h.2.2 (fun d g hg => ht d g (by simp at hg ⊢; exact hg))
        rw [subst_hash_other _ _ _ _ (by simp) (by simp), translatePass]
        simp only [List.head?_cons, pass_other tr m j (.group .bracket g) r (by simp) (by simp), QOut.bind, i1]
        refine ⟨rfl, ?_⟩
        rw [subst_group] at i2 ⊢
        simp only [remain, i2]; simp
      | .group .none g :: r, hl, h, ht =>
        obtain ⟨i1, i2⟩ := pass_subst tr hm n (.group .none g :: r) (by simp only [List.length_cons] at hl ⊢; omega) h.2.2 (fun d g hg => ht d g (by simp at hg ⊢; exact hg))
        rw [subst_hash_other _ _ _ _ (by simp) (by simp), translatePass]
        simp only [List.head?_cons, pass_other tr m j (.group .none g) r (by simp) (by simp), QOut.bind, i1]
        refine ⟨rfl, ?_⟩
        rw [subst_group] at i2 ⊢
        simp only [remain, i2]; simp
    · obtain ⟨i1, i2⟩ := pass_subst tr hm n r (by simp only [List.length_cons] at hl ⊢; omega) h.2.2 (fun d g hg => ht d g (by simp [hg]))
      rw [subst_punct _ _ _ _ hc, remain_cons (by simpa [IsHash] using hc), translatePass, i1]
      · exact ⟨rfl, i2⟩
      · intro j' e; cases e; exact hc rfl
      · simp

theorem depth_mem : ∀ (ts : List QTok) (d : Delim) (g : List QTok), QTok.group d g ∈ ts → depth g < depth ts
  | t :: ts, d, g, h => by
    simp only [depth]
    rcases List.mem_cons.1 h with rfl | h
    · simp only [depthIn]; omega
    · have := depth_mem ts d g h; omega

theorem noDouble_mem : ∀ (ts : List QTok) (d : Delim) (g : List QTok), NoDouble ts → QTok.group d g ∈ ts → NoDouble g
  | t :: ts, d, g, h, hg => by
    rcases List.mem_cons.1 hg with rfl | hg
    · exact h.1
    · exact noDouble_mem ts d g h.2.2 hg

/-- `__translate` replaces every `#x` once. -/
theorem translate_subst {m : QMap} (hm : GoodMap m) : ∀ (n : Nat) (ts : List QTok), depth ts < n → NoDouble ts →
    translate n m ts = .ok (subst (fun x => mapGet x m) ts)
  | 0, _, h, _ => by omega
  | n + 1, ts, h, hd => by
    obtain ⟨h1, h2⟩ := pass_subst (translate n) hm ts.length ts (Nat.le_refl _) hd (fun d g hg =>
      translate_subst hm n g (by have := depth_mem ts d g hg; omega) (noDouble_mem ts d g hd hg))
    rw [translate, h1]
    simp only [QOut.bind, h2]
    simp

/-! ### A result does not depend on the bound -/

/-- `tr'` gives the results of `tr`. -/
def Extends (tr tr' : QMap → List QTok → QOut) : Prop := ∀ m ts, tr m ts ≠ .more → tr' m ts = tr m ts

theorem QOut.bind_more {o : QOut} {f : List QTok → QOut} (h : o.bind f ≠ .more) : o ≠ .more := by
  intro e; rw [e] at h; exact h rfl

theorem bindArgs_ext {tr tr' : QMap → List QTok → QOut} (h : Extends tr tr') (outer : QMap) : ∀ (ks vs : List (List QTok)) (inner : QMap),
    bindArgs tr outer ks vs inner ≠ .inl .more → bindArgs tr' outer ks vs inner = bindArgs tr outer ks vs inner
  | k :: ks, v :: vs, inner, hne => by
    simp only [bindArgs] at hne ⊢
    cases e : tr outer v with
    | more => rw [e] at hne; exact absurd rfl hne
    | panic => rw [h outer v (by rw [e]; simp), e]
    | ok ts =>
      rw [e] at hne
      rw [h outer v (by rw [e]; simp), e]
      exact bindArgs_ext h outer ks vs _ hne
  | [], _, _, _ => by simp [bindArgs]
  | _ :: _, [], _, _ => by simp [bindArgs]

theorem callMacro_ext {tr tr' : QMap → List QTok → QOut} (h : Extends tr tr') (m : QMap) (name : Str) (args : List QTok)
    (hne : callMacro tr m name args ≠ .more) : callMacro tr' m name args = callMacro tr m name args := by
  unfold callMacro at hne ⊢
  cases e : mapGet (name ++ ['-']) m with
  | none => rfl
  | some vs =>
    simp only [e] at hne ⊢
    by_cases hl : (qSplit vs ",").length ≠ (qSplit args ",").length
    · rw [if_pos hl, if_pos hl]
    · rw [if_neg hl] at hne ⊢
      rw [if_neg hl]
      have hb : bindArgs tr m (qSplit vs ",") (qSplit args ",") m ≠ .inl .more := by
        intro e2; rw [e2] at hne; exact hne rfl
      rw [bindArgs_ext h m _ _ _ hb]
      cases e2 : bindArgs tr m (qSplit vs ",") (qSplit args ",") m with
      | inl o => rfl
      | inr inner =>
        rw [e2] at hne
        dsimp only at hne ⊢
        cases e3 : mapGet (name ++ ['+']) m with
        | none => rfl
        | some v =>
          rw [e3] at hne
          exact h inner v hne

theorem afterPound_ext {tr tr' : QMap → List QTok → QOut} (h : Extends tr tr') (m : QMap) (o : Option QTok) (hne : (afterPound tr m o).1 ≠ .more) :
    afterPound tr' m o = afterPound tr m o := by
  unfold afterPound at hne ⊢
  split
  · rfl
  · split
    · rw [callMacro_ext h]
      simpa using hne
    · rfl
  · rfl

theorem pass_ext {tr tr' : QMap → List QTok → QOut} (h : Extends tr tr') (m : QMap) : ∀ (b : Bool) (ts : List QTok),
    translatePass tr m b ts ≠ .more → translatePass tr' m b ts = translatePass tr m b ts
  | b, [], _ => by cases b <;> rfl
  | true, _ :: ts, hne => by
    simp only [translatePass] at hne ⊢
    exact pass_ext h m false ts hne
  | false, t :: ts, hne => by
    unfold translatePass at hne ⊢
    split
    · dsimp only at hne ⊢
      have h1 := QOut.bind_more hne
      rw [afterPound_ext h m _ h1]
      cases e : (afterPound tr m ts.head?).1 with
      | more => exact absurd e h1
      | panic => rfl
      | ok out =>
        rw [e] at hne
        simp only [QOut.bind] at hne ⊢
        rw [pass_ext h m _ ts (QOut.bind_more (f := fun rest => .ok (out ++ rest)) hne)]
    · dsimp only at hne ⊢
      rename_i d inner
      have h1 := QOut.bind_more hne
      rw [h m inner h1]
      cases e : tr m inner with
      | more => exact absurd e h1
      | panic => rfl
      | ok out =>
        rw [e] at hne
        simp only [QOut.bind] at hne ⊢
        rw [pass_ext h m _ ts (QOut.bind_more (f := fun rest => .ok (.group d out :: rest)) hne)]
    · rename_i hh1 hh2
      have hne' : (translatePass tr m false ts).bind (fun rest => .ok (t :: rest)) ≠ .more := by
        split at hne
        · exact absurd rfl (hh1 _)
        · exact absurd rfl (hh2 _ _)
        · exact hne
      rw [pass_ext h m _ ts (QOut.bind_more hne')]

theorem translate_step : ∀ n : Nat, Extends (translate n) (translate (n + 1))
  | 0, _, _, h => absurd rfl h
  | n + 1, m, ts, h => by
    have ih := translate_step n
    rw [translate] at h
    have h1 := QOut.bind_more h
    rw [translate, translate, pass_ext ih m false ts h1]
    cases e : translatePass (translate n) m false ts with
    | more => exact absurd e h1
    | panic => rfl
    | ok out =>
      rw [e] at h
      simp only [QOut.bind] at h ⊢
      by_cases hr : remain out = true
      · rw [if_pos hr] at h ⊢
        rw [if_pos hr]
        exact ih m out h
      · rw [if_neg hr, if_neg hr]

theorem translate_mono {n k : Nat} (hk : n ≤ k) (m : QMap) (ts : List QTok) (h : translate n m ts ≠ .more) : translate k m ts = translate n m ts := by
  induction hk with
  | refl => rfl
  | step _ ih => rw [translate_step _ m ts (by rw [ih]; exact h), ih]

/-! ### `@params` -/

theorem paramList_join : ∀ (ps : List QParam) (acc : List MTok), (∀ p ∈ ps, .op [','] ∉ p.toks) → ps ≠ [] →
    paramList acc (paramsToks ps) = match ps with | p :: qs => (acc.reverse ++ p.toks) :: qs.map QParam.toks | [] => [] := by
  have run : ∀ (e acc rest : List MTok), .op [','] ∉ e → paramList acc (e ++ rest) = paramList (e.reverse ++ acc) rest := by
    intro e
    induction e with
    | nil => intro acc rest _; rfl
    | cons t e ih =>
      intro acc rest h
      have : t ≠ .op [','] := fun e' => h (by simp [e'])
      rw [List.cons_append, paramList]
      · rw [ih _ _ (fun h' => h (by simp [h']))]; simp
      · exact this
  intro ps
  induction ps with
  | nil => intro _ _ h; exact absurd rfl h
  | cons p qs ih =>
    intro acc h _
    cases qs with
    | nil =>
      simp only [paramsToks]
      have := run p.toks acc [] (h p (by simp))
      rw [List.append_nil] at this
      rw [this]
      simp [paramList, QParam.toks]
    | cons q rs =>
      have ih := ih [] (fun x hx => h x (by simp [hx])) (by simp)
      simp only [paramsToks] at ih ⊢
      rw [run _ _ _ (h p (by simp))]
      simp only [List.cons_append, List.nil_append, paramList, List.reverse_append, List.reverse_reverse, ih]
      simp

theorem mapGet_insert' {β : Type} (k : Str) (v : β) (x : Str) : ∀ m : List (Str × β), mapGet x (mapInsert k v m) = if x = k then some v else mapGet x m
  | [] => by simp only [mapInsert, mapGet]; by_cases h : k = x <;> simp [h, eq_comm]
  | (k', v') :: m => by
    have ih := mapGet_insert' k v x m
    unfold mapInsert
    by_cases h : k' = k
    · rw [if_pos h]
      by_cases h2 : x = k
      · simp [mapGet, h2, h]
      · have h3 : ¬ k = x := fun e => h2 e.symm
        simp [mapGet, h, h2, h3]
    · rw [if_neg h]
      by_cases h2 : k' = x
      · have h3 : ¬ x = k := fun e => h (h2.trans e)
        simp [mapGet, h2, h3]
      · simp only [mapGet, if_neg h2, ih]

/-- The map and the values agree. -/
theorem setParams_eq (ev : Ev) : ∀ (ps : List QParam) (sc : Scope) (m : QMap) (vals : Str → Option (List QTok)), (fun x => mapGet x m) = vals →
    match paramVals ev ps sc vals with
    | some (sc', vals') => ∃ m', setParams ev (ps.map QParam.toks) sc m = some (sc', m') ∧ (fun x => mapGet x m') = vals'
    | none => setParams ev (ps.map QParam.toks) sc m = none
  | [], sc, m, vals, h => ⟨m, rfl, h⟩
  | ⟨x, e⟩ :: ps, sc, m, vals, h => by
    have hins : ∀ ts, (fun y => mapGet y (mapInsert x ts m)) = (fun y => if y = x then some ts else vals y) := by
      intro ts; funext y; rw [mapGet_insert', ← h]
    cases e with
    | none =>
      simp only [paramVals, List.map_cons, QParam.toks, Option.getD_none, Option.isSome_none]
      simp only [setParams]
      cases ev sc [.ident x] with
      | none => simp
      | some v =>
        cases hv : v.shown with
        | none => simp [hv]
        | some ts =>
          simp only [Option.bind_some, hv]
          exact setParams_eq ev ps sc _ _ (hins ts)
    | some e =>
      simp only [paramVals, List.map_cons, QParam.toks, Option.getD_some, Option.isSome_some, if_true]
      simp only [setParams]
      cases ev sc e with
      | none => simp
      | some v =>
        cases hv : v.shown with
        | none => simp [hv]
        | some ts =>
          simp only [Option.bind_some, hv]
          exact setParams_eq ev ps _ _ _ (hins ts)

theorem lex_code : (∀ t : MTok, lexTT t = codeTok t) ∧ ∀ ts : List MTok, lexTTs ts = codeAll ts := by
  constructor
  · intro t
    exact MTok.rec (motive_1 := fun t => lexTT t = codeTok t) (motive_2 := fun ts => lexTTs ts = codeAll ts)
      (fun s => lexOp_eq s) (fun _ => rfl) rfl (fun _ => rfl) (fun _ => rfl) (fun d ts ih => by simp [lexTT, codeTok, ih]) rfl
      (fun t ts h1 h2 => by simp [lexTTs, codeAll, h1, h2]) t
  · intro ts
    exact MTok.rec_1 (motive_1 := fun t => lexTT t = codeTok t) (motive_2 := fun ts => lexTTs ts = codeAll ts)
      (fun s => lexOp_eq s) (fun _ => rfl) rfl (fun _ => rfl) (fun _ => rfl) (fun d ts ih => by simp [lexTT, codeTok, ih]) rfl
      (fun t ts h1 h2 => by simp [lexTTs, codeAll, h1, h2]) ts

end RJ
