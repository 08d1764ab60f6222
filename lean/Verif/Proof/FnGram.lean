import Verif.Proof.DeclGram
/-
  Functions of the grammar: read as what they are, written back in canonical form.
-/
set_option linter.unusedSectionVars false
namespace RJ
open Spec

/-! ### Result types: the number of tokens -/

theorem pre_nest (pre : List Str) : ∀ p ∈ pre.map (fun p => [Tok.ident p]), Nest NoSep p := by
  intro p hp
  obtain ⟨s, _, rfl⟩ := List.mem_map.mp hp
  exact nest_ident _ _ (by simp [NoSep]) .nil

theorem retTy_tyG {sp : Prop} {k : Kind} {ts : List Tok} (h : RetTy sp k ts) : TyG k ts := by
  induction h with
  | ident pre s _ => exact .ident _ s (pre_nest pre)
  | apply pre s args _ hne _ ih => exact .apply _ s args (pre_nest pre) hne ih
  | paren g => exact .paren g
  | bracket g => exact .bracket g
  | life a => exact .life a
  | func pre f g rest _ hf hr => exact .func _ f g rest (pre_nest pre) hf hr
  | bare ps hne _ hb ih => exact .bare ps hne ih hb
  | dyn ps hne _ hb ih => exact .dyn ps hne ih hb
  | imp ps hne _ hb ih => exact .imp ps hne ih hb
  | ofTy t _ ih => exact .ofTy t ih
  | ref p _ hb hq ih => exact .ref p ih hb hq
  | refMut p _ hb ih => exact .refMut p ih hb
  | refLifeMut a p _ hb ih => exact .refLifeMut a p ih hb
  | refLife a p _ hb hs ih => exact .refLife a p ih hb hs
  | assoc n p _ hb ih => exact .assoc n p ih hb

theorem joinWith_length (s : List Tok) : ∀ ps : List (List Tok), ps ≠ [] → (joinWith s ps).length + s.length = (ps.map (fun p => p.length + s.length)).sum
  | [], h => absurd rfl h
  | [x], _ => by simp [joinWith]
  | x :: y :: rest, _ => by
    have ih := joinWith_length s (y :: rest) (by simp)
    rw [joinWith, List.length_append, List.length_append, List.map_cons, List.sum_cons]
    omega

theorem pathToks_length (pre : List Str) (last : List Tok) : (pathToks (pre.map (fun p => [.ident p])) last).length = pre.length * 3 + last.length := by
  unfold pathToks
  have h := joinWith_length (sepToks "::") (pre.map (fun p => [Tok.ident p]) ++ [last]) (by simp)
  rw [show (sepToks "::").length = 2 from rfl, List.map_append, List.sum_append, List.map_map] at h
  have : (pre.map ((fun p : List Tok => p.length + 2) ∘ fun p => [Tok.ident p])).sum = pre.length * 3 := by
    induction pre with
    | nil => rfl
    | cons p pre ih =>
      have ih := ih (by
        have := joinWith_length (sepToks "::") (pre.map (fun p => [Tok.ident p]) ++ [last]) (by simp)
        rw [show (sepToks "::").length = 2 from rfl, List.map_append, List.sum_append, List.map_map] at this
        exact this)
      simp only [List.map_cons, List.sum_cons, List.length_cons]
      rw [ih]
      simp; omega
  rw [this] at h
  simp at h
  omega

theorem not_fnText_of_noSpace {s : Str} (h : ' ' ∉ s) : fnText s = false := by
  have hp : ∀ q : Str, ' ' ∈ q → q.isPrefixOf s = false := by
    intro q hq
    rw [Bool.eq_false_iff]
    intro hp
    rw [List.isPrefixOf_iff_prefix] at hp
    exact h (hp.subset hq)
  unfold fnText
  rw [hp _ (by decide), hp _ (by decide), hp _ (by decide), hp _ (by decide)]; rfl

theorem not_fnText_cons {c : Char} (h : c ≠ 'F' ∧ c ≠ 'f') (r : Str) : fnText (c :: r) = false := by
  have hp : ∀ (a : Char) (q : Str), a ≠ c → (a :: q).isPrefixOf (c :: r) = false := by
    intro a q hq
    rw [Bool.eq_false_iff]
    intro hp
    rw [List.isPrefixOf_iff_prefix, List.cons_prefix_cons] at hp
    exact hq hp.1
  have h1 : ("Fn (".toList.isPrefixOf (c :: r)) = false := hp 'F' _ (Ne.symm h.1)
  have h2 : ("FnMut (".toList.isPrefixOf (c :: r)) = false := hp 'F' _ (Ne.symm h.1)
  have h3 : ("FnOnce (".toList.isPrefixOf (c :: r)) = false := hp 'F' _ (Ne.symm h.1)
  have h4 : ("fn (".toList.isPrefixOf (c :: r)) = false := hp 'f' _ (Ne.symm h.2)
  unfold fnText
  rw [h1, h2, h3, h4]; rfl

theorem fnText_spaced {f : Str} (hf : FnName f) (r : Str) : fnText (f ++ " (".toList ++ r) = true := by
  unfold fnText
  rcases hf with rfl | rfl | rfl | rfl
  · simp
  · simp
  · simp
  · simp

theorem typesCount_eq (text : List Tok → Str) : ∀ l, typesCount text l = (l.map (fun t => RType.count text t + 1)).sum
  | [] => rfl
  | t :: ts => by rw [typesCount, typesCount_eq text ts]; simp

theorem namesCount_eq (text : List Tok → Str) : ∀ l, namesCount text l = (l.map (fun t => RName.count text t + 1)).sum
  | [] => rfl
  | t :: ts => by rw [namesCount, namesCount_eq text ts]; simp

/-- Number of tokens of a path, if its arguments are counted correctly. -/
theorem path_count {text : List Tok → Str} (hT : Prints text) {ts : List Tok} (h : RetTy (Spaced text) .path ts) (pt : List Tok → Option RType)
    (hpt : ∀ a, RetTy (Spaced text) .arg a → a.length < ts.length → ∃ t, pt a = some t ∧ t.count text = a.length) :
    ∃ n, nameParse pt ts = some n ∧ n.count text = ts.length := by
  cases h with
  | ident pre s hs =>
    refine ⟨.mk (pre.map (fun p => [.ident p])) [.ident s] [], ?_, ?_⟩
    · rw [nameParse_path _ (pre_nest pre) (nest_noColon_ident s) (by simp)]
      unfold nameOf; rfl
    · rw [RName.count, pathToks_length, if_neg (by simp [RName.isLifetime]), if_neg (by rw [hT.ident, not_fnText_of_noSpace hs]; simp), if_pos (by rfl)]
      simp
  | apply pre s args hs hne ha =>
    have hag : ∀ a ∈ args, TyG .arg a := fun a h => retTy_tyG (ha a h)
    have hlast : Nest (fun t => t ≠ .punct ':') (.ident s :: .punct '<' :: (joinWith [.punct ','] args ++ [.punct '>'])) := by
      refine nest_ident _ _ (by simp) (.angle _ [] ?_ .nil)
      exact nest_join _ (nest_punct _ _ trivial (by decide) .nil) args (fun a h => nest_mono (fun _ _ => trivial) (tyG_nest (hag a h)))
    have hlen := pathToks_len (pre.map (fun p => [.ident p])) (.ident s :: .punct '<' :: (joinWith [.punct ','] args ++ [.punct '>']))
    obtain ⟨bs, h1, h2⟩ := collectO_map pt (RType.count text) List.length args (by
      intro a h
      have := joinWith_mem_len [.punct ','] args a h
      exact hpt a (ha a h) (by simp at hlen ⊢; omega))
    have hj : joinWith [.punct ','] args ≠ [] := joinWith_ne_nil _ _ hne (fun a h => tyG_ne_nil (hag a h))
    have hbs : bs.isEmpty = false := by
      cases bs with
      | nil => simp at h2; exact absurd h2 hne
      | cons b bs => rfl
    refine ⟨.mk (pre.map (fun p => [.ident p])) [.ident s] bs, ?_, ?_⟩
    · rw [nameParse_path _ (pre_nest pre) hlast (by simp)]
      unfold nameOf
      unfold nameOf.nameGen
      cases hc : joinWith [.punct ','] args ++ [.punct '>'] with
      | nil => simp at hc
      | cons a more =>
        have e1 : (a :: more).dropLast = joinWith [.punct ','] args := by rw [← hc]; simp
        have e2 : (a :: more).length ≥ 2 := by rw [← hc]; have := List.length_pos_iff.mpr hj; simp; omega
        have e3 : (a :: more).getLast?.any (Tok.isPunct '>') = true := by rw [← hc]; simp [Tok.isPunct]
        change (if (a :: more).length ≥ 2 ∧ (a :: more).getLast?.any (Tok.isPunct '>') = true then
          (collectO ((splitTokensBy (a :: more).dropLast ",").map pt)).map (RName.mk _ [.ident s]) else none) = _
        rw [if_pos ⟨e2, e3⟩, e1, split_join ',' (by simp [Bracketish]) hne (fun a h => tyG_nest (hag a h)) (fun a h => tyG_ne_nil (hag a h)) "," rfl, h1]
        rfl
    · have hsum : typesCount text bs = (joinWith [.punct ','] args).length + 1 := by
        have := joinWith_length [.punct ','] args hne
        rw [typesCount_eq]
        have e : bs.map (fun t => RType.count text t + 1) = (bs.map (RType.count text)).map (· + 1) := by rw [List.map_map]; rfl
        rw [e, h2, List.map_map]
        exact this.symm
      rw [RName.count, pathToks_length, if_neg (by simp [RName.isLifetime]), if_neg (by rw [hT.ident, not_fnText_of_noSpace hs]; simp), if_neg (by simp [hbs]), hsum]
      simp
  | paren g =>
    obtain ⟨r, hr⟩ := hT.paren g
    refine ⟨.mk [] [.group .paren g] [], by rw [nameParse_single _ (nest_group _ _ _ (by simp) .nil) (by simp)]; rfl, ?_⟩
    rw [RName.count, if_neg (by simp [RName.isLifetime]), if_neg (by rw [hr, not_fnText_cons (by decide)]; simp), if_pos (by rfl)]; rfl
  | bracket g =>
    obtain ⟨r, hr⟩ := hT.bracket g
    refine ⟨.mk [] [.group .bracket g] [], by rw [nameParse_single _ (nest_group _ _ _ (by simp) .nil) (by simp)]; rfl, ?_⟩
    rw [RName.count, if_neg (by simp [RName.isLifetime]), if_neg (by rw [hr, not_fnText_cons (by decide)]; simp), if_pos (by rfl)]; rfl
  | life a =>
    refine ⟨.mk [] [.punct '\'', .ident a] [], by
      rw [nameParse_single _ (nest_punct _ _ (by simp) (by decide) (nest_ident _ _ (by simp) .nil)) (by simp)]; rfl, ?_⟩
    rw [RName.count, if_pos (by rfl)]; rfl
  | func pre f g rest hsp hf hr =>
    have hlast : Nest (fun t => t ≠ .punct ':') (.ident f :: .group .paren g :: rest) :=
      nest_ident _ _ (by simp) (nest_group _ _ _ (by simp) (nest_mono (fun t h => h.2.2.2) hr))
    have hfi : isFnIdent f = true := by
      unfold isFnIdent
      rcases hf with rfl | rfl | rfl | rfl <;> simp
    refine ⟨.mk (pre.map (fun p => [.ident p])) (.ident f :: .group .paren g :: rest) [], ?_, ?_⟩
    · rw [nameParse_path _ (pre_nest pre) hlast (by simp)]
      unfold nameOf
      dsimp only
      rw [if_pos hfi]
    · obtain ⟨r, hr⟩ := hsp f g rest hf
      rw [RName.count, pathToks_length, if_neg (by simp [RName.isLifetime]), if_pos (by rw [hr]; exact fnText_spaced hf r)]
      simp

/-- The names of `A + B`, counted. -/
theorem names_count {text : List Tok → Str} {pt : List Tok → Option RType} {ps : List (List Tok)} (hne : ps ≠ []) (hp : ∀ p ∈ ps, TyG .path p)
    (ih : ∀ p ∈ ps, ∃ n, nameParse pt p = some n ∧ n.count text = p.length) :
    ∃ ns, collectO ((splitTokensBy (joinWith [.punct '+'] ps) "+").map (nameParse pt)) = some ns ∧ namesCount text ns = (joinWith [.punct '+'] ps).length + 1 := by
  rw [split_join '+' (by simp [Bracketish]) hne (fun p h => nest_mono (fun t h => h.2.2) (tyG_nest (hp p h))) (fun p h => tyG_ne_nil (hp p h)) "+" rfl]
  obtain ⟨ns, h1, h2⟩ := collectO_map (nameParse pt) (RName.count text) List.length ps ih
  refine ⟨ns, h1, ?_⟩
  have := joinWith_length [.punct '+'] ps hne
  rw [namesCount_eq]
  have e : ns.map (fun t => RName.count text t + 1) = (ns.map (RName.count text)).map (· + 1) := by rw [List.map_map]; rfl
  rw [e, h2, List.map_map]
  exact this.symm

theorem one_count {text : List Tok → Str} {pt : List Tok → Option RType} {p : List Tok} (hp : TyG .path p) {n : RName} (h : nameParse pt p = some n) :
    collectO ((splitTokensBy p "+").map (nameParse pt)) = some [n] := by
  rw [split_one '+' (by simp [Bracketish]) (nest_mono (fun t h => h.2.2) (tyG_nest hp)) "+" rfl]
  simp [collectO, h]

theorem ref_nest {p : List Tok} (l : Option Str) (m : Bool) (hp : TyG .path p) : Nest (fun t => t ≠ .punct '=') (refToks l m p) := by
  have hp' := nest_mono (ok' := fun t => t ≠ .punct '=') (fun t h => h.2.1) (tyG_nest hp)
  unfold refToks
  refine nest_punct _ _ (by simp) (by decide) (nest_append ?_ (nest_append ?_ hp'))
  · cases l with
    | none => exact .nil
    | some a => exact nest_punct _ _ (by simp) (by decide) (nest_ident _ _ (by simp) .nil)
  · cases m with
    | false => exact .nil
    | true => exact nest_ident _ _ (by simp) .nil

theorem ref_count {text : List Tok → Str} {p : List Tok} (l : Option Str) (m : Bool) (hp : TyG .path p) (hb : Bare p) {fuel : Nat} {n : RName}
    (h1 : nameParse (RType.parseF fuel) p = some n) (h2 : n.count text = p.length) (hq : l = none → m = false → p.head? ≠ some (.punct '\'')) :
    ∃ t, RType.parseF (fuel + 1) (refToks l m p) = some t ∧ t.count text = (refToks l m p).length := by
  refine ⟨.mk none [n] true l m false false, ?_, ?_⟩
  · rw [parseF_one fuel (by simp [refToks]) (ref_nest l m hp), typeOf_ref _ _ l m hb (tyG_ne_nil hp) hq, one_count (text := text) hp h1]; rfl
  · rw [RType.count, namesCount, namesCount, h2]
    unfold refToks
    cases l <;> cases m <;> simp [optLife] <;> omega

/-- The result type is skipped exactly. -/
theorem retTy_count {text : List Tok → Str} (hT : Prints text) : ∀ (fuel : Nat) (ts : List Tok), ts.length < fuel →
    (RetTy (Spaced text) .ty ts → ∃ t, RType.parseF fuel ts = some t ∧ t.count text = ts.length) ∧
    (RetTy (Spaced text) .arg ts → ∃ t, RType.parseF fuel ts = some t ∧ t.count text = ts.length) := by
  intro fuel
  induction fuel with
  | zero => intro ts h; omega
  | succ fuel ih =>
    have hpath : ∀ p, RetTy (Spaced text) .path p → p.length ≤ fuel → ∃ n, nameParse (RType.parseF fuel) p = some n ∧ n.count text = p.length := by
      intro p hp hl
      exact path_count hT hp (RType.parseF fuel) (fun a ha hla => (ih a (by omega)).2 ha)
    have hty : ∀ ts, ts.length < fuel + 1 → RetTy (Spaced text) .ty ts → ∃ t, RType.parseF (fuel + 1) ts = some t ∧ t.count text = ts.length := by
      intro ts hf h
      cases h with
      | bare ps hne hp hb =>
        have hpg : ∀ p ∈ ps, TyG .path p := fun p h => retTy_tyG (hp p h)
        have hj : joinWith [.punct '+'] ps ≠ [] := joinWith_ne_nil _ _ hne (fun p h => tyG_ne_nil (hpg p h))
        have hn : Nest (fun t => t ≠ .punct '=') (joinWith [.punct '+'] ps) := nest_mono (fun t h => h.2) (tyG_nest (TyG.bare ps hne hpg hb))
        obtain ⟨ns, h1, h2⟩ := names_count (text := text) (pt := RType.parseF fuel) hne hpg
          (fun p h => hpath p (hp p h) (by have := joinWith_mem_len [.punct '+'] ps p h; omega))
        refine ⟨.mk none ns false none false false false, ?_, ?_⟩
        · rw [parseF_one fuel hj hn, typeOf_bare _ _ hb hj, h1]; rfl
        · rw [RType.count, h2]; simp
      | dyn ps hne hp hb =>
        have hpg : ∀ p ∈ ps, TyG .path p := fun p h => retTy_tyG (hp p h)
        have hj : joinWith [.punct '+'] ps ≠ [] := joinWith_ne_nil _ _ hne (fun p h => tyG_ne_nil (hpg p h))
        have hn := nest_mono (ok' := fun t => t ≠ .punct '=') (fun t h => h.2) (tyG_nest (TyG.dyn ps hne hpg hb))
        obtain ⟨ns, h1, h2⟩ := names_count (text := text) (pt := RType.parseF fuel) hne hpg
          (fun p h => hpath p (hp p h) (by have := joinWith_mem_len [.punct '+'] ps p h; simp at hf; omega))
        refine ⟨.mk none ns false none false true false, ?_, ?_⟩
        · rw [parseF_one fuel (by simp) hn, typeOf_dyn _ _ hb hj, h1]; rfl
        · rw [RType.count, h2]; simp
    intro ts hf
    refine ⟨hty ts hf, ?_⟩
    intro h
    cases h with
    | ofTy _ ht => exact hty ts hf ht
    | imp ps hne hp hb =>
      have hpg : ∀ p ∈ ps, TyG .path p := fun p h => retTy_tyG (hp p h)
      have hj : joinWith [.punct '+'] ps ≠ [] := joinWith_ne_nil _ _ hne (fun p h => tyG_ne_nil (hpg p h))
      have hn : Nest (fun t => t ≠ .punct '=') (.ident "impl".toList :: joinWith [.punct '+'] ps) :=
        nest_ident _ _ (by simp) (nest_mono (fun t h => h.2) (tyG_nest (TyG.bare ps hne hpg hb)))
      obtain ⟨ns, h1, h2⟩ := names_count (text := text) (pt := RType.parseF fuel) hne hpg
        (fun p h => hpath p (hp p h) (by have := joinWith_mem_len [.punct '+'] ps p h; simp at hf; omega))
      refine ⟨.mk none ns false none false false true, ?_, ?_⟩
      · rw [parseF_one fuel (by simp) hn, typeOf_imp _ _ hb hj, h1]; rfl
      · rw [RType.count, h2]; simp
    | ref p hp hb hq =>
      obtain ⟨n, h1, h2⟩ := hpath p hp (by simp at hf; omega)
      exact ref_count none false (retTy_tyG hp) hb h1 h2 (fun _ _ => hq)
    | refMut p hp hb =>
      obtain ⟨n, h1, h2⟩ := hpath p hp (by simp at hf; omega)
      exact ref_count none true (retTy_tyG hp) hb h1 h2 (by simp)
    | refLifeMut a p hp hb =>
      obtain ⟨n, h1, h2⟩ := hpath p hp (by simp at hf; omega)
      exact ref_count (some a) true (retTy_tyG hp) hb h1 h2 (by simp)
    | refLife a p hp hb hs =>
      obtain ⟨n, h1, h2⟩ := hpath p hp (by simp at hf; omega)
      exact ref_count (some a) false (retTy_tyG hp) hb h1 h2 (by simp)
    | assoc n p hp hb =>
      obtain ⟨m, h1, h2⟩ := hpath p hp (by simp at hf; omega)
      have hpg := retTy_tyG hp
      have h4 : splitTokensBy (.ident n :: .punct '=' :: p) "=" = [[.ident n], p] := by
        have := split_join '=' (ps := [[.ident n], p]) (by simp [Bracketish]) (by simp) (by
          intro q hq
          simp at hq
          rcases hq with rfl | rfl
          · exact nest_ident _ _ (by simp) .nil
          · exact nest_mono (fun t h => h.2.1) (tyG_nest hpg)) (by
          intro q hq
          simp at hq
          rcases hq with rfl | rfl
          · simp
          · exact tyG_ne_nil hpg) "=" rfl
        exact this
      refine ⟨.mk (some [.ident n]) [m] false none false false false, ?_, ?_⟩
      · rw [RType.parseF, if_neg (by simp), h4]
        dsimp only
        rw [typeOf_bare _ _ hb (tyG_ne_nil hpg), one_count (text := text) hpg h1]; rfl
      · rw [RType.count, namesCount, namesCount, h2]; simp

theorem ret_parse {text : List Tok → Str} (hT : Prints text) {ts : List Tok} (h : RetTy (Spaced text) .arg ts) :
    ∃ t, RType.parse ts = some t ∧ t.toks = ts ∧ t.count text = ts.length := by
  obtain ⟨t, h1, h2⟩ := (retTy_count hT _ ts (Nat.lt_succ_self _)).2 h
  obtain ⟨t', h3, h4⟩ := arg_parse (retTy_tyG h)
  have : t = t' := by
    have := (show RType.parse ts = some t from h1).symm.trans h3
    simpa using this
  subst this
  exact ⟨t, h3, h4, h2⟩

/-! ### Parameters -/

theorem farg_parse {a : Arg} (h : a.Ok) : ∃ x, ParamItem.parse a.toks = some x ∧ ArgIs a x ∧ x.toks = a.toks := by
  obtain ⟨h1, h2⟩ := h
  obtain ⟨t, ht1, ht2⟩ := arg_parse h1
  have hn := tyG_ne_nil h1
  obtain ⟨name, ty⟩ := a
  dsimp only at h1 h2 ht1 ht2 hn
  cases name with
  | none =>
    refine ⟨⟨none, t⟩, ?_, ⟨rfl, ht2⟩, ?_⟩
    · rw [show Arg.toks ⟨none, ty⟩ = ty from rfl]
      unfold ParamItem.parse
      rw [if_neg (by simpa using hn), split_one ':' (by simp [Bracketish]) h2 ":" rfl]
      dsimp only
      rw [ht1]; rfl
    · simp [ParamItem.toks, Arg.toks, ht2]
  | some s =>
    refine ⟨⟨some s, t⟩, ?_, ⟨rfl, ht2⟩, ?_⟩
    · have := split_join ':' (ps := [[.ident s], ty]) (by simp [Bracketish]) (by simp) (by
        intro q hq
        simp at hq
        rcases hq with rfl | rfl
        · exact nest_ident _ _ (by simp) .nil
        · exact h2) (by
        intro q hq
        simp at hq
        rcases hq with rfl | rfl
        · simp
        · exact hn) ":" rfl
      unfold ParamItem.parse
      rw [if_neg (by simp [Arg.toks]), show splitTokensBy (Arg.toks ⟨some s, ty⟩) ":" = [[.ident s], ty] from this]
      dsimp only
      rw [ht1]
    · simp [ParamItem.toks, Arg.toks, ht2]

theorem farg_nest {a : Arg} (h : a.Ok) : Nest (fun t => t ≠ .punct ',') a.toks ∧ a.toks ≠ [] := by
  have hn := tyG_nest h.1
  refine ⟨?_, by simp [Arg.toks, tyG_ne_nil h.1]⟩
  obtain ⟨name, ty⟩ := a
  cases name with
  | none => exact hn
  | some s => exact nest_ident _ _ (by simp) (nest_punct _ _ (by simp) (by decide) hn)

theorem fargs_parse {l : List Arg} (hne : l ≠ []) (h : ∀ a ∈ l, a.Ok) (c : Bool) :
    ∃ xs, parseParams [.group .paren (joinWith [.punct ','] (l.map Arg.toks) ++ optComma c)] = some xs ∧ AllTwo ArgIs l xs ∧
      xs.map ParamItem.toks = l.map Arg.toks := by
  unfold parseParams
  dsimp only
  rw [split_map_comma Arg.toks l hne (fun a ha => farg_nest (h a ha)) c, List.map_map]
  obtain ⟨xs, h1, h2⟩ := collectO_allTwo (fun a : Arg => ParamItem.parse a.toks) (fun a x => ArgIs a x ∧ x.toks = a.toks) l (fun a ha => farg_parse (h a ha))
  obtain ⟨h3, h4⟩ := allTwo_map (fun a : Arg => a.toks) ParamItem.toks l xs h2
  exact ⟨xs, h1, h3, h4⟩

/-! ### The keywords in front of `fn` -/

theorem takeTok_kw (b : Bool) (s : String) (r : List Tok) (h : r.head?.any (Tok.isIdent s) = false) : takeTok (Tok.isIdent s) (kwToks b s ++ r) = (b, r) := by
  cases b with
  | true =>
    rw [show kwToks true s ++ r = .ident s.toList :: r from rfl, takeTok, if_pos (by simp [Tok.isIdent])]
  | false =>
    rw [show kwToks false s ++ r = r from rfl]
    cases r with
    | nil => rfl
    | cons t r =>
      have ht : t.isIdent s = false := by simpa using h
      rw [takeTok, if_neg (by simp [ht])]

theorem takeExtern_ext (o : Option (Option Str)) (r : List Tok) : takeExtern (extToks o ++ .ident "fn".toList :: r) = (o.join, .ident "fn".toList :: r) := by
  match o with
  | none => rfl
  | some none => rfl
  | some (some s) => rfl

theorem kw_head (b : Bool) (s t : String) (r : List Tok) (hst : s.toList ≠ t.toList) (h : r.head?.any (Tok.isIdent t) = false) :
    (kwToks b s ++ r).head?.any (Tok.isIdent t) = false := by
  cases b with
  | true => simp [kwToks, Tok.isIdent, hst]
  | false => exact h

theorem ext_head (o : Option (Option Str)) (t : String) (r : List Tok) (h1 : "extern".toList ≠ t.toList) (h2 : "fn".toList ≠ t.toList) :
    (extToks o ++ .ident "fn".toList :: r).head?.any (Tok.isIdent t) = false := by
  match o with
  | none => simp [extToks, Tok.isIdent]; exact h2
  | some none => simp [extToks, Tok.isIdent]; exact h1
  | some (some s) => simp [extToks, Tok.isIdent]; exact h1

theorem skip_kw (b : Bool) (s : String) (r : List Tok) (h : skipToKeyword (.ident s.toList) = true) : (kwToks b s ++ r).dropWhile skipToKeyword = r.dropWhile skipToKeyword := by
  cases b with
  | true => exact List.dropWhile_cons_of_pos h
  | false => rfl

theorem skip_ext (o : Option (Option Str)) (r : List Tok) : (extToks o ++ r).dropWhile skipToKeyword = r.dropWhile skipToKeyword := by
  match o with
  | none => rfl
  | some none => exact List.dropWhile_cons_of_pos (by decide)
  | some (some s) =>
    rw [show extToks (some (some s)) ++ r = .ident "extern".toList :: .lit s :: r from rfl, List.dropWhile_cons_of_pos (by decide),
      List.dropWhile_cons_of_pos (by rfl)]

/-! ### The tail of a function -/

theorem takeReturn_none (text : List Tok → Str) {r : List Tok} (h : r.head? ≠ some (.punct '-')) : takeReturn text r = some (none, r) := by
  unfold takeReturn
  rw [if_neg]
  cases r with
  | nil => simp
  | cons t r =>
    intro h'
    exact h (by simp at h' ⊢; exact (isPunct_iff _ _).mp h')

theorem takeReturn_some {text : List Tok → Str} (hT : Prints text) {ts : List Tok} (h : RetTy (Spaced text) .arg ts)
    (hw : ∀ t ∈ ts, t ≠ .ident "where".toList ∧ ∀ g, t ≠ .group .brace g) {r : List Tok} (hr : ∀ t, r.head? = some t → isRetTok t = false) :
    ∃ t, takeReturn text (.punct '-' :: .punct '>' :: ts ++ r) = some (some t, r) ∧ t.toks = ts := by
  obtain ⟨t, h1, h2, h3⟩ := ret_parse hT h
  refine ⟨t, ?_, h2⟩
  have htw : (ts ++ r).takeWhile isRetTok = ts := by
    rw [List.takeWhile_append_of_pos]
    · cases r with
      | nil => simp
      | cons a r => rw [List.takeWhile_cons_of_neg (by simp [hr a rfl])]; simp
    · intro a ha
      obtain ⟨w1, w2⟩ := hw a ha
      unfold isRetTok
      cases a with
      | punct c => rfl
      | ident s => simp [Tok.isIdent, Tok.isGroup]; intro e; exact w1 (by rw [e]; rfl)
      | lit s => rfl
      | group d g =>
        cases d with
        | brace => exact absurd rfl (w2 g)
        | _ => rfl
  unfold takeReturn
  rw [if_pos (by rfl), show (.punct '-' :: .punct '>' :: ts ++ r : List Tok).drop 1 = .punct '>' :: (ts ++ r) from rfl]
  dsimp only
  rw [if_pos (by rfl), htw, h1, Option.map_some, h3, List.drop_left]

theorem takeWhere_head {h : Head} (ho : h.Ok) (body : List Tok) : ∃ w, takeWhere (h.wherePart ++ [.group .brace body]) = some (w, [.group .brace body]) ∧ ParamsAre h.where_ w := by
  unfold takeWhere
  by_cases hw : h.where_ = []
  · refine ⟨none, ?_, .inl ⟨hw, rfl⟩⟩
    rw [no_where hw, if_neg (by simp [Tok.isIdent])]; rfl
  · obtain ⟨w, r, h1, h2, h3, h4⟩ := where_split ho hw (rest := [.group .brace body]) ⟨_, _, rfl, rfl⟩
    refine ⟨some w, ?_, h4⟩
    rw [h1, if_pos (by simp [Tok.isIdent]), h2, Option.map_some, h3]

theorem where_retTok (h : Head) (body : List Tok) : ∀ t, (h.wherePart ++ [Tok.group .brace body]).head? = some t → isRetTok t = false := by
  unfold Head.wherePart
  split
  · intro t ht; simp at ht; subst ht; rfl
  · intro t ht; simp at ht; subst ht; simp [isRetTok, Tok.isIdent, Tok.isGroup]

/-- A function from the generics on. -/
def FnDecl.tail (d : FnDecl) : List Tok := .group .paren (joinWith [.punct ','] (d.args.map Arg.toks) ++ optComma d.comma) ::
      (retToks d.ret ++ (d.wherePart ++ [.group .brace d.body]))

theorem fnTail_parse {text : List Tok → Str} (hT : Prints text) {d : FnDecl} (h : d.Ok (Spaced text)) :
    ∃ g p r w, fnTail text (d.paramPart ++ FnDecl.tail d) = some (g, p, r, w, d.body) ∧ ParamsAre d.params g ∧ AllTwo ArgIs d.args p ∧
      p.map ParamItem.toks = d.args.map Arg.toks ∧ r.map RType.toks = d.ret ∧ ParamsAre d.where_ w := by
  obtain ⟨ho, hne, ha, hr⟩ := h
  obtain ⟨g, hg1, hg2⟩ := takeGenerics_params ho.2.1 (FnDecl.tail d) (by simp [FnDecl.tail])
  obtain ⟨p, hp1, hp2, hp3⟩ := fargs_parse hne ha d.comma
  obtain ⟨w, hw1, hw2⟩ := takeWhere_head ho d.body
  have hret : ∃ r, takeReturn text (retToks d.ret ++ (d.wherePart ++ [.group .brace d.body])) = some (r, d.wherePart ++ [.group .brace d.body]) ∧ r.map RType.toks = d.ret := by
    cases hd : d.ret with
    | none => exact ⟨none, takeReturn_none _ (where_head _ _ _ (by simp) (by simp)), rfl⟩
    | some ts =>
      obtain ⟨h1, h2⟩ := hr ts hd
      obtain ⟨t, t1, t2⟩ := takeReturn_some hT h1 h2 (where_retTok d.toHead d.body)
      exact ⟨some t, t1, by simp [t2]⟩
  obtain ⟨r, hr1, hr2⟩ := hret
  refine ⟨g, p, r, w, ?_, hg2, hp2, hp3, hr2, hw2⟩
  unfold fnTail
  rw [hg1]
  dsimp only
  rw [show takeParams (FnDecl.tail d) = some (p, retToks d.ret ++ (d.wherePart ++ [.group .brace d.body])) by
    unfold FnDecl.tail takeParams
    dsimp only
    rw [hp1]; rfl]
  dsimp only
  rw [hr1]
  dsimp only
  rw [hw1]

theorem rfn_toks (s : RFn) : s.toks = optMetas s.attrs ++ visText s.vis ++ flagToks s.isAsync "async" ++ flagToks s.isConst "const" ++ flagToks s.isUnsafe "unsafe" ++
    extToks (s.abi.map some) ++ [.ident "fn".toList, .ident s.ident] ++ optToks Generics.toks s.generics ++ paramsToks s.params ++
    retToks (s.ret.map RType.toks) ++ optToks WhereClause.toks s.where_ ++ [.group .brace s.body] := by
  obtain ⟨_, _, _, _, _, abi, _, _, _, ret, _, _⟩ := s
  cases abi <;> cases ret <;> rfl

theorem ext_canon (d : FnDecl) : d.ext.join.map some = d.canon.ext := by
  unfold FnDecl.canon
  match d.ext with
  | none => rfl
  | some none => rfl
  | some (some s) => rfl

/-- A function declaration is read as what it is and written back in canonical form. -/
theorem fnDecl_parse {text : List Tok → Str} (hT : Prints text) {d : FnDecl} (h : d.Ok (Spaced text)) :
    ∃ f, AnyItem.parse text d.toks = some (.fn f) ∧ FnIs d f ∧ f.toks = d.canon.toks := by
  obtain ⟨g, p, r, w, ht, hg2, hp2, hp3, hr2, hw2⟩ := fnTail_parse hT h
  have ho := h.1
  have hargs := h.2.1
  let kw : List Tok := extToks d.ext ++ (.ident "fn".toList :: .ident d.name :: (d.paramPart ++ FnDecl.tail d))
  have hd : d.toks = annPart d.attrs ++ (visToks d.vis ++ (kwToks d.isAsync "async" ++ (kwToks d.isConst "const" ++ (kwToks d.isUnsafe "unsafe" ++ kw)))) := rfl
  have e4 : kw.head?.any (Tok.isIdent "unsafe") = false := ext_head _ _ _ (by decide) (by decide)
  have e3 : (kwToks d.isUnsafe "unsafe" ++ kw).head?.any (Tok.isIdent "const") = false := kw_head _ _ _ _ (by decide) (ext_head _ _ _ (by decide) (by decide))
  have e2 : (kwToks d.isConst "const" ++ (kwToks d.isUnsafe "unsafe" ++ kw)).head?.any (Tok.isIdent "async") = false :=
    kw_head _ _ _ _ (by decide) (kw_head _ _ _ _ (by decide) (ext_head _ _ _ (by decide) (by decide)))
  have hhead : ∃ s r', kwToks d.isAsync "async" ++ (kwToks d.isConst "const" ++ (kwToks d.isUnsafe "unsafe" ++ kw)) = .ident s :: r' ∧ s ≠ "pub".toList := by
    cases d.isAsync with
    | true => exact ⟨_, _, rfl, by decide⟩
    | false =>
      cases d.isConst with
      | true => exact ⟨_, _, rfl, by decide⟩
      | false =>
        cases d.isUnsafe with
        | true => exact ⟨_, _, rfl, by decide⟩
        | false =>
          match he : d.ext with
          | none => exact ⟨"fn".toList, _, by simp only [kw, he]; rfl, by decide⟩
          | some none => exact ⟨"extern".toList, _, by simp only [kw, he]; rfl, by decide⟩
          | some (some s) => exact ⟨"extern".toList, _, by simp only [kw, he]; rfl, by decide⟩
  obtain ⟨s, r', hs, hsp⟩ := hhead
  obtain ⟨m, hm1, hm2, hm3⟩ := takeMetas_anns ho.1 (vis_head d.vis s r')
  have hp : RFn.parse text d.toks = some ⟨m, d.vis, d.isAsync, d.isConst, d.isUnsafe, d.ext.join, d.name, g, p, r, w, d.body⟩ := by
    rw [hd]
    unfold RFn.parse
    rw [hs, hm1]
    dsimp only
    rw [takeVis_run _ _ _ hsp, ← hs]
    dsimp only
    rw [takeTok_kw _ _ _ e2]
    dsimp only
    rw [takeTok_kw _ _ _ e3]
    dsimp only
    rw [takeTok_kw _ _ _ e4]
    dsimp only
    rw [takeExtern_ext]
    dsimp only
    rw [if_pos (by simp [Tok.isIdent]), ht]; rfl
  refine ⟨⟨m, d.vis, d.isAsync, d.isConst, d.isUnsafe, d.ext.join, d.name, g, p, r, w, d.body⟩, ?_, ⟨hm2, rfl, rfl, rfl, rfl, rfl, rfl, hg2, hp2, hr2, hw2, rfl⟩, ?_⟩
  · unfold AnyItem.parse
    have hk : (d.toks.dropWhile skipToKeyword).head? = some (.ident "fn".toList) := by
      rw [hd, keyword_after, skip_kw _ _ _ (by decide), skip_kw _ _ _ (by decide), skip_kw _ _ _ (by decide), skip_ext,
        List.dropWhile_cons_of_neg (by simp [skipToKeyword])]; rfl
    rw [hk]
    dsimp only
    rw [if_neg (by simp [Tok.isIdent]), if_neg (by simp [Tok.isIdent]), if_pos (by simp [Tok.isIdent]), hp]; rfl
  · rw [rfn_toks]
    unfold FnDecl.toks paramsToks
    dsimp only
    rw [hm3, visText_eq, paramsAre_toks hg2, whereAre_toks hw2, hp3, hr2]
    have e : (FnDecl.canon d).toHead = d.toHead.canon := rfl
    rw [e, canon_paramPart, canon_wherePart, ← ext_canon d]
    have e1 : d.canon.ret = d.ret := rfl
    have e2 : d.canon.args = d.args := rfl
    have e3 : d.canon.comma = false := rfl
    have e4 : d.canon.isAsync = d.isAsync := rfl
    have e5 : d.canon.isConst = d.isConst := rfl
    have e6 : d.canon.isUnsafe = d.isUnsafe := rfl
    have e7 : d.canon.body = d.body := rfl
    have e8 : d.toHead.canon.attrs = annsCanon d.attrs := rfl
    have e9 : d.toHead.canon.vis = d.vis := rfl
    have e10 : d.toHead.canon.name = d.name := rfl
    have e11 : ∀ b s, flagToks b s = kwToks b s := fun _ _ => rfl
    have e12 : optComma false = [] := rfl
    rw [e1, e2, e3, e4, e5, e6, e7, e8, e9, e10, e11, e11, e11, e12, joinToks_eq]
    simp only [List.append_assoc, List.append_nil, List.cons_append, List.nil_append]

end RJ
