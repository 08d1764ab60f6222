import Verif.Proof.Split
import Verif.Model.Derive
import Verif.Spec.Struct
/-
  The types of the grammar `TyG` are accepted and written back unchanged.
-/
namespace RJ
open Spec

theorem joinToks_eq (sep : List Tok) : ∀ l, joinToks sep l = joinWith sep l
  | [] => rfl
  | [_] => rfl
  | x :: y :: rest => by rw [joinToks, joinWith, joinToks_eq sep (y :: rest)]

theorem typesToks_eq : ∀ l, typesToks l = l.map RType.toks
  | [] => rfl
  | t :: ts => by rw [typesToks, typesToks_eq ts]; rfl

theorem namesToks_eq : ∀ l, namesToks l = l.map RName.toks
  | [] => rfl
  | t :: ts => by rw [namesToks, namesToks_eq ts]; rfl

/-! ### Nesting -/

theorem nest_mono {ok ok' : Tok → Prop} (h : ∀ t, ok t → ok' t) {ts : List Tok} (hn : Nest ok ts) : Nest ok' ts := by
  induction hn generalizing ok' with
  | nil => exact .nil
  | tok t ts hb hk _ ih => exact .tok t ts hb (h t hk) (ih h)
  | arrow ts _ ih => exact .arrow ts (ih h)
  | minus t ts ht _ ih => exact .minus t ts ht (ih h)
  | angle a ts ha _ _ ih2 => exact .angle a ts ha (ih2 h)

theorem nest_append {ok : Tok → Prop} {a b : List Tok} (ha : Nest ok a) (hb : Nest ok b) : Nest ok (a ++ b) := by
  induction ha with
  | nil => exact hb
  | tok t ts h1 h2 _ ih => exact .tok t _ h1 h2 (ih hb)
  | arrow ts _ ih => exact .arrow _ (ih hb)
  | minus t ts ht _ ih => exact .minus t _ ht (ih hb)
  | angle a ts ha _ _ ih2 =>
    rw [List.cons_append, List.append_assoc, List.cons_append]
    exact .angle a _ ha (ih2 hb)

theorem nest_ident {ok : Tok → Prop} (s : Str) (ts : List Tok) (h : ok (.ident s)) (hn : Nest ok ts) : Nest ok (.ident s :: ts) :=
  .tok _ _ (by simp [Bracketish]) h hn

theorem nest_group {ok : Tok → Prop} (d : Delim) (g ts : List Tok) (h : ok (.group d g)) (hn : Nest ok ts) : Nest ok (.group d g :: ts) :=
  .tok _ _ (by simp [Bracketish]) h hn

theorem nest_punct {ok : Tok → Prop} (c : Char) (ts : List Tok) (h : ok (.punct c)) (hc : c ≠ '<' ∧ c ≠ '>' ∧ c ≠ '-') (hn : Nest ok ts) :
    Nest ok (.punct c :: ts) :=
  .tok _ _ (by simp [Bracketish]; exact ⟨hc.1, hc.2.1, hc.2.2⟩) h hn

theorem nest_join {ok : Tok → Prop} (sep : List Tok) (hs : Nest ok sep) : ∀ ps : List (List Tok), (∀ p ∈ ps, Nest ok p) → Nest ok (joinWith sep ps)
  | [], _ => .nil
  | [x], h => h x (by simp)
  | x :: y :: rest, h => by
    rw [joinWith]
    exact nest_append (nest_append (h x (by simp)) hs) (nest_join sep hs (y :: rest) (fun p hp => h p (List.mem_cons_of_mem _ hp)))

/-- Not a comma, `=` or `+`. -/
def NoSep3 (t : Tok) : Prop := t ≠ .punct ',' ∧ t ≠ .punct '=' ∧ t ≠ .punct '+'
/-- Not a comma or `=`. -/
def NoSep2 (t : Tok) : Prop := t ≠ .punct ',' ∧ t ≠ .punct '='

theorem noSep3 {t : Tok} (h : NoSep t) : NoSep3 t := ⟨h.1, h.2.1, h.2.2.1⟩

theorem nest_path {pre : List (List Tok)} {last : List Tok} (h1 : ∀ p ∈ pre, Nest NoSep p) (h2 : Nest NoSep3 last) : Nest NoSep3 (pathToks pre last) := by
  apply nest_join
  · exact nest_punct ':' _ (by simp [NoSep3]) (by decide) (nest_punct ':' _ (by simp [NoSep3]) (by decide) .nil)
  · intro p hp
    rcases List.mem_append.mp hp with hp | hp
    · exact nest_mono (fun t h => noSep3 h) (h1 p hp)
    · simp at hp; subst hp; exact h2

/-- What a type contains outside angle brackets. -/
theorem tyG_nest {k : Kind} {ts : List Tok} (h : TyG k ts) : match k with
    | .path => Nest NoSep3 ts
    | .ty => Nest NoSep2 ts
    | .arg => Nest (fun t => t ≠ .punct ',') ts := by
  have h32 : ∀ t, NoSep3 t → NoSep2 t := fun t h => ⟨h.1, h.2.1⟩
  have h2c : ∀ t, NoSep2 t → t ≠ .punct ',' := fun t h => h.1
  have h3c : ∀ t, NoSep3 t → t ≠ .punct ',' := fun t h => h.1
  induction h with
  | ident pre s hp => exact nest_path hp (nest_ident _ _ (by simp [NoSep3]) .nil)
  | apply pre s args hp _ _ ih =>
    refine nest_path hp (nest_ident _ _ (by simp [NoSep3]) ?_)
    refine .angle _ [] ?_ .nil
    exact nest_join _ (nest_punct _ _ trivial (by decide) .nil) args (fun a ha => nest_mono (fun _ _ => trivial) (ih a ha))
  | paren g => exact nest_group _ _ _ (by simp [NoSep3]) .nil
  | bracket g => exact nest_group _ _ _ (by simp [NoSep3]) .nil
  | life a => exact nest_punct _ _ (by simp [NoSep3]) (by decide) (nest_ident _ _ (by simp [NoSep3]) .nil)
  | func pre f g rest hp _ hr =>
    exact nest_path hp (nest_ident _ _ (by simp [NoSep3]) (nest_group _ _ _ (by simp [NoSep3]) (nest_mono (fun _ => noSep3) hr)))
  | bare ps _ _ _ ih =>
    exact nest_join _ (nest_punct _ _ (by simp [NoSep2]) (by decide) .nil) ps (fun p hp => nest_mono h32 (ih p hp))
  | dyn ps _ _ _ ih =>
    exact nest_ident _ _ (by simp [NoSep2]) (nest_join _ (nest_punct _ _ (by simp [NoSep2]) (by decide) .nil) ps (fun p hp => nest_mono h32 (ih p hp)))
  | ofTy t _ ih => exact nest_mono h2c ih
  | imp ps _ _ _ ih =>
    exact nest_ident _ _ (by simp) (nest_join _ (nest_punct _ _ (by simp) (by decide) .nil) ps (fun p hp => nest_mono h3c (ih p hp)))
  | ref p _ _ _ ih => exact nest_punct _ _ (by simp) (by decide) (nest_mono h3c ih)
  | refMut p _ _ ih => exact nest_punct _ _ (by simp) (by decide) (nest_ident _ _ (by simp) (nest_mono h3c ih))
  | refLifeMut a p _ _ ih =>
    exact nest_punct _ _ (by simp) (by decide) (nest_punct _ _ (by simp) (by decide) (nest_ident _ _ (by simp) (nest_ident _ _ (by simp) (nest_mono h3c ih))))
  | refLife a p _ _ _ ih =>
    exact nest_punct _ _ (by simp) (by decide) (nest_punct _ _ (by simp) (by decide) (nest_ident _ _ (by simp) (nest_mono h3c ih)))
  | assoc n p _ _ ih => exact nest_ident _ _ (by simp) (nest_punct _ _ (by simp) (by decide) (nest_mono h3c ih))

theorem joinWith_ne_nil (sep : List Tok) : ∀ ps : List (List Tok), ps ≠ [] → (∀ p ∈ ps, p ≠ []) → joinWith sep ps ≠ []
  | [], h, _ => absurd rfl h
  | [x], _, h => h x (by simp)
  | x :: y :: rest, _, h => by
    rw [joinWith]
    intro he
    simp at he
    exact h x (by simp) he.1

theorem joinWith_last_ne_nil (sep : List Tok) (pre : List (List Tok)) (last : List Tok) (h : last ≠ []) : joinWith sep (pre ++ [last]) ≠ [] := by
  induction pre with
  | nil => exact h
  | cons p pre ih =>
    rw [List.cons_append, joinWith_cons _ _ (by simp)]
    intro he
    exact ih (List.append_eq_nil_iff.mp he).2

theorem pathToks_ne_nil (pre : List (List Tok)) (last : List Tok) (h : last ≠ []) : pathToks pre last ≠ [] :=
  joinWith_last_ne_nil _ pre last h

theorem tyG_ne_nil {k : Kind} {ts : List Tok} (h : TyG k ts) : ts ≠ [] := by
  induction h with
  | ident pre s _ => exact pathToks_ne_nil _ _ (by simp)
  | apply pre s args _ _ _ _ => exact pathToks_ne_nil _ _ (by simp)
  | func pre f g rest _ _ _ => exact pathToks_ne_nil _ _ (by simp)
  | bare ps hne _ _ ih => exact joinWith_ne_nil _ _ hne ih
  | ofTy t _ ih => exact ih
  | _ => simp

/-! ### Splitting -/

theorem split_one (c : Char) {ts : List Tok} (hc : ¬ Bracketish (.punct c)) (h : Nest (fun t => t ≠ .punct c) ts) (sep : String) (hs : sep.toList = [c]) :
    splitTokensBy ts sep = [ts] := by
  unfold splitTokensBy
  rw [hs]
  exact split_pieces c [] hc [ts] (by simp) (by intro p hp; simp at hp; subst hp; exact h) (.inl rfl)

theorem split_join (c : Char) {ps : List (List Tok)} (hc : ¬ Bracketish (.punct c)) (hne : ps ≠ []) (h : ∀ p ∈ ps, Nest (fun t => t ≠ .punct c) p)
    (h0 : ∀ p ∈ ps, p ≠ []) (sep : String) (hs : sep.toList = [c]) : splitTokensBy (joinWith [.punct c] ps) sep = ps := by
  unfold splitTokensBy
  rw [hs]
  refine split_pieces c [] hc ps hne h (.inr ?_)
  intro hl
  exact h0 _ (List.mem_of_getLast? hl) rfl

theorem split_path {pre : List (List Tok)} {last : List Tok} (h1 : ∀ p ∈ pre, Nest NoSep p) (h2 : Nest (fun t => t ≠ .punct ':') last) (h3 : last ≠ []) :
    splitTokensBy (pathToks pre last) "::" = pre ++ [last] := by
  unfold splitTokensBy pathToks
  refine split_pieces ':' [':'] (by simp [Bracketish]) (pre ++ [last]) (by simp) ?_ (.inr ?_)
  · intro p hp
    rcases List.mem_append.mp hp with hp | hp
    · exact nest_mono (fun t h => h.2.2.2) (h1 p hp)
    · simp at hp; subst hp; exact h2
  · rw [List.getLast?_concat]; simp [h3]

/-! ### Parsing -/

theorem collectO_map {α β γ : Type} (f : α → Option β) (g : β → γ) (h : α → γ) : ∀ l : List α, (∀ a ∈ l, ∃ b, f a = some b ∧ g b = h a) →
    ∃ bs, collectO (l.map f) = some bs ∧ bs.map g = l.map h
  | [], _ => ⟨[], rfl, rfl⟩
  | a :: l, hl => by
    obtain ⟨b, h1, h2⟩ := hl a (by simp)
    obtain ⟨bs, h3, h4⟩ := collectO_map f g h l (fun x hx => hl x (by simp [hx]))
    refine ⟨b :: bs, ?_, by simp [h2, h4]⟩
    rw [List.map_cons, h1, collectO, h3]; rfl

theorem joinWith_mem_len (sep : List Tok) : ∀ (ps : List (List Tok)) (p : List Tok), p ∈ ps → p.length ≤ (joinWith sep ps).length
  | [], _, h => by cases h
  | [x], p, h => by simp at h; subst h; simp [joinWith]
  | x :: y :: rest, p, h => by
    rw [joinWith]
    rcases List.mem_cons.mp h with rfl | h
    · simp
    · have := joinWith_mem_len sep (y :: rest) p h
      simp; omega

theorem pathToks_len (pre : List (List Tok)) (last : List Tok) : last.length ≤ (pathToks pre last).length :=
  joinWith_mem_len _ _ _ (by simp)

theorem joinWith_snoc (sep : List Tok) (l : List Tok) : ∀ ps : List (List Tok), ps ≠ [] → joinWith sep (ps ++ [l]) = joinWith sep ps ++ sep ++ l
  | [], h => absurd rfl h
  | [x], _ => rfl
  | x :: y :: rest, _ => by
    rw [List.cons_append, joinWith_cons _ _ (by simp), joinWith_snoc sep l (y :: rest) (by simp), joinWith_cons _ x (by simp)]
    simp

/-- A name with prefixes is written as the path. -/
theorem name_toks_path (pre : List (List Tok)) (id : List Tok) (g : List RType) :
    (RName.mk pre id g).toks = pathToks pre (if g.isEmpty then id else id ++ [.punct '<'] ++ joinWith [.punct ','] (g.map RType.toks) ++ [.punct '>']) := by
  rw [RName.toks]
  simp only [joinToks_eq, typesToks_eq]
  unfold pathToks
  cases pre with
  | nil => rfl
  | cons p pre =>
    rw [joinWith_snoc _ _ _ (by simp)]
    rfl

theorem nameParse_path (pt : List Tok → Option RType) {pre : List (List Tok)} {last : List Tok} (h1 : ∀ p ∈ pre, Nest NoSep p)
    (h2 : Nest (fun t => t ≠ .punct ':') last) (h3 : last ≠ []) : nameParse pt (pathToks pre last) = nameOf pt pre last := by
  unfold nameParse
  rw [if_neg (by simpa using pathToks_ne_nil pre last h3), split_path h1 h2 h3]
  simp

/-- One lone path. -/
theorem nameParse_single (pt : List Tok → Option RType) {last : List Tok} (h2 : Nest (fun t => t ≠ .punct ':') last) (h3 : last ≠ []) :
    nameParse pt last = nameOf pt [] last := nameParse_path pt (pre := []) (by simp) h2 h3

theorem takeTok_no (p : Tok → Bool) (ts : List Tok) (h : ∀ t, ts.head? = some t → p t = false) : takeTok p ts = (false, ts) := by
  cases ts with
  | nil => rfl
  | cons t ts => rw [takeTok, h t rfl]; rfl

theorem isIdent_false {s : String} {t : Tok} (h : t ≠ .ident s.toList) : t.isIdent s = false := by
  cases t <;> simp [Tok.isIdent]
  rintro rfl; exact h rfl

theorem isPunct_false {c : Char} {t : Tok} (h : t ≠ .punct c) : t.isPunct c = false := by
  cases t <;> simp [Tok.isPunct]
  rintro rfl; exact h rfl

/-- The names of a type that starts like none of `&`, `dyn`, `impl`. -/
theorem typeOf_bare (pt : List Tok → Option RType) (id : Option (List Tok)) {ts : List Tok} (hb : Bare ts) (hne : ts ≠ []) :
    typeOf pt id ts = (collectO ((splitTokensBy ts "+").map (nameParse pt))).map (fun names => .mk id names false none false false false) := by
  unfold typeOf
  rw [takeTok_no (Tok.isPunct '&') ts (fun t ht => isPunct_false (hb t ht).1)]
  dsimp only
  simp only [Bool.false_eq_true, if_false]
  rw [takeTok_no (Tok.isIdent "dyn") ts (fun t ht => isIdent_false (hb t ht).2.1)]
  dsimp only
  rw [takeTok_no (Tok.isIdent "impl") ts (fun t ht => isIdent_false (hb t ht).2.2.1)]
  dsimp only
  rw [if_neg (by simpa using hne)]

theorem typeOf_dyn (pt : List Tok → Option RType) (id : Option (List Tok)) {ts : List Tok} (hb : Bare ts) (hne : ts ≠ []) :
    typeOf pt id (.ident "dyn".toList :: ts) = (collectO ((splitTokensBy ts "+").map (nameParse pt))).map (fun names => .mk id names false none false true false) := by
  unfold typeOf
  rw [takeTok_no (Tok.isPunct '&') (.ident "dyn".toList :: ts) (fun t ht => by simp at ht; subst ht; rfl)]
  dsimp only
  simp only [Bool.false_eq_true, if_false]
  rw [show takeTok (Tok.isIdent "dyn") (.ident "dyn".toList :: ts) = (true, ts) by simp [takeTok, Tok.isIdent]]
  dsimp only
  rw [takeTok_no (Tok.isIdent "impl") ts (fun t ht => isIdent_false (hb t ht).2.2.1)]
  dsimp only
  rw [if_neg (by simpa using hne)]

theorem typeOf_imp (pt : List Tok → Option RType) (id : Option (List Tok)) {ts : List Tok} (hb : Bare ts) (hne : ts ≠ []) :
    typeOf pt id (.ident "impl".toList :: ts) = (collectO ((splitTokensBy ts "+").map (nameParse pt))).map (fun names => .mk id names false none false false true) := by
  unfold typeOf
  rw [takeTok_no (Tok.isPunct '&') (.ident "impl".toList :: ts) (fun t ht => by simp at ht; subst ht; rfl)]
  dsimp only
  simp only [Bool.false_eq_true, if_false]
  rw [takeTok_no (Tok.isIdent "dyn") (.ident "impl".toList :: ts) (fun t ht => by simp at ht; subst ht; rfl)]
  dsimp only
  rw [show takeTok (Tok.isIdent "impl") (.ident "impl".toList :: ts) = (true, ts) by simp [takeTok, Tok.isIdent]]
  dsimp only
  rw [if_neg (by simpa using hne)]

/-- A lifetime, if there is one. -/
def optLife : Option Str → List Tok
  | some a => [.punct '\'', .ident a]
  | none => []

/-- `&`, with lifetime and `mut` or without. -/
def refToks (l : Option Str) (m : Bool) (ts : List Tok) : List Tok :=
  .punct '&' :: (optLife l ++ ((if m then [.ident "mut".toList] else []) ++ ts))

theorem typeOf_ref (pt : List Tok → Option RType) (id : Option (List Tok)) (l : Option Str) (m : Bool) {ts : List Tok} (hb : Bare ts) (hne : ts ≠ [])
    (hl : l = none → m = false → ts.head? ≠ some (.punct '\'')) :
    typeOf pt id (refToks l m ts) = (collectO ((splitTokensBy ts "+").map (nameParse pt))).map (fun names => .mk id names true l m false false) := by
  unfold typeOf refToks
  rw [show ∀ r, takeTok (Tok.isPunct '&') (.punct '&' :: r) = (true, r) by intro r; simp [takeTok, Tok.isPunct]]
  dsimp only
  simp only [if_true]
  have h1 : ∀ m, takeTok (Tok.isIdent "mut") ((if m = true then [.ident "mut".toList] else []) ++ ts) = (m, ts) := by
    intro m
    cases m with
    | true => simp [takeTok, Tok.isIdent]
    | false => simpa using takeTok_no (Tok.isIdent "mut") ts (fun t ht => isIdent_false (hb t ht).2.2.2)
  have h2 : takeLifetime (optLife l ++ ((if m = true then [.ident "mut".toList] else []) ++ ts))
      = some (l, (if m = true then [.ident "mut".toList] else []) ++ ts) := by
    cases l with
    | some a => simp [optLife, takeLifetime, Tok.isPunct]
    | none =>
      cases m with
      | true => simp [optLife, takeLifetime, Tok.isPunct]
      | false =>
        simp only [optLife, List.nil_append, Bool.false_eq_true, if_false]
        cases ts with
        | nil => rfl
        | cons t ts =>
          rw [takeLifetime.eq_def]; dsimp only
          rw [if_neg]
          intro h
          have := hl rfl rfl
          cases t <;> simp [Tok.isPunct] at h
          subst h
          simp at this
  rw [h2]
  dsimp only
  rw [h1]
  dsimp only
  rw [takeTok_no (Tok.isIdent "dyn") ts (fun t ht => isIdent_false (hb t ht).2.1)]
  dsimp only
  rw [takeTok_no (Tok.isIdent "impl") ts (fun t ht => isIdent_false (hb t ht).2.2.1)]
  dsimp only
  rw [if_neg (by simpa using hne)]

theorem parseF_one (fuel : Nat) {ts : List Tok} (hne : ts ≠ []) (h : Nest (fun t => t ≠ .punct '=') ts) :
    RType.parseF (fuel + 1) ts = typeOf (RType.parseF fuel) none ts := by
  rw [RType.parseF, if_neg (by simpa using hne), split_one '=' (by simp [Bracketish]) h "=" rfl]

/-- The names of `A + B`. -/
theorem names_plus {pt : List Tok → Option RType} {ps : List (List Tok)} (hne : ps ≠ []) (hp : ∀ p ∈ ps, Nest NoSep3 p) (h0 : ∀ p ∈ ps, p ≠ [])
    (ih : ∀ p ∈ ps, ∃ n, nameParse pt p = some n ∧ n.toks = p) :
    ∃ ns, collectO ((splitTokensBy (joinWith [.punct '+'] ps) "+").map (nameParse pt)) = some ns ∧ joinToks [.punct '+'] (namesToks ns) = joinWith [.punct '+'] ps := by
  rw [split_join '+' (by simp [Bracketish]) hne (fun p h => nest_mono (fun t h => h.2.2) (hp p h)) h0 "+" rfl]
  obtain ⟨ns, h1, h2⟩ := collectO_map (nameParse pt) RName.toks id ps ih
  refine ⟨ns, h1, ?_⟩
  rw [joinToks_eq, namesToks_eq, h2, List.map_id]

theorem nest_noColon_ident (s : Str) : Nest (fun t => t ≠ .punct ':') [.ident s] := nest_ident _ _ (by simp) .nil

/-- One path after `&` or `=`. -/
theorem one_name {pt : List Tok → Option RType} {p : List Tok} {n : RName} (hn : Nest NoSep3 p) (h : nameParse pt p = some n) (h2 : n.toks = p) :
    collectO ((splitTokensBy p "+").map (nameParse pt)) = some [n] ∧ joinToks [.punct '+'] (namesToks [n]) = p := by
  rw [split_one '+' (by simp [Bracketish]) (nest_mono (fun t h => h.2.2) hn) "+" rfl]
  simp [collectO, h, namesToks, joinToks, h2]

/-- A path is accepted and written back, if its arguments are. -/
theorem path_accepts {ts : List Tok} (h : TyG .path ts) (pt : List Tok → Option RType)
    (hpt : ∀ a, TyG .arg a → a.length < ts.length → ∃ t, pt a = some t ∧ t.toks = a) :
    ∃ n, nameParse pt ts = some n ∧ n.toks = ts ∧ (ts.head? ≠ some (.punct '\'') → n.isLifetime = false) := by
  cases h with
  | ident pre s hp =>
    refine ⟨.mk pre [.ident s] [], ?_, ?_, fun _ => rfl⟩
    · rw [nameParse_path _ hp (nest_noColon_ident s) (by simp)]
      unfold nameOf; rfl
    · rw [name_toks_path]; rfl
  | apply pre s args hp hne ha =>
    have hlast : Nest (fun t => t ≠ .punct ':') (.ident s :: .punct '<' :: (joinWith [.punct ','] args ++ [.punct '>'])) := by
      refine nest_ident _ _ (by simp) (.angle _ [] ?_ .nil)
      exact nest_join _ (nest_punct _ _ trivial (by decide) .nil) args (fun a h => nest_mono (fun _ _ => trivial) (tyG_nest (ha a h)))
    have hlen := pathToks_len pre (.ident s :: .punct '<' :: (joinWith [.punct ','] args ++ [.punct '>']))
    obtain ⟨bs, h1, h2⟩ := collectO_map pt RType.toks id args (by
      intro a h
      have := joinWith_mem_len [.punct ','] args a h
      exact hpt a (ha a h) (by simp at hlen; omega))
    rw [List.map_id] at h2
    have hj : joinWith [.punct ','] args ≠ [] := joinWith_ne_nil _ _ hne (fun a h => tyG_ne_nil (ha a h))
    have hbs : bs.isEmpty = false := by
      cases bs with
      | nil => exact absurd h2.symm hne
      | cons b bs => rfl
    refine ⟨.mk pre [.ident s] bs, ?_, ?_, fun _ => rfl⟩
    · rw [nameParse_path _ hp hlast (by simp)]
      unfold nameOf
      unfold nameOf.nameGen
      cases hc : joinWith [.punct ','] args ++ [.punct '>'] with
      | nil => simp at hc
      | cons a more =>
        have e1 : (a :: more).dropLast = joinWith [.punct ','] args := by rw [← hc]; simp
        have e2 : (a :: more).length ≥ 2 := by rw [← hc]; have := List.length_pos_iff.mpr hj; simp; omega
        have e3 : (a :: more).getLast?.any (Tok.isPunct '>') = true := by rw [← hc]; simp [Tok.isPunct]
        change (if (a :: more).length ≥ 2 ∧ (a :: more).getLast?.any (Tok.isPunct '>') = true then
          (collectO ((splitTokensBy (a :: more).dropLast ",").map pt)).map (RName.mk pre [.ident s]) else none) = _
        rw [if_pos ⟨e2, e3⟩, e1, split_join ',' (by simp [Bracketish]) hne (fun a h => tyG_nest (ha a h)) (fun a h => tyG_ne_nil (ha a h)) "," rfl, h1]
        rfl
    · rw [name_toks_path, hbs, h2]
      simp
  | paren g =>
    exact ⟨.mk [] [.group .paren g] [], by rw [nameParse_single _ (nest_group _ _ _ (by simp) .nil) (by simp)]; rfl, rfl, fun _ => rfl⟩
  | bracket g =>
    exact ⟨.mk [] [.group .bracket g] [], by rw [nameParse_single _ (nest_group _ _ _ (by simp) .nil) (by simp)]; rfl, rfl, fun _ => rfl⟩
  | life a =>
    exact ⟨.mk [] [.punct '\'', .ident a] [], by
      rw [nameParse_single _ (nest_punct _ _ (by simp) (by decide) (nest_ident _ _ (by simp) .nil)) (by simp)]; rfl, rfl, fun h => by simp at h⟩
  | func pre f g rest hp hf hr =>
    have hlast : Nest (fun t => t ≠ .punct ':') (.ident f :: .group .paren g :: rest) :=
      nest_ident _ _ (by simp) (nest_group _ _ _ (by simp) (nest_mono (fun t h => h.2.2.2) hr))
    have hfi : isFnIdent f = true := by
      unfold isFnIdent
      rcases hf with rfl | rfl | rfl | rfl <;> simp
    refine ⟨.mk pre (.ident f :: .group .paren g :: rest) [], ?_, ?_, fun _ => rfl⟩
    · rw [nameParse_path _ hp hlast (by simp)]
      unfold nameOf
      dsimp only
      rw [if_pos hfi]
    · rw [name_toks_path]; rfl

/-- References. -/
theorem ref_accepts {p : List Tok} (l : Option Str) (m : Bool) (hp : TyG .path p) (hb : Bare p) {fuel : Nat} {n : RName}
    (h1 : nameParse (RType.parseF fuel) p = some n) (h2 : n.toks = p)
    (hs : l ≠ none → m = false → ∀ s, p.head? ≠ some (.ident s)) (hq : l = none → m = false → p.head? ≠ some (.punct '\'')) :
    ∃ t, RType.parseF (fuel + 1) (refToks l m p) = some t ∧ t.toks = refToks l m p := by
  have h3 := one_name (tyG_nest hp) h1 h2
  have hn : Nest (fun t => t ≠ .punct '=') (refToks l m p) := by
    have hp' := nest_mono (ok' := fun t => t ≠ .punct '=') (fun t h => h.2.1) (tyG_nest hp)
    refine nest_punct _ _ (by simp) (by decide) (nest_append ?_ (nest_append ?_ hp'))
    · cases l with
      | none => exact .nil
      | some a => exact nest_punct _ _ (by simp) (by decide) (nest_ident _ _ (by simp) .nil)
    · cases m with
      | true => exact nest_ident _ _ (by simp) .nil
      | false => exact .nil
  refine ⟨.mk none [n] true l m false false, ?_, ?_⟩
  · rw [parseF_one fuel (by simp [refToks]) hn, typeOf_ref _ _ l m hb (tyG_ne_nil hp) hq, h3.1]; rfl
  · have h4 := h3.2
    cases l with
    | none => cases m <;> simpa [RType.toks, refToks, optLife] using h4
    | some a =>
      cases m with
      | true => simpa [RType.toks, refToks, optLife] using h4
      | false =>
        have hg : glue a p = .ident a :: p := by
          unfold glue
          split
          · exact absurd rfl (hs (by simp) rfl _)
          · rfl
        simp [RType.toks, refToks, optLife, h4, hg]

theorem tyG_accepts : ∀ (fuel : Nat) (ts : List Tok), ts.length < fuel →
    (TyG .ty ts → ∃ t, RType.parseF fuel ts = some t ∧ t.toks = ts ∧ t.usedTy = ts) ∧
    (TyG .arg ts → ∃ t, RType.parseF fuel ts = some t ∧ t.toks = ts) := by
  intro fuel
  induction fuel with
  | zero => intro ts h; omega
  | succ fuel ih =>
    have hpath : ∀ p, TyG .path p → p.length ≤ fuel → ∃ n, nameParse (RType.parseF fuel) p = some n ∧ n.toks = p := by
      intro p hp hl
      obtain ⟨n, h1, h2, _⟩ := path_accepts hp (RType.parseF fuel) (fun a ha hla => (ih a (by omega)).2 ha)
      exact ⟨n, h1, h2⟩
    have hty : ∀ ts, ts.length < fuel + 1 → TyG .ty ts → ∃ t, RType.parseF (fuel + 1) ts = some t ∧ t.toks = ts ∧ t.usedTy = ts := by
      intro ts hf h
      cases h with
      | bare ps hne hp hb =>
        have hj : joinWith [.punct '+'] ps ≠ [] := joinWith_ne_nil _ _ hne (fun p h => tyG_ne_nil (hp p h))
        have hn : Nest (fun t => t ≠ .punct '=') (joinWith [.punct '+'] ps) :=
          nest_mono (fun t h => h.2) (tyG_nest (TyG.bare ps hne hp hb))
        obtain ⟨ns, h1, h2⟩ := names_plus (pt := RType.parseF fuel) hne (fun p h => tyG_nest (hp p h)) (fun p h => tyG_ne_nil (hp p h))
          (fun p h => hpath p (hp p h) (by have := joinWith_mem_len [.punct '+'] ps p h; omega))
        refine ⟨.mk none ns false none false false false, ?_, ?_, ?_⟩
        · rw [parseF_one fuel hj hn, typeOf_bare _ _ hb hj, h1]; rfl
        · simpa [RType.toks] using h2
        · simpa [RType.usedTy] using h2
      | dyn ps hne hp hb =>
        have hj : joinWith [.punct '+'] ps ≠ [] := joinWith_ne_nil _ _ hne (fun p h => tyG_ne_nil (hp p h))
        have hn := nest_mono (ok' := fun t => t ≠ .punct '=') (fun t h => h.2) (tyG_nest (TyG.dyn ps hne hp hb))
        obtain ⟨ns, h1, h2⟩ := names_plus (pt := RType.parseF fuel) hne (fun p h => tyG_nest (hp p h)) (fun p h => tyG_ne_nil (hp p h))
          (fun p h => hpath p (hp p h) (by have := joinWith_mem_len [.punct '+'] ps p h; simp at hf; omega))
        refine ⟨.mk none ns false none false true false, ?_, ?_, ?_⟩
        · rw [parseF_one fuel (by simp) hn, typeOf_dyn _ _ hb hj, h1]; rfl
        · simpa [RType.toks] using h2
        · simpa [RType.usedTy] using h2
    intro ts hf
    refine ⟨hty ts hf, ?_⟩
    intro h
    cases h with
    | ofTy _ ht =>
      obtain ⟨t, h1, h2, _⟩ := hty ts hf ht
      exact ⟨t, h1, h2⟩
    | imp ps hne hp hb =>
      have hj : joinWith [.punct '+'] ps ≠ [] := joinWith_ne_nil _ _ hne (fun p h => tyG_ne_nil (hp p h))
      have hn : Nest (fun t => t ≠ .punct '=') (.ident "impl".toList :: joinWith [.punct '+'] ps) :=
        nest_ident _ _ (by simp) (nest_mono (fun t h => h.2) (tyG_nest (TyG.bare ps hne hp hb)))
      obtain ⟨ns, h1, h2⟩ := names_plus (pt := RType.parseF fuel) hne (fun p h => tyG_nest (hp p h)) (fun p h => tyG_ne_nil (hp p h))
        (fun p h => hpath p (hp p h) (by have := joinWith_mem_len [.punct '+'] ps p h; simp at hf; omega))
      refine ⟨.mk none ns false none false false true, ?_, ?_⟩
      · rw [parseF_one fuel (by simp) hn, typeOf_imp _ _ hb hj, h1]; rfl
      · simpa [RType.toks] using h2
    | ref p hp hb hq =>
      obtain ⟨n, h1, h2⟩ := hpath p hp (by simp at hf; omega)
      exact ref_accepts none false hp hb h1 h2 (by simp) (fun _ _ => hq)
    | refMut p hp hb =>
      obtain ⟨n, h1, h2⟩ := hpath p hp (by simp at hf; omega)
      exact ref_accepts none true hp hb h1 h2 (by simp) (by simp)
    | refLifeMut a p hp hb =>
      obtain ⟨n, h1, h2⟩ := hpath p hp (by simp at hf; omega)
      exact ref_accepts (some a) true hp hb h1 h2 (by simp) (by simp)
    | refLife a p hp hb hs =>
      obtain ⟨n, h1, h2⟩ := hpath p hp (by simp at hf; omega)
      exact ref_accepts (some a) false hp hb h1 h2 (fun _ _ => hs) (by simp)
    | assoc n p hp hb =>
      obtain ⟨m, h1, h2⟩ := hpath p hp (by simp at hf; omega)
      have h3 := one_name (tyG_nest hp) h1 h2
      have h4 : splitTokensBy (.ident n :: .punct '=' :: p) "=" = [[.ident n], p] := by
        have := split_join '=' (ps := [[.ident n], p]) (by simp [Bracketish]) (by simp) (by
          intro q hq
          simp at hq
          rcases hq with rfl | rfl
          · exact nest_ident _ _ (by simp) .nil
          · exact nest_mono (fun t h => h.2.1) (tyG_nest hp)) (by
          intro q hq
          simp at hq
          rcases hq with rfl | rfl
          · simp
          · exact tyG_ne_nil hp) "=" rfl
        exact this
      refine ⟨.mk (some [.ident n]) [m] false none false false false, ?_, ?_⟩
      · rw [RType.parseF, if_neg (by simp), h4]
        dsimp only
        rw [typeOf_bare _ _ hb (tyG_ne_nil hp), h3.1]; rfl
      · simpa [RType.toks] using h3.2

/-- A type of the grammar is accepted, and written back as it was. -/
theorem type_parse {ts : List Tok} (h : TyG .ty ts) : ∃ t, RType.parse ts = some t ∧ t.toks = ts ∧ t.usedTy = ts :=
  (tyG_accepts _ ts (by omega)).1 h

/-- A generic argument of the grammar is accepted, and written back as it was. -/
theorem arg_parse {ts : List Tok} (h : TyG .arg ts) : ∃ t, RType.parse ts = some t ∧ t.toks = ts :=
  (tyG_accepts _ ts (by omega)).2 h

/-- A path of the grammar is accepted, and written back as it was. -/
theorem name_parse {ts : List Tok} (h : TyG .path ts) : ∃ n, RName.parse ts = some n ∧ n.toks = ts ∧ (ts.head? ≠ some (.punct '\'') → n.isLifetime = false) :=
  path_accepts h RType.parse (fun _ ha _ => arg_parse ha)

end RJ
