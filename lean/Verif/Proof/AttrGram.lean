import Verif.Proof.LitText
import Verif.Proof.TypeGram
import Verif.Spec.Convert
/-
  Attributes: which are accepted, what they give, and that exactly their tokens are consumed.
-/
namespace RJ
open Spec

theorem split_at_char {c : Char} : ∀ {x s u v : Str}, c ∉ x → c ∉ s → x ++ c :: u = s ++ c :: v → x = s
  | [], [], _, _, _, _, _ => rfl
  | [], d :: s, _, _, _, h2, h => by simp at h; exact absurd h.1 (fun e => h2 (by simp [e]))
  | d :: x, [], _, _, h1, _, h => by simp at h; exact absurd h.1.symm (fun e => h1 (by simp [e]))
  | d :: x, e :: s, _, _, h1, h2, h => by
    simp at h
    rw [h.1, split_at_char (fun hm => h1 (by simp [hm])) (fun hm => h2 (by simp [hm])) h.2]

/-- The literals of the specification, read by `Lit::parse` and put into the generated code. -/
theorem strLit_parse {v : StrLit} (h : v.Plain) : ∃ k, Lit.parse (.lit v.text) = some (.string k) ∧ encodeKey k = some v.val ∧ decodeKey k = some v.val := by
  cases v with
  | cooked l =>
    refine ⟨itemsText l, ?_, encodeKey_items l h.1, decodeKey_items l h.1⟩
    rw [Lit.parse, StrLit.text, litOfText_cooked, cooked_key h.1 h.2]
  | raw n s =>
    obtain ⟨h1, h2, h3, h4, h5⟩ := h
    have hk := keys_iff (s := s) h4
    refine ⟨s, ?_, hk.1.mpr ⟨h2, h3⟩, hk.2.mpr ⟨h2, h3⟩⟩
    rw [Lit.parse, StrLit.text]
    apply litOfText_raw h1
    · rintro ⟨t, ht⟩
      apply h5
      have : ('r' :: List.replicate n '#') ++ '"' :: t = s ++ '"' :: List.replicate n '#' := by
        simpa [rawOpen, rawClose] using ht
      exact (split_at_char (by simp) h2 this).symm
    · rintro ⟨t, rfl⟩
      exact h2 (by simp [rawClose])

/-! ### One attribute -/

theorem note_noComma {ts : List Tok} (h : Note ts) : ∀ t ∈ ts, t.isPunct ',' = false := by
  intro t ht
  cases h with
  | word s _ _ => simp at ht; subst ht; rfl
  | value k eq v he _ =>
    simp at ht
    rcases ht with rfl | rfl | rfl
    · rfl
    · rcases he with rfl | rfl <;> rfl
    · rfl
  | flag k eq v he _ =>
    simp at ht
    rcases ht with rfl | rfl | rfl
    · rfl
    · rcases he with rfl | rfl <;> rfl
    · rfl
  | lit v _ => simp at ht; subst ht; rfl
  | list k d args tr _ _ =>
    simp at ht
    rcases ht with rfl | rfl <;> rfl

theorem note_ne_nil {ts : List Tok} (h : Note ts) : ts ≠ [] := by
  cases h <;> simp

theorem splitComma_run : ∀ (a inner rest : List Tok), (∀ t ∈ a, t.isPunct ',' = false) →
    splitComma inner (a ++ rest) = splitComma (a.reverse ++ inner) rest
  | [], _, _, _ => rfl
  | t :: a, inner, rest, h => by
    rw [List.cons_append, splitComma, if_neg (by simp [h t]), splitComma_run a _ rest (fun x hx => h x (by simp [hx]))]
    simp

/-- The comma-separated items of a list. -/
theorem splitComma_join : ∀ (args : List (List Tok)) (tr : Bool), args ≠ [] → (∀ a ∈ args, (∀ t ∈ a, t.isPunct ',' = false) ∧ a ≠ []) →
    ((splitComma [] (joinWith [.punct ','] args ++ if tr then [.punct ','] else [])).filter (fun x => !x.isEmpty)) = args
  | [], _, h, _ => absurd rfl h
  | [a], tr, _, h => by
    have ha := h a (by simp)
    have hne : a.isEmpty = false := by simpa using ha.2
    rw [joinWith, splitComma_run a [] _ ha.1]
    cases tr with
    | true => simp [splitComma, Tok.isPunct, hne]
    | false => simp [splitComma, hne]
  | a :: b :: rest, tr, _, h => by
    have ha := h a (by simp)
    have hne : a.isEmpty = false := by simpa using ha.2
    rw [joinWith, List.append_assoc, List.append_assoc, splitComma_run a [] _ ha.1]
    rw [List.singleton_append, splitComma, if_pos (by rfl)]
    simp only [List.append_nil, List.reverse_reverse, List.filter_cons, hne, Bool.not_false, if_true]
    rw [splitComma_join (b :: rest) tr (by simp) (fun x hx => h x (by simp at hx ⊢; exact .inr hx))]

theorem toksSize_append (a b : List Tok) : toksSize (a ++ b) = toksSize a + toksSize b := by
  induction a with
  | nil => simp [toksSize]
  | cons t a ih => rw [List.cons_append, toksSize, toksSize, ih]; omega

theorem toksSize_join (sep : List Tok) : ∀ (ps : List (List Tok)) (p : List Tok), p ∈ ps → toksSize p ≤ toksSize (joinWith sep ps)
  | [], _, h => by cases h
  | [x], p, h => by simp at h; subst h; simp [joinWith]
  | x :: y :: rest, p, h => by
    rw [joinWith, toksSize_append, toksSize_append]
    rcases List.mem_cons.mp h with rfl | h
    · omega
    · have := toksSize_join sep (y :: rest) p h
      omega

theorem metaItem_word (fuel : Nat) (s : Str) (h1 : s ≠ "true".toList) (h2 : s ≠ "false".toList) :
    MetaItem.parseF (fuel + 1) [.ident s] = some (.ident s) := by
  rw [MetaItem.parseF.eq_def]
  dsimp only
  rw [Lit.parse, if_neg h1, if_neg h2]

theorem metaItem_pair (fuel : Nat) (k : Str) (eq : Char) (v : Tok) (he : eq = '=' ∨ eq = ':') (l : Lit) (hl : Lit.parse v = some l) :
    MetaItem.parseF (fuel + 1) [.ident k, .punct eq, v] = some (.pair k l eq) := by
  rw [MetaItem.parseF.eq_def]
  dsimp only
  rcases he with rfl | rfl
  · rw [if_pos (by rfl), hl]; rfl
  · rw [if_pos (by rfl), hl]; rfl

theorem note_parse : ∀ (fuel : Nat) (ts : List Tok), toksSize ts < fuel → Note ts → ∃ it, MetaItem.parseF fuel ts = some it ∧
    (it = .ident "ignore".toList → ts = [.ident "ignore".toList]) ∧ (∀ l e, it = .pair "key".toList l e → ∃ v, ts = [.ident "key".toList, .punct e, v]) := by
  intro fuel
  induction fuel with
  | zero => intro ts h; omega
  | succ fuel ih =>
    intro ts hf h
    cases h with
    | word s h1 h2 =>
      exact ⟨_, metaItem_word fuel s h1 h2, fun e => by cases e; rfl, fun l e h => by cases h⟩
    | value k eq v he hv =>
      obtain ⟨s, h1, _⟩ := strLit_parse hv
      exact ⟨_, metaItem_pair fuel k eq _ he _ h1, fun e => (by cases e), fun l e h => (by cases h; exact ⟨_, rfl⟩)⟩
    | flag k eq v he hv =>
      obtain ⟨b, hb⟩ : ∃ b, Lit.parse (.ident v) = some (.boolean b) := by
        rcases hv with rfl | rfl
        · exact ⟨true, rfl⟩
        · exact ⟨false, rfl⟩
      exact ⟨_, metaItem_pair fuel k eq _ he _ hb, fun e => (by cases e), fun l e h => (by cases h; exact ⟨_, rfl⟩)⟩
    | lit v hv =>
      obtain ⟨s, h1, _⟩ := strLit_parse hv
      refine ⟨.literal (.string s), ?_, fun e => (by cases e), fun l e h => (by cases h)⟩
      rw [MetaItem.parseF.eq_def]
      dsimp only
      rw [h1]; rfl
    | list k d args tr hne ha =>
      have hnc : ∀ a ∈ args, (∀ t ∈ a, t.isPunct ',' = false) ∧ a ≠ [] := fun a h => ⟨note_noComma (ha a h), note_ne_nil (ha a h)⟩
      obtain ⟨its, h1, _⟩ := collectO_map (MetaItem.parseF fuel) (fun _ => ()) (fun _ => ()) args (by
        intro a h
        obtain ⟨it, h1, _⟩ := ih a (by
          have h1 := toksSize_join [.punct ','] args a h
          have h2 := toksSize_append (joinWith [.punct ','] args) (if tr then [.punct ','] else [])
          simp only [toksSize, Tok.size] at hf
          omega) (ha a h)
        exact ⟨it, h1, rfl⟩)
      refine ⟨.group k its, ?_, fun e => (by cases e), fun l e h => (by cases h)⟩
      rw [MetaItem.parseF.eq_def]
      dsimp only
      rw [if_neg (by simp [Tok.isPunct]), if_neg, splitComma_join args tr hne hnc, h1]
      · rfl
      · have := joinWith_ne_nil [.punct ','] args hne (fun a h => (hnc a h).2)
        simp [this]

/-- What a well-formed attribute becomes. -/
def AttrItem : Attr → MetaItem → Prop
  | .ignore, it => it = .ident "ignore".toList
  | .key eq v, it => ∃ k, it = .pair "key".toList (.string k) eq ∧ encodeKey k = some v.val ∧ decodeKey k = some v.val
  | .note _, it => it ≠ .ident "ignore".toList ∧ ∀ l e, it ≠ .pair "key".toList l e

theorem attr_parse {a : Attr} (h : a.Ok) : ∃ it, MetaItem.parse a.inner = some it ∧ AttrItem a it := by
  cases a with
  | ignore => exact ⟨_, metaItem_word _ _ (by decide) (by decide), rfl⟩
  | key eq v =>
    obtain ⟨k, h1, h2, h3⟩ := strLit_parse h.2
    exact ⟨_, metaItem_pair _ _ eq _ h.1 _ h1, k, rfl, h2, h3⟩
  | note ts =>
    obtain ⟨it, h1, h2, h3⟩ := note_parse (toksSize ts + 1) ts (by omega) h.1
    exact ⟨it, h1, fun e => h.2.1 (h2 e), fun l e he => (by obtain ⟨v, hv⟩ := h3 l e he; exact h.2.2 e v hv)⟩

/-! ### The attributes in front of something -/

/-- `#[..]`, for any contents. -/
def hashToks (l : List (List Tok)) : List Tok := l.flatMap (fun a => [.punct '#', .group .bracket a])

theorem attrToks_eq (l : List Attr) : attrToks l = hashToks (l.map Attr.inner) := by
  unfold attrToks hashToks
  rw [List.flatMap_map]

theorem hash_takeWhile (l : List (List Tok)) (rest : List Tok) : (hashToks l ++ rest).takeWhile isMetaTok = hashToks l ++ rest.takeWhile isMetaTok := by
  induction l with
  | nil => rfl
  | cons a l ih =>
    rw [show hashToks (a :: l) = .punct '#' :: .group .bracket a :: hashToks l from rfl, List.cons_append, List.cons_append,
      List.takeWhile_cons_of_pos (by rfl), List.takeWhile_cons_of_pos (by rfl), ih]
    rfl

theorem metaLoop_hash (l : List (List Tok)) (rest : List Tok) (hr : ∀ t, rest.head? = some t → t.isPunct '#' = false) :
    metaLoop (hashToks l ++ rest) = collectO (l.map MetaItem.parse) := by
  induction l with
  | nil =>
    rw [List.map_nil, collectO]
    match rest, hr with
    | [], _ => rfl
    | [t], hr => rw [show hashToks [] ++ [t] = [t] from rfl, metaLoop.eq_def]; simp [hr t rfl]
    | t :: g :: rest, hr => rw [show hashToks [] ++ t :: g :: rest = t :: g :: rest from rfl, metaLoop.eq_def]; simp [hr t rfl]
  | cons a l ih =>
    rw [show hashToks (a :: l) ++ rest = .punct '#' :: .group .bracket a :: (hashToks l ++ rest) from rfl, metaLoop.eq_def]
    dsimp only
    rw [if_pos (by rfl)]
    simp only [List.map_cons]
    cases h : MetaItem.parse a with
    | none => rfl
    | some it => rw [ih, collectO]

theorem collectO_length {α : Type} : ∀ (l : List (Option α)) (r : List α), collectO l = some r → r.length = l.length
  | [], r, h => by cases h; rfl
  | none :: l, r, h => by cases h
  | some a :: l, r, h => by
    rw [collectO, Option.map_eq_some_iff] at h
    obtain ⟨r', h1, h2⟩ := h
    subst h2
    simp [collectO_length l r' h1]

theorem hash_drop (l : List (List Tok)) (rest : List Tok) : (hashToks l ++ rest).drop (l.length * 2) = rest := by
  induction l with
  | nil => rfl
  | cons a l ih =>
    rw [show hashToks (a :: l) ++ rest = .punct '#' :: .group .bracket a :: (hashToks l ++ rest) from rfl,
      show (a :: l).length * 2 = l.length * 2 + 2 by simp; omega]
    exact ih

/-- Leading attributes: all of them, in order, and what follows is left. -/
theorem takeMeta_hash (l : List (List Tok)) (rest : List Tok) (hr : ∀ t, rest.head? = some t → t.isPunct '#' = false) :
    takeMeta (hashToks l ++ rest) = if l.isEmpty then some (none, rest) else (collectO (l.map MetaItem.parse)).map (fun m => (some m, rest)) := by
  unfold takeMeta
  cases l with
  | nil =>
    rw [if_neg]
    · rfl
    · cases rest with
      | nil => simp [hashToks]
      | cons t rest => simp [hashToks, hr t rfl]
  | cons a l =>
    have h1 : (hashToks (a :: l) ++ rest).head?.any (Tok.isPunct '#') = true := rfl
    rw [if_pos h1, if_neg (by simp)]
    unfold Meta.parse
    rw [if_neg (by simp [hashToks])]
    have h2 : (hashToks (a :: l) ++ rest).dropWhile (fun t => !isMetaTok t) = hashToks (a :: l) ++ rest := by
      rw [show hashToks (a :: l) ++ rest = .punct '#' :: .group .bracket a :: (hashToks l ++ rest) from rfl, List.dropWhile_cons_of_neg (by decide)]
    rw [h2, hash_takeWhile, metaLoop_hash]
    · cases h : collectO ((a :: l).map MetaItem.parse) with
      | none => rfl
      | some m =>
        have := collectO_length _ _ h
        rw [List.length_map] at this
        simp only [Option.map_some]
        rw [this, hash_drop]
    · intro t ht
      cases rest with
      | nil => simp at ht
      | cons u rest =>
        rw [List.takeWhile_cons] at ht
        split at ht
        · simp at ht; subst ht; exact hr u rfl
        · simp at ht

/-- The items of well-formed attributes. -/
theorem attrs_items : ∀ (l : List Attr), (∀ a ∈ l, a.Ok) → ∃ its, collectO ((l.map Attr.inner).map MetaItem.parse) = some its ∧ AllTwo AttrItem l its
  | [], _ => ⟨[], rfl, trivial⟩
  | a :: l, h => by
    obtain ⟨it, h1, h2⟩ := attr_parse (h a (by simp))
    obtain ⟨its, h3, h4⟩ := attrs_items l (fun x hx => h x (by simp [hx]))
    refine ⟨it :: its, ?_, h2, h4⟩
    rw [List.map_cons, List.map_cons, h1, collectO, h3]; rfl

end RJ
