import Verif.Spec.Tokens
/-
  `split_tokens_by` on nested streams.
-/
namespace RJ
open Spec

theorem splitGo_nil (sep : List Char) (k : Nat) (b : Bool) (n : Int) (inner : List Tok) : splitGo sep k b n inner [] = [inner.reverse] := by
  cases k <;> cases b <;> simp [splitGo]

theorem splitGo_arrow (sep : List Char) (n : Int) (inner : List Tok) (t : Tok) (ts : List Tok) :
    splitGo sep 0 true n inner (t :: ts) = splitGo sep 0 false n (t :: inner) ts := by
  simp [splitGo]

theorem splitGo_skip (sep : List Char) (k : Nat) (b : Bool) (n : Int) (inner : List Tok) (t : Tok) (ts : List Tok) :
    splitGo sep (k + 1) b n inner (t :: ts) = splitGo sep k false n inner ts := by
  simp [splitGo]

theorem splitGo_lt (sep : List Char) (n : Int) (inner ts : List Tok) :
    splitGo sep 0 false n inner (.punct '<' :: ts) = splitGo sep 0 false (n + 1) (.punct '<' :: inner) ts := by
  simp [splitGo]

theorem splitGo_gt (sep : List Char) (n : Int) (inner ts : List Tok) :
    splitGo sep 0 false n inner (.punct '>' :: ts) = splitGo sep 0 false (n - 1) (.punct '>' :: inner) ts := by
  simp [splitGo]

theorem splitGo_dash (sep : List Char) (n : Int) (inner ts : List Tok) :
    splitGo sep 0 false n inner (.punct '-' :: ts) = splitGo sep 0 (ts.head?.any (Tok.isPunct '>')) n (.punct '-' :: inner) ts := by
  simp [splitGo]

/-- A token that is neither bracket nor separator is collected. -/
theorem splitGo_tok (sep : List Char) (n : Int) (inner ts : List Tok) (t : Tok) (hb : ¬ Bracketish t)
    (h : n ≠ 0 ∨ ∀ c, sep.head? = some c → t ≠ .punct c) :
    splitGo sep 0 false n inner (t :: ts) = splitGo sep 0 false n (t :: inner) ts := by
  cases t with
  | punct c =>
    have h1 : c ≠ '-' := by rintro rfl; exact hb (by simp [Bracketish])
    have h2 : c ≠ '<' := by rintro rfl; exact hb (by simp [Bracketish])
    have h3 : c ≠ '>' := by rintro rfl; exact hb (by simp [Bracketish])
    have h4 : ¬ (n = 0 ∧ hitSep sep c ts = true) := by
      rintro ⟨hn, hh⟩
      rcases h with h | h
      · exact h hn
      · cases sep with
        | nil => simp [hitSep] at hh
        | cons d cs =>
          simp only [hitSep, Bool.and_eq_true, decide_eq_true_eq] at hh
          exact h d rfl (by rw [hh.1])
    rw [splitGo]
    simp only [Nat.lt_irrefl, gt_iff_lt, if_false, Bool.false_eq_true, h1, h2, h3, h4]
  | ident s => simp [splitGo]
  | lit s => simp [splitGo]
  | group d g => simp [splitGo]

/-- A nested stream goes through unchanged, inside brackets or if it has no separator outside them. -/
theorem nest_run {ok : Tok → Prop} {a : List Tok} (h : Nest ok a) (sep : List Char) :
    ∀ (n : Int) (inner rest : List Tok), 0 ≤ n → (n ≠ 0 ∨ ∀ t c, ok t → sep.head? = some c → t ≠ .punct c) →
      splitGo sep 0 false n inner (a ++ rest) = splitGo sep 0 false n (a.reverse ++ inner) rest := by
  induction h with
  | nil => intro n inner rest _ _; rfl
  | tok t ts hb hk _ ih =>
    intro n inner rest hn hc
    rw [List.cons_append, splitGo_tok sep n inner _ t hb (hc.imp id (fun hc c hs => hc t c hk hs)),
      ih n _ rest hn hc]
    simp
  | arrow ts _ ih =>
    intro n inner rest hn hc
    rw [List.cons_append, List.cons_append, splitGo_dash]
    have : ((Tok.punct '>' :: (ts ++ rest)).head?.any (Tok.isPunct '>')) = true := by simp [Tok.isPunct]
    rw [this, splitGo_arrow, ih n _ rest hn hc]
    simp
  | minus t ts ht _ ih =>
    intro n inner rest hn hc
    rw [List.cons_append, splitGo_dash]
    have : (((t :: ts) ++ rest).head?.any (Tok.isPunct '>')) = false := by
      cases t <;> simp [Tok.isPunct]
      exact absurd rfl (ht _)
    rw [this, ih n _ rest hn hc]
    simp
  | angle a ts _ _ iha iht =>
    intro n inner rest hn hc
    rw [List.cons_append, splitGo_lt, List.append_assoc, iha (n + 1) _ _ (by omega) (.inl (by omega)), List.cons_append, splitGo_gt,
      show n + 1 - 1 = n by omega, iht n _ rest hn hc]
    simp

theorem matchRest_self (cs : List Char) (rest : List Tok) : matchRest cs (cs.map .punct ++ rest) = true := by
  induction cs with
  | nil => cases rest <;> rfl
  | cons c cs ih => simp [matchRest, Tok.isPunct, ih]

theorem splitGo_skips (sep : List Char) (cs : List Char) (inner rest : List Tok) :
    splitGo sep cs.length false 0 inner (cs.map .punct ++ rest) = splitGo sep 0 false 0 inner rest := by
  induction cs with
  | nil => rfl
  | cons c cs ih => simp [splitGo_skip, ih]

/-- At a separator outside the brackets the piece ends. -/
theorem splitGo_sep (c : Char) (cs : List Char) (inner rest : List Tok) (hc : ¬ Bracketish (.punct c)) :
    splitGo (c :: cs) 0 false 0 inner ((c :: cs).map .punct ++ rest)
      = if rest.isEmpty then [inner.reverse] else inner.reverse :: splitGo (c :: cs) 0 false 0 [] rest := by
  have h1 : c ≠ '-' := by rintro rfl; exact hc (by simp [Bracketish])
  have h2 : c ≠ '<' := by rintro rfl; exact hc (by simp [Bracketish])
  have h3 : c ≠ '>' := by rintro rfl; exact hc (by simp [Bracketish])
  have h4 : (0 : Int) = 0 ∧ hitSep (c :: cs) c (cs.map .punct ++ rest) = true := ⟨rfl, by simp [hitSep, matchRest_self]⟩
  rw [List.map_cons, List.cons_append, splitGo]
  simp only [Nat.lt_irrefl, gt_iff_lt, if_false, Bool.false_eq_true, h1, h2, h3]
  have h6 : hitSep (c :: cs) c (cs.map .punct ++ rest) = true := h4.2
  rw [if_pos ⟨trivial, h6⟩]
  have h5 : (cs.map Tok.punct ++ rest).drop ((c :: cs).length - 1) = rest := by
    simp
  rw [h5, show (c :: cs).length - 1 = cs.length by simp, splitGo_skips]

theorem split_pieces (c : Char) (cs : List Char) (hc : ¬ Bracketish (.punct c)) : ∀ (ps : List (List Tok)), ps ≠ [] → (∀ p ∈ ps, Without c p) →
    (ps.length = 1 ∨ ps.getLast? ≠ some []) →
    splitGo (c :: cs) 0 false 0 [] (joinWith ((c :: cs).map .punct) ps) = ps := by
  intro ps
  induction ps with
  | nil => intro h; exact absurd rfl h
  | cons p ps ih =>
    intro _ hp hl
    have hrun := nest_run (hp p (by simp)) (c :: cs)
    cases ps with
    | nil =>
      have := hrun 0 [] [] (by omega) (.inr (fun t d ht hd => by simp at hd; subst hd; exact ht))
      rw [List.append_nil] at this
      simp only [joinWith]
      rw [this, splitGo_nil]; simp
    | cons q qs =>
      simp only [joinWith]
      rw [List.append_assoc, hrun 0 [] _ (by omega) (.inr (fun t d ht hd => by simp at hd; subst hd; exact ht)), splitGo_sep c cs _ _ hc]
      have hl' : (q :: qs).getLast? ≠ some [] := by
        rcases hl with hl | hl
        · simp at hl
        · rwa [List.getLast?_cons_cons] at hl
      have hne : (joinWith ((c :: cs).map .punct) (q :: qs)).isEmpty = false := by
        cases qs with
        | nil => cases q with
          | nil => simp at hl'
          | cons t q => simp [joinWith]
        | cons r rs => simp [joinWith]
      rw [hne, if_neg (by simp), ih (by simp) (fun x hx => hp x (List.mem_cons_of_mem _ hx)) (.inr hl')]
      simp

theorem split_pieces_trailing (c : Char) (cs : List Char) (hc : ¬ Bracketish (.punct c)) : ∀ (ps : List (List Tok)), ps ≠ [] → (∀ p ∈ ps, Without c p) →
    splitGo (c :: cs) 0 false 0 [] (joinWith ((c :: cs).map .punct) ps ++ (c :: cs).map .punct) = ps := by
  intro ps
  induction ps with
  | nil => intro h; exact absurd rfl h
  | cons p ps ih =>
    intro _ hp
    have hrun := nest_run (hp p (by simp)) (c :: cs)
    cases ps with
    | nil =>
      simp only [joinWith]
      have h := splitGo_sep c cs (p.reverse ++ []) [] hc
      rw [hrun 0 [] _ (by omega) (.inr (fun t d ht hd => by simp at hd; subst hd; exact ht))]
      simp only [List.append_nil] at h ⊢
      rw [h]; simp
    | cons q qs =>
      simp only [joinWith]
      rw [List.append_assoc, List.append_assoc, hrun 0 [] _ (by omega) (.inr (fun t d ht hd => by simp at hd; subst hd; exact ht)), splitGo_sep c cs _ _ hc]
      have hne : (joinWith ((c :: cs).map Tok.punct) (q :: qs) ++ (c :: cs).map Tok.punct).isEmpty = false := by simp
      rw [hne, if_neg (by simp), ih (by simp) (fun x hx => hp x (List.mem_cons_of_mem _ hx))]
      simp

/-- Every nested stream is a join of pieces without top-level separator. -/
theorem balanced_pieces (c : Char) (hc : ¬ Bracketish (.punct c)) {ok : Tok → Prop} {ts : List Tok} (h : Nest ok ts) :
    ∃ p ps, (∀ x ∈ p :: ps, Without c x) ∧ ts = joinWith [.punct c] (p :: ps) := by
  have key : ∀ (a : List Tok), (∀ x, Without c x → Without c (a ++ x)) → ∀ p ps, (∀ x ∈ p :: ps, Without c x) →
      (∀ x ∈ (a ++ p) :: ps, Without c x) ∧ a ++ joinWith [.punct c] (p :: ps) = joinWith [.punct c] ((a ++ p) :: ps) := by
    intro a ha p ps hp
    refine ⟨?_, ?_⟩
    · intro x hx
      rcases List.mem_cons.mp hx with rfl | hx
      · exact ha p (hp p (by simp))
      · exact hp x (by simp [hx])
    · cases ps <;> simp [joinWith]
  induction h with
  | nil => exact ⟨[], [], by simp; exact .nil, rfl⟩
  | tok t ts hb _ _ ih =>
    obtain ⟨p, ps, hp, rfl⟩ := ih
    by_cases ht : t = .punct c
    · subst ht
      refine ⟨[], p :: ps, ?_, by simp [joinWith]⟩
      intro x hx
      rcases List.mem_cons.mp hx with rfl | hx
      · exact .nil
      · exact hp x hx
    · have := key [t] (fun x hx => .tok t x hb ht hx) p ps hp
      exact ⟨_, _, this.1, this.2⟩
  | arrow ts _ ih =>
    obtain ⟨p, ps, hp, rfl⟩ := ih
    have := key [.punct '-', .punct '>'] (fun x hx => .arrow x hx) p ps hp
    exact ⟨_, _, this.1, this.2⟩
  | minus t ts ht _ ih =>
    obtain ⟨p, ps, hp, he⟩ := ih
    cases p with
    | nil =>
      cases ps with
      | nil => simp [joinWith] at he
      | cons q qs =>
        simp only [joinWith, List.nil_append, List.cons_append, List.cons.injEq] at he
        exact absurd he.1 (ht c)
    | cons s p =>
      have hs : t = s := by cases ps <;> (simp only [joinWith, List.cons_append, List.cons.injEq] at he; exact he.1)
      subst hs
      refine ⟨.punct '-' :: t :: p, ps, ?_, ?_⟩
      · intro x hx
        rcases List.mem_cons.mp hx with rfl | hx
        · exact .minus t p ht (hp _ (by simp))
        · exact hp x (by simp [hx])
      · rw [he]; cases ps <;> simp [joinWith]
  | angle a ts ha _ _ iht =>
    obtain ⟨p, ps, hp, rfl⟩ := iht
    have := key (.punct '<' :: (a ++ [.punct '>'])) (fun x hx => by rw [List.cons_append, List.append_assoc]; exact Nest.angle a x ha hx) p ps hp
    exact ⟨_, _, this.1, by simpa using this.2⟩

theorem matchRest_short : ∀ (cs : List Char) (ts : List Tok), matchRest cs ts = true → ts.drop cs.length = [] → ts <+: cs.map .punct
  | [], ts, _, h => by simp at h; simp [h]
  | c :: cs, [], _, _ => by simp
  | c :: cs, t :: ts, h, h' => by
    simp only [matchRest, Bool.and_eq_true] at h
    have ht : t = .punct c := by
      cases t <;> simp [Tok.isPunct] at h
      rw [h.1]
    subst ht
    simpa using matchRest_short cs ts h.2 (by simpa using h')

theorem matchRest_long : ∀ (cs : List Char) (ts : List Tok), matchRest cs ts = true → ts.drop cs.length ≠ [] → ts = cs.map .punct ++ ts.drop cs.length
  | [], ts, _, _ => by simp
  | c :: cs, [], _, h => by simp at h
  | c :: cs, t :: ts, h, h' => by
    simp only [matchRest, Bool.and_eq_true] at h
    have ht : t = .punct c := by
      cases t <;> simp [Tok.isPunct] at h
      rw [h.1]
    subst ht
    simp only [List.length_cons, List.drop_succ_cons, List.map_cons, List.cons_append, List.cons.injEq, true_and]
    exact matchRest_long cs ts h.2 (by simpa using h')

theorem splitGo_drop (sep : List Char) (n : Int) (inner : List Tok) : ∀ (k : Nat) (ts : List Tok),
    splitGo sep k false n inner ts = splitGo sep 0 false n inner (ts.drop k)
  | 0, ts => rfl
  | k + 1, [] => by simp [splitGo_nil]
  | k + 1, t :: ts => by rw [splitGo_skip, List.drop_succ_cons, splitGo_drop sep n inner k ts]

theorem splitGo_ne_nil (sep : List Char) : ∀ (ts : List Tok) (k : Nat) (b : Bool) (n : Int) (inner : List Tok), splitGo sep k b n inner ts ≠ [] := by
  intro ts
  induction ts with
  | nil => intro k b n inner; simp [splitGo_nil]
  | cons t ts ih =>
    intro k b n inner
    rw [splitGo.eq_def]
    dsimp only
    split
    · exact ih _ _ _ _
    · split
      · exact ih _ _ _ _
      · split
        · split
          · exact ih _ _ _ _
          · split
            · exact ih _ _ _ _
            · split
              · exact ih _ _ _ _
              · split
                · split <;> simp
                · exact ih _ _ _ _
        · exact ih _ _ _ _

theorem joinWith_cons (sep p : List Tok) {ps : List (List Tok)} (h : ps ≠ []) : joinWith sep (p :: ps) = p ++ sep ++ joinWith sep ps := by
  cases ps with
  | nil => exact absurd rfl h
  | cons q qs => rfl

/-- Nothing is lost: rejoining the pieces gives the stream, up to a (possibly cut-off) separator at its end. -/
theorem splitGo_rejoin (c : Char) (cs : List Char) : ∀ (k : Nat) (ts : List Tok), ts.length ≤ k → ∀ (b : Bool) (n : Int) (inner : List Tok),
    ∃ q, q <+: (c :: cs).map Tok.punct ∧ joinWith ((c :: cs).map .punct) (splitGo (c :: cs) 0 b n inner ts) ++ q = inner.reverse ++ ts := by
  intro k
  induction k with
  | zero =>
    intro ts h b n inner
    cases ts with
    | nil => exact ⟨[], by simp, by simp [splitGo_nil, joinWith]⟩
    | cons => simp at h
  | succ k ih =>
    intro ts h b n inner
    cases ts with
    | nil => exact ⟨[], by simp, by simp [splitGo_nil, joinWith]⟩
    | cons t ts =>
      have step : ∀ (b : Bool) (n : Int), ∃ q, q <+: (c :: cs).map Tok.punct ∧
          joinWith ((c :: cs).map .punct) (splitGo (c :: cs) 0 b n (t :: inner) ts) ++ q = inner.reverse ++ t :: ts := by
        intro b n
        obtain ⟨q, hq, e⟩ := ih ts (by simpa using h) b n (t :: inner)
        exact ⟨q, hq, by rw [e]; simp⟩
      rw [splitGo.eq_def]
      dsimp only
      rw [if_neg (by simp)]
      split
      · exact step _ _
      · split
        · rename_i d
          split
          · exact step _ _
          · split
            · exact step _ _
            · split
              · exact step _ _
              · split
                · rename_i hh
                  obtain ⟨rfl, hh⟩ := hh
                  simp only [hitSep, Bool.and_eq_true, decide_eq_true_eq] at hh
                  obtain ⟨rfl, hm⟩ := hh
                  split
                  · rename_i he
                    have he : ts.drop cs.length = [] := by simpa using he
                    have := matchRest_short cs ts hm he
                    exact ⟨.punct d :: ts, by simpa using this, by simp [joinWith]⟩
                  · rename_i he
                    have he : ts.drop cs.length ≠ [] := by simpa using he
                    have e := matchRest_long cs ts hm he
                    rw [show (d :: cs).length - 1 = cs.length by simp, splitGo_drop]
                    obtain ⟨q, hq, e'⟩ := ih (ts.drop cs.length) (by simp at h ⊢; omega) false 0 []
                    refine ⟨q, hq, ?_⟩
                    rw [joinWith_cons _ _ (splitGo_ne_nil _ _ _ _ _ _), List.append_assoc, e']
                    conv => rhs; rw [e]
                    simp
                · exact step _ _
        · exact step _ _

/-- A separator after a properly nested beginning ends the first piece, there or earlier. -/
theorem first_piece_le (c : Char) (cs : List Char) (hc : ¬ Bracketish (.punct c)) {ok : Tok → Prop} {a : List Tok} (h : Nest ok a) :
    ∀ (inner rest : List Tok), ∃ p, (splitGo (c :: cs) 0 false 0 inner (a ++ ((c :: cs).map .punct ++ rest))).head? = some p ∧ p.length ≤ inner.length + a.length := by
  induction h with
  | nil =>
    intro inner rest
    refine ⟨inner.reverse, ?_, by simp⟩
    rw [List.nil_append, splitGo_sep c cs inner rest hc]
    split <;> rfl
  | tok t ts hb _ _ ih =>
    intro inner rest
    have hcol : ∀ (r : List Tok), splitGo (c :: cs) 0 false 0 inner (t :: r) = splitGo (c :: cs) 0 false 0 (t :: inner) r
        ∨ (splitGo (c :: cs) 0 false 0 inner (t :: r)).head? = some inner.reverse := by
      intro r
      cases t with
      | punct d =>
        have h1 : d ≠ '-' := by rintro rfl; exact hb (by simp [Bracketish])
        have h2 : d ≠ '<' := by rintro rfl; exact hb (by simp [Bracketish])
        have h3 : d ≠ '>' := by rintro rfl; exact hb (by simp [Bracketish])
        rw [splitGo.eq_def]
        dsimp only
        rw [if_neg (by omega), if_neg (by decide), if_neg h1, if_neg h2, if_neg h3]
        split
        · right; split <;> rfl
        · left; rfl
      | ident s => left; simp [splitGo]
      | lit s => left; simp [splitGo]
      | group d g => left; simp [splitGo]
    rcases hcol (ts ++ ((c :: cs).map .punct ++ rest)) with h | h
    · obtain ⟨p, h1, h2⟩ := ih (t :: inner) rest
      refine ⟨p, ?_, by simp at h2 ⊢; omega⟩
      rw [List.cons_append, h]; exact h1
    · exact ⟨inner.reverse, by rw [List.cons_append]; exact h, by simp⟩
  | arrow ts _ ih =>
    intro inner rest
    obtain ⟨p, h1, h2⟩ := ih (.punct '>' :: .punct '-' :: inner) rest
    refine ⟨p, ?_, by simp at h2 ⊢; omega⟩
    rw [List.cons_append, List.cons_append, splitGo_dash]
    simp only [List.head?_cons, Option.any_some, Tok.isPunct, decide_true]
    rw [splitGo_arrow]; exact h1
  | minus t ts ht _ ih =>
    intro inner rest
    obtain ⟨p, h1, h2⟩ := ih (.punct '-' :: inner) rest
    refine ⟨p, ?_, by simp at h2 ⊢; omega⟩
    rw [List.cons_append, splitGo_dash]
    have : ((t :: ts ++ ((c :: cs).map Tok.punct ++ rest)).head?.any (Tok.isPunct '>')) = false := by
      cases t with
      | punct d => exact absurd rfl (ht d)
      | _ => rfl
    rw [this]; exact h1
  | angle a ts ha _ _ ih =>
    intro inner rest
    obtain ⟨p, h1, h2⟩ := ih (.punct '>' :: (a.reverse ++ .punct '<' :: inner)) rest
    refine ⟨p, ?_, by simp at h2 ⊢; omega⟩
    rw [List.cons_append, splitGo_lt, List.append_assoc, nest_run ha _ _ _ _ (by omega) (.inl (by omega)), List.cons_append, splitGo_gt]
    exact h1

/-- The pieces after the first come from splitting a shorter stream. -/
theorem splitGo_tail (c : Char) (cs : List Char) : ∀ (k : Nat) (ts : List Tok), ts.length ≤ k → ∀ (b : Bool) (n : Int) (inner : List Tok) (p : List Tok) (ps : List (List Tok)),
    splitGo (c :: cs) 0 b n inner ts = p :: ps → ps = [] ∨ ∃ ts', ts'.length < ts.length ∧ ps = splitGo (c :: cs) 0 false 0 [] ts' := by
  intro k
  induction k with
  | zero =>
    intro ts h b n inner p ps he
    cases ts with
    | nil => rw [splitGo_nil] at he; cases he; left; rfl
    | cons t ts => simp at h
  | succ k ih =>
    intro ts h b n inner p ps he
    cases ts with
    | nil => rw [splitGo_nil] at he; cases he; left; rfl
    | cons t ts =>
      have step : ∀ (b' : Bool) (n' : Int) (inner' : List Tok), splitGo (c :: cs) 0 b' n' inner' ts = p :: ps →
          ps = [] ∨ ∃ ts', ts'.length < (t :: ts).length ∧ ps = splitGo (c :: cs) 0 false 0 [] ts' := by
        intro b' n' inner' he
        rcases ih ts (by simp at h; omega) b' n' inner' p ps he with h1 | ⟨ts', h1, h2⟩
        · exact .inl h1
        · exact .inr ⟨ts', by simp; omega, h2⟩
      cases b with
      | true => rw [splitGo_arrow] at he; exact step _ _ _ he
      | false =>
        rw [splitGo.eq_def] at he
        dsimp only at he
        rw [if_neg (by omega), if_neg (by decide)] at he
        split at he
        · split at he
          · exact step _ _ _ he
          · split at he
            · exact step _ _ _ he
            · split at he
              · exact step _ _ _ he
              · split at he
                · rename_i hn
                  split at he
                  · cases he; left; rfl
                  · cases he
                    right
                    rw [hn.1, splitGo_drop]
                    exact ⟨_, by simp; omega, rfl⟩
                · exact step _ _ _ he
        · exact step _ _ _ he

/-- No piece contains a separator behind a properly nested beginning. -/
theorem split_no_sep (c : Char) (cs : List Char) (hc : ¬ Bracketish (.punct c)) : ∀ (k : Nat) (ts : List Tok), ts.length ≤ k →
    ∀ p ∈ splitGo (c :: cs) 0 false 0 [] ts, ∀ a b, AngleBalanced a → p ≠ a ++ (c :: cs).map .punct ++ b := by
  intro k
  induction k with
  | zero =>
    intro ts h p hp a b _ he
    cases ts with
    | nil => rw [splitGo_nil] at hp; simp at hp; subst hp; simp at he
    | cons t ts => simp at h
  | succ k ih =>
    intro ts h p hp a b ha he
    cases hs : splitGo (c :: cs) 0 false 0 [] ts with
    | nil => exact splitGo_ne_nil _ _ _ _ _ _ hs
    | cons q qs =>
      rw [hs] at hp
      rcases List.mem_cons.mp hp with rfl | hp
      · obtain ⟨x, _, hx⟩ := splitGo_rejoin c cs ts.length ts (by omega) false 0 []
        rw [hs] at hx
        have hpre : ∃ r, ts = p ++ r := by
          cases qs with
          | nil => exact ⟨x, by simpa [joinWith] using hx.symm⟩
          | cons y ys =>
            rw [joinWith_cons _ _ (by simp)] at hx
            exact ⟨(c :: cs).map .punct ++ joinWith ((c :: cs).map .punct) (y :: ys) ++ x, by simpa using hx.symm⟩
        obtain ⟨r, hr⟩ := hpre
        obtain ⟨q, h1, h2⟩ := first_piece_le c cs hc ha [] (b ++ r)
        have e : ts = a ++ ((c :: cs).map .punct ++ (b ++ r)) := by rw [hr, he]; simp
        rw [← e, hs] at h1
        simp at h1
        subst h1
        rw [he] at h2
        simp at h2
        omega
      · rcases splitGo_tail c cs ts.length ts (by omega) false 0 [] q qs hs with h1 | ⟨ts', h1, h2⟩
        · rw [h1] at hp; cases hp
        · rw [h2] at hp
          exact ih ts' (by omega) p hp a b ha he

end RJ
