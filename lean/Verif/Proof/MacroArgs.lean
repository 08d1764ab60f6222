import Verif.Spec.Macros
import Verif.Proof.Scope
/- The arguments of a macro call. -/
namespace RJ
open Spec

theorem angle_arrow (i j : Bool) (r : List QTok) : angle (.punct '-' i :: .punct '>' j :: r) = angle r := by simp [angle]
theorem angle_lt (j : Bool) (r : List QTok) : angle (.punct '<' j :: r) = angle r + 1 := by simp [angle]
theorem angle_gt (j : Bool) (r : List QTok) : angle (.punct '>' j :: r) = angle r - 1 := by simp [angle]
theorem angle_minus (i : Bool) (r : List QTok) (h : ∀ j r', r ≠ .punct '>' j :: r') : angle (.punct '-' i :: r) = angle r := by
  rw [angle]
  · intro a b r' _ e; exact h _ _ e
  · simp
  · simp
theorem angle_other (t : QTok) (r : List QTok) (h1 : ∀ j, t ≠ .punct '-' j) (h2 : ∀ j, t ≠ .punct '<' j) (h3 : ∀ j, t ≠ .punct '>' j) : angle (t :: r) = angle r := by
  rw [angle]
  · intro j _ _ e _; exact h1 _ e
  · intro j e; exact h2 _ e
  · intro j e; exact h3 _ e

/-- The commas of `a` are inside angle brackets, `n` being open before it. -/
def ArgAt (n : Int) (a : List QTok) : Prop := ∀ p j q, a = p ++ .punct ',' j :: q → n + angle p ≠ 0

theorem argAt_tail {n k : Int} {t : QTok} {a : List QTok} (h : ArgAt n (t :: a)) (hk : ∀ p, (∃ q, a = p ++ q) → angle (t :: p) = angle p + k) : ArgAt (n + k) a := by
  intro p j q e
  have := h (t :: p) j q (by rw [e]; rfl)
  rw [hk p ⟨_, e⟩] at this
  omega

/-- One step over a token that is neither a bracket nor a separator. -/
theorem split_other (n : Int) (t : QTok) (inner ts : List QTok) (h1 : ∀ j, t ≠ .punct '-' j) (h2 : ∀ j, t ≠ .punct '<' j) (h3 : ∀ j, t ≠ .punct '>' j)
    (h4 : n = 0 → ∀ j, t ≠ .punct ',' j) : qSplitGo [','] 0 false n inner (t :: ts) = qSplitGo [','] 0 false n (t :: inner) ts := by
  cases t with
  | punct c j =>
    rw [qSplitGo, if_neg (by omega), if_neg (by simp)]
    have e1 : c ≠ '-' := fun e => h1 j (by rw [e])
    have e2 : c ≠ '<' := fun e => h2 j (by rw [e])
    have e3 : c ≠ '>' := fun e => h3 j (by rw [e])
    rw [if_neg e1, if_neg e2, if_neg e3, if_neg]
    intro ⟨hn, hh⟩
    refine h4 hn j ?_
    simp only [qHitSep, Bool.and_eq_true, decide_eq_true_eq] at hh
    rw [hh.1]
  | ident s => rw [qSplitGo, if_neg (by omega), if_neg (by simp)]; simp
  | lit s => rw [qSplitGo, if_neg (by omega), if_neg (by simp)]; simp
  | group d g => rw [qSplitGo, if_neg (by omega), if_neg (by simp)]; simp

theorem split_run (rest : List QTok) (hrest : ∀ j r, rest ≠ .punct '>' j :: r) : ∀ (k : Nat) (a : List QTok), a.length ≤ k → ∀ (n : Int) (inner : List QTok), ArgAt n a →
    qSplitGo [','] 0 false n inner (a ++ rest) = qSplitGo [','] 0 false (n + angle a) (a.reverse ++ inner) rest
  | _, [], _, n, inner, _ => by simp [angle]
  | 0, _ :: _, hl, _, _, _ => by simp at hl
  | k + 1, t :: a, hl, n, inner, h => by
    have hl' : a.length ≤ k := by simp only [List.length_cons] at hl; omega
    by_cases h1 : ∃ j, t = .punct '-' j
    · obtain ⟨i, rfl⟩ := h1
      by_cases ha : ∃ j a', a = .punct '>' j :: a'
      · obtain ⟨j, a', rfl⟩ := ha
        have h' : ArgAt n a' := by
          intro p j' q e
          have := h (.punct '-' i :: .punct '>' j :: p) j' q (by rw [e]; rfl)
          rwa [angle_arrow] at this
        have ih := split_run rest hrest k a' (by simp only [List.length_cons] at hl'; omega) n (.punct '>' j :: .punct '-' i :: inner) h'
        rw [angle_arrow]
        simp only [List.cons_append]
        rw [qSplitGo, if_neg (by omega), if_neg (by simp)]
        rw [if_pos rfl]
        rw [show (List.head? (QTok.punct '>' j :: (a' ++ rest))).any (QTok.isPunct '>') = true by simp [QTok.isPunct]]
        rw [qSplitGo, if_neg (by omega), if_pos rfl, ih]
        simp
      · have ha' : ∀ j a', a ≠ .punct '>' j :: a' := fun j a' e => ha ⟨j, a', e⟩
        have h' : ArgAt (n + 0) a := argAt_tail h (fun p ⟨q, hq⟩ => by
          rw [angle_minus]; · omega
          intro j r e; rw [e] at hq; exact ha' j _ hq)
        have ih := split_run rest hrest k a hl' (n + 0) (.punct '-' i :: inner) h'
        rw [angle_minus _ _ ha']
        simp only [List.cons_append]
        rw [qSplitGo, if_neg (by omega), if_neg (by simp)]
        rw [if_pos rfl]
        have : ((a ++ rest).head?.any (QTok.isPunct '>')) = false := by
          cases a with
          | nil =>
            cases rest with
            | nil => rfl
            | cons u r =>
              cases u with
              | punct c j =>
                have : c ≠ '>' := fun e => hrest j r (by rw [e])
                simp [QTok.isPunct, this]
              | _ => simp [QTok.isPunct]
          | cons u a' =>
            cases u with
            | punct c j =>
              have : c ≠ '>' := fun e => ha' j a' (by rw [e])
              simp [QTok.isPunct, this]
            | _ => simp [QTok.isPunct]
        rw [this]
        simp only [Int.add_zero] at ih
        rw [ih]
        simp
    · have h1' : ∀ j, t ≠ .punct '-' j := fun j e => h1 ⟨j, e⟩
      by_cases h2 : ∃ j, t = .punct '<' j
      · obtain ⟨j, rfl⟩ := h2
        have ih := split_run rest hrest k a hl' (n + 1) (.punct '<' j :: inner) (argAt_tail h (fun p _ => angle_lt j p))
        rw [angle_lt]
        simp only [List.cons_append]
        rw [qSplitGo, if_neg (by omega), if_neg (by simp)]
        rw [if_neg (by decide), if_pos rfl, ih, show n + 1 + angle a = n + (angle a + 1) by omega]
        simp
      · have h2' : ∀ j, t ≠ .punct '<' j := fun j e => h2 ⟨j, e⟩
        by_cases h3 : ∃ j, t = .punct '>' j
        · obtain ⟨j, rfl⟩ := h3
          have ih := split_run rest hrest k a hl' (n + -1) (.punct '>' j :: inner) (argAt_tail h (fun p _ => angle_gt j p))
          rw [angle_gt]
          simp only [List.cons_append]
          rw [qSplitGo, if_neg (by omega), if_neg (by simp)]
          rw [if_neg (by decide), if_neg (by decide), if_pos rfl]
          rw [show n - 1 = n + -1 by omega, ih, show n + -1 + angle a = n + (angle a - 1) by omega]
          simp
        · have h3' : ∀ j, t ≠ .punct '>' j := fun j e => h3 ⟨j, e⟩
          have ih := split_run rest hrest k a hl' (n + 0) (t :: inner) (argAt_tail h (fun p _ => by rw [angle_other t p h1' h2' h3']; omega))
          rw [angle_other t a h1' h2' h3']
          simp only [List.cons_append]
          rw [split_other n t inner _ h1' h2' h3']
          · simp only [Int.add_zero] at ih
            rw [ih]; simp
          · intro hn j e
            have := h [] j a (by rw [e]; rfl)
            simp [angle] at this
            exact this hn

theorem split_comma (j : Bool) (inner r : List QTok) : qSplitGo [','] 0 false 0 inner (.punct ',' j :: r) = if r.isEmpty then [inner.reverse] else inner.reverse :: qSplitGo [','] 0 false 0 [] r := by
  rw [qSplitGo, if_neg (by omega), if_neg (by simp)]
  rw [if_neg (by decide), if_neg (by decide), if_neg (by decide), if_pos ⟨rfl, by simp [qHitSep, qMatchRest]⟩]
  simp

/-- `split_tokens_by(.., ",")` gives the arguments. -/
theorem qSplit_args {ts : List QTok} {acts : List (List QTok)} (h : ArgList ts acts) : qSplit ts "," = acts := by
  show qSplitGo [','] 0 false 0 [] ts = acts
  have at0 : ∀ a, OneArg a → ArgAt 0 a := by
    intro a h p j q e; have := h p j q e; omega
  induction h with
  | @one a h =>
    have := split_run [] (by simp) a.length a (Nat.le_refl _) 0 [] (at0 a h)
    rw [List.append_nil] at this
    rw [this]; simp [qSplitGo]
  | @trail a j h h0 =>
    rw [split_run [.punct ',' j] (by simp) a.length a (Nat.le_refl _) 0 [] (at0 a h), h0, Int.add_zero, split_comma]
    simp
  | @more a j r as h h0 hr _ ih =>
    rw [split_run (.punct ',' j :: r) (by simp) a.length a (Nat.le_refl _) 0 [] (at0 a h), h0, Int.add_zero, split_comma, if_neg (by simpa using hr), ih]
    simp

/-- Every stream is a list of arguments. -/
theorem args_exist : ∀ (k : Nat) (ts : List QTok), ts.length ≤ k → ∃ acts, ArgList ts acts := by
  have first : ∀ (k : Nat) (ts p q : List QTok) (j : Bool), p.length ≤ k → ts = p ++ .punct ',' j :: q → angle p = 0 →
      ∃ p' j' q', ts = p' ++ .punct ',' j' :: q' ∧ angle p' = 0 ∧ OneArg p' := by
    intro k
    induction k with
    | zero =>
      intro ts p q j hp e h0
      have : p = [] := List.length_eq_zero_iff.1 (by omega)
      subst this
      exact ⟨[], j, q, e, rfl, fun p j q e => by simp at e⟩
    | succ k ih =>
      intro ts p q j hp e h0
      by_cases h : OneArg p
      · exact ⟨p, j, q, e, h0, h⟩
      · unfold OneArg at h
        simp only [Classical.not_forall, ne_eq, Decidable.not_not] at h
        obtain ⟨p1, j1, q1, e1, h1⟩ := h
        refine ih ts p1 (q1 ++ .punct ',' j :: q) j1 ?_ ?_ h1
        · have := congrArg List.length e1; simp at this; omega
        · rw [e, e1]; simp
  intro k
  induction k with
  | zero =>
    intro ts h
    have : ts = [] := List.length_eq_zero_iff.1 (by omega)
    subst this
    exact ⟨[[]], .one (fun p j q e => by simp at e)⟩
  | succ k ih =>
    intro ts hk
    by_cases h : OneArg ts
    · exact ⟨[ts], .one h⟩
    · unfold OneArg at h
      simp only [Classical.not_forall, ne_eq, Decidable.not_not] at h
      obtain ⟨p, j, q, e, h0⟩ := h
      obtain ⟨p', j', q', e', h0', h1'⟩ := first _ ts p q j (Nat.le_refl _) e h0
      by_cases hq : q' = []
      · subst hq; exact ⟨[p'], e' ▸ .trail h1' h0'⟩
      · obtain ⟨acts, ha⟩ := ih q' (by have := congrArg List.length e'; simp at this; omega)
        exact ⟨p' :: acts, e' ▸ .more h1' h0' hq ha⟩

/-- The arguments of a call are determined. -/
theorem argList_unique {ts : List QTok} {a b : List (List QTok)} (h1 : ArgList ts a) (h2 : ArgList ts b) : a = b := by
  rw [← qSplit_args h1, ← qSplit_args h2]

theorem argList_split (ts : List QTok) : ArgList ts (qSplit ts ",") := by
  obtain ⟨a, h⟩ := args_exist _ ts (Nat.le_refl _)
  rw [qSplit_args h]; exact h

/-! ### Parameters -/

theorem formals_split : ∀ ps : List Str, (qSplit (lexTTs (formalToks ps)) ",").map qStr = formals ps := by
  have run : ∀ (ps : List Str) (p : Str), ArgList (lexTTs (formalToks (p :: ps))) ((p :: ps).map (fun a => [QTok.ident a])) := by
    intro ps
    have single : ∀ p, OneArg [QTok.ident p] := by
      intro p q j r e
      cases q with
      | nil => simp at e
      | cons t q => simp at e
    induction ps with
    | nil => intro p; exact .one (single p)
    | cons q ps ih =>
      intro p
      have e : lexTTs (formalToks (p :: q :: ps)) = [QTok.ident p] ++ .punct ',' false :: lexTTs (formalToks (q :: ps)) := by
        simp [formalToks, lexTTs, lexTT, lexOp]
      rw [e]
      refine .more (single p) (by simp [angle]) ?_ (ih q)
      cases ps <;> simp [formalToks, lexTTs, lexTT]
  intro ps
  cases ps with
  | nil => rfl
  | cons p ps =>
    rw [qSplit_args (run ps p)]
    have e : ∀ l : List Str, (l.map (fun a => [QTok.ident a])).map qStr = l := by
      intro l; induction l with
      | nil => rfl
      | cons a l ih => simp only [List.map_cons, ih]; simp [qStr, QTok.str]
    rw [e]; simp [formals]

end RJ
