import Verif.Model.Print
import Verif.Proof.Escape
import Verif.Proof.Complete
/-
  Sorting by key: permutation, order, independence of the initial order.  UTF-8 byte order is code point order.
-/
namespace RJ
open Spec

theorem insertByKey_perm {β : Type} (x : Str × β) (l : List (Str × β)) : (insertByKey x l).Perm (x :: l) := by
  induction l with
  | nil => exact .refl _
  | cons y t ih =>
    simp only [insertByKey]
    split
    · exact .refl _
    · exact (List.Perm.cons y ih).trans (.swap x y t)

theorem sortByKey_perm {β : Type} (l : List (Str × β)) : (sortByKey l).Perm l := by
  induction l with
  | nil => exact .refl _
  | cons x t ih => exact (insertByKey_perm x _).trans (.cons x ih)

theorem insertByKey_map {β γ : Type} (g : Str × β → γ) (x : Str × β) (l : List (Str × β)) :
    insertByKey (x.1, g x) (l.map (fun e => (e.1, g e))) = (insertByKey x l).map (fun e => (e.1, g e)) := by
  induction l with
  | nil => rfl
  | cons y t ih =>
    simp only [List.map_cons, insertByKey]
    split
    · rfl
    · rw [ih]; rfl

theorem sortByKey_map {β γ : Type} (g : Str × β → γ) (l : List (Str × β)) :
    sortByKey (l.map (fun e => (e.1, g e))) = (sortByKey l).map (fun e => (e.1, g e)) := by
  induction l with
  | nil => rfl
  | cons x t ih =>
    simp only [List.map_cons, sortByKey]
    rw [ih, insertByKey_map]

/-- Lexicographic order of code point sequences. -/
def codeLe : Str → Str → Bool
  | [], _ => true
  | _ :: _, [] => false
  | a :: as, b :: bs => if a.toNat < b.toNat then true else if b.toNat < a.toNat then false else codeLe as bs

theorem bytesLe_same (p a b : List Nat) : bytesLe (p ++ a) (p ++ b) = bytesLe a b := by
  induction p with
  | nil => rfl
  | cons x p ih => simp [bytesLe, ih]

/-- `a` differs from `b` first at a position where it has the smaller byte. -/
def FirstLt (a b : List Nat) : Prop := ∃ p x y s t, a = p ++ x :: s ∧ b = p ++ y :: t ∧ x < y

theorem bytesLe_firstLt {a b : List Nat} (h : FirstLt a b) (s t : List Nat) :
    bytesLe (a ++ s) (b ++ t) = true ∧ bytesLe (b ++ t) (a ++ s) = false := by
  obtain ⟨p, x, y, s', t', rfl, rfl, hxy⟩ := h
  simp only [List.append_assoc, List.cons_append, bytesLe_same, bytesLe]
  constructor
  · rw [if_pos hxy]
  · rw [if_neg (by omega), if_pos hxy]

theorem utf8Char_lt (a b : Char) (h : a.toNat < b.toNat) : FirstLt (utf8Char a) (utf8Char b) := by
  have ha := char_le a
  have hb := char_le b
  unfold utf8Char
  simp only
  generalize a.toNat = m at *
  generalize b.toNat = n at *
  have first : ∀ (x y : Nat) (s t : List Nat), x < y → FirstLt (x :: s) (y :: t) :=
    fun x y s t h => ⟨[], x, y, s, t, rfl, rfl, h⟩
  have second : ∀ (x y z w : Nat) (s t : List Nat), x = z → y < w → FirstLt (x :: y :: s) (z :: w :: t) := by
    rintro x y z w s t rfl h; exact ⟨[x], y, w, s, t, rfl, rfl, h⟩
  have third : ∀ (x y z x' y' z' : Nat) (s t : List Nat), x = x' → y = y' → z < z' →
      FirstLt (x :: y :: z :: s) (x' :: y' :: z' :: t) := by
    rintro x y z x' y' z' s t rfl rfl h; exact ⟨[x, y], z, z', s, t, rfl, rfl, h⟩
  have fourth : ∀ (x y z u x' y' z' u' : Nat) (s t : List Nat), x = x' → y = y' → z = z' → u < u' →
      FirstLt (x :: y :: z :: u :: s) (x' :: y' :: z' :: u' :: t) := by
    rintro x y z u x' y' z' u' s t rfl rfl rfl h; exact ⟨[x, y, z], u, u', s, t, rfl, rfl, h⟩
  by_cases a1 : m ≤ 0x7F
  · rw [if_pos a1]
    by_cases b1 : n ≤ 0x7F
    · rw [if_pos b1]; exact first _ _ _ _ h
    rw [if_neg b1]
    by_cases b2 : n ≤ 0x7FF
    · rw [if_pos b2]; exact first _ _ _ _ (by omega)
    rw [if_neg b2]
    by_cases b3 : n ≤ 0xFFFF
    · rw [if_pos b3]; exact first _ _ _ _ (by omega)
    rw [if_neg b3]; exact first _ _ _ _ (by omega)
  rw [if_neg a1, if_neg (show ¬ n ≤ 0x7F by omega)]
  by_cases a2 : m ≤ 0x7FF
  · rw [if_pos a2]
    by_cases b2 : n ≤ 0x7FF
    · rw [if_pos b2]
      by_cases e : m / 64 = n / 64
      · exact second _ _ _ _ _ _ (by omega) (by omega)
      · exact first _ _ _ _ (by omega)
    rw [if_neg b2]
    by_cases b3 : n ≤ 0xFFFF
    · rw [if_pos b3]; exact first _ _ _ _ (by omega)
    rw [if_neg b3]; exact first _ _ _ _ (by omega)
  rw [if_neg a2, if_neg (show ¬ n ≤ 0x7FF by omega)]
  by_cases a3 : m ≤ 0xFFFF
  · rw [if_pos a3]
    by_cases b3 : n ≤ 0xFFFF
    · rw [if_pos b3]
      by_cases e : m / 4096 = n / 4096
      · by_cases e2 : m / 64 = n / 64
        · exact third _ _ _ _ _ _ _ _ (by omega) (by omega) (by omega)
        · exact second _ _ _ _ _ _ (by omega) (by omega)
      · exact first _ _ _ _ (by omega)
    rw [if_neg b3]; exact first _ _ _ _ (by omega)
  rw [if_neg a3, if_neg (show ¬ n ≤ 0xFFFF by omega)]
  by_cases e : m / 262144 = n / 262144
  · by_cases e2 : m / 4096 = n / 4096
    · by_cases e3 : m / 64 = n / 64
      · exact fourth _ _ _ _ _ _ _ _ _ _ (by omega) (by omega) (by omega) (by omega)
      · exact third _ _ _ _ _ _ _ _ (by omega) (by omega) (by omega)
    · exact second _ _ _ _ _ _ (by omega) (by omega)
  · exact first _ _ _ _ (by omega)

theorem utf8Char_ne_nil (c : Char) : ∃ x t, utf8Char c = x :: t := by
  unfold utf8Char
  simp only
  split
  · exact ⟨_, _, rfl⟩
  split
  · exact ⟨_, _, rfl⟩
  split
  · exact ⟨_, _, rfl⟩
  · exact ⟨_, _, rfl⟩

/-- UTF-8 byte order is code point order. -/
theorem strLe_eq_codeLe (a b : Str) : strLe a b = codeLe a b := by
  unfold strLe
  induction a generalizing b with
  | nil => cases b <;> rfl
  | cons x a ih =>
    cases b with
    | nil =>
      obtain ⟨u, t, h⟩ := utf8Char_ne_nil x
      simp [utf8, h, bytesLe, codeLe]
    | cons y b =>
      simp only [utf8, codeLe]
      by_cases h1 : x.toNat < y.toNat
      · rw [if_pos h1]; exact (bytesLe_firstLt (utf8Char_lt x y h1) _ _).1
      rw [if_neg h1]
      by_cases h2 : y.toNat < x.toNat
      · rw [if_pos h2]; exact (bytesLe_firstLt (utf8Char_lt y x h2) _ _).2
      rw [if_neg h2]
      have : x = y := Char.toNat_inj.mp (by omega)
      subst this
      rw [bytesLe_same, ih]

theorem codeLe_total (a b : Str) : codeLe a b = true ∨ codeLe b a = true := by
  induction a generalizing b with
  | nil => left; cases b <;> rfl
  | cons x a ih =>
    cases b with
    | nil => right; rfl
    | cons y b =>
      simp only [codeLe]
      by_cases h1 : x.toNat < y.toNat
      · left; rw [if_pos h1]
      by_cases h2 : y.toNat < x.toNat
      · right; rw [if_pos h2]
      simp only [h1, h2, if_false]
      exact ih b

theorem codeLe_antisymm (a b : Str) (h1 : codeLe a b = true) (h2 : codeLe b a = true) : a = b := by
  induction a generalizing b with
  | nil => cases b with
    | nil => rfl
    | cons y b => simp [codeLe] at h2
  | cons x a ih =>
    cases b with
    | nil => simp [codeLe] at h1
    | cons y b =>
      simp only [codeLe] at h1 h2
      by_cases e1 : x.toNat < y.toNat
      · rw [if_neg (by omega), if_pos e1] at h2; cases h2
      by_cases e2 : y.toNat < x.toNat
      · rw [if_neg e1, if_pos e2] at h1; cases h1
      have : x = y := Char.toNat_inj.mp (by omega)
      subst this
      rw [if_neg e1, if_neg e1] at h1 h2
      rw [ih b h1 h2]

theorem codeLe_trans (a b c : Str) (h1 : codeLe a b = true) (h2 : codeLe b c = true) : codeLe a c = true := by
  induction a generalizing b c with
  | nil => cases c <;> rfl
  | cons x a ih =>
    cases b with
    | nil => simp [codeLe] at h1
    | cons y b =>
      cases c with
      | nil => simp [codeLe] at h2
      | cons z c =>
        simp only [codeLe] at h1 h2 ⊢
        by_cases e1 : x.toNat < y.toNat
        · by_cases f1 : y.toNat < z.toNat
          · rw [if_pos (by omega)]
          · rw [if_neg f1] at h2
            by_cases f2 : z.toNat < y.toNat
            · rw [if_pos f2] at h2; cases h2
            · rw [if_pos (by omega)]
        · rw [if_neg e1] at h1
          by_cases e2 : y.toNat < x.toNat
          · rw [if_pos e2] at h1; cases h1
          · rw [if_neg e2] at h1
            by_cases f1 : y.toNat < z.toNat
            · rw [if_pos (by omega)]
            · rw [if_neg f1] at h2
              by_cases f2 : z.toNat < y.toNat
              · rw [if_pos f2] at h2; cases h2
              · rw [if_neg f2] at h2
                rw [if_neg (by omega), if_neg (by omega)]
                exact ih b c h1 h2

theorem insertByKey_sorted {β : Type} (x : Str × β) (l : List (Str × β))
    (h : l.Pairwise (fun a b => codeLe a.1 b.1 = true)) :
    (insertByKey x l).Pairwise (fun a b => codeLe a.1 b.1 = true) := by
  induction l with
  | nil => simp [insertByKey]
  | cons y t ih =>
    simp only [insertByKey]
    split
    · rename_i hle
      rw [strLe_eq_codeLe] at hle
      refine List.Pairwise.cons ?_ h
      intro z hz
      rcases List.mem_cons.mp hz with rfl | hz
      · exact hle
      · exact codeLe_trans _ _ _ hle (List.rel_of_pairwise_cons h hz)
    · rename_i hle
      rw [strLe_eq_codeLe] at hle
      have hyx : codeLe y.1 x.1 = true := (codeLe_total x.1 y.1).resolve_left hle
      refine List.Pairwise.cons ?_ (ih (List.Pairwise.of_cons h))
      intro z hz
      rcases List.mem_cons.mp ((insertByKey_perm x t).mem_iff.mp hz) with rfl | hz
      · exact hyx
      · exact List.rel_of_pairwise_cons h hz

theorem sortByKey_sorted {β : Type} (l : List (Str × β)) :
    (sortByKey l).Pairwise (fun a b => codeLe a.1 b.1 = true) := by
  induction l with
  | nil => exact .nil
  | cons x t ih => exact insertByKey_sorted x _ ih

/-- Two sorted permutations of each other with distinct keys are equal. -/
theorem sorted_unique {β : Type} : ∀ (l l' : List (Str × β)), l.Perm l' →
    l.Pairwise (fun a b => codeLe a.1 b.1 = true) → l'.Pairwise (fun a b => codeLe a.1 b.1 = true) →
    (l.map (·.1)).Nodup → l = l'
  | [], l', hp, _, _, _ => by rw [List.nil_perm.mp hp]
  | x :: l, [], hp, _, _, _ => by simpa using hp.length_eq
  | x :: l, y :: l', hp, h1, h2, hn => by
    have hxy : x = y := by
      have hx : x ∈ y :: l' := hp.mem_iff.mp (by simp)
      have hy : y ∈ x :: l := hp.mem_iff.mpr (by simp)
      rcases List.mem_cons.mp hx with h | hx
      · exact h
      rcases List.mem_cons.mp hy with h | hy
      · exact h.symm
      have e := codeLe_antisymm _ _ (List.rel_of_pairwise_cons h1 hy) (List.rel_of_pairwise_cons h2 hx)
      exfalso
      have : x.1 ∉ l.map (·.1) := (List.nodup_cons.mp hn).1
      exact this (e ▸ List.mem_map_of_mem hy)
    subst hxy
    rw [sorted_unique l l' (List.Perm.cons_inv hp) (List.Pairwise.of_cons h1) (List.Pairwise.of_cons h2)
      (List.nodup_cons.mp hn).2]

theorem sortByKey_perm_eq {β : Type} {l l' : List (Str × β)} (hp : l.Perm l') (hn : (l.map (·.1)).Nodup) :
    sortByKey l = sortByKey l' := by
  refine sorted_unique _ _ ?_ (sortByKey_sorted l) (sortByKey_sorted l') ?_
  · exact (sortByKey_perm l).trans (hp.trans (sortByKey_perm l').symm)
  · exact ((sortByKey_perm l).map (·.1)).nodup_iff.mpr hn

end RJ
