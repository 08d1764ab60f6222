import Verif.Spec.Quote
/- Decidable equality of the token types, so that closed equations between token lists can be checked by the kernel. -/
namespace RJ

mutual
def MTok.same : MTok → MTok → Bool
  | .op a, .op b => decide (a = b)
  | .ident a, .ident b => decide (a = b)
  | .under, .under => true
  | .lit a, .lit b => decide (a = b)
  | .life a, .life b => decide (a = b)
  | .group d a, .group e b => decide (d = e) && mtoksSame a b
  | _, _ => false
def mtoksSame : List MTok → List MTok → Bool
  | [], [] => true
  | a :: l, b :: r => a.same b && mtoksSame l r
  | _, _ => false
end

mutual
theorem MTok.same_eq : ∀ a b : MTok, a.same b = true → a = b := by
  intro a b h
  cases a <;> cases b <;> simp_all [MTok.same]
  exact mtoksSame_eq _ _ h.2
theorem mtoksSame_eq : ∀ a b : List MTok, mtoksSame a b = true → a = b
  | [], [], _ => rfl
  | a :: l, b :: r, h => by
    simp only [mtoksSame, Bool.and_eq_true] at h
    rw [MTok.same_eq a b h.1, mtoksSame_eq l r h.2]
  | [], _ :: _, h => by simp [mtoksSame] at h
  | _ :: _, [], h => by simp [mtoksSame] at h
end

mutual
theorem MTok.same_refl : ∀ a : MTok, a.same a = true
  | .op a => by simp [MTok.same]
  | .ident a => by simp [MTok.same]
  | .under => rfl
  | .lit a => by simp [MTok.same]
  | .life a => by simp [MTok.same]
  | .group d a => by simp [MTok.same, mtoksSame_refl a]
theorem mtoksSame_refl : ∀ a : List MTok, mtoksSame a a = true
  | [] => rfl
  | a :: l => by simp [mtoksSame, MTok.same_refl a, mtoksSame_refl l]
end

instance : DecidableEq MTok := fun a b =>
  if h : a.same b = true then isTrue (MTok.same_eq a b h) else isFalse (fun e => h (e ▸ MTok.same_refl a))

mutual
def QTok.same : QTok → QTok → Bool
  | .punct a i, .punct b j => decide (a = b) && decide (i = j)
  | .ident a, .ident b => decide (a = b)
  | .lit a, .lit b => decide (a = b)
  | .group d a, .group e b => decide (d = e) && qtoksSame a b
  | _, _ => false
def qtoksSame : List QTok → List QTok → Bool
  | [], [] => true
  | a :: l, b :: r => a.same b && qtoksSame l r
  | _, _ => false
end

mutual
theorem QTok.same_eq : ∀ a b : QTok, a.same b = true → a = b := by
  intro a b h
  cases a <;> cases b <;> simp_all [QTok.same]
  exact qtoksSame_eq _ _ h.2
theorem qtoksSame_eq : ∀ a b : List QTok, qtoksSame a b = true → a = b
  | [], [], _ => rfl
  | a :: l, b :: r, h => by
    simp only [qtoksSame, Bool.and_eq_true] at h
    rw [QTok.same_eq a b h.1, qtoksSame_eq l r h.2]
  | [], _ :: _, h => by simp [qtoksSame] at h
  | _ :: _, [], h => by simp [qtoksSame] at h
end

mutual
theorem QTok.same_refl : ∀ a : QTok, a.same a = true
  | .punct a i => by simp [QTok.same]
  | .ident a => by simp [QTok.same]
  | .lit a => by simp [QTok.same]
  | .group d a => by simp [QTok.same, qtoksSame_refl a]
theorem qtoksSame_refl : ∀ a : List QTok, qtoksSame a a = true
  | [] => rfl
  | a :: l => by simp [qtoksSame, QTok.same_refl a, qtoksSame_refl l]
end

instance : DecidableEq QTok := fun a b =>
  if h : a.same b = true then isTrue (QTok.same_eq a b h) else isFalse (fun e => h (e ▸ QTok.same_refl a))

mutual
/-- Decision procedure for `Spec.NoHash`. -/
def noHash : MTok → Bool
  | .op s => decide (s ≠ ['#']) && decide (s ≠ [])
  | .group _ ts => noHashes ts
  | _ => true
def noHashes : List MTok → Bool
  | [] => true
  | t :: ts => noHash t && noHashes ts
end

mutual
theorem noHash_iff : ∀ t : MTok, noHash t = true ↔ Spec.NoHash t
  | .op s => by simp [noHash, Spec.NoHash]
  | .group _ ts => by simp [noHash, Spec.NoHash, noHashes_iff ts]
  | .ident _ => by simp [noHash, Spec.NoHash]
  | .under => by simp [noHash, Spec.NoHash]
  | .lit _ => by simp [noHash, Spec.NoHash]
  | .life _ => by simp [noHash, Spec.NoHash]
theorem noHashes_iff : ∀ ts : List MTok, noHashes ts = true ↔ Spec.NoHashes ts
  | [] => by simp [noHashes, Spec.NoHashes]
  | t :: ts => by simp [noHashes, Spec.NoHashes, noHash_iff t, noHashes_iff ts]
end

instance (ts : List MTok) : Decidable (Spec.NoHashes ts) := decidable_of_iff _ (noHashes_iff ts)

end RJ
