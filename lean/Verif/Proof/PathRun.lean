import Verif.Model.PathRun
import Verif.Spec.PathRun
import Verif.Proof.Path
import Verif.Proof.PathText
/-
  The counted runs of the path operations (C97).
-/
namespace RJ
open Spec
variable {F : Type}

theorem appendRun_eq (p : Path) (g : Finder) : p.appendRun g = ⟨(comps p).length, (comps p).length, p.append g⟩ := by
  induction p with
  | last f => rfl
  | cons f p ih => simp [Path.appendRun, Path.append, comps, ih]

theorem appendAll_eq (rest : List Finder) (c : PCost Path) (hd : c.depth + 1 = (comps c.res).length) :
    (Path.appendAll rest c).res = rest.foldl Path.append c.res ∧ (Path.appendAll rest c).depth + 1 = (comps c.res).length + rest.length ∧
    2 * (Path.appendAll rest c).steps = 2 * c.steps + rest.length * (rest.length + 2 * (comps c.res).length - 1) := by
  induction rest generalizing c with
  | nil => exact ⟨rfl, hd, by simp [Path.appendAll]⟩
  | cons g rest ih =>
    simp only [Path.appendAll, appendRun_eq]
    have h1 : (comps (c.res.append g)).length = (comps c.res).length + 1 := by rw [comps_append, List.length_append]; rfl
    obtain ⟨i1, i2, i3⟩ := ih ⟨c.steps + (comps c.res).length, max c.depth (comps c.res).length, c.res.append g⟩ (by dsimp only; rw [h1]; omega)
    dsimp only at i1 i2 i3
    refine ⟨i1, ?_, ?_⟩
    · rw [i2, h1, List.length_cons]; omega
    · rw [i3, h1, List.length_cons]
      generalize (comps c.res).length = m at *
      generalize rest.length = n
      have e1 : n + 2 * (m + 1) - 1 = n + 2 * m + 1 := by omega
      have e2 : n + 1 + 2 * m - 1 = n + 2 * m := by omega
      rw [e1, e2, Nat.mul_add n, Nat.add_mul, Nat.mul_one, Nat.one_mul]
      omega

/-- The loop: the result, a bound on the steps, and a bound on the components by the dots. -/
theorem pathLoopRun_spec (s buf : Str) (vec : List Finder) :
    (pathLoopRun s buf vec).2 = pathLoop s buf vec ∧ (pathLoopRun s buf vec).1 ≤ 2 * s.length + buf.length + 1 ∧
    ∀ fs, (pathLoopRun s buf vec).2 = .ok fs → fs.length ≤ vec.length + dots s + 1 := by
  fun_induction pathLoop s buf vec with
  | case1 buf vec f h => simp [pathLoopRun, h, dots]; omega
  | case2 buf vec e h => simp [pathLoopRun, h]; omega
  | case3 iter buf vec f h ih =>
    obtain ⟨i1, i2, i3⟩ := ih
    rw [pathLoopRun.eq_def]
    simp only [if_true, h]
    refine ⟨i1, by simp at i2 ⊢; omega, fun fs hf => ?_⟩
    have := i3 fs hf
    simp [dots] at this ⊢
    omega
  | case4 iter buf vec e h =>
    rw [pathLoopRun.eq_def]
    simp only [if_true, h]
    exact ⟨trivial, by simp; omega, fun fs hf => nomatch hf⟩
  | case5 buf vec iter' h ih =>
    obtain ⟨i1, i2, i3⟩ := ih
    rw [pathLoopRun.eq_def]
    simp only [if_neg h, if_true]
    refine ⟨i1, by simp at i2 ⊢; omega, fun fs hf => ?_⟩
    have := i3 fs hf
    simp [dots] at this ⊢
    omega
  | case6 buf vec d iter' h hd ih =>
    obtain ⟨i1, i2, i3⟩ := ih
    rw [pathLoopRun.eq_def]
    simp only [if_neg h, if_neg hd, if_true]
    refine ⟨i1, by simp at i2 ⊢; omega, fun fs hf => ?_⟩
    have := i3 fs hf
    simp [dots] at this ⊢
    omega
  | case7 buf vec h ih =>
    obtain ⟨i1, i2, i3⟩ := ih
    rw [pathLoopRun.eq_def]
    simp only [if_neg h, if_true]
    refine ⟨i1, by simp at i2 ⊢; omega, fun fs hf => ?_⟩
    have := i3 fs hf
    simp [dots] at this ⊢
    omega
  | case8 c iter buf vec h h2 ih =>
    obtain ⟨i1, i2, i3⟩ := ih
    rw [pathLoopRun.eq_def]
    simp only [if_neg h, if_neg h2]
    refine ⟨i1, by simp at i2 ⊢; omega, fun fs hf => ?_⟩
    have := i3 fs hf
    simp [dots] at this ⊢
    omega

/-- `parse_path`. -/
theorem parsePathRun_spec (s : Str) :
    (parsePathRun s).res = parsePath s ∧
    (∀ p, parsePath s = .ok p → (parsePathRun s).depth + 1 = (comps p).length ∧ (comps p).length ≤ dots s + 1 ∧
      2 * (parsePathRun s).steps ≤ 4 * s.length + 2 + (comps p).length * ((comps p).length - 1) ∧ (comps p).length * ((comps p).length - 1) ≤ 2 * (parsePathRun s).steps) ∧
    (∀ e, parsePath s = .error e → (parsePathRun s).depth = 0 ∧ (parsePathRun s).steps ≤ 2 * s.length + 1) := by
  obtain ⟨h1, h2, h3⟩ := pathLoopRun_spec s [] []
  unfold parsePathRun parsePath
  rw [← h1]
  clear h1
  generalize pathLoopRun s [] [] = r at *
  obtain ⟨n, x⟩ := r
  dsimp only at *
  cases x with
  | error e => exact ⟨rfl, fun p hp => (nomatch hp), fun _ _ => ⟨rfl, by simpa using h2⟩⟩
  | ok fs =>
    cases fs with
    | nil => exact ⟨rfl, fun p hp => (nomatch hp), fun _ _ => ⟨rfl, by simpa using h2⟩⟩
    | cons f rest =>
      obtain ⟨i1, i2, i3⟩ := appendAll_eq rest ⟨0, 0, .last f⟩ rfl
      refine ⟨?_, ?_, fun e he => (nomatch he)⟩
      · dsimp only; rw [i1]; rfl
      · intro p hp
        cases hp
        rw [comps_build]
        have h3' := h3 _ rfl
        simp only [comps, List.length_cons, List.length_nil] at i2 i3 h2 h3' ⊢
        have e1 : rest.length + 2 * (0 + 1) - 1 = rest.length + 1 := by omega
        rw [e1, Nat.mul_comm rest.length] at i3
        refine ⟨by omega, by omega, ?_, ?_⟩
        · rw [Nat.add_sub_cancel]; omega
        · rw [Nat.add_sub_cancel]; omega

theorem findRun_spec (p : Path) (j : Json F) :
    (p.findRun j).res = p.find j ∧ (p.findRun j).depth ≤ (comps p).length ∧ (p.findRun j).steps ≤ (comps p).length ∧ (∀ x, p.find j = .ok x → (p.findRun j).depth = (comps p).length) := by
  induction p generalizing j with
  | last f => exact ⟨rfl, Nat.le_refl _, Nat.le_refl _, fun _ _ => rfl⟩
  | cons f p ih =>
    simp only [Path.findRun, Path.find, comps, List.length_cons]
    cases f.find j with
    | error e => exact ⟨rfl, by simp, by simp, fun x hx => nomatch hx⟩
    | ok inner =>
      obtain ⟨i1, i2, i3, i4⟩ := ih inner
      exact ⟨i1, by simpa using i2, by simpa using i3, fun x hx => by simpa using i4 x hx⟩

theorem discardRun_spec (p : Path) (j : Json F) :
    (p.discardRun j).res = p.discard j ∧ (p.discardRun j).depth ≤ (comps p).length ∧ (p.discardRun j).steps ≤ (comps p).length ∧
    (∀ x, (p.discard j).2 = .ok x → (p.discardRun j).depth = (comps p).length) := by
  induction p generalizing j with
  | last f => exact ⟨rfl, Nat.le_refl _, Nat.le_refl _, fun _ _ => rfl⟩
  | cons f p ih =>
    simp only [Path.discardRun, Path.discard, comps, List.length_cons]
    cases f.findMut j with
    | error e => exact ⟨rfl, by simp, by simp, fun x hx => nomatch hx⟩
    | ok inner =>
      obtain ⟨i1, i2, i3, i4⟩ := ih inner.val
      exact ⟨by simp [i1], by simpa using i2, by simpa using i3, fun x hx => by simpa using i4 x hx⟩

theorem grown_le (f : Finder) (j : Json F) (fs : List Finder) : f.grown j + elementsNeeded fs ≤ elementsNeeded (f :: fs) := by
  cases f with
  | key k => simp [Finder.grown, elementsNeeded]
  | index i => cases j <;> simp only [Finder.grown, elementsNeeded] <;> omega

theorem updateRun_spec (lim : Nat) (p : Path) (j v : Json F) :
    (p.updateRun lim j v).res = p.update lim j v ∧ 1 ≤ (p.updateRun lim j v).depth ∧ (p.updateRun lim j v).depth ≤ (comps p).length + 1 ∧
    (p.updateRun lim j v).steps ≤ 2 * (comps p).length + elementsNeeded (comps p) ∧
    (∀ x, (p.update lim j v).2 = .ok x → (p.updateRun lim j v).depth = (comps p).length + 1) := by
  induction p generalizing j with
  | last f =>
    refine ⟨rfl, by simp [Path.updateRun], Nat.le_refl _, ?_, fun _ _ => rfl⟩
    have := grown_le f j []
    simp only [Path.updateRun, comps, List.length_cons, List.length_nil, elementsNeeded] at this ⊢
    omega
  | cons f p ih =>
    have hg := grown_le f j (comps p)
    simp only [Path.updateRun, Path.update, comps, List.length_cons]
    cases f.find j with
    | ok _ =>
      dsimp only
      cases f.findMut j with
      | error e => exact ⟨rfl, by simp, by simp, by simp; omega, fun x hx => nomatch hx⟩
      | ok inner =>
        obtain ⟨i1, i0, i2, i3, i4⟩ := ih inner.val
        dsimp only
        rw [i1]
        rcases hr : p.update lim inner.val v with ⟨j2, r | e | _⟩
        · exact ⟨rfl, by omega, by omega, by omega, fun x hx => by rw [hr] at i4; have := i4 r rfl; omega⟩
        · exact ⟨rfl, by omega, by omega, by omega, fun x hx => nomatch hx⟩
        · exact ⟨rfl, by omega, by omega, by omega, fun x hx => nomatch hx⟩
    | error _ =>
      dsimp only
      have hc : 0 < (comps p).length := List.length_pos_iff.2 (comps_ne_nil p)
      rcases f.update lim j .null with ⟨j1, inner | e | _⟩
      · obtain ⟨i1, i0, i2, i3, i4⟩ := ih inner.val
        dsimp only
        rw [i1]
        rcases hr : p.update lim inner.val v with ⟨j2, r | e | _⟩
        · exact ⟨rfl, by omega, by omega, by omega, fun x hx => by rw [hr] at i4; have := i4 r rfl; omega⟩
        · exact ⟨rfl, by omega, by omega, by omega, fun x hx => nomatch hx⟩
        · exact ⟨rfl, by omega, by omega, by omega, fun x hx => nomatch hx⟩
      · exact ⟨rfl, by simp, by dsimp only; omega, by dsimp only; omega, fun x hx => nomatch hx⟩
      · exact ⟨rfl, by simp, by dsimp only; omega, by dsimp only; omega, fun x hx => nomatch hx⟩

theorem find_null (f : Finder) : ∃ e, f.find (.null : Json F) = .error e := by
  cases f <;> exact ⟨_, rfl⟩

/-- On `null` every element that the path asks for is made. -/
theorem updateRun_needs (lim : Nat) (p : Path) (v : Json F) (x : Ref F) (h : (p.update lim .null v).2 = .ok x) : elementsNeeded (comps p) + 2 * (comps p).length ≤ (p.updateRun lim .null v).steps := by
  induction p generalizing x with
  | last f => cases f <;> simp [Path.updateRun, comps, elementsNeeded, Finder.grown]
  | cons f p ih =>
    obtain ⟨e, he⟩ := find_null (F := F) f
    simp only [Path.update, he] at h
    simp only [Path.updateRun, he, comps, List.length_cons]
    rcases Finder.update_cases lim f .null .null with ⟨j', r, h1, h2, _⟩ | ⟨h1, _⟩
    · rw [h1] at h ⊢
      dsimp only at h ⊢
      rw [h2] at h ⊢
      have hx : ∃ y, (p.update lim .null v).2 = .ok y := by
        rcases hr : p.update lim .null v with ⟨j2, q | e | _⟩
        · exact ⟨q, rfl⟩
        · rw [hr] at h; cases h
        · rw [hr] at h; cases h
      obtain ⟨y, hy⟩ := hx
      have := ih y hy
      cases f <;> simp only [elementsNeeded, Finder.grown] <;> omega
    · rw [h1] at h; cases h

end RJ
