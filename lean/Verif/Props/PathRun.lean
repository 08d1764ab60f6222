import Verif.Proof.PathRun
import Verif.Props.Path
/-
  C97: what `get`, `set` and `del` cost.
-/
namespace RJ
open Spec
variable {F : Type}

/-- **C97, same results.** The counted runs are `get`, `del` and `set`. -/
theorem C97_same (lim : Nat) (j v : Json F) (s : Str) :
    (j.getRun s).res = j.get s ∧ (j.delRun s).res = j.del s ∧ (j.setRun lim s v).res = j.set lim s v := by
  obtain ⟨h1, _, _⟩ := parsePathRun_spec s
  simp only [Json.getRun, Json.delRun, Json.setRun, Json.get, Json.del, Json.set, withPath, h1]
  by_cases h0 : s = []
  · simp only [if_pos h0]; exact ⟨rfl, rfl, rfl⟩
  · simp only [if_neg h0]
    cases parsePath s with
    | error e => exact ⟨rfl, rfl, rfl⟩
    | ok p => exact ⟨(findRun_spec p j).1, (discardRun_spec p j).1, (updateRun_spec lim p j v).1⟩

/-- A call along a path: steps and depth are those of `parse_path` and of the method that is called. -/
theorem withPath_cost {α : Type} (s : Str) (err : Error → α) (body : Path → PCost α) :
    ((withPath s err body).depth = 0 ∧ (withPath s err body).steps ≤ 2 * s.length + 1 ∧ ∀ fs, ¬ PathText s fs) ∨
    (∃ p, PathText s (comps p) ∧ parsePath s = .ok p ∧ (withPath s err body).depth = max ((comps p).length - 1) (body p).depth ∧ (comps p).length ≤ dots s + 1 ∧
      2 * (withPath s err body).steps ≤ 4 * s.length + 2 + (comps p).length * ((comps p).length - 1) + 2 * (body p).steps ∧
      (comps p).length * ((comps p).length - 1) + 2 * (body p).steps ≤ 2 * (withPath s err body).steps) := by
  obtain ⟨h1, h2, h3⟩ := parsePathRun_spec s
  simp only [withPath, h1]
  by_cases h0 : s = []
  · left
    simp only [if_pos h0]
    exact ⟨trivial, Nat.zero_le _, fun fs h => h.1 h0⟩
  · simp only [if_neg h0]
    cases hp : parsePath s with
    | error e =>
      obtain ⟨h4, h5⟩ := h3 e hp
      exact .inl ⟨h4, h5, fun fs h => by obtain ⟨_, p, h6, _⟩ := parsePath_of_text h; rw [hp] at h6; cases h6⟩
    | ok p =>
      obtain ⟨h4, h5, h6, h7⟩ := h2 p hp
      refine .inr ⟨p, text_of_parsePath h0 hp, rfl, ?_, h5, ?_, ?_⟩
      · dsimp only; congr 1; omega
      · dsimp only; omega
      · dsimp only; omega

/-- **C97, depth.** No more calls are active at a time than the path has dots, and one (`set`: two); the size and the nesting of the document do not matter. -/
theorem C97_depth (lim : Nat) (j v : Json F) (s : Str) :
    (j.getRun s).depth ≤ dots s + 1 ∧ (j.delRun s).depth ≤ dots s + 1 ∧ (j.setRun lim s v).depth ≤ dots s + 2 := by
  refine ⟨?_, ?_, ?_⟩
  · rcases withPath_cost s .error (fun p => p.findRun j) with ⟨h, _⟩ | ⟨p, _, _, h, h2, _⟩
    · show (withPath _ _ _).depth ≤ _; omega
    · show (withPath _ _ _).depth ≤ _
      have := (findRun_spec p j).2.1
      omega
  · rcases withPath_cost s (fun e => (j, .error e)) (fun p => p.discardRun j) with ⟨h, _⟩ | ⟨p, _, _, h, h2, _⟩
    · show (withPath _ _ _).depth ≤ _; omega
    · show (withPath _ _ _).depth ≤ _
      have := (discardRun_spec p j).2.1
      omega
  · rcases withPath_cost s (fun e => (j, .err e)) (fun p => p.updateRun lim j v) with ⟨h, _⟩ | ⟨p, _, _, h, h2, _⟩
    · show (withPath _ _ _).depth ≤ _; omega
    · show (withPath _ _ _).depth ≤ _
      have := (updateRun_spec lim p j v).2.2.1
      omega

/-- **C97, exact depth.** On a path of `n` components the calls of `get` and `del` nest `n` deep if the place exists, those of `set` `n + 1` deep if it returns; on every other document at least `n - 1` deep: the
path is built by recursion before the document is looked at. -/
theorem C97_depth_exactly (lim : Nat) (j v : Json F) (s : Str) (fs : List Finder) (h : PathText s fs) :
    (fs.length - 1 ≤ (j.getRun s).depth ∧ (j.getRun s).depth ≤ fs.length ∧ ((∃ x, j.get s = .ok x) → (j.getRun s).depth = fs.length)) ∧
    (fs.length - 1 ≤ (j.delRun s).depth ∧ (j.delRun s).depth ≤ fs.length ∧ ((∃ x, (j.del s).2 = .ok x) → (j.delRun s).depth = fs.length)) ∧
    (fs.length - 1 ≤ (j.setRun lim s v).depth ∧ (j.setRun lim s v).depth ≤ fs.length + 1 ∧ ((∃ x, (j.set lim s v).2 = .ok x) → (j.setRun lim s v).depth = fs.length + 1)) := by
  obtain ⟨h0, p, hp, rfl⟩ := parsePath_of_text h
  rw [get_of_text j h0 hp, del_of_text j h0 hp, set_of_text lim j v h0 hp]
  refine ⟨?_, ?_, ?_⟩
  · rcases withPath_cost s .error (fun p => p.findRun j) with ⟨_, _, h1⟩ | ⟨q, _, hq, h1, _⟩
    · exact absurd h (h1 _)
    · rw [hp] at hq; cases hq
      obtain ⟨_, h2, _, h3⟩ := findRun_spec p j
      show _ ≤ (withPath _ _ _).depth ∧ (withPath _ _ _).depth ≤ _ ∧ (_ → (withPath _ _ _).depth = _)
      rw [h1]
      exact ⟨by omega, by omega, fun ⟨x, hx⟩ => by rw [h3 x hx]; omega⟩
  · rcases withPath_cost s (fun e => (j, .error e)) (fun p => p.discardRun j) with ⟨_, _, h1⟩ | ⟨q, _, hq, h1, _⟩
    · exact absurd h (h1 _)
    · rw [hp] at hq; cases hq
      obtain ⟨_, h2, _, h3⟩ := discardRun_spec p j
      show _ ≤ (withPath _ _ _).depth ∧ (withPath _ _ _).depth ≤ _ ∧ (_ → (withPath _ _ _).depth = _)
      rw [h1]
      exact ⟨by omega, by omega, fun ⟨x, hx⟩ => by rw [h3 x hx]; omega⟩
  · rcases withPath_cost s (fun e => (j, .err e)) (fun p => p.updateRun lim j v) with ⟨_, _, h1⟩ | ⟨q, _, hq, h1, _⟩
    · exact absurd h (h1 _)
    · rw [hp] at hq; cases hq
      obtain ⟨_, _, h2, _, h3⟩ := updateRun_spec lim p j v
      show _ ≤ (withPath _ _ _).depth ∧ (withPath _ _ _).depth ≤ _ ∧ (_ → (withPath _ _ _).depth = _)
      rw [h1]
      exact ⟨by omega, by omega, fun ⟨x, hx⟩ => by rw [h3 x hx]; omega⟩

theorem square_le {n d : Nat} (h : n ≤ d + 1) : n * (n - 1) ≤ d * (d + 1) := by
  rw [Nat.mul_comm d]
  exact Nat.mul_le_mul h (by omega)

/-- **C97, time.** On a text of `n` characters with `d` dots `get` and `del` take at most 2n + d(d+3)/2 + 2 steps, whether they succeed or not and whatever the document is; `set` at most 2n + d(d+5)/2 + 3, and one for each
element that the indices of the path ask for. -/
theorem C97_time (lim : Nat) (j v : Json F) (s : Str) :
    2 * (j.getRun s).steps ≤ 4 * s.length + dots s * (dots s + 3) + 4 ∧ 2 * (j.delRun s).steps ≤ 4 * s.length + dots s * (dots s + 3) + 4 ∧
    (∀ fs, PathText s fs → 2 * (j.setRun lim s v).steps ≤ 4 * s.length + dots s * (dots s + 5) + 6 + 2 * elementsNeeded fs) ∧
    ((∀ fs, ¬ PathText s fs) → (j.setRun lim s v).steps ≤ 2 * s.length + 1) := by
  have e : dots s * (dots s + 3) = dots s * (dots s + 1) + 2 * dots s := by rw [Nat.mul_add, Nat.mul_add]; omega
  have e' : dots s * (dots s + 5) = dots s * (dots s + 1) + 4 * dots s := by rw [Nat.mul_add, Nat.mul_add]; omega
  rw [e, e']
  refine ⟨?_, ?_, ?_, ?_⟩
  · rcases withPath_cost s .error (fun p => p.findRun j) with ⟨_, h, _⟩ | ⟨p, _, _, _, h2, h, _⟩
    · show 2 * (withPath _ _ _).steps ≤ _; omega
    · show 2 * (withPath _ _ _).steps ≤ _
      have h3 := (findRun_spec p j).2.2.1
      have h4 := square_le h2
      omega
  · rcases withPath_cost s (fun e => (j, .error e)) (fun p => p.discardRun j) with ⟨_, h, _⟩ | ⟨p, _, _, _, h2, h, _⟩
    · show 2 * (withPath _ _ _).steps ≤ _; omega
    · show 2 * (withPath _ _ _).steps ≤ _
      have h3 := (discardRun_spec p j).2.2.1
      have h4 := square_le h2
      omega
  · intro fs hf
    rcases withPath_cost s (fun e => (j, .err e)) (fun p => p.updateRun lim j v) with ⟨_, _, h⟩ | ⟨p, hp, _, _, h2, h, _⟩
    · exact absurd hf (h fs)
    · show 2 * (withPath _ _ _).steps ≤ _
      have h3 := (updateRun_spec lim p j v).2.2.2.1
      have h4 := square_le h2
      rw [C27_unambiguous s fs _ hf hp]
      omega
  · intro hf
    rcases withPath_cost s (fun e => (j, .err e)) (fun p => p.updateRun lim j v) with ⟨_, h, _⟩ | ⟨p, hp, _⟩
    · exact h
    · exact absurd hp (hf _)

/-- **C97, the square is needed.** On a path of `n` components each call takes at least n(n-1)/2 steps, whatever the document is. -/
theorem C97_quadratic (lim : Nat) (j v : Json F) (s : Str) (fs : List Finder) (h : PathText s fs) :
    fs.length * (fs.length - 1) ≤ 2 * (j.getRun s).steps ∧ fs.length * (fs.length - 1) ≤ 2 * (j.delRun s).steps ∧ fs.length * (fs.length - 1) ≤ 2 * (j.setRun lim s v).steps := by
  refine ⟨?_, ?_, ?_⟩
  · rcases withPath_cost s .error (fun p => p.findRun j) with ⟨_, _, h1⟩ | ⟨q, hq, _, _, _, _, h1⟩
    · exact absurd h (h1 _)
    · rw [C27_unambiguous s fs _ h hq]; show _ ≤ 2 * (withPath _ _ _).steps; omega
  · rcases withPath_cost s (fun e => (j, .error e)) (fun p => p.discardRun j) with ⟨_, _, h1⟩ | ⟨q, hq, _, _, _, _, h1⟩
    · exact absurd h (h1 _)
    · rw [C27_unambiguous s fs _ h hq]; show _ ≤ 2 * (withPath _ _ _).steps; omega
  · rcases withPath_cost s (fun e => (j, .err e)) (fun p => p.updateRun lim j v) with ⟨_, _, h1⟩ | ⟨q, hq, _, _, _, _, h1⟩
    · exact absurd h (h1 _)
    · rw [C27_unambiguous s fs _ h hq]; show _ ≤ 2 * (withPath _ _ _).steps; omega

theorem pieces_dots (k : Nat) : Pieces (List.replicate k '.') (List.replicate (k + 1) []) := by
  induction k with
  | zero => exact .last .nil
  | succ k ih => exact Pieces.cons (r := []) .nil (by simp) ih

theorem comps_empty (k : Nat) : CompsOf (List.replicate k []) (List.replicate k (.key [])) := by
  induction k with
  | zero => exact .nil
  | succ k ih => exact .cons (.plain [] (by simp) (by simp)) ih

/-- **C97, attained.** Text of `k` dots: on every document, even `null`, `get` nests `k` calls deep at least, with k(k+1)/2 steps at least; the code has no limit. -/
theorem C97_attained (j : Json F) (k : Nat) (hk : 0 < k) : k ≤ (j.getRun (List.replicate k '.')).depth ∧ k * (k + 1) ≤ 2 * (j.getRun (List.replicate k '.')).steps := by
  have h : PathText (List.replicate k '.') (List.replicate (k + 1) (.key [])) := ⟨by simp; omega, _, pieces_dots k, comps_empty (k + 1)⟩
  have h1 := (C97_depth_exactly 0 j .null _ _ h).1.1
  have h2 := (C97_quadratic 0 j .null _ _ h).1
  simp only [List.length_replicate, Nat.add_sub_cancel] at h1 h2
  exact ⟨h1, by rw [Nat.mul_comm]; exact h2⟩

/-- **C97, short texts, long runs.** On `null` `set` makes every element that the indices of the path ask for, and takes a step for each: `#999999999` takes a billion. -/
theorem C97_needs (lim : Nat) (v : Json F) (s : Str) (fs : List Finder) (h : PathText s fs) (x : Ref F) (hx : ((.null : Json F).set lim s v).2 = .ok x) :
    elementsNeeded fs + 2 * fs.length ≤ ((.null : Json F).setRun lim s v).steps := by
  obtain ⟨h0, p, hp, rfl⟩ := parsePath_of_text h
  rw [set_of_text lim _ v h0 hp] at hx
  have h2 := updateRun_needs lim p v x hx
  rcases withPath_cost s (fun e => ((.null : Json F), .err e)) (fun p => p.updateRun lim .null v) with ⟨_, _, h1⟩ | ⟨q, _, hq, _, _, _, h1⟩
  · exact absurd h (h1 _)
  · rw [hp] at hq; cases hq
    show _ ≤ (withPath _ _ _).steps
    omega

-- it does return, if the element fits into memory
example (v : Json F) : ∃ x, ((.null : Json F).set (10 ^ 10) "#999999999".toList v).2 = .ok x := by
  have h : PathText (writePath [.index 999999999]) [.index 999999999] := C26_expressible _ (by simp [Writable])
  rw [show writePath [.index 999999999] = "#999999999".toList by decide +kernel] at h
  obtain ⟨j', r, e⟩ := C21_set_succeeds (10 ^ 10) _ _ h (by simp) (.null : Json F) v
  exact ⟨r, by rw [e]⟩

/-- A document and a path with an index. -/
def costDoc : Json F := .object [("a".toList, (.array [.null, .boolean true], []))]

/-- Beside C97: a place that exists, one that `set` makes (it appends four elements), one that does not exist. -/
example : let j : Json F := costDoc
    ((j.getRun "a.#1".toList).steps, (j.getRun "a.#1".toList).depth) = (11, 2) ∧ ((j.setRun 100 "a.#5.b".toList .null).steps, (j.setRun 100 "a.#5.b".toList .null).depth) = (23, 4) ∧
    ((j.delRun "x.y.z".toList).steps, (j.delRun "x.y.z".toList).depth) = (13, 2) := by
  refine ⟨?_, ?_, ?_⟩ <;> rfl

/-- The number of elements of an array; nothing else has any. -/
def elementsOf : Json F → Nat
  | .array l => l.length
  | _ => 0

theorem ref_len (vec : List (Json F)) (i : Nat) (v : Json F) (js : Ref F) (h : (Json.array vec).indexMut (.index i) = .ok js) : elementsOf (js.assign v).1 = vec.length := by
  simp only [Json.indexMut, Finder.findMut] at h
  split at h
  · rename_i hr
    split at hr
    · cases hr; cases h; simp [Ref.assign, elementsOf]
    · cases hr
  · cases h

/-- **C97, what is appended is paid for.** `set` with a path of one key or index: two steps, and one for every element by which the array grows (an array that `set` makes grows from nothing). -/
theorem C97_appends (lim : Nat) (f : Finder) (j v : Json F) (j' : Json F) (x : Ref F) (h : Path.update lim (.last f) j v = (j', .ok x)) :
    (Path.updateRun lim (.last f) j v).steps = elementsOf j' - elementsOf j + 2 := by
  show f.grown j + 2 = _
  rw [show Path.update lim (.last f) j v = f.update lim j v from rfl] at h
  have fin : ∀ (vec : List (Json F)) (i : Nat), (match (Json.array vec).indexMut (.index i) with
      | .ok js => let (j, r) := js.assign v; (j, .ok r)
      | _ => (j, .panic)) = (j', Out.ok x) → elementsOf j' = vec.length := by
    intro vec i h
    cases e : (Json.array vec).indexMut (.index i) with
    | ok js =>
      rw [e] at h
      have := ref_len vec i v js e
      cases h
      exact this
    | err e' => rw [e] at h; cases h
    | panic => rw [e] at h; cases h
  cases f with
  | key k =>
    have : elementsOf j' = 0 := by
      cases j <;> (simp only [Finder.update] at h; rw [show j' = _ from (congrArg Prod.fst h).symm]; rfl)
    rw [this]; simp [Finder.grown]
  | index i =>
    cases j with
    | array vec =>
      simp only [Finder.update] at h
      by_cases h1 : i ≥ vec.length
      · by_cases h2 : i + 1 ≤ lim
        · rw [if_pos h1, if_pos h2] at h
          rw [fin _ _ h]
          simp [Finder.grown, elementsOf, resizeNull]
        · rw [if_pos h1, if_neg h2] at h; cases h
      · rw [if_neg h1] at h
        rw [fin _ _ h]
        simp [Finder.grown, elementsOf]; omega
    | _ =>
      simp only [Finder.update] at h
      by_cases h2 : i + 1 ≤ lim
      · rw [if_pos h2] at h
        rw [fin _ _ h]
        simp [Finder.grown, elementsOf, resizeNull]
      · rw [if_neg h2] at h; cases h

/-- Beside `C97_appends`: an array that grows by three, one that does not grow, and an object that becomes an array of two. -/
example : let v : Json F := .null
    (∃ j' x, Path.update 100 (.last (.index 4)) (.array [v, v]) v = (j', .ok x) ∧ elementsOf j' = 5 ∧ (Path.updateRun 100 (.last (.index 4)) (.array [v, v]) v).steps = 5) ∧
    (Path.updateRun 100 (.last (.index 1)) (.array [v, v]) v).steps = 2 ∧ (Path.updateRun 100 (.last (.index 1)) (.object []) v).steps = 4 := ⟨⟨_, _, rfl, rfl, rfl⟩, rfl, rfl⟩

end RJ
