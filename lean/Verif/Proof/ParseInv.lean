import Verif.Proof.Complete
/-
  What every successful parse returns: the kind is determined by the first character, all parts come from
  recursive calls.
-/
set_option linter.unusedSectionVars false
namespace RJ
open Spec
variable {F : Type} [FloatOps F]

theorem arrLoop_inv (rec : Str → Res (Json F)) (P : Json F → Prop) (hrec : ∀ s v, rec s = .ok v → P v) :
    ∀ (n : Nat) (iter : Str) (i j : Int) (inner : Str) (array : List (Json F)) (r : Json F), iter.length ≤ n →
      arrLoop rec iter i j inner array = .ok r → (∀ x ∈ array, P x) →
      ∃ l, r = .array l ∧ ∀ x ∈ l, P x := by
  intro n
  induction n with
  | zero =>
    intro iter i j inner array r hn h
    have : iter = [] := List.length_eq_zero_iff.mp (by omega)
    subst this
    rw [arrLoop] at h; cases h
  | succ n ih =>
    intro iter i j inner array r hn h ha
    cases iter with
    | nil => rw [arrLoop] at h; cases h
    | cons c iter =>
      have hl : iter.length ≤ n := by simp at hn; omega
      rw [arrLoop_cons] at h
      by_cases c1 : c = ']' ∧ i = 0 ∧ j = 0
      · rw [if_pos c1] at h
        cases hr : rec inner with
        | error e => rw [hr] at h; cases h
        | ok v =>
          rw [hr] at h
          simp only at h
          cases hs : skipTrail ErrorKind.ParseArrayError iter with
          | error e => rw [hs] at h; cases h
          | ok u =>
            rw [hs] at h
            simp only [Except.ok.injEq] at h
            refine ⟨_, h.symm, ?_⟩
            intro x hx
            rcases List.mem_append.mp hx with hx | hx
            · exact ha x hx
            · rw [List.mem_singleton.mp hx]; exact hrec _ _ hr
      rw [if_neg c1] at h
      by_cases c2 : c = ',' ∧ i = 0 ∧ j = 0
      · rw [if_pos c2] at h
        by_cases c21 : inner = []
        · rw [if_pos c21] at h; cases h
        rw [if_neg c21] at h
        by_cases c22 : iter.head? = some ']'
        · rw [if_pos c22] at h; cases h
        rw [if_neg c22] at h
        cases hr : rec inner with
        | error e => rw [hr] at h; cases h
        | ok v =>
          rw [hr] at h
          simp only at h
          refine ih _ _ _ _ _ _ hl h ?_
          intro x hx
          rcases List.mem_append.mp hx with hx | hx
          · exact ha x hx
          · rw [List.mem_singleton.mp hx]; exact hrec _ _ hr
      rw [if_neg c2] at h
      by_cases c3 : c = '"'
      · rw [if_pos c3] at h; exact ih _ _ _ _ _ _ hl h ha
      rw [if_neg c3] at h
      by_cases c4 : c = '['
      · rw [if_pos c4] at h; exact ih _ _ _ _ _ _ hl h ha
      rw [if_neg c4] at h
      by_cases c5 : c = ']'
      · rw [if_pos c5] at h; exact ih _ _ _ _ _ _ hl h ha
      rw [if_neg c5] at h
      by_cases c6 : c = '{'
      · rw [if_pos c6] at h; exact ih _ _ _ _ _ _ hl h ha
      rw [if_neg c6] at h
      by_cases c7 : c = '}'
      · rw [if_pos c7] at h; exact ih _ _ _ _ _ _ hl h ha
      rw [if_neg c7] at h
      by_cases c8 : c = '\\'
      · rw [if_pos c8] at h
        cases iter with
        | nil => cases h
        | cons d iter => exact ih _ _ _ _ _ _ (by simp at hl; omega) h ha
      rw [if_neg c8] at h
      by_cases c9 : i = 0 ∧ j = 0 ∧ isWs c = true
      · rw [if_pos c9] at h; exact ih _ _ _ _ _ _ hl h ha
      rw [if_neg c9] at h
      exact ih _ _ _ _ _ _ hl h ha

theorem objLoop_inv (rec : Str → Res (Json F)) (Q : Obj F → Prop)
    (hrec : ∀ s v k m, rec s = .ok v → Q m → Q (objectInsert k v m)) :
    ∀ (n : Nat) (iter : Str) (i j : Int) (kv : Str × Str) (onKey : Bool) (object : Obj F) (r : Json F), iter.length ≤ n →
      objLoop rec iter i j kv onKey object = .ok r → Q object → ∃ m, r = .object m ∧ Q m := by
  intro n
  induction n with
  | zero =>
    intro iter i j kv onKey object r hn h
    have : iter = [] := List.length_eq_zero_iff.mp (by omega)
    subst this
    rw [objLoop] at h; cases h
  | succ n ih =>
    intro iter i j kv onKey object r hn h ha
    cases iter with
    | nil => rw [objLoop] at h; cases h
    | cons c iter =>
      have hl : iter.length ≤ n := by simp at hn; omega
      rw [objLoop_cons] at h
      by_cases c1 : c = '}' ∧ i = 0 ∧ j = 0 ∧ onKey = false
      · rw [if_pos c1] at h
        cases hk : rec kv.1 with
        | error e => rw [hk] at h; cases h
        | ok kj =>
          rw [hk] at h
          cases kj with
          | string key =>
            simp only at h
            cases hr : rec kv.2 with
            | error e => rw [hr] at h; cases h
            | ok v =>
              rw [hr] at h
              simp only at h
              cases hs : skipTrail ErrorKind.ParseObjectError iter with
              | error e => rw [hs] at h; cases h
              | ok u =>
                rw [hs] at h
                simp only [Except.ok.injEq] at h
                exact ⟨_, h.symm, hrec _ _ _ _ hr ha⟩
          | _ => cases h
      rw [if_neg c1] at h
      by_cases c2 : c = ',' ∧ i = 0 ∧ j = 0 ∧ onKey = false
      · rw [if_pos c2] at h
        by_cases c21 : kv.1 = [] ∨ kv.2 = []
        · rw [if_pos c21] at h; cases h
        rw [if_neg c21] at h
        by_cases c22 : iter.head? = some '}'
        · rw [if_pos c22] at h; cases h
        rw [if_neg c22] at h
        cases hk : rec kv.1 with
        | error e => rw [hk] at h; cases h
        | ok kj =>
          rw [hk] at h
          cases kj with
          | string key =>
            simp only at h
            cases hr : rec kv.2 with
            | error e => rw [hr] at h; cases h
            | ok v =>
              rw [hr] at h
              simp only at h
              exact ih _ _ _ _ _ _ _ hl h (hrec _ _ _ _ hr ha)
          | _ => cases h
      rw [if_neg c2] at h
      by_cases c2' : c = ':' ∧ i = 0 ∧ j = 0
      · rw [if_pos c2'] at h; exact ih _ _ _ _ _ _ _ hl h ha
      rw [if_neg c2'] at h
      by_cases c3 : c = '"'
      · rw [if_pos c3] at h; exact ih _ _ _ _ _ _ _ hl h ha
      rw [if_neg c3] at h
      by_cases c4 : c = '['
      · rw [if_pos c4] at h; exact ih _ _ _ _ _ _ _ hl h ha
      rw [if_neg c4] at h
      by_cases c5 : c = ']'
      · rw [if_pos c5] at h; exact ih _ _ _ _ _ _ _ hl h ha
      rw [if_neg c5] at h
      by_cases c6 : c = '{'
      · rw [if_pos c6] at h; exact ih _ _ _ _ _ _ _ hl h ha
      rw [if_neg c6] at h
      by_cases c7 : c = '}'
      · rw [if_pos c7] at h; exact ih _ _ _ _ _ _ _ hl h ha
      rw [if_neg c7] at h
      by_cases c8 : c = '\\'
      · rw [if_pos c8] at h
        cases iter with
        | nil => cases h
        | cons d iter => exact ih _ _ _ _ _ _ _ (by simp at hl; omega) h ha
      rw [if_neg c8] at h
      by_cases c9 : i = 0 ∧ j = 0 ∧ isWs c = true
      · rw [if_pos c9] at h; exact ih _ _ _ _ _ _ _ hl h ha
      rw [if_neg c9] at h
      exact ih _ _ _ _ _ _ _ hl h ha

/-- Every successful parse went through exactly one of the branches. -/
theorem parseBody_cases (rec : Str → Res (Json F)) (t : Str) (r : Json F) (h : parseBody rec t = .ok r) :
    (t = "null".toList ∧ r = .null) ∨ (t = "true".toList ∧ r = .boolean true) ∨ (t = "false".toList ∧ r = .boolean false) ∨
    (∃ f, r = .number f ∧ parseNumber t = .ok (.number f : Json F) ∧ FloatOps.isFinite f = true ∧ ∃ c s, t = c :: s ∧ (c = '-' ∨ IsDigit c)) ∨
    (∃ s u, r = .string s ∧ t = '"' :: u ∧ parseStringRaw t = .ok s) ∨
    (∃ u, t = '[' :: u ∧ parseArray rec t = .ok r) ∨
    (∃ u, t = '{' :: u ∧ parseObject rec t = .ok r) := by
  cases t with
  | nil => simp [parseBody, fail] at h
  | cons c t =>
    unfold parseBody at h
    simp only [List.head?_cons] at h
    by_cases h1 : c = 'n'
    · rw [if_pos h1] at h
      unfold parseNull at h
      split at h
      · rename_i e; left; exact ⟨e, by cases h; rfl⟩
      · cases h
    rw [if_neg h1] at h
    by_cases h2 : c = 't' ∨ c = 'f'
    · rw [if_pos h2] at h
      unfold parseBoolean at h
      split at h
      · rename_i e; right; left; exact ⟨e, by cases h; rfl⟩
      · split at h
        · rename_i e; right; right; left; exact ⟨e, by cases h; rfl⟩
        · cases h
    rw [if_neg h2] at h
    by_cases h3 : c = '-' ∨ isDigit c = true
    · rw [if_pos h3] at h
      right; right; right; left
      have hh := h
      unfold parseNumber at h
      split at h
      · split at h
        · split at h
          · rename_i f hf hfin
            cases h
            exact ⟨f, rfl, hh, hfin, c, t, rfl, by rw [← isDigit_iff]; exact h3⟩
          · cases h
        · cases h
      · cases h
    rw [if_neg h3] at h
    by_cases h4 : c = '"'
    · rw [if_pos h4] at h
      subst h4
      right; right; right; right; left
      unfold parseString at h
      split at h
      · rename_i s hs; cases h; exact ⟨s, t, rfl, rfl, hs⟩
      · cases h
    rw [if_neg h4] at h
    by_cases h5 : c = '['
    · rw [if_pos h5] at h
      subst h5
      right; right; right; right; right; left
      exact ⟨t, rfl, h⟩
    rw [if_neg h5] at h
    by_cases h6 : c = '{'
    · rw [if_pos h6] at h
      subst h6
      right; right; right; right; right; right
      exact ⟨t, rfl, h⟩
    rw [if_neg h6] at h
    cases h

theorem parseArray_inv {rec : Str → Res (Json F)} {t : Str} {r : Json F} (h : parseArray rec t = .ok r) (P : Json F → Prop)
    (hrec : ∀ s v, rec s = .ok v → P v) : ∃ l, r = .array l ∧ ∀ x ∈ l, P x := by
  unfold parseArray at h
  simp only at h
  split at h
  · cases h; exact ⟨[], rfl, by simp⟩
  · exact arrLoop_inv rec P hrec _ _ _ _ _ _ _ (Nat.le_refl _) h (by simp)

theorem parseObject_inv {rec : Str → Res (Json F)} {t : Str} {r : Json F} (h : parseObject rec t = .ok r) (Q : Obj F → Prop)
    (hrec : ∀ s v k m, rec s = .ok v → Q m → Q (objectInsert k v m)) (h0 : Q []) : ∃ m, r = .object m ∧ Q m := by
  unfold parseObject at h
  simp only at h
  split at h
  · cases h; exact ⟨[], rfl, h0⟩
  · exact objLoop_inv rec Q hrec _ _ _ _ _ _ _ _ (Nat.le_refl _) h h0

theorem parseRaw_cases (t : Str) (r : Json F) (h : parseRaw t = .ok r) :
    (t = "null".toList ∧ r = .null) ∨ (t = "true".toList ∧ r = .boolean true) ∨ (t = "false".toList ∧ r = .boolean false) ∨
    (∃ f, r = .number f ∧ parseNumber t = .ok (.number f : Json F) ∧ FloatOps.isFinite f = true ∧ ∃ c s, t = c :: s ∧ (c = '-' ∨ IsDigit c)) ∨
    (∃ s u, r = .string s ∧ t = '"' :: u ∧ parseStringRaw t = .ok s) ∨
    (∃ u l, t = '[' :: u ∧ r = .array l ∧ parseArray parseRaw t = .ok r) ∨
    (∃ u m, t = '{' :: u ∧ r = .object m ∧ parseObject parseRaw t = .ok r) := by
  rw [parseRaw_eq] at h
  rcases parseBody_cases _ _ _ h with h | h | h | h | h | ⟨u, hu, h⟩ | ⟨u, hu, h⟩
  · exact .inl h
  · exact .inr (.inl h)
  · exact .inr (.inr (.inl h))
  · exact .inr (.inr (.inr (.inl h)))
  · exact .inr (.inr (.inr (.inr (.inl h))))
  · obtain ⟨l, rfl, _⟩ := parseArray_inv h (fun _ => True) (fun _ _ _ => trivial)
    exact .inr (.inr (.inr (.inr (.inr (.inl ⟨u, l, hu, rfl, h⟩)))))
  · obtain ⟨l, rfl, _⟩ := parseObject_inv h (fun _ => True) (fun _ _ _ _ _ _ => trivial) trivial
    exact .inr (.inr (.inr (.inr (.inr (.inr ⟨u, l, hu, rfl, h⟩)))))

/-- Whatever is closed under building values out of parsed parts holds of everything `_parse` returns. -/
theorem parseRaw_closed (P : Json F → Prop) (Q : Obj F → Prop)
    (hnull : P .null) (hbool : ∀ b, P (.boolean b)) (hnum : ∀ f, FloatOps.isFinite f = true → P (.number f))
    (hstr : ∀ s, P (.string s)) (harr : ∀ l, (∀ x ∈ l, P x) → P (.array l)) (hobj : ∀ m, Q m → P (.object m))
    (h0 : Q []) (hins : ∀ k v m, P v → Q m → Q (objectInsert k v m)) :
    ∀ (d : Res (Json F)) (hd : ∀ r, d = .ok r → P r) (n : Nat) (t : Str) (r : Json F), parseFuel d n t = .ok r → P r := by
  intro d hd n
  induction n with
  | zero => intro t r h; exact hd r h
  | succ n ih =>
    intro t r h
    rw [parseFuel] at h
    rcases parseBody_cases _ _ _ h with ⟨_, rfl⟩ | ⟨_, rfl⟩ | ⟨_, rfl⟩ | ⟨f, rfl, _, hf, _⟩ | ⟨s, u, rfl, _⟩ | ⟨u, _, h⟩ | ⟨u, _, h⟩
    · exact hnull
    · exact hbool _
    · exact hbool _
    · exact hnum f hf
    · exact hstr s
    · obtain ⟨l, rfl, hl⟩ := parseArray_inv h P ih
      exact harr l hl
    · obtain ⟨m, rfl, hm⟩ := parseObject_inv h Q (fun s v k m hv hm => hins k v m (ih s v hv) hm) h0
      exact hobj m hm

end RJ
