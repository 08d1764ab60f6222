import Verif.Proof.Complete
import Verif.Proof.ParseInv
/-
  Tokens: what the container loops do with the text of a syntax tree whose strings contain unbalanced brackets.
-/
set_option linter.unusedSectionVars false
namespace RJ
open Spec

/-! ### Counters without the depth-0 restriction -/

/-- The counters after a text was collected; `none` at a dangling backslash. -/
def bal : Int → Int → Str → Option (Int × Int)
  | i, j, [] => some (i, j)
  | i, j, c :: t =>
    if c = '"' then bal i (quoteStep j) t
    else if c = '[' then bal (i + 1) j t
    else if c = ']' then bal (i - 1) j t
    else if c = '{' then bal (i + 1) j t
    else if c = '}' then bal (i - 1) j t
    else if c = '\\' then
      match t with
      | [] => none
      | _ :: t => bal i j t
    else bal i j t

theorem bal_cons (i j : Int) (c : Char) (t : Str) : bal i j (c :: t) =
    if c = '"' then bal i (quoteStep j) t
    else if c = '[' then bal (i + 1) j t
    else if c = ']' then bal (i - 1) j t
    else if c = '{' then bal (i + 1) j t
    else if c = '}' then bal (i - 1) j t
    else if c = '\\' then
      match t with
      | [] => none
      | _ :: t => bal i j t
    else bal i j t := by
  rw [bal.eq_def]; rfl

theorem bal_append_aux (b : Str) : ∀ (n : Nat) (a : Str) (i j i' j' : Int), a.length ≤ n → bal i j a = some (i', j') →
    bal i j (a ++ b) = bal i' j' b := by
  intro n
  induction n with
  | zero =>
    intro a i j i' j' hn h
    cases a with
    | nil =>
      simp only [bal, Option.some.injEq, Prod.mk.injEq] at h
      obtain ⟨rfl, rfl⟩ := h
      rfl
    | cons c t => simp at hn
  | succ n ih =>
    intro a i j i' j' hn h
    match a, hn, h with
    | [], _, h =>
      simp only [bal, Option.some.injEq, Prod.mk.injEq] at h
      obtain ⟨rfl, rfl⟩ := h
      rfl
    | c :: t, hn, h =>
      simp only [List.length_cons] at hn
      rw [bal_cons] at h
      rw [List.cons_append, bal_cons]
      by_cases c1 : c = '"'
      · rw [if_pos c1] at h ⊢; exact ih t _ _ _ _ (by omega) h
      rw [if_neg c1] at h ⊢
      by_cases c2 : c = '['
      · rw [if_pos c2] at h ⊢; exact ih t _ _ _ _ (by omega) h
      rw [if_neg c2] at h ⊢
      by_cases c3 : c = ']'
      · rw [if_pos c3] at h ⊢; exact ih t _ _ _ _ (by omega) h
      rw [if_neg c3] at h ⊢
      by_cases c4 : c = '{'
      · rw [if_pos c4] at h ⊢; exact ih t _ _ _ _ (by omega) h
      rw [if_neg c4] at h ⊢
      by_cases c5 : c = '}'
      · rw [if_pos c5] at h ⊢; exact ih t _ _ _ _ (by omega) h
      rw [if_neg c5] at h ⊢
      by_cases c6 : c = '\\'
      · rw [if_pos c6] at h ⊢
        cases t with
        | nil => simp at h
        | cons ch t =>
          simp only [List.length_cons] at hn
          simp only [List.cons_append] at h ⊢
          exact ih t _ _ _ _ (by omega) h
      rw [if_neg c6] at h ⊢
      exact ih t _ _ _ _ (by omega) h

theorem bal_append {a b : Str} {i j i' j' : Int} (h : bal i j a = some (i', j')) : bal i j (a ++ b) = bal i' j' b :=
  bal_append_aux b a.length a i j i' j' (Nat.le_refl _) h

/-- What a loop copies verbatim changes the counters in the same way. -/
theorem bal_of_scan : ∀ (n : Nat) (a : Str) (i j i' j' : Int), a.length ≤ n → scan i j a = some (i', j') → bal i j a = some (i', j') := by
  intro n
  induction n with
  | zero =>
    intro a i j i' j' hn h
    cases a with
    | nil => simpa [scan, bal] using h
    | cons c t => simp at hn
  | succ n ih =>
    intro a i j i' j' hn h
    match a, hn, h with
    | [], _, h => simpa [scan, bal] using h
    | c :: t, hn, h =>
      simp only [List.length_cons] at hn
      rw [scan_cons] at h
      rw [bal_cons]
      by_cases h0 : (i = 0 ∧ j = 0) ∧ (c = ']' ∨ c = '}' ∨ c = ',' ∨ c = ':' ∨ isWs c)
      · rw [if_pos h0] at h; cases h
      rw [if_neg h0] at h
      by_cases c1 : c = '"'
      · rw [if_pos c1] at h ⊢; exact ih t _ _ _ _ (by omega) h
      rw [if_neg c1] at h ⊢
      by_cases c2 : c = '['
      · rw [if_pos c2] at h ⊢; exact ih t _ _ _ _ (by omega) h
      rw [if_neg c2] at h ⊢
      by_cases c3 : c = ']'
      · rw [if_pos c3] at h ⊢; exact ih t _ _ _ _ (by omega) h
      rw [if_neg c3] at h ⊢
      by_cases c4 : c = '{'
      · rw [if_pos c4] at h ⊢; exact ih t _ _ _ _ (by omega) h
      rw [if_neg c4] at h ⊢
      by_cases c5 : c = '}'
      · rw [if_pos c5] at h ⊢; exact ih t _ _ _ _ (by omega) h
      rw [if_neg c5] at h ⊢
      by_cases c6 : c = '\\'
      · rw [if_pos c6] at h ⊢
        cases t with
        | nil => simp at h
        | cons ch t =>
          simp only [List.length_cons] at hn
          simp only at h ⊢
          exact ih t _ _ _ _ (by omega) h
      rw [if_neg c6] at h ⊢
      exact ih t _ _ _ _ (by omega) h

/-! ### Tokens -/

/-- A token: a structural character, a string literal, or the text of a scalar. -/
inductive JTok
  | sym (c : Char)
  | str (s : List StrItem)
  | lit (t : Str)

def JTok.text : JTok → Str
  | .sym c => [c]
  | .str s => strText s
  | .lit t => t

/-- The change of the bracket counter. -/
def JTok.net : JTok → Int
  | .sym c => if c = '[' ∨ c = '{' then 1 else if c = ']' ∨ c = '}' then -1 else 0
  | .str s => rawBrackets s
  | .lit _ => 0

def JTok.Ok : JTok → Prop
  | .sym c => c = '[' ∨ c = ']' ∨ c = '{' ∨ c = '}' ∨ c = ',' ∨ c = ':'
  | .str s => ∀ i ∈ s, i.Valid
  | .lit t => t ≠ [] ∧ ∀ c ∈ t, Inert c

def net : List JTok → Int
  | [] => 0
  | t :: r => t.net + net r

theorem net_append (a b : List JTok) : net (a ++ b) = net a + net b := by
  induction a with
  | nil => simp [net]
  | cons t a ih => simp [net, ih]; omega

/-- The text consists of these tokens, with whitespace anywhere between, before and after. -/
def Spells : List JTok → Str → Prop
  | [], s => WsStr s
  | t :: r, s => ∃ w s', WsStr w ∧ s = w ++ t.text ++ s' ∧ Spells r s'

/-- As `Spells`, but without whitespace at the start. -/
def Lead : List JTok → Str → Prop
  | [], s => s = []
  | t :: r, s => ∃ s', s = t.text ++ s' ∧ Spells r s'

theorem wsStr_append {a b : Str} (h1 : WsStr a) (h2 : WsStr b) : WsStr (a ++ b) := by
  intro c hc
  rcases List.mem_append.mp hc with h | h
  · exact h1 c h
  · exact h2 c h

theorem wsStr_nil : WsStr [] := by intro c hc; cases hc

theorem spells_ws {ts : List JTok} {s w : Str} (hw : WsStr w) (h : Spells ts s) : Spells ts (w ++ s) := by
  cases ts with
  | nil => exact wsStr_append hw h
  | cons t r =>
    obtain ⟨w', s', h1, rfl, h2⟩ := h
    exact ⟨w ++ w', s', wsStr_append hw h1, by simp, h2⟩

theorem spells_append {a b : List JTok} {s t : Str} (h1 : Spells a s) (h2 : Spells b t) : Spells (a ++ b) (s ++ t) := by
  induction a generalizing s with
  | nil => exact spells_ws h1 h2
  | cons x a ih =>
    obtain ⟨w, s', hw, rfl, h⟩ := h1
    exact ⟨w, s' ++ t, hw, by simp, ih h⟩

theorem spells_split {a b : List JTok} {s : Str} (h : Spells (a ++ b) s) : ∃ s1 s2, s = s1 ++ s2 ∧ Spells a s1 ∧ Spells b s2 := by
  induction a generalizing s with
  | nil => exact ⟨[], s, rfl, wsStr_nil, h⟩
  | cons x a ih =>
    obtain ⟨w, s', hw, rfl, h⟩ := h
    obtain ⟨s1, s2, rfl, h1, h2⟩ := ih h
    exact ⟨w ++ x.text ++ s1, s2, by simp, ⟨w, s1, hw, rfl, h1⟩, h2⟩

theorem lead_spells {a : List JTok} {s : Str} (h : Lead a s) : Spells a s := by
  cases a with
  | nil => rw [Lead] at h; subst h; exact wsStr_nil
  | cons t r => obtain ⟨s', rfl, h⟩ := h; exact ⟨[], s', wsStr_nil, rfl, h⟩

theorem lead_append {a b : List JTok} {s t : Str} (ha : a ≠ []) (h1 : Lead a s) (h2 : Spells b t) : Lead (a ++ b) (s ++ t) := by
  cases a with
  | nil => exact absurd rfl ha
  | cons x a =>
    obtain ⟨s', rfl, h⟩ := h1
    exact ⟨s' ++ t, by simp, spells_append h h2⟩

theorem lead_ws {a : List JTok} {s w : Str} (ha : a ≠ []) (h : Lead a s) (hw : WsStr w) : Lead a (s ++ w) := by
  have := lead_append (b := []) ha h hw
  rwa [List.append_nil] at this

theorem spells_one (t : JTok) : Spells [t] t.text := ⟨[], [], wsStr_nil, by simp, wsStr_nil⟩

/-! ### Counters on tokens -/

theorem bal_inerts (i j : Int) (s t : Str) (h : ∀ c ∈ s, Inert c) : bal i j (s ++ t) = bal i j t := by
  have := scan_inerts i j s [] h
  rw [List.append_nil] at this
  exact bal_append (bal_of_scan _ s i j i j (Nat.le_refl _) (by rw [this]; rfl))

theorem bal_str (i : Int) (s : List StrItem) (t : Str) (h : ∀ x ∈ s, x.Valid) : bal i 0 (strText s ++ t) = bal (i + rawBrackets s) 0 t := by
  have := scan_strText s i [] h
  rw [List.append_nil] at this
  exact bal_append (bal_of_scan _ _ i 0 _ 0 (Nat.le_refl _) (by rw [this]; rfl))

theorem bal_tok (t : JTok) (h : t.Ok) (i : Int) (r : Str) : bal i 0 (t.text ++ r) = bal (i + t.net) 0 r := by
  cases t with
  | sym c =>
    simp only [JTok.text, List.cons_append, List.nil_append, JTok.net]
    rw [bal_cons]
    rcases h with rfl | rfl | rfl | rfl | rfl | rfl <;> simp [Int.sub_eq_add_neg]
  | str s => exact bal_str i s r h
  | lit t => simp only [JTok.text, JTok.net, Int.add_zero]; exact bal_inerts i 0 t r h.2

theorem bal_ws (i : Int) (w t : Str) (h : WsStr w) : bal i 0 (w ++ t) = bal i 0 t := by
  induction w with
  | nil => rfl
  | cons c w ih =>
    rw [List.cons_append, bal_cons]
    have n : c ≠ '"' ∧ c ≠ '[' ∧ c ≠ ']' ∧ c ≠ '{' ∧ c ≠ '}' ∧ c ≠ '\\' := by
      rcases ws_cases (h c (by simp)) with rfl | rfl | rfl | rfl <;> decide
    rw [if_neg n.1, if_neg n.2.1, if_neg n.2.2.1, if_neg n.2.2.2.1, if_neg n.2.2.2.2.1, if_neg n.2.2.2.2.2]
    exact ih (fun x hx => h x (by simp [hx]))

theorem bal_spells {ts : List JTok} (hok : ∀ t ∈ ts, t.Ok) {s : Str} (h : Spells ts s) (i : Int) (r : Str) :
    bal i 0 (s ++ r) = bal (i + net ts) 0 r := by
  induction ts generalizing s i with
  | nil => simp only [net, Int.add_zero]; exact bal_ws i s r h
  | cons t ts ih =>
    obtain ⟨w, s', hw, rfl, h⟩ := h
    rw [List.append_assoc, List.append_assoc, bal_ws i _ _ hw, bal_tok t (hok t (by simp)), ih (fun x hx => hok x (by simp [hx])) h]
    congr 1
    simp only [net]; omega

theorem bal_spells' {ts : List JTok} (hok : ∀ t ∈ ts, t.Ok) {s : Str} (h : Spells ts s) : bal 0 0 s = some (net ts, 0) := by
  have := bal_spells hok h 0 []
  rw [List.append_nil] at this
  rw [this]; simp [bal]

/-! ### Failing -/

variable {F : Type}

/-- Not successful. -/
def Bad {α : Type} (r : Res α) : Prop := ∀ x, r ≠ .ok x

theorem bad_fail {α : Type} (k : ErrorKind) (m : String) : Bad (fail k m : Res α) := by
  intro x h; cases h

theorem bad_error {α : Type} (e : Error) : Bad (.error e : Res α) := by
  intro x h; cases h

/-- A current element that can only be parsed unsuccessfully spoils the array. -/
theorem arr_past (rec : Str → Res (Json F)) (u : Str) (H : ∀ q, bal 0 0 (u ++ q) = some (0, 0) → Bad (rec (u ++ q))) :
    ∀ (n : Nat) (rest : Str) (i j : Int) (w : Str) (array : List (Json F)), rest.length ≤ n → bal 0 0 (u ++ w) = some (i, j) →
      Bad (arrLoop rec rest i j (u ++ w) array) := by
  intro n
  induction n with
  | zero =>
    intro rest i j w array hn _
    cases rest with
    | nil => rw [arrLoop]; exact bad_fail _ _
    | cons c t => simp at hn
  | succ n ih =>
    intro rest i j w array hn hb
    match rest, hn with
    | [], _ => rw [arrLoop]; exact bad_fail _ _
    | c :: iter, hn =>
      simp only [List.length_cons] at hn
      rw [arrLoop_cons]
      have step := fun (t : Str) => bal_append (b := t) hb
      by_cases g1 : c = ']' ∧ i = 0 ∧ j = 0
      · rw [if_pos g1]
        obtain ⟨_, rfl, rfl⟩ := g1
        have := H w hb
        cases hr : rec (u ++ w) with
        | error e => exact bad_error _
        | ok v => exact absurd hr (this v)
      rw [if_neg g1]
      by_cases g2 : c = ',' ∧ i = 0 ∧ j = 0
      · rw [if_pos g2]
        obtain ⟨_, rfl, rfl⟩ := g2
        split
        · exact bad_fail _ _
        · split
          · exact bad_fail _ _
          · have := H w hb
            cases hr : rec (u ++ w) with
            | error e => exact bad_error _
            | ok v => exact absurd hr (this v)
      rw [if_neg g2]
      by_cases c1 : c = '"'
      · rw [if_pos c1, List.append_assoc]
        exact ih iter _ _ _ _ (by omega) (by rw [← List.append_assoc, step, bal_cons]; simp [bal])
      rw [if_neg c1]
      by_cases c2 : c = '['
      · rw [if_pos c2, List.append_assoc]
        exact ih iter _ _ _ _ (by omega) (by rw [← List.append_assoc, step, bal_cons]; simp [bal])
      rw [if_neg c2]
      by_cases c3 : c = ']'
      · rw [if_pos c3, List.append_assoc]
        exact ih iter _ _ _ _ (by omega) (by rw [← List.append_assoc, step, bal_cons]; simp [bal])
      rw [if_neg c3]
      by_cases c4 : c = '{'
      · rw [if_pos c4, List.append_assoc]
        exact ih iter _ _ _ _ (by omega) (by rw [← List.append_assoc, step, bal_cons]; simp [bal])
      rw [if_neg c4]
      by_cases c5 : c = '}'
      · rw [if_pos c5, List.append_assoc]
        exact ih iter _ _ _ _ (by omega) (by rw [← List.append_assoc, step, bal_cons]; simp [bal])
      rw [if_neg c5]
      by_cases c6 : c = '\\'
      · rw [if_pos c6]
        cases iter with
        | nil => exact bad_fail _ _
        | cons ch t =>
          simp only [List.length_cons] at hn
          simp only
          rw [List.append_assoc]
          exact ih t _ _ _ _ (by omega) (by rw [← List.append_assoc, step, bal_cons]; simp [bal])
      rw [if_neg c6]
      by_cases c7 : i = 0 ∧ j = 0 ∧ isWs c = true
      · rw [if_pos c7]
        exact ih iter _ _ _ _ (by omega) hb
      rw [if_neg c7, List.append_assoc]
      exact ih iter _ _ _ _ (by omega) (by rw [← List.append_assoc, step, bal_cons]; simp [bal, c1, c2, c3, c4, c5, c6])

/-- The body of both split branches of the object loop fails if the value does. -/
theorem obj_branch_bad (rec : Str → Res (Json F)) (ks vs : Str) (f : Str → Json F → Res (Json F)) (h : Bad (rec vs)) :
    Bad (match rec ks with
      | .ok (.string key) =>
        match rec vs with
        | .error e => .error e
        | .ok v => f key v
      | _ => fail .ParseObjectError "error parsing key string.") := by
  split
  · cases hr : rec vs with
    | error e => exact bad_error _
    | ok v => exact absurd hr (h v)
  · exact bad_fail _ _

theorem obj_branch_badK (rec : Str → Res (Json F)) (ks vs : Str) (f : Str → Json F → Res (Json F)) (h : ∀ k, rec ks ≠ .ok (.string k)) :
    Bad (match rec ks with
      | .ok (.string key) =>
        match rec vs with
        | .error e => .error e
        | .ok v => f key v
      | _ => fail .ParseObjectError "error parsing key string.") := by
  split
  · rename_i key hk; exact absurd hk (h key)
  · exact bad_fail _ _

/-- A current member value that can only be parsed unsuccessfully spoils the object. -/
theorem obj_pastV (rec : Str → Res (Json F)) (u ks : Str) (H : ∀ q, bal 0 0 (u ++ q) = some (0, 0) → Bad (rec (u ++ q))) :
    ∀ (n : Nat) (rest : Str) (i j : Int) (w : Str) (object : Obj F), rest.length ≤ n → bal 0 0 (u ++ w) = some (i, j) →
      Bad (objLoop rec rest i j (ks, u ++ w) false object) := by
  intro n
  induction n with
  | zero =>
    intro rest i j w object hn _
    cases rest with
    | nil => rw [objLoop]; exact bad_fail _ _
    | cons c t => simp at hn
  | succ n ih =>
    intro rest i j w object hn hb
    match rest, hn with
    | [], _ => rw [objLoop]; exact bad_fail _ _
    | c :: iter, hn =>
      simp only [List.length_cons] at hn
      rw [objLoop_cons]
      have step := fun (t : Str) => bal_append (b := t) hb
      by_cases g1 : c = '}' ∧ i = 0 ∧ j = 0 ∧ false = false
      · rw [if_pos g1]
        obtain ⟨_, rfl, rfl, _⟩ := g1
        exact obj_branch_bad rec _ _ (fun key v => match skipTrail .ParseObjectError iter with
          | .error e => .error e
          | .ok () => .ok (.object (objectInsert key v object))) (H w hb)
      rw [if_neg g1]
      by_cases g2 : c = ',' ∧ i = 0 ∧ j = 0 ∧ false = false
      · rw [if_pos g2]
        obtain ⟨_, rfl, rfl, _⟩ := g2
        split
        · exact bad_fail _ _
        · split
          · exact bad_fail _ _
          · exact obj_branch_bad rec _ _ (fun key v => objLoop rec iter 0 0 ([], []) true (objectInsert key v object)) (H w hb)
      rw [if_neg g2]
      by_cases g3 : c = ':' ∧ i = 0 ∧ j = 0
      · rw [if_pos g3]; exact ih iter _ _ _ _ (by omega) hb
      rw [if_neg g3]
      simp only [pushKV, Bool.false_eq_true, if_false]
      by_cases c1 : c = '"'
      · rw [if_pos c1, List.append_assoc]
        exact ih iter _ _ _ _ (by omega) (by rw [← List.append_assoc, step, bal_cons]; simp [bal])
      rw [if_neg c1]
      by_cases c2 : c = '['
      · rw [if_pos c2, List.append_assoc]
        exact ih iter _ _ _ _ (by omega) (by rw [← List.append_assoc, step, bal_cons]; simp [bal])
      rw [if_neg c2]
      by_cases c3 : c = ']'
      · rw [if_pos c3, List.append_assoc]
        exact ih iter _ _ _ _ (by omega) (by rw [← List.append_assoc, step, bal_cons]; simp [bal])
      rw [if_neg c3]
      by_cases c4 : c = '{'
      · rw [if_pos c4, List.append_assoc]
        exact ih iter _ _ _ _ (by omega) (by rw [← List.append_assoc, step, bal_cons]; simp [bal])
      rw [if_neg c4]
      by_cases c5 : c = '}'
      · rw [if_pos c5, List.append_assoc]
        exact ih iter _ _ _ _ (by omega) (by rw [← List.append_assoc, step, bal_cons]; simp [bal])
      rw [if_neg c5]
      by_cases c6 : c = '\\'
      · rw [if_pos c6]
        cases iter with
        | nil => exact bad_fail _ _
        | cons ch t =>
          simp only [List.length_cons] at hn
          simp only
          rw [List.append_assoc]
          exact ih t _ _ _ _ (by omega) (by rw [← List.append_assoc, step, bal_cons]; simp [bal])
      rw [if_neg c6]
      by_cases c7 : i = 0 ∧ j = 0 ∧ isWs c = true
      · rw [if_pos c7]
        exact ih iter _ _ _ _ (by omega) hb
      rw [if_neg c7, List.append_assoc]
      exact ih iter _ _ _ _ (by omega) (by rw [← List.append_assoc, step, bal_cons]; simp [bal, c1, c2, c3, c4, c5, c6])

/-- Once the key is complete and is not a string, the object fails. -/
theorem obj_pastK0 (rec : Str → Res (Json F)) (ks : Str) (H : ∀ k, rec ks ≠ .ok (.string k)) :
    ∀ (n : Nat) (rest : Str) (i j : Int) (vs : Str) (object : Obj F), rest.length ≤ n →
      Bad (objLoop rec rest i j (ks, vs) false object) := by
  intro n
  induction n with
  | zero =>
    intro rest i j vs object hn
    cases rest with
    | nil => rw [objLoop]; exact bad_fail _ _
    | cons c t => simp at hn
  | succ n ih =>
    intro rest i j vs object hn
    match rest, hn with
    | [], _ => rw [objLoop]; exact bad_fail _ _
    | c :: iter, hn =>
      simp only [List.length_cons] at hn
      rw [objLoop_cons]
      by_cases g1 : c = '}' ∧ i = 0 ∧ j = 0 ∧ false = false
      · rw [if_pos g1]
        obtain ⟨_, rfl, rfl, _⟩ := g1
        exact obj_branch_badK rec _ _ (fun key v => match skipTrail .ParseObjectError iter with
          | .error e => .error e
          | .ok () => .ok (.object (objectInsert key v object))) H
      rw [if_neg g1]
      by_cases g2 : c = ',' ∧ i = 0 ∧ j = 0 ∧ false = false
      · rw [if_pos g2]
        obtain ⟨_, rfl, rfl, _⟩ := g2
        split
        · exact bad_fail _ _
        · split
          · exact bad_fail _ _
          · exact obj_branch_badK rec _ _ (fun key v => objLoop rec iter 0 0 ([], []) true (objectInsert key v object)) H
      rw [if_neg g2]
      by_cases g3 : c = ':' ∧ i = 0 ∧ j = 0
      · rw [if_pos g3]; exact ih iter _ _ _ _ (by omega)
      rw [if_neg g3]
      simp only [pushKV, Bool.false_eq_true, if_false]
      by_cases c1 : c = '"'
      · rw [if_pos c1]; exact ih iter _ _ _ _ (by omega)
      rw [if_neg c1]
      by_cases c2 : c = '['
      · rw [if_pos c2]; exact ih iter _ _ _ _ (by omega)
      rw [if_neg c2]
      by_cases c3 : c = ']'
      · rw [if_pos c3]; exact ih iter _ _ _ _ (by omega)
      rw [if_neg c3]
      by_cases c4 : c = '{'
      · rw [if_pos c4]; exact ih iter _ _ _ _ (by omega)
      rw [if_neg c4]
      by_cases c5 : c = '}'
      · rw [if_pos c5]; exact ih iter _ _ _ _ (by omega)
      rw [if_neg c5]
      by_cases c6 : c = '\\'
      · rw [if_pos c6]
        cases iter with
        | nil => exact bad_fail _ _
        | cons ch t =>
          simp only [List.length_cons] at hn
          exact ih t _ _ _ _ (by omega)
      rw [if_neg c6]
      by_cases c7 : i = 0 ∧ j = 0 ∧ isWs c = true
      · rw [if_pos c7]; exact ih iter _ _ _ _ (by omega)
      rw [if_neg c7]; exact ih iter _ _ _ _ (by omega)

/-- A key that can not be completed to a string at depth 0 spoils the object. -/
theorem obj_pastK (rec : Str → Res (Json F)) (u vs : Str) (H : ∀ q, bal 0 0 (u ++ q) = some (0, 0) → ∀ k, rec (u ++ q) ≠ .ok (.string k)) :
    ∀ (n : Nat) (rest : Str) (i j : Int) (w : Str) (object : Obj F), rest.length ≤ n → bal 0 0 (u ++ w) = some (i, j) →
      Bad (objLoop rec rest i j (u ++ w, vs) true object) := by
  intro n
  induction n with
  | zero =>
    intro rest i j w object hn _
    cases rest with
    | nil => rw [objLoop]; exact bad_fail _ _
    | cons c t => simp at hn
  | succ n ih =>
    intro rest i j w object hn hb
    match rest, hn with
    | [], _ => rw [objLoop]; exact bad_fail _ _
    | c :: iter, hn =>
      simp only [List.length_cons] at hn
      rw [objLoop_cons]
      have step := fun (t : Str) => bal_append (b := t) hb
      rw [if_neg (by simp), if_neg (by simp)]
      by_cases g3 : c = ':' ∧ i = 0 ∧ j = 0
      · rw [if_pos g3]
        obtain ⟨_, rfl, rfl⟩ := g3
        exact obj_pastK0 rec _ (H w hb) _ _ _ _ _ _ (Nat.le_refl _)
      rw [if_neg g3]
      simp only [pushKV, if_true]
      by_cases c1 : c = '"'
      · rw [if_pos c1, List.append_assoc]
        exact ih iter _ _ _ _ (by omega) (by rw [← List.append_assoc, step, bal_cons]; simp [bal])
      rw [if_neg c1]
      by_cases c2 : c = '['
      · rw [if_pos c2, List.append_assoc]
        exact ih iter _ _ _ _ (by omega) (by rw [← List.append_assoc, step, bal_cons]; simp [bal])
      rw [if_neg c2]
      by_cases c3 : c = ']'
      · rw [if_pos c3, List.append_assoc]
        exact ih iter _ _ _ _ (by omega) (by rw [← List.append_assoc, step, bal_cons]; simp [bal])
      rw [if_neg c3]
      by_cases c4 : c = '{'
      · rw [if_pos c4, List.append_assoc]
        exact ih iter _ _ _ _ (by omega) (by rw [← List.append_assoc, step, bal_cons]; simp [bal])
      rw [if_neg c4]
      by_cases c5 : c = '}'
      · rw [if_pos c5, List.append_assoc]
        exact ih iter _ _ _ _ (by omega) (by rw [← List.append_assoc, step, bal_cons]; simp [bal])
      rw [if_neg c5]
      by_cases c6 : c = '\\'
      · rw [if_pos c6]
        cases iter with
        | nil => exact bad_fail _ _
        | cons ch t =>
          simp only [List.length_cons] at hn
          simp only
          rw [List.append_assoc]
          exact ih t _ _ _ _ (by omega) (by rw [← List.append_assoc, step, bal_cons]; simp [bal])
      rw [if_neg c6]
      by_cases c7 : i = 0 ∧ j = 0 ∧ isWs c = true
      · rw [if_pos c7]
        exact ih iter _ _ _ _ (by omega) hb
      rw [if_neg c7, List.append_assoc]
      exact ih iter _ _ _ _ (by omega) (by rw [← List.append_assoc, step, bal_cons]; simp [bal, c1, c2, c3, c4, c5, c6])

end RJ
