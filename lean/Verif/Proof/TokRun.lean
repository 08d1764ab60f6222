import Verif.Proof.Tok
/-
  The container loops on tokens, and the tokens of a syntax tree.
-/
set_option linter.unusedSectionVars false
namespace RJ
open Spec
variable {F : Type}

/-! ### Array loop -/

theorem arr_tok (rec : Str → Res (Json F)) (t : JTok) (h : t.Ok) (i : Int) (us rest : Str) (array : List (Json F))
    (hs : ¬ (i = 0 ∧ (t = .sym ']' ∨ t = .sym ','))) :
    arrLoop rec (t.text ++ rest) i 0 us array = arrLoop rec rest (i + t.net) 0 (us ++ t.text) array := by
  cases t with
  | sym c =>
    simp only [JTok.text, List.cons_append, List.nil_append, JTok.net]
    rw [arrLoop_cons]
    have e1 : ¬ (c = ']' ∧ i = 0 ∧ (0 : Int) = 0) := fun ⟨a, b, _⟩ => hs ⟨b, .inl (by rw [a])⟩
    have e2 : ¬ (c = ',' ∧ i = 0 ∧ (0 : Int) = 0) := fun ⟨a, b, _⟩ => hs ⟨b, .inr (by rw [a])⟩
    rw [if_neg e1, if_neg e2]
    rcases h with rfl | rfl | rfl | rfl | rfl | rfl <;> simp [Int.sub_eq_add_neg, isWs]
  | str s =>
    have := scan_strText s i [] h
    rw [List.append_nil] at this
    exact arrLoop_scan rec rest array _ _ i 0 _ 0 us (Nat.le_refl _) (by show scan i 0 (strText s) = some (i + rawBrackets s, 0); rw [this]; rfl)
  | lit t =>
    have := scan_inerts i 0 t [] h.2
    rw [List.append_nil] at this
    simp only [JTok.text, JTok.net, Int.add_zero]
    exact arrLoop_scan rec rest array _ _ i 0 _ 0 us (Nat.le_refl _) (by rw [this]; rfl)

theorem arrLoop_wsPush (rec : Str → Res (Json F)) (w rest inner : Str) (array : List (Json F)) (h : WsStr w) (i : Int) (hi : i ≠ 0) :
    arrLoop rec (w ++ rest) i 0 inner array = arrLoop rec rest i 0 (inner ++ w) array := by
  induction w generalizing inner with
  | nil => simp
  | cons c w ih =>
    have hc := h c (by simp)
    rw [List.cons_append, arrLoop_cons]
    have n : c ≠ '"' ∧ c ≠ '[' ∧ c ≠ ']' ∧ c ≠ '{' ∧ c ≠ '}' ∧ c ≠ '\\' ∧ c ≠ ',' ∧ c ≠ ':' := by
      rcases ws_cases hc with rfl | rfl | rfl | rfl <;> decide
    simp only [n.1, n.2.1, n.2.2.1, n.2.2.2.1, n.2.2.2.2.1, n.2.2.2.2.2.1, n.2.2.2.2.2.2.1, false_and, if_false, hi]
    rw [ih _ (fun x hx => h x (by simp [hx]))]
    simp

theorem arr_ws (rec : Str → Res (Json F)) (w rest inner : Str) (array : List (Json F)) (h : WsStr w) (i : Int) :
    arrLoop rec (w ++ rest) i 0 inner array = arrLoop rec rest i 0 (inner ++ (if i = 0 then [] else w)) array := by
  by_cases hi : i = 0
  · subst hi; simp only [if_true, List.append_nil]; exact arrLoop_ws rec w rest inner array h
  · rw [if_neg hi]; exact arrLoop_wsPush rec w rest inner array h i hi

/-- Running the array loop over tokens: it fails at a premature split, or collects them. -/
theorem arr_run (rec : Str → Res (Json F)) (rest : Str) (array : List (Json F)) : ∀ (b a : List JTok) (us s : Str), (∀ t ∈ b, t.Ok) →
    Lead a us → Spells b s →
    (∀ p t r, b = p ++ t :: r → (t = .sym ']' ∨ t = .sym ',') → net (a ++ p) = 0 → ∀ s, Lead (a ++ p) s → Bad (rec s)) →
    Bad (arrLoop rec (s ++ rest) (net a) 0 us array) ∨
    ∃ us', Lead (a ++ b) us' ∧ arrLoop rec (s ++ rest) (net a) 0 us array = arrLoop rec rest (net (a ++ b)) 0 us' array := by
  intro b
  induction b with
  | nil =>
    intro a us s _ hl hs _
    right
    rw [arr_ws rec s rest us array hs (net a)]
    rw [List.append_nil]
    refine ⟨_, ?_, rfl⟩
    by_cases ha : a = []
    · subst ha
      rw [Lead] at hl
      subst hl
      simp [net, Lead]
    · refine lead_ws ha hl ?_
      split
      · exact wsStr_nil
      · exact hs
  | cons t b ih =>
    intro a us s hok hl hs hsplit
    obtain ⟨w, s', hw, rfl, hs'⟩ := hs
    rw [List.append_assoc, List.append_assoc, arr_ws rec w _ us array hw (net a)]
    have hl' : Lead a (us ++ (if net a = 0 then [] else w)) := by
      by_cases ha : a = []
      · subst ha
        rw [Lead] at hl
        subst hl
        simp [net, Lead]
      · refine lead_ws ha hl ?_
        split
        · exact wsStr_nil
        · exact hw
    generalize us ++ (if net a = 0 then [] else w) = us1 at hl'
    by_cases hst : net a = 0 ∧ (t = .sym ']' ∨ t = .sym ',')
    · -- premature split
      left
      have hb : Bad (rec us1) := hsplit [] t b rfl hst.2 (by rw [List.append_nil]; exact hst.1) us1 (by rw [List.append_nil]; exact hl')
      rw [hst.1]
      rcases hst.2 with rfl | rfl
      · simp only [JTok.text, List.cons_append, List.nil_append]
        rw [arrLoop_cons, if_pos ⟨rfl, rfl, rfl⟩]
        cases hr : rec us1 with
        | error e => exact bad_error _
        | ok v => exact absurd hr (hb v)
      · simp only [JTok.text, List.cons_append, List.nil_append]
        rw [arrLoop_cons, if_neg (by simp), if_pos ⟨rfl, rfl, rfl⟩]
        split
        · exact bad_fail _ _
        · split
          · exact bad_fail _ _
          · cases hr : rec us1 with
            | error e => exact bad_error _
            | ok v => exact absurd hr (hb v)
    · rw [arr_tok rec t (hok t (by simp)) (net a) us1 (s' ++ rest) array hst]
      have e : net a + t.net = net (a ++ [t]) := by simp [net_append, net]
      rw [e]
      have hl2 : Lead (a ++ [t]) (us1 ++ t.text) := by
        by_cases ha : a = []
        · subst ha
          rw [Lead] at hl'
          subst hl'
          exact ⟨[], by simp, wsStr_nil⟩
        · exact lead_append ha hl' (spells_one t)
      have := ih (a ++ [t]) (us1 ++ t.text) s' (fun x hx => hok x (by simp [hx])) hl2 hs' (by
        intro p t' r hb ht' hn s hls
        refine hsplit (t :: p) t' r (by rw [hb]; rfl) ht' ?_ s ?_
        · rw [show a ++ t :: p = (a ++ [t]) ++ p by simp]; exact hn
        · rw [show a ++ t :: p = (a ++ [t]) ++ p by simp]; exact hls)
      rwa [show (a ++ [t]) ++ b = a ++ t :: b by simp] at this

/-! ### Object loop -/

theorem obj_tok (rec : Str → Res (Json F)) (t : JTok) (h : t.Ok) (i : Int) (kv : Str × Str) (onKey : Bool) (rest : Str) (object : Obj F)
    (hs : ¬ (i = 0 ∧ (t = .sym '}' ∨ t = .sym ',' ∨ t = .sym ':'))) :
    objLoop rec (t.text ++ rest) i 0 kv onKey object = objLoop rec rest (i + t.net) 0 (pushKV onKey kv.1 kv.2 t.text) onKey object := by
  cases t with
  | sym c =>
    simp only [JTok.text, List.cons_append, List.nil_append, JTok.net]
    rw [objLoop_cons]
    have e1 : ¬ (c = '}' ∧ i = 0 ∧ (0 : Int) = 0 ∧ onKey = false) := fun ⟨a, b, _⟩ => hs ⟨b, .inl (by rw [a])⟩
    have e2 : ¬ (c = ',' ∧ i = 0 ∧ (0 : Int) = 0 ∧ onKey = false) := fun ⟨a, b, _⟩ => hs ⟨b, .inr (.inl (by rw [a]))⟩
    have e3 : ¬ (c = ':' ∧ i = 0 ∧ (0 : Int) = 0) := fun ⟨a, b, _⟩ => hs ⟨b, .inr (.inr (by rw [a]))⟩
    rw [if_neg e1, if_neg e2, if_neg e3]
    rcases h with rfl | rfl | rfl | rfl | rfl | rfl <;> simp [Int.sub_eq_add_neg, isWs]
  | str s =>
    have := scan_strText s i [] h
    rw [List.append_nil] at this
    exact objLoop_scan rec rest onKey object _ _ i 0 _ 0 kv (Nat.le_refl _) (by show scan i 0 (strText s) = some (i + rawBrackets s, 0); rw [this]; rfl)
  | lit t =>
    have := scan_inerts i 0 t [] h.2
    rw [List.append_nil] at this
    simp only [JTok.text, JTok.net, Int.add_zero]
    exact objLoop_scan rec rest onKey object _ _ i 0 _ 0 kv (Nat.le_refl _) (by rw [this]; rfl)

theorem objLoop_wsPush (rec : Str → Res (Json F)) (w rest : Str) (kv : Str × Str) (onKey : Bool) (object : Obj F) (h : WsStr w) (i : Int) (hi : i ≠ 0) :
    objLoop rec (w ++ rest) i 0 kv onKey object = objLoop rec rest i 0 (pushKV onKey kv.1 kv.2 w) onKey object := by
  induction w generalizing kv with
  | nil => cases onKey <;> simp [pushKV]
  | cons c w ih =>
    have hc := h c (by simp)
    rw [List.cons_append, objLoop_cons]
    have n : c ≠ '"' ∧ c ≠ '[' ∧ c ≠ ']' ∧ c ≠ '{' ∧ c ≠ '}' ∧ c ≠ '\\' ∧ c ≠ ',' ∧ c ≠ ':' := by
      rcases ws_cases hc with rfl | rfl | rfl | rfl <;> decide
    rw [if_neg (fun e => n.2.2.2.2.1 e.1), if_neg (fun e => n.2.2.2.2.2.2.1 e.1), if_neg (fun e => n.2.2.2.2.2.2.2 e.1),
      if_neg n.1, if_neg n.2.1, if_neg n.2.2.1, if_neg n.2.2.2.1, if_neg n.2.2.2.2.1, if_neg n.2.2.2.2.2.1,
      if_neg (fun e => hi e.1)]
    rw [ih _ (fun x hx => h x (by simp [hx])), pushKV_append]
    rfl

theorem obj_ws (rec : Str → Res (Json F)) (w rest : Str) (kv : Str × Str) (onKey : Bool) (object : Obj F) (h : WsStr w) (i : Int) :
    objLoop rec (w ++ rest) i 0 kv onKey object = objLoop rec rest i 0 (pushKV onKey kv.1 kv.2 (if i = 0 then [] else w)) onKey object := by
  by_cases hi : i = 0
  · subst hi
    have : pushKV onKey kv.1 kv.2 [] = kv := by cases onKey <;> simp [pushKV]
    rw [if_pos rfl, this]; exact objLoop_ws rec w rest kv onKey object h
  · rw [if_neg hi]; exact objLoop_wsPush rec w rest kv onKey object h i hi

/-- Running the object loop over tokens of a member's value: it fails at a premature split, or collects them. -/
theorem obj_run (rec : Str → Res (Json F)) (rest ks : Str) (object : Obj F) : ∀ (b a : List JTok) (us s : Str), (∀ t ∈ a, t.Ok) → (∀ t ∈ b, t.Ok) →
    Lead a us → Spells b s →
    (∀ p t r, b = p ++ t :: r → (t = .sym '}' ∨ t = .sym ',' ∨ t = .sym ':') → net (a ++ p) = 0 → ∀ s q, Lead (a ++ p) s →
      bal 0 0 (s ++ q) = some (0, 0) → Bad (rec (s ++ q))) →
    Bad (objLoop rec (s ++ rest) (net a) 0 (ks, us) false object) ∨
    ∃ us', Lead (a ++ b) us' ∧ objLoop rec (s ++ rest) (net a) 0 (ks, us) false object = objLoop rec rest (net (a ++ b)) 0 (ks, us') false object := by
  intro b
  induction b with
  | nil =>
    intro a us s _ _ hl hs _
    right
    rw [obj_ws rec s rest (ks, us) false object hs (net a)]
    rw [List.append_nil]
    simp only [pushKV, Bool.false_eq_true, if_false]
    refine ⟨_, ?_, rfl⟩
    by_cases ha : a = []
    · subst ha
      rw [Lead] at hl
      subst hl
      simp [net, Lead]
    · refine lead_ws ha hl ?_
      split
      · exact wsStr_nil
      · exact hs
  | cons t b ih =>
    intro a us s hoka hok hl hs hsplit
    obtain ⟨w, s', hw, rfl, hs'⟩ := hs
    rw [List.append_assoc, List.append_assoc, obj_ws rec w _ (ks, us) false object hw (net a)]
    simp only [pushKV, Bool.false_eq_true, if_false]
    have hl' : Lead a (us ++ (if net a = 0 then [] else w)) := by
      by_cases ha : a = []
      · subst ha
        rw [Lead] at hl
        subst hl
        simp [net, Lead]
      · refine lead_ws ha hl ?_
        split
        · exact wsStr_nil
        · exact hw
    generalize us ++ (if net a = 0 then [] else w) = us1 at hl'
    by_cases hst : net a = 0 ∧ (t = .sym '}' ∨ t = .sym ',' ∨ t = .sym ':')
    · left
      have hb : ∀ q, bal 0 0 (us1 ++ q) = some (0, 0) → Bad (rec (us1 ++ q)) := fun q =>
        hsplit [] t b rfl hst.2 (by rw [List.append_nil]; exact hst.1) us1 q (by rw [List.append_nil]; exact hl')
      have h0 : bal 0 0 (us1 ++ []) = some (net a, 0) := by
        rw [List.append_nil]; exact bal_spells' hoka (lead_spells hl')
      have := obj_pastV rec us1 ks hb _ (t.text ++ (s' ++ rest)) (net a) 0 [] object (Nat.le_refl _) h0
      rwa [List.append_nil] at this
    · rw [obj_tok rec t (hok t (by simp)) (net a) (ks, us1) false (s' ++ rest) object hst]
      simp only [pushKV, Bool.false_eq_true, if_false]
      have e : net a + t.net = net (a ++ [t]) := by simp [net_append, net]
      rw [e]
      have hl2 : Lead (a ++ [t]) (us1 ++ t.text) := by
        by_cases ha : a = []
        · subst ha
          rw [Lead] at hl'
          subst hl'
          exact ⟨[], by simp, wsStr_nil⟩
        · exact lead_append ha hl' (spells_one t)
      have := ih (a ++ [t]) (us1 ++ t.text) s' (by
        intro x hx
        rcases List.mem_append.mp hx with h | h
        · exact hoka x h
        · rw [List.mem_singleton] at h; subst h; exact hok _ (by simp)) (fun x hx => hok x (by simp [hx])) hl2 hs' (by
        intro p t' r hb ht' hn s q hls
        refine hsplit (t :: p) t' r (by rw [hb]; rfl) ht' ?_ s q ?_
        · rw [show a ++ t :: p = (a ++ [t]) ++ p by simp]; exact hn
        · rw [show a ++ t :: p = (a ++ [t]) ++ p by simp]; exact hls)
      rwa [show (a ++ [t]) ++ b = a ++ t :: b by simp] at this

/-! ### Tokens of a syntax tree -/

mutual
def Cst.toks : Cst → List JTok
  | .null => [.lit "null".toList]
  | .true => [.lit "true".toList]
  | .false => [.lit "false".toList]
  | .num n => [.lit n.text]
  | .str s => [.str s]
  | .arr0 _ => [.sym '[', .sym ']']
  | .arr es => .sym '[' :: (Elems.toks es ++ [.sym ']'])
  | .obj0 _ => [.sym '{', .sym '}']
  | .obj ms => .sym '{' :: (Members.toks ms ++ [.sym '}'])
def Elems.toks : Elems → List JTok
  | .one _ x _ => Cst.toks x
  | .cons _ x _ t => Cst.toks x ++ .sym ',' :: Elems.toks t
def Members.toks : Members → List JTok
  | .one _ k _ _ x _ => .str k :: .sym ':' :: Cst.toks x
  | .cons _ k _ _ x _ t => .str k :: .sym ':' :: (Cst.toks x ++ .sym ',' :: Members.toks t)
end

/-- Tokens a value can start with. -/
def JTok.First : JTok → Prop
  | .sym c => c = '[' ∨ c = '{'
  | _ => True

theorem lit_ok (s : Str) (h0 : s ≠ []) (h : ∀ c ∈ s, Inert c) : ∀ t ∈ [JTok.lit s], t.Ok := by
  intro t ht
  rw [List.mem_singleton] at ht
  subst ht
  exact ⟨h0, h⟩

mutual
theorem cst_ok : ∀ x : Cst, x.Wordy → ∀ t ∈ Cst.toks x, t.Ok
  | .null, _ => lit_ok _ (by decide) (by unfold Inert; decide)
  | .true, _ => lit_ok _ (by decide) (by unfold Inert; decide)
  | .false, _ => lit_ok _ (by decide) (by unfold Inert; decide)
  | .num n, h => by
    exact lit_ok _ h.1 (fun c hc => wordChar_inert (h.2 c hc))
  | .str s, h => by
    intro t ht
    simp only [Cst.toks, List.mem_singleton] at ht
    subst ht; exact h
  | .arr0 _, _ => by simp [Cst.toks, JTok.Ok]
  | .obj0 _, _ => by simp [Cst.toks, JTok.Ok]
  | .arr es, h => by
    intro t ht
    simp only [Cst.toks, List.mem_cons, List.mem_append, List.not_mem_nil, or_false] at ht
    rcases ht with rfl | ht | rfl
    · simp [JTok.Ok]
    · exact elems_ok es h t ht
    · simp [JTok.Ok]
  | .obj ms, h => by
    intro t ht
    simp only [Cst.toks, List.mem_cons, List.mem_append, List.not_mem_nil, or_false] at ht
    rcases ht with rfl | ht | rfl
    · simp [JTok.Ok]
    · exact members_ok ms h t ht
    · simp [JTok.Ok]
theorem elems_ok : ∀ es : Elems, es.Wordy → ∀ t ∈ Elems.toks es, t.Ok
  | .one _ x _, h => cst_ok x h.2.1
  | .cons _ x _ t, h => by
    intro k hk
    simp only [Elems.toks, List.mem_cons, List.mem_append] at hk
    rcases hk with hk | rfl | hk
    · exact cst_ok x h.2.1 k hk
    · simp [JTok.Ok]
    · exact elems_ok t h.2.2.2 k hk
theorem members_ok : ∀ ms : Members, ms.Wordy → ∀ t ∈ Members.toks ms, t.Ok
  | .one _ k _ _ x _, h => by
    intro t ht
    simp only [Members.toks, List.mem_cons] at ht
    rcases ht with rfl | rfl | ht
    · exact h.2.1
    · simp [JTok.Ok]
    · exact cst_ok x h.2.2.2.2.1 t ht
  | .cons _ k _ _ x _ m, h => by
    intro t ht
    simp only [Members.toks, List.mem_cons, List.mem_append] at ht
    rcases ht with rfl | rfl | ht | rfl | ht
    · exact h.1.2.1
    · simp [JTok.Ok]
    · exact cst_ok x h.1.2.2.2.2.1 t ht
    · simp [JTok.Ok]
    · exact members_ok m h.2 t ht
end

theorem cst_first (x : Cst) : ∃ t r, Cst.toks x = t :: r ∧ t.First := by
  cases x <;> exact ⟨_, _, rfl, by simp [JTok.First]⟩

theorem elems_first (es : Elems) : ∃ t r, Elems.toks es = t :: r ∧ t.First := by
  cases es with
  | one _ x _ => exact cst_first x
  | cons _ x _ t =>
    obtain ⟨k, r, e, h⟩ := cst_first x
    exact ⟨k, r ++ .sym ',' :: Elems.toks t, by simp [Elems.toks, e], h⟩

mutual
theorem cst_spells : ∀ x : Cst, x.Wordy → Lead (Cst.toks x) x.text
  | .null, _ => ⟨[], rfl, wsStr_nil⟩
  | .true, _ => ⟨[], rfl, wsStr_nil⟩
  | .false, _ => ⟨[], rfl, wsStr_nil⟩
  | .num n, _ => ⟨[], by simp [Cst.text, JTok.text], wsStr_nil⟩
  | .str s, _ => ⟨[], by simp [Cst.text, JTok.text], wsStr_nil⟩
  | .arr0 w, h => ⟨w ++ [']'], by simp [Cst.text, JTok.text], spells_ws h (spells_one (.sym ']'))⟩
  | .obj0 w, h => ⟨w ++ ['}'], by simp [Cst.text, JTok.text], spells_ws h (spells_one (.sym '}'))⟩
  | .arr es, h => ⟨es.text ++ [']'], by simp [Cst.text, JTok.text], spells_append (elems_spells es h) (spells_one (.sym ']'))⟩
  | .obj ms, h => ⟨ms.text ++ ['}'], by simp [Cst.text, JTok.text], spells_append (members_spells ms h) (spells_one (.sym '}'))⟩
theorem elems_spells : ∀ es : Elems, es.Wordy → Spells (Elems.toks es) es.text
  | .one w1 x w2, h => by
    have := spells_append (b := []) (spells_ws h.1 (lead_spells (cst_spells x h.2.1))) h.2.2
    rwa [List.append_nil] at this
  | .cons w1 x w2 t, h => by
    have h1 := spells_append (b := []) (spells_ws h.1 (lead_spells (cst_spells x h.2.1))) h.2.2.1
    rw [List.append_nil] at h1
    have h2 := spells_append h1 (spells_append (spells_one (.sym ',')) (elems_spells t h.2.2.2))
    simpa [Elems.text, Elems.toks, JTok.text] using h2
theorem members_spells : ∀ ms : Members, ms.Wordy → Spells (Members.toks ms) ms.text
  | .one w1 k w2 w3 x w4, h => by
    obtain ⟨h1, h2, h3, h4, h5, h6⟩ := h
    have a := spells_ws h1 (spells_one (.str k))
    have b := spells_ws h3 (spells_one (.sym ':'))
    have c := spells_append (b := []) (spells_ws h4 (lead_spells (cst_spells x h5))) h6
    rw [List.append_nil] at c
    have := spells_append a (spells_append b c)
    simpa [Members.text, Members.toks, JTok.text] using this
  | .cons w1 k w2 w3 x w4 t, h => by
    obtain ⟨⟨h1, h2, h3, h4, h5, h6⟩, h7⟩ := h
    have a := spells_ws h1 (spells_one (.str k))
    have b := spells_ws h3 (spells_one (.sym ':'))
    have c := spells_append (b := []) (spells_ws h4 (lead_spells (cst_spells x h5))) h6
    rw [List.append_nil] at c
    have := spells_append a (spells_append b (spells_append c (spells_append (spells_one (.sym ',')) (members_spells t h7))))
    simpa [Members.text, Members.toks, JTok.text] using this
end

end RJ
