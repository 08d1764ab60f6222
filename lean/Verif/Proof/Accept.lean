import Verif.Spec.Accept
import Verif.Proof.TokRun
import Verif.Proof.ParseInv
/-
  The container loops against `Spec.Reads`.
-/
set_option linter.unusedSectionVars false
namespace RJ
open Spec

/-! ### Counting -/

theorem openCount_snoc (a : List Glyph) (g : Glyph) : openCount (a ++ [g]) = openCount a + g.opens := by simp [openCount]

/-- The code's `j`. -/
def qp (a : List Glyph) : Int := ((quoteCount a % 2 : Nat) : Int)

theorem quoteCount_quote (a : List Glyph) : quoteCount (a ++ [.ch '"']) = quoteCount a + 1 := by simp [quoteCount]
theorem quoteCount_ch (a : List Glyph) {c : Char} (h : c ≠ '"') : quoteCount (a ++ [.ch c]) = quoteCount a := by simp [quoteCount, h]
theorem quoteCount_esc (a : List Glyph) (c : Char) : quoteCount (a ++ [.esc c]) = quoteCount a := by simp [quoteCount]

theorem qp_quote (a : List Glyph) : qp (a ++ [.ch '"']) = quoteStep (qp a) := by
  have : quoteCount a % 2 = 0 ∨ quoteCount a % 2 = 1 := by omega
  rcases this with h | h
  · rw [show qp a = 0 by unfold qp; omega]; show qp _ = 1; unfold qp; rw [quoteCount_quote]; omega
  · rw [show qp a = 1 by unfold qp; omega]; show qp _ = 0; unfold qp; rw [quoteCount_quote]; omega

theorem qp_ch (a : List Glyph) {c : Char} (h : c ≠ '"') : qp (a ++ [.ch c]) = qp a := by simp only [qp, quoteCount_ch a h]
theorem qp_esc (a : List Glyph) (c : Char) : qp (a ++ [.esc c]) = qp a := by simp only [qp, quoteCount_esc]

theorem outside_iff (a : List Glyph) : Outside a ↔ openCount a = 0 ∧ qp a = 0 := by
  unfold Outside qp; constructor <;> (rintro ⟨h1, h2⟩; exact ⟨h1, by omega⟩)

/-- What a glyph adds to a piece. -/
def keep (drop : Char → Prop) [DecidablePred drop] (a : List Glyph) : Glyph → Str
  | .ch c => if Outside a ∧ drop c then [] else [c]
  | .esc c => ['\\', c]

theorem squeezeFrom_cons (drop : Char → Prop) [DecidablePred drop] (a : List Glyph) (g : Glyph) (gs : List Glyph) :
    squeezeFrom drop a (g :: gs) = keep drop a g ++ squeezeFrom drop (a ++ [g]) gs := by cases g <;> rfl

theorem squeezeFrom_snoc (drop : Char → Prop) [DecidablePred drop] (g : Glyph) : ∀ (gs a : List Glyph),
    squeezeFrom drop a (gs ++ [g]) = squeezeFrom drop a gs ++ keep drop (a ++ gs) g
  | [], a => by rw [List.nil_append, squeezeFrom_cons]; simp [squeezeFrom]
  | x :: gs, a => by
    rw [List.cons_append, squeezeFrom_cons, squeezeFrom_cons, squeezeFrom_snoc drop g gs (a ++ [x])]
    simp

theorem squeeze_snoc (drop : Char → Prop) [DecidablePred drop] (gs : List Glyph) (g : Glyph) : squeeze drop (gs ++ [g]) = squeeze drop gs ++ keep drop gs g := by
  rw [squeeze, squeezeFrom_snoc]; rfl

theorem keep_length (drop : Char → Prop) [DecidablePred drop] (a : List Glyph) (g : Glyph) : (keep drop a g).length ≤ g.text.length := by
  cases g with
  | ch c => simp only [keep, Glyph.text]; split <;> simp
  | esc c => simp [keep, Glyph.text]

theorem squeeze_length (drop : Char → Prop) [DecidablePred drop] : ∀ gs a : List Glyph, (squeezeFrom drop a gs).length ≤ (glyphs gs).length
  | [], _ => by simp [squeezeFrom]
  | g :: gs, a => by
    rw [squeezeFrom_cons]
    have := keep_length drop a g
    have := squeeze_length drop gs (a ++ [g])
    simp only [glyphs, List.flatMap_cons, List.length_append] at *
    omega

theorem glyphs_append (a b : List Glyph) : glyphs (a ++ b) = glyphs a ++ glyphs b := by simp [glyphs]
theorem glyphs_snoc (a : List Glyph) (g : Glyph) : glyphs (a ++ [g]) = glyphs a ++ g.text := by simp [glyphs]

/-- No stop so far. -/
def NoStop (stop : Char → Prop) (gs : List Glyph) : Prop := GlyphsOk gs ∧ ∀ a c b, gs = a ++ .ch c :: b → Outside a → ¬ stop c

theorem NoStop.nil (stop : Char → Prop) : NoStop stop [] := ⟨by simp [GlyphsOk], fun a c b h => by simp at h⟩

theorem NoStop.snoc {stop : Char → Prop} {a : List Glyph} (h : NoStop stop a) {g : Glyph} (hg : g ≠ .ch '\\') (hs : Outside a → ∀ c, g = .ch c → ¬ stop c) :
    NoStop stop (a ++ [g]) := by
  refine ⟨?_, ?_⟩
  · intro hm
    rcases List.mem_append.1 hm with hm | hm
    · exact h.1 hm
    · simp only [List.mem_singleton] at hm; exact hg hm.symm
  · intro x c b e hx
    rcases List.eq_nil_or_concat b with rfl | ⟨b', y, rfl⟩
    · have := List.append_inj' e rfl
      simp only [List.cons.injEq, and_true] at this
      rw [← this.1] at hx
      exact hs hx c this.2
    · rw [List.concat_eq_append, ← List.cons_append, ← List.append_assoc] at e
      exact h.2 x c b' (List.append_inj' e rfl).1 hx

theorem segment_iff {stop : Char → Prop} {gs : List Glyph} : Segment stop gs ↔ NoStop stop gs ∧ Outside gs :=
  ⟨fun h => ⟨⟨h.1, h.2.2⟩, h.2.1⟩, fun h => ⟨h.1.1, h.2, h.1.2⟩⟩

theorem NoStop.left {stop : Char → Prop} {a b : List Glyph} (h : NoStop stop (a ++ b)) : NoStop stop a :=
  ⟨fun hm => h.1 (List.mem_append.2 (Or.inl hm)), fun x c y e => h.2 x c (y ++ b) (by rw [e]; simp)⟩

section
variable {F : Type}

/-! ### Arrays -/

theorem arr_glyph (rec : Str → Res (Json F)) (a : List Glyph) (g : Glyph) (hg : g ≠ .ch '\\') (hs : Outside a → ∀ c, g = .ch c → ¬ ElemStop c)
    (rest inner : Str) (arr : List (Json F)) :
    arrLoop rec (g.text ++ rest) (openCount a) (qp a) inner arr =
      arrLoop rec rest (openCount (a ++ [g])) (qp (a ++ [g])) (inner ++ keep IsWs a g) arr := by
  rw [openCount_snoc]
  cases g with
  | esc c =>
    simp only [Glyph.text, List.cons_append, List.nil_append, Glyph.opens, keep, qp_esc]
    rw [arrLoop_cons]
    simp
  | ch c =>
    have hc : c ≠ '\\' := fun e => hg (by rw [e])
    simp only [Glyph.text, List.cons_append, List.nil_append]
    rw [arrLoop_cons]
    have ho := outside_iff a
    have hs' : Outside a → c ≠ ']' ∧ c ≠ ',' := fun h => ⟨fun e => hs h c rfl (Or.inr e), fun e => hs h c rfl (Or.inl e)⟩
    rw [if_neg (fun e => (hs' (ho.2 e.2)).1 e.1), if_neg (fun e => (hs' (ho.2 e.2)).2 e.1)]
    by_cases h1 : c = '"'
    · subst h1; rw [if_pos rfl, qp_quote]; simp [Glyph.opens, keep, IsWs]
    · rw [if_neg h1]
      rw [qp_ch a h1]
      by_cases h2 : c = '['
      · subst h2; rw [if_pos rfl]; simp [Glyph.opens, keep, IsWs]
      · rw [if_neg h2]
        by_cases h3 : c = ']'
        · subst h3; rw [if_pos rfl]; simp [Glyph.opens, keep, IsWs, Int.sub_eq_add_neg]
        · rw [if_neg h3]
          by_cases h4 : c = '{'
          · subst h4; rw [if_pos rfl]; simp [Glyph.opens, keep, IsWs]
          · rw [if_neg h4]
            by_cases h5 : c = '}'
            · subst h5; rw [if_pos rfl]; simp [Glyph.opens, keep, IsWs, Int.sub_eq_add_neg]
            · rw [if_neg h5, if_neg hc]
              have e0 : Glyph.opens (.ch c) = 0 := by simp [Glyph.opens, h2, h3, h4, h5]
              rw [e0, Int.add_zero]
              by_cases h6 : Outside a ∧ IsWs c
              · rw [if_pos ⟨(ho.1 h6.1).1, (ho.1 h6.1).2, (isWs_iff c).2 h6.2⟩]
                simp [keep, h6]
              · rw [if_neg (fun e => h6 ⟨ho.2 ⟨e.1, e.2.1⟩, (isWs_iff c).1 e.2.2⟩)]
                simp [keep, h6]

/-- The elements of an array, cut by the loop and given to `rec`. -/
inductive ElemsR (rec : Str → Res (Json F)) : Str → List (Json F) → Prop
  | one (gs : List Glyph) (v : Json F) (hs : Segment ElemStop gs) (hv : rec (squeeze IsWs gs) = .ok v) : ElemsR rec (glyphs gs) [v]
  | cons (gs : List Glyph) (v : Json F) (t : Str) (vs : List (Json F)) (hs : Segment ElemStop gs) (hv : rec (squeeze IsWs gs) = .ok v) (ht : ElemsR rec t vs) :
      ElemsR rec (glyphs gs ++ ',' :: t) (v :: vs)

theorem arr_glyphs (rec : Str → Res (Json F)) (rest : Str) (arr : List (Json F)) : ∀ (b a : List Glyph), NoStop ElemStop (a ++ b) →
    arrLoop rec (glyphs b ++ rest) (openCount a) (qp a) (squeeze IsWs a) arr =
      arrLoop rec rest (openCount (a ++ b)) (qp (a ++ b)) (squeeze IsWs (a ++ b)) arr
  | [], a, _ => by simp [glyphs]
  | g :: b, a, h => by
    have h' : NoStop ElemStop ((a ++ [g]) ++ b) := by simpa using h
    have hg := h'.left
    have e : glyphs (g :: b) ++ rest = g.text ++ (glyphs b ++ rest) := by simp [glyphs]
    rw [e, arr_glyph rec a g (fun e => hg.1 (by simp [e])) (fun ho c e => hg.2 a c [] (by rw [e]) ho), ← squeeze_snoc,
      arr_glyphs rec rest arr b (a ++ [g]) h']
    simp

theorem segment_start (rec : Str → Res (Json F)) {gs : List Glyph} (h : Segment ElemStop gs) (rest : Str) (arr : List (Json F)) :
    arrLoop rec (glyphs gs ++ rest) 0 0 [] arr = arrLoop rec rest 0 0 (squeeze IsWs gs) arr := by
  have := arr_glyphs rec rest arr gs [] (by simpa using (segment_iff.1 h).1)
  have ho := (outside_iff gs).1 h.2.1
  rw [List.nil_append, ho.1, ho.2] at this
  exact this

/-- What does not start with a stop. -/
theorem segment_head {stop : Char → Prop} {gs : List Glyph} (h : Segment stop gs) (hne : gs ≠ []) (rest : Str) {c : Char} (hc : stop c) (hb : c ≠ '\\') :
    (glyphs gs ++ rest).head? ≠ some c := by
  cases gs with
  | nil => exact absurd rfl hne
  | cons g gs =>
    cases g with
    | ch d =>
      simp only [glyphs, List.flatMap_cons, Glyph.text, List.cons_append, List.nil_append, List.head?_cons]
      intro e
      cases e
      exact h.2.2 [] c gs rfl ⟨rfl, rfl⟩ hc
    | esc d =>
      simp only [glyphs, List.flatMap_cons, Glyph.text, List.cons_append, List.nil_append, List.head?_cons]
      intro e
      cases e
      exact hb rfl

theorem elemsR_head {rec : Str → Res (Json F)} (hrec : ∀ j, rec [] ≠ .ok j) {body : Str} {js : List (Json F)} (h : ElemsR rec body js) (rest : Str) :
    (body ++ rest).head? ≠ some ']' := by
  have key : ∀ (gs : List Glyph) (v : Json F) (r : Str), Segment ElemStop gs → rec (squeeze IsWs gs) = .ok v → (glyphs gs ++ r).head? ≠ some ']' := by
    intro gs v r hs hv
    refine segment_head hs ?_ r (Or.inr rfl) (by decide)
    rintro rfl
    exact hrec _ hv
  cases h with
  | one gs v hs hv => exact key gs v _ hs hv
  | cons gs v t vs hs hv ht => rw [List.append_assoc]; exact key gs v _ hs hv

theorem arr_complete {rec : Str → Res (Json F)} (hrec : ∀ j, rec [] ≠ .ok j) {w : Str} (hw : WsStr w) {body : Str} {js : List (Json F)} (h : ElemsR rec body js) :
    ∀ arr, arrLoop rec (body ++ ']' :: w) 0 0 [] arr = .ok (.array (arr ++ js)) := by
  induction h with
  | one gs v hs hv =>
    intro arr
    rw [segment_start rec hs, arrLoop_cons, if_pos ⟨rfl, rfl, rfl⟩, hv]
    dsimp only
    rw [(skipTrail_ok _ _).2 hw]
  | cons gs v t vs hs hv ht ih =>
    intro arr
    rw [List.append_assoc, segment_start rec hs, List.cons_append, arrLoop_cons, if_neg (by simp), if_pos ⟨rfl, rfl, rfl⟩]
    rw [if_neg (by intro e; rw [e] at hv; exact hrec _ hv), if_neg (elemsR_head hrec ht _), hv]
    dsimp only
    rw [ih]
    simp

theorem arr_sound (rec : Str → Res (Json F)) (j : Json F) : ∀ (n : Nat) (s : Str) (a : List Glyph) (arr : List (Json F)), s.length ≤ n → NoStop ElemStop a →
    arrLoop rec s (openCount a) (qp a) (squeeze IsWs a) arr = .ok j →
    ∃ t js w, s = t ++ ']' :: w ∧ WsStr w ∧ j = .array (arr ++ js) ∧ ElemsR rec (glyphs a ++ t) js
  | _, [], _, _, _, _, h => by rw [arrLoop] at h; simp [fail] at h
  | 0, _ :: _, _, _, hn, _, _ => by simp at hn
  | n + 1, c :: s, a, arr, hn, ha, h => by
    have hn' : s.length ≤ n := by simpa using hn
    have ho := outside_iff a
    by_cases hstop : Outside a ∧ ElemStop c
    · obtain ⟨hout, hst⟩ := hstop
      have hseg : Segment ElemStop a := segment_iff.2 ⟨ha, hout⟩
      rw [(ho.1 hout).1, (ho.1 hout).2, arrLoop_cons] at h
      rcases hst with rfl | rfl
      · rw [if_neg (by simp), if_pos ⟨rfl, rfl, rfl⟩] at h
        by_cases e1 : squeeze IsWs a = []
        · rw [if_pos e1] at h; simp [fail] at h
        rw [if_neg e1] at h
        by_cases e2 : s.head? = some ']'
        · rw [if_pos e2] at h; simp [fail] at h
        rw [if_neg e2] at h
        cases e3 : rec (squeeze IsWs a) with
        | error e => rw [e3] at h; cases h
        | ok v =>
          rw [e3] at h
          obtain ⟨t, js, w, rfl, hw, rfl, hr⟩ := arr_sound rec j n s [] _ hn' (NoStop.nil _) h
          exact ⟨',' :: t, v :: js, w, rfl, hw, by simp, ElemsR.cons a v t js hseg e3 hr⟩
      · rw [if_pos ⟨rfl, rfl, rfl⟩] at h
        cases e3 : rec (squeeze IsWs a) with
        | error e => rw [e3] at h; cases h
        | ok v =>
          rw [e3] at h
          dsimp only at h
          cases e4 : skipTrail .ParseArrayError s with
          | error e => rw [e4] at h; cases h
          | ok u =>
            rw [e4] at h
            simp only [Except.ok.injEq] at h
            exact ⟨[], [v], s, rfl, (skipTrail_ok _ _).1 e4, h.symm, by simpa using ElemsR.one a v hseg e3⟩
    · by_cases hc : c = '\\'
      · subst hc
        cases s with
        | nil =>
          rw [arrLoop_cons] at h
          simp [fail] at h
        | cons d s =>
          have hstep := arr_glyph rec a (.esc d) (by simp) (fun _ c e => by cases e) s (squeeze IsWs a) arr
          simp only [Glyph.text, List.cons_append, List.nil_append] at hstep
          rw [hstep, ← squeeze_snoc] at h
          obtain ⟨t, js, w, rfl, hw, rfl, hr⟩ := arr_sound rec j n s _ arr (by simp at hn'; omega) (ha.snoc (by simp) (fun _ c e => by cases e)) h
          refine ⟨'\\' :: d :: t, js, w, rfl, hw, rfl, ?_⟩
          rw [glyphs_snoc] at hr
          simpa [Glyph.text] using hr
      · have hg : Glyph.ch c ≠ .ch '\\' := by simpa using hc
        have hs : Outside a → ∀ d, Glyph.ch c = .ch d → ¬ ElemStop d := by
          intro ho d e hst
          cases e
          exact hstop ⟨ho, hst⟩
        have hstep := arr_glyph rec a (.ch c) hg hs s (squeeze IsWs a) arr
        simp only [Glyph.text, List.cons_append, List.nil_append] at hstep
        rw [hstep, ← squeeze_snoc] at h
        obtain ⟨t, js, w, rfl, hw, rfl, hr⟩ := arr_sound rec j n s _ arr hn' (ha.snoc hg hs) h
        refine ⟨c :: t, js, w, rfl, hw, rfl, ?_⟩
        rw [glyphs_snoc] at hr
        simpa [Glyph.text] using hr

/-! ### Objects -/

theorem obj_key_glyph (rec : Str → Res (Json F)) (a : List Glyph) (g : Glyph) (hg : g ≠ .ch '\\') (hs : Outside a → ∀ c, g = .ch c → ¬ KeyStop c)
    (rest : Str) (kv : Str × Str) (obj : Obj F) :
    objLoop rec (g.text ++ rest) (openCount a) (qp a) kv true obj =
      objLoop rec rest (openCount (a ++ [g])) (qp (a ++ [g])) (kv.1 ++ keep IsWs a g, kv.2) true obj := by
  rw [openCount_snoc]
  cases g with
  | esc c =>
    simp only [Glyph.text, List.cons_append, List.nil_append, Glyph.opens, keep, qp_esc]
    rw [objLoop_cons]
    simp [pushKV]
  | ch c =>
    have hc : c ≠ '\\' := fun e => hg (by rw [e])
    simp only [Glyph.text, List.cons_append, List.nil_append]
    rw [objLoop_cons]
    have ho := outside_iff a
    rw [if_neg (by simp), if_neg (by simp), if_neg (fun e => hs (ho.2 e.2) c rfl e.1)]
    by_cases h1 : c = '"'
    · subst h1; rw [if_pos rfl, qp_quote]; simp [Glyph.opens, keep, IsWs, pushKV]
    · rw [if_neg h1, qp_ch a h1]
      by_cases h2 : c = '['
      · subst h2; rw [if_pos rfl]; simp [Glyph.opens, keep, IsWs, pushKV]
      · rw [if_neg h2]
        by_cases h3 : c = ']'
        · subst h3; rw [if_pos rfl]; simp [Glyph.opens, keep, IsWs, Int.sub_eq_add_neg, pushKV]
        · rw [if_neg h3]
          by_cases h4 : c = '{'
          · subst h4; rw [if_pos rfl]; simp [Glyph.opens, keep, IsWs, pushKV]
          · rw [if_neg h4]
            by_cases h5 : c = '}'
            · subst h5; rw [if_pos rfl]; simp [Glyph.opens, keep, IsWs, Int.sub_eq_add_neg, pushKV]
            · rw [if_neg h5, if_neg hc]
              have e0 : Glyph.opens (.ch c) = 0 := by simp [Glyph.opens, h2, h3, h4, h5]
              rw [e0, Int.add_zero]
              by_cases h6 : Outside a ∧ IsWs c
              · rw [if_pos ⟨(ho.1 h6.1).1, (ho.1 h6.1).2, (isWs_iff c).2 h6.2⟩]
                simp [keep, h6]
              · rw [if_neg (fun e => h6 ⟨ho.2 ⟨e.1, e.2.1⟩, (isWs_iff c).1 e.2.2⟩)]
                simp [keep, h6, pushKV]

theorem obj_val_glyph (rec : Str → Res (Json F)) (a : List Glyph) (g : Glyph) (hg : g ≠ .ch '\\') (hs : Outside a → ∀ c, g = .ch c → ¬ ValueStop c)
    (rest : Str) (kv : Str × Str) (obj : Obj F) :
    objLoop rec (g.text ++ rest) (openCount a) (qp a) kv false obj =
      objLoop rec rest (openCount (a ++ [g])) (qp (a ++ [g])) (kv.1, kv.2 ++ keep ValueDrop a g) false obj := by
  rw [openCount_snoc]
  cases g with
  | esc c =>
    simp only [Glyph.text, List.cons_append, List.nil_append, Glyph.opens, keep, qp_esc]
    rw [objLoop_cons]
    simp [pushKV]
  | ch c =>
    have hc : c ≠ '\\' := fun e => hg (by rw [e])
    simp only [Glyph.text, List.cons_append, List.nil_append]
    rw [objLoop_cons]
    have ho := outside_iff a
    have hs' : Outside a → c ≠ '}' ∧ c ≠ ',' := fun h => ⟨fun e => hs h c rfl (Or.inr e), fun e => hs h c rfl (Or.inl e)⟩
    rw [if_neg (fun e => (hs' (ho.2 ⟨e.2.1, e.2.2.1⟩)).1 e.1), if_neg (fun e => (hs' (ho.2 ⟨e.2.1, e.2.2.1⟩)).2 e.1)]
    by_cases h0 : c = ':' ∧ Outside a
    · obtain ⟨rfl, h0⟩ := h0
      rw [if_pos ⟨rfl, ho.1 h0⟩, qp_ch a (by decide)]
      simp [Glyph.opens, keep, ValueDrop, h0]
    rw [if_neg (fun e => h0 ⟨e.1, ho.2 e.2⟩)]
    by_cases h1 : c = '"'
    · subst h1; rw [if_pos rfl, qp_quote]; simp [Glyph.opens, keep, ValueDrop, IsWs, pushKV]
    · rw [if_neg h1, qp_ch a h1]
      by_cases h2 : c = '['
      · subst h2; rw [if_pos rfl]; simp [Glyph.opens, keep, ValueDrop, IsWs, pushKV]
      · rw [if_neg h2]
        by_cases h3 : c = ']'
        · subst h3; rw [if_pos rfl]; simp [Glyph.opens, keep, ValueDrop, IsWs, Int.sub_eq_add_neg, pushKV]
        · rw [if_neg h3]
          by_cases h4 : c = '{'
          · subst h4; rw [if_pos rfl]; simp [Glyph.opens, keep, ValueDrop, IsWs, pushKV]
          · rw [if_neg h4]
            by_cases h5 : c = '}'
            · subst h5; rw [if_pos rfl]; simp [Glyph.opens, keep, ValueDrop, IsWs, Int.sub_eq_add_neg, pushKV]
            · rw [if_neg h5, if_neg hc]
              have e0 : Glyph.opens (.ch c) = 0 := by simp [Glyph.opens, h2, h3, h4, h5]
              rw [e0, Int.add_zero]
              by_cases h6 : Outside a ∧ IsWs c
              · rw [if_pos ⟨(ho.1 h6.1).1, (ho.1 h6.1).2, (isWs_iff c).2 h6.2⟩]
                simp [keep, ValueDrop, h6]
              · rw [if_neg (fun e => h6 ⟨ho.2 ⟨e.1, e.2.1⟩, (isWs_iff c).1 e.2.2⟩)]
                have : ¬ (Outside a ∧ ValueDrop c) := by
                  rintro ⟨x, y | y⟩
                  · exact h6 ⟨x, y⟩
                  · exact h0 ⟨y, x⟩
                simp [keep, this, pushKV]

/-- The members of an object, cut by the loop and given to `rec`. -/
inductive MembersR (rec : Str → Res (Json F)) : Str → List (Str × Json F) → Prop
  | one (kg vg : List Glyph) (k : Str) (v : Json F) (hk : Segment KeyStop kg) (hkv : rec (squeeze IsWs kg) = .ok (.string k))
      (hs : Segment ValueStop vg) (hv : rec (squeeze ValueDrop vg) = .ok v) : MembersR rec (glyphs kg ++ ':' :: glyphs vg) [(k, v)]
  | cons (kg vg : List Glyph) (k : Str) (v : Json F) (t : Str) (ms : List (Str × Json F)) (hk : Segment KeyStop kg) (hkv : rec (squeeze IsWs kg) = .ok (.string k))
      (hs : Segment ValueStop vg) (hv : rec (squeeze ValueDrop vg) = .ok v) (ht : MembersR rec t ms) :
      MembersR rec (glyphs kg ++ ':' :: (glyphs vg ++ ',' :: t)) ((k, v) :: ms)

/-- The members inserted one after the other. -/
def insertAll (obj : Obj F) (ms : List (Str × Json F)) : Obj F := ms.foldl (fun o m => objectInsert m.1 m.2 o) obj

theorem obj_key_glyphs (rec : Str → Res (Json F)) (rest v : Str) (obj : Obj F) : ∀ (b a : List Glyph), NoStop KeyStop (a ++ b) →
    objLoop rec (glyphs b ++ rest) (openCount a) (qp a) (squeeze IsWs a, v) true obj =
      objLoop rec rest (openCount (a ++ b)) (qp (a ++ b)) (squeeze IsWs (a ++ b), v) true obj
  | [], a, _ => by simp [glyphs]
  | g :: b, a, h => by
    have h' : NoStop KeyStop ((a ++ [g]) ++ b) := by simpa using h
    have hg := h'.left
    have e : glyphs (g :: b) ++ rest = g.text ++ (glyphs b ++ rest) := by simp [glyphs]
    rw [e, obj_key_glyph rec a g (fun e => hg.1 (by simp [e])) (fun ho c e => hg.2 a c [] (by rw [e]) ho), ← squeeze_snoc,
      obj_key_glyphs rec rest v obj b (a ++ [g]) h']
    simp

theorem obj_val_glyphs (rec : Str → Res (Json F)) (rest k : Str) (obj : Obj F) : ∀ (b a : List Glyph), NoStop ValueStop (a ++ b) →
    objLoop rec (glyphs b ++ rest) (openCount a) (qp a) (k, squeeze ValueDrop a) false obj =
      objLoop rec rest (openCount (a ++ b)) (qp (a ++ b)) (k, squeeze ValueDrop (a ++ b)) false obj
  | [], a, _ => by simp [glyphs]
  | g :: b, a, h => by
    have h' : NoStop ValueStop ((a ++ [g]) ++ b) := by simpa using h
    have hg := h'.left
    have e : glyphs (g :: b) ++ rest = g.text ++ (glyphs b ++ rest) := by simp [glyphs]
    rw [e, obj_val_glyph rec a g (fun e => hg.1 (by simp [e])) (fun ho c e => hg.2 a c [] (by rw [e]) ho), ← squeeze_snoc,
      obj_val_glyphs rec rest k obj b (a ++ [g]) h']
    simp

theorem member_start (rec : Str → Res (Json F)) {kg vg : List Glyph} (h : Segment KeyStop kg) (h' : Segment ValueStop vg) (rest : Str) (obj : Obj F) :
    objLoop rec (glyphs kg ++ ':' :: (glyphs vg ++ rest)) 0 0 ([], []) true obj = objLoop rec rest 0 0 (squeeze IsWs kg, squeeze ValueDrop vg) false obj := by
  have h1 := obj_key_glyphs rec (':' :: (glyphs vg ++ rest)) [] obj kg [] (by simpa using (segment_iff.1 h).1)
  have ho := (outside_iff kg).1 h.2.1
  rw [List.nil_append, ho.1, ho.2] at h1
  have h2 := obj_val_glyphs rec rest (squeeze IsWs kg) obj vg [] (by simpa using (segment_iff.1 h').1)
  have ho' := (outside_iff vg).1 h'.2.1
  rw [List.nil_append, ho'.1, ho'.2] at h2
  refine Eq.trans h1 (Eq.trans ?_ h2)
  rw [objLoop_cons, if_neg (by simp), if_neg (by simp), if_pos ⟨rfl, rfl, rfl⟩]
  rfl

theorem membersR_head {rec : Str → Res (Json F)} (hrec : ∀ k, rec [] ≠ .ok (.string k)) (hrec' : ∀ r k, rec ('}' :: r) ≠ .ok (.string k)) {body : Str} {ms : List (Str × Json F)} (h : MembersR rec body ms) (rest : Str) :
    (body ++ rest).head? ≠ some '}' := by
  have key : ∀ (kg : List Glyph) (k : Str) (r : Str), rec (squeeze IsWs kg) = .ok (.string k) → (glyphs kg ++ r).head? ≠ some '}' := by
    intro kg k r hv
    cases kg with
    | nil => exact absurd hv (hrec k)
    | cons g kg =>
      cases g with
      | ch d =>
        simp only [glyphs, List.flatMap_cons, Glyph.text, List.cons_append, List.nil_append, List.head?_cons]
        intro e
        cases e
        rw [squeeze, squeezeFrom_cons, keep, if_neg (by simp [IsWs])] at hv
        exact hrec' _ _ hv
      | esc d =>
        simp only [glyphs, List.flatMap_cons, Glyph.text, List.cons_append, List.nil_append, List.head?_cons]
        intro e
        cases e
  cases h with
  | one kg vg k v hk hkv hs hv => rw [List.append_assoc]; exact key kg k _ hkv
  | cons kg vg k v t ms hk hkv hs hv ht => rw [List.append_assoc]; exact key kg k _ hkv

theorem obj_complete {rec : Str → Res (Json F)} (hrec : ∀ j, rec [] ≠ .ok j) (hrec' : ∀ r k, rec ('}' :: r) ≠ .ok (.string k)) {w : Str} (hw : WsStr w) {body : Str}
    {ms : List (Str × Json F)} (h : MembersR rec body ms) : ∀ obj, objLoop rec (body ++ '}' :: w) 0 0 ([], []) true obj = .ok (.object (insertAll obj ms)) := by
  induction h with
  | one kg vg k v hk hkv hs hv =>
    intro obj
    rw [List.append_assoc, List.cons_append, member_start rec hk hs, objLoop_cons, if_pos ⟨rfl, rfl, rfl, rfl⟩]
    simp only [hkv, hv, (skipTrail_ok _ _).2 hw]
    rfl
  | cons kg vg k v t ms hk hkv hs hv ht ih =>
    intro obj
    rw [List.append_assoc, List.cons_append, List.append_assoc, member_start rec hk hs, List.cons_append, objLoop_cons, if_neg (by simp), if_pos ⟨rfl, rfl, rfl, rfl⟩]
    rw [if_neg (by
      rintro (e | e)
      · dsimp only at e; rw [e] at hkv; exact hrec _ hkv
      · dsimp only at e; rw [e] at hv; exact hrec _ hv), if_neg (membersR_head (fun k => hrec _) hrec' ht _)]
    simp only [hkv, hv]
    rw [ih]
    rfl

mutual
theorem obj_sound_key (rec : Str → Res (Json F)) (j : Json F) : ∀ (n : Nat) (s : Str) (a : List Glyph) (obj : Obj F), s.length ≤ n → NoStop KeyStop a →
    objLoop rec s (openCount a) (qp a) (squeeze IsWs a, []) true obj = .ok j →
    ∃ t ms w, s = t ++ '}' :: w ∧ WsStr w ∧ j = .object (insertAll obj ms) ∧ MembersR rec (glyphs a ++ t) ms
  | _, [], _, _, _, _, h => by rw [objLoop] at h; simp [fail] at h
  | 0, _ :: _, _, _, hn, _, _ => by simp at hn
  | n + 1, c :: s, a, obj, hn, ha, h => by
    have hn' : s.length ≤ n := by simpa using hn
    have ho := outside_iff a
    by_cases hstop : Outside a ∧ KeyStop c
    · obtain ⟨hout, rfl⟩ := hstop
      have hseg : Segment KeyStop a := segment_iff.2 ⟨ha, hout⟩
      rw [(ho.1 hout).1, (ho.1 hout).2, objLoop_cons, if_neg (by simp), if_neg (by simp), if_pos ⟨rfl, rfl, rfl⟩] at h
      obtain ⟨t, ms, w, rfl, hw, rfl, hr⟩ := obj_sound_val rec j n s a [] obj hn' hseg (NoStop.nil _) h
      exact ⟨':' :: t, ms, w, rfl, hw, rfl, hr⟩
    · by_cases hc : c = '\\'
      · subst hc
        cases s with
        | nil => rw [objLoop_cons] at h; simp [fail] at h
        | cons d s =>
          have hstep := obj_key_glyph rec a (.esc d) (by simp) (fun _ c e => by cases e) s (squeeze IsWs a, []) obj
          simp only [Glyph.text, List.cons_append, List.nil_append] at hstep
          rw [hstep, ← squeeze_snoc] at h
          obtain ⟨t, ms, w, rfl, hw, rfl, hr⟩ := obj_sound_key rec j n s _ obj (by simp at hn'; omega) (ha.snoc (by simp) (fun _ c e => by cases e)) h
          refine ⟨'\\' :: d :: t, ms, w, rfl, hw, rfl, ?_⟩
          rw [glyphs_snoc] at hr
          simpa [Glyph.text] using hr
      · have hg : Glyph.ch c ≠ .ch '\\' := by simpa using hc
        have hs : Outside a → ∀ d, Glyph.ch c = .ch d → ¬ KeyStop d := by
          intro ho d e hst
          cases e
          exact hstop ⟨ho, hst⟩
        have hstep := obj_key_glyph rec a (.ch c) hg hs s (squeeze IsWs a, []) obj
        simp only [Glyph.text, List.cons_append, List.nil_append] at hstep
        rw [hstep, ← squeeze_snoc] at h
        obtain ⟨t, ms, w, rfl, hw, rfl, hr⟩ := obj_sound_key rec j n s _ obj hn' (ha.snoc hg hs) h
        refine ⟨c :: t, ms, w, rfl, hw, rfl, ?_⟩
        rw [glyphs_snoc] at hr
        simpa [Glyph.text] using hr
theorem obj_sound_val (rec : Str → Res (Json F)) (j : Json F) : ∀ (n : Nat) (s : Str) (kg a : List Glyph) (obj : Obj F), s.length ≤ n → Segment KeyStop kg →
    NoStop ValueStop a → objLoop rec s (openCount a) (qp a) (squeeze IsWs kg, squeeze ValueDrop a) false obj = .ok j →
    ∃ t ms w, s = t ++ '}' :: w ∧ WsStr w ∧ j = .object (insertAll obj ms) ∧ MembersR rec (glyphs kg ++ ':' :: (glyphs a ++ t)) ms
  | _, [], _, _, _, _, _, _, h => by rw [objLoop] at h; simp [fail] at h
  | 0, _ :: _, _, _, _, hn, _, _, _ => by simp at hn
  | n + 1, c :: s, kg, a, obj, hn, hk, ha, h => by
    have hn' : s.length ≤ n := by simpa using hn
    have ho := outside_iff a
    by_cases hstop : Outside a ∧ ValueStop c
    · obtain ⟨hout, hst⟩ := hstop
      have hseg : Segment ValueStop a := segment_iff.2 ⟨ha, hout⟩
      rw [(ho.1 hout).1, (ho.1 hout).2, objLoop_cons] at h
      rcases hst with rfl | rfl
      · rw [if_neg (by simp), if_pos ⟨rfl, rfl, rfl, rfl⟩] at h
        dsimp only at h
        by_cases e1 : squeeze IsWs kg = [] ∨ squeeze ValueDrop a = []
        · rw [if_pos e1] at h; simp [fail] at h
        rw [if_neg e1] at h
        by_cases e2 : s.head? = some '}'
        · rw [if_pos e2] at h; simp [fail] at h
        rw [if_neg e2] at h
        cases e3 : rec (squeeze IsWs kg) with
        | error e => rw [e3] at h; simp [fail] at h
        | ok kj =>
          rw [e3] at h
          cases kj with
          | string k =>
            dsimp only at h
            cases e4 : rec (squeeze ValueDrop a) with
            | error e => rw [e4] at h; cases h
            | ok v =>
              rw [e4] at h
              obtain ⟨t, ms, w, rfl, hw, rfl, hr⟩ := obj_sound_key rec j n s [] _ hn' (NoStop.nil _) h
              exact ⟨',' :: t, (k, v) :: ms, w, rfl, hw, rfl, MembersR.cons kg a k v t ms hk e3 hseg e4 hr⟩
          | _ => simp [fail] at h
      · rw [if_pos ⟨rfl, rfl, rfl, rfl⟩] at h
        dsimp only at h
        cases e3 : rec (squeeze IsWs kg) with
        | error e => rw [e3] at h; simp [fail] at h
        | ok kj =>
          rw [e3] at h
          cases kj with
          | string k =>
            dsimp only at h
            cases e4 : rec (squeeze ValueDrop a) with
            | error e => rw [e4] at h; cases h
            | ok v =>
              rw [e4] at h
              dsimp only at h
              cases e5 : skipTrail .ParseObjectError s with
              | error e => rw [e5] at h; cases h
              | ok u =>
                rw [e5] at h
                simp only [Except.ok.injEq] at h
                exact ⟨[], [(k, v)], s, rfl, (skipTrail_ok _ _).1 e5, h.symm, by simpa using MembersR.one kg a k v hk e3 hseg e4⟩
          | _ => simp [fail] at h
    · by_cases hc : c = '\\'
      · subst hc
        cases s with
        | nil => rw [objLoop_cons] at h; simp [fail] at h
        | cons d s =>
          have hstep := obj_val_glyph rec a (.esc d) (by simp) (fun _ c e => by cases e) s (squeeze IsWs kg, squeeze ValueDrop a) obj
          simp only [Glyph.text, List.cons_append, List.nil_append] at hstep
          rw [hstep, ← squeeze_snoc] at h
          obtain ⟨t, ms, w, rfl, hw, rfl, hr⟩ := obj_sound_val rec j n s kg _ obj (by simp at hn'; omega) hk (ha.snoc (by simp) (fun _ c e => by cases e)) h
          refine ⟨'\\' :: d :: t, ms, w, rfl, hw, rfl, ?_⟩
          rw [glyphs_snoc] at hr
          simpa [Glyph.text] using hr
      · have hg : Glyph.ch c ≠ .ch '\\' := by simpa using hc
        have hs : Outside a → ∀ d, Glyph.ch c = .ch d → ¬ ValueStop d := by
          intro ho d e hst
          cases e
          exact hstop ⟨ho, hst⟩
        have hstep := obj_val_glyph rec a (.ch c) hg hs s (squeeze IsWs kg, squeeze ValueDrop a) obj
        simp only [Glyph.text, List.cons_append, List.nil_append] at hstep
        rw [hstep, ← squeeze_snoc] at h
        obtain ⟨t, ms, w, rfl, hw, rfl, hr⟩ := obj_sound_val rec j n s kg _ obj hn' hk (ha.snoc hg hs) h
        refine ⟨c :: t, ms, w, rfl, hw, rfl, ?_⟩
        rw [glyphs_snoc] at hr
        simpa [Glyph.text] using hr
end

end

end RJ
