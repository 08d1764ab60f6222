import Verif.Props.Accept
import Verif.Proof.IeeeLit
/-
  C59: an accepted text is a JSON document with superfluous characters in it.
-/
set_option linter.unusedSectionVars false
namespace RJ
open Spec

/-! ### Numbers -/

/-- Without superfluous leading zeros. -/
def stripZeros : Str → Str
  | [] => []
  | [c] => [c]
  | c :: d :: t => if c = '0' then stripZeros (d :: t) else c :: d :: t

theorem strip_ne : ∀ {s : Str}, s ≠ [] → stripZeros s ≠ []
  | [], h => absurd rfl h
  | [_], _ => by simp [stripZeros]
  | c :: d :: t, _ => by
    rw [stripZeros]
    split
    · exact strip_ne (by simp)
    · simp

theorem strip_sub : ∀ s : Str, (stripZeros s).Sublist s
  | [] => .slnil
  | [_] => List.Sublist.refl _
  | c :: d :: t => by
    rw [stripZeros]
    split
    · exact .cons _ (strip_sub (d :: t))
    · exact List.Sublist.refl _

theorem strip_head : ∀ s : Str, (stripZeros s).head? = some '0' → stripZeros s = ['0']
  | [] => by simp [stripZeros]
  | [c] => by simp only [stripZeros, List.head?_cons, Option.some.injEq]; rintro rfl; rfl
  | c :: d :: t => by
    rw [stripZeros]
    split
    · exact strip_head (d :: t)
    · rename_i h; simp [h]

theorem strip_dec (f : Str) : ∀ s : Str, decVal (stripZeros s ++ f) 0 = decVal (s ++ f) 0
  | [] => rfl
  | [_] => rfl
  | c :: d :: t => by
    rw [stripZeros]
    split
    · rename_i h
      rw [strip_dec f (d :: t), h]
      rfl
    · rfl

/-- The literal with neither superfluous zeros nor an empty fraction. -/
def tidy (n : NumLit) : NumLit := { n with int := stripZeros n.int, frac := if n.frac = some [] then none else n.frac }

theorem tidy_valid {n : NumLit} (h : n.Accepted) : (tidy n).Valid := by
  refine ⟨⟨⟨strip_ne h.1.1, fun c hc => h.1.2 c ((strip_sub _).subset hc)⟩, ?_, h.2.2⟩, strip_head _⟩
  intro f hf
  simp only [tidy] at hf
  split at hf
  · cases hf
  · rename_i hne
    refine ⟨?_, (h.2.1 f hf).1⟩
    rintro rfl
    exact hne hf

theorem tidy_sub (n : NumLit) : (tidy n).text.Sublist n.text := by
  unfold NumLit.text
  refine List.Sublist.append (List.Sublist.append (List.Sublist.append (List.Sublist.refl _) (strip_sub _)) ?_) (List.Sublist.refl _)
  by_cases hn : n.frac = some []
  · simp [tidy, hn]
  · simp only [tidy, if_neg hn]
    exact List.Sublist.refl _

theorem tidy_value {n : NumLit} (h : n.Accepted) : (NumLit.value (tidy n) : Option F64) = NumLit.value n := by
  have hv := tidy_valid h
  have e1 := parse_lit b64 n h.1 (fun f hf => (h.2.1 f hf).1) h.2.2
  have e2 := parse_lit b64 (tidy n) hv.1.1 (fun f hf => (hv.1.2.1 f hf).2) hv.1.2.2
  have hfr : litFrac (tidy n) = litFrac n := by
    unfold litFrac tidy
    by_cases hn : n.frac = some []
    · simp [hn]
    · simp [hn]
  have e : (FloatOps.parse (tidy n).text : Option F64) = FloatOps.parse n.text := by
    show parseFl b64 _ = parseFl b64 _
    rw [e1, e2, hfr]
    have : decVal ((tidy n).int ++ litFrac n) 0 = decVal (n.int ++ litFrac n) 0 := strip_dec _ _
    rw [this]
    rfl
  unfold NumLit.value
  rw [e]

/-! ### Documents -/

theorem keep_sub (drop : Char → Prop) [DecidablePred drop] (a : List Glyph) (g : Glyph) : (keep drop a g).Sublist g.text := by
  cases g with
  | ch c =>
    simp only [keep, Glyph.text]
    split
    · exact List.nil_sublist _
    · exact List.Sublist.refl _
  | esc c => exact List.Sublist.refl _

theorem squeezeFrom_sub (drop : Char → Prop) [DecidablePred drop] : ∀ gs a : List Glyph, (squeezeFrom drop a gs).Sublist (glyphs gs)
  | [], _ => List.Sublist.refl _
  | g :: gs, a => by
    rw [squeezeFrom_cons]
    have e : glyphs (g :: gs) = g.text ++ glyphs gs := rfl
    rw [e]
    exact (keep_sub drop a g).append (squeezeFrom_sub drop gs _)

theorem squeeze_sub (drop : Char → Prop) [DecidablePred drop] (gs : List Glyph) : (squeeze drop gs).Sublist (glyphs gs) := squeezeFrom_sub drop gs []

/-- A valid syntax tree with the value `v` whose text results from `t` by deleting characters. -/
def Repairs (F : Type) [FloatOps F] (t : Str) (v : Val F) : Prop := ∃ x : Cst, x.Valid ∧ x.text.Sublist t ∧ Cst.value x = some v

section
variable {F : Type} [FloatOps F]

/-- What is repaired to a string is a string. -/
theorem repairs_str {t k : Str} (h : Repairs F t (.str k)) : ∃ items, (∀ i ∈ items, StrItem.Valid i) ∧ (strText items).Sublist t ∧ strVal items = some k := by
  obtain ⟨x, h1, h2, h3⟩ := h
  cases x with
  | null => cases h3
  | true => cases h3
  | false => cases h3
  | arr0 w => cases h3
  | obj0 w => cases h3
  | num n => simp only [Cst.value, Option.map_eq_some_iff, reduceCtorEq, and_false, exists_false] at h3
  | arr es => simp only [Cst.value, Option.map_eq_some_iff, reduceCtorEq, and_false, exists_false] at h3
  | obj ms => simp only [Cst.value, Option.map_eq_some_iff, reduceCtorEq, and_false, exists_false] at h3
  | str items =>
    simp only [Cst.value, Option.map_eq_some_iff, Val.str.injEq, exists_eq_right] at h3
    exact ⟨items, h1, h2, h3⟩

theorem accepts_repairs (hnum : ∀ (n : NumLit) (f : F), n.Accepted → NumLit.value n = some f → ∃ m : NumLit, m.Valid ∧ m.text.Sublist n.text ∧ NumLit.value m = some f)
    {t : Str} {v : Val F} (h : Reads t v) : Repairs F t v := by
  refine Reads.rec (motive_1 := fun t v _ => Repairs F t v)
    (motive_2 := fun t vs _ => ∃ x : Elems, x.Valid ∧ x.text.Sublist t ∧ Elems.value x = some vs)
    (motive_3 := fun t ms _ => ∃ x : Members, x.Valid ∧ x.text.Sublist t ∧ Members.value x = some ms)
    ?_ ?_ ?_ ?_ ?_ ?_ ?_ ?_ ?_ ?_ ?_ ?_ h
  · exact ⟨.null, trivial, List.Sublist.refl _, rfl⟩
  · intro b
    cases b with
    | false => exact ⟨.false, trivial, List.Sublist.refl _, rfl⟩
    | true => exact ⟨.true, trivial, List.Sublist.refl _, rfl⟩
  · intro n f hn hf
    obtain ⟨m, h1, h2, h3⟩ := hnum n f hn hf
    exact ⟨.num m, h1, h2, by rw [Cst.value, h3]; rfl⟩
  · intro items s w hs hw
    exact ⟨.str items, strVal_valid hs, List.sublist_append_left _ _, by rw [Cst.value, hs]; rfl⟩
  · intro g
    exact ⟨.arr0 [], by simp [Cst.Valid, WsStr], by simp [Cst.text], rfl⟩
  · rintro body vs w - hw ⟨x, h1, h2, h3⟩
    refine ⟨.arr x, h1, ?_, by rw [Cst.value, h3]; rfl⟩
    have e : '[' :: (body ++ ']' :: w) = ['['] ++ body ++ ([']'] ++ w) := by simp
    rw [Cst.text, e]
    exact (h2.append_left ['[']).append (List.sublist_append_left _ _)
  · intro g
    exact ⟨.obj0 [], by simp [Cst.Valid, WsStr], by simp [Cst.text], rfl⟩
  · rintro body vs w - hw ⟨x, h1, h2, h3⟩
    refine ⟨.obj x, h1, ?_, by rw [Cst.value, h3]; rfl⟩
    have e : '{' :: (body ++ '}' :: w) = ['{'] ++ body ++ (['}'] ++ w) := by simp
    rw [Cst.text, e]
    exact (h2.append_left ['{']).append (List.sublist_append_left _ _)
  · rintro gs v hs - ⟨x, h1, h2, h3⟩
    exact ⟨.one [] x [], ⟨wsNil, h1, wsNil⟩, by simpa [Elems.text] using h2.trans (squeeze_sub IsWs gs), by rw [Elems.value, h3]; rfl⟩
  · rintro gs v t vs hs - - ⟨x, h1, h2, h3⟩ ⟨y, h4, h5, h6⟩
    refine ⟨.cons [] x [] y, ⟨wsNil, h1, wsNil, h4⟩, ?_, by rw [Elems.value, h3, h6]⟩
    have := (h2.trans (squeeze_sub IsWs gs)).append (h5.append_left [','])
    simpa [Elems.text] using this
  · rintro kg vg k v hk - hs - hkey ⟨x, h1, h2, h3⟩
    obtain ⟨items, k1, k2, k3⟩ := repairs_str hkey
    refine ⟨.one [] items [] [] x [], ⟨wsNil, k1, wsNil, wsNil, h1, wsNil⟩, ?_, by simp only [Members.value, k3, h3]⟩
    have := (k2.trans (squeeze_sub IsWs kg)).append ((h2.trans (squeeze_sub ValueDrop vg)).append_left [':'])
    simpa [Members.text] using this
  · rintro kg vg k v t ms hk - hs - - hkey ⟨x, h1, h2, h3⟩ ⟨y, h4, h5, h6⟩
    obtain ⟨items, k1, k2, k3⟩ := repairs_str hkey
    refine ⟨.cons [] items [] [] x [] y, ⟨⟨wsNil, k1, wsNil, wsNil, h1, wsNil⟩, h4⟩, ?_, by simp only [Members.value, k3, h3, h6]⟩
    have := (k2.trans (squeeze_sub IsWs kg)).append (((h2.trans (squeeze_sub ValueDrop vg)).append (h5.append_left [','])).append_left [':'])
    simpa [Members.text] using this

end

/-- **C59.** Whatever `parse` accepts becomes an RFC 8259 document with the returned value by deleting characters: nothing is ever invented, moved or read
differently. -/
theorem C59_repair_by_deletion (t : Str) (j : Json F64) (h : Json.parse t = .ok j) :
    ∃ d : Doc, d.Valid ∧ d.text.Sublist t ∧ Cst.value d.body = some (absJ j) := by
  obtain ⟨a, s, b, ha, hb, rfl, hv⟩ := (C58_exact_language t (absJ j)).1 ⟨j, h, rfl⟩
  obtain ⟨x, h1, h2, h3⟩ := accepts_repairs (fun n f hn hf => ⟨tidy n, tidy_valid hn, tidy_sub n, by rw [tidy_value hn, hf]⟩) hv
  exact ⟨⟨[], x, []⟩, ⟨wsNil, h1, wsNil⟩, by simpa [Doc.text] using (h2.trans (List.sublist_append_left s b)).trans (List.sublist_append_right a (s ++ b)), h3⟩

/-- The hypothesis is met far from RFC 8259: `[[]}{]`. -/
example : ∃ d : Doc, d.Valid ∧ d.text.Sublist "[[]}{]".toList ∧ Cst.value d.body = some (.arr [.arr []] : Val F64) := by
  obtain ⟨j, h, e⟩ := C58_witness (F := F64)
  rw [← e]
  exact C59_repair_by_deletion _ j h

/-- Leading zeros and an empty fraction: `01.` becomes `1`. -/
example : (tidy ⟨false, "01".toList, some [], none⟩).text = "1".toList := by decide

/-- A trailing comma is outside the language. -/
example : ¬ ∃ pre s post, WsStr pre ∧ WsStr post ∧ "[null,]".toList = pre ++ s ++ post ∧ ∃ v : Val F64, Reads s v :=
  (C58_exact_rejection _).1 (failed_sound (by decide +kernel))

/-- So is a bracket inside a string in an array, although RFC 8259 allows it. -/
example : ¬ ∃ pre s post, WsStr pre ∧ WsStr post ∧ "[\"[\"]".toList = pre ++ s ++ post ∧ ∃ v : Val F64, Reads s v :=
  (C58_exact_rejection _).1 (failed_sound (by decide +kernel))

end RJ
