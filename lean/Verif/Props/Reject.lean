import Verif.Proof.Malformed
import Verif.Props.Exact
import Verif.Props.Float
/-
  C15: malformed texts.
-/
set_option linter.unusedSectionVars false
namespace RJ
open Spec
variable {F : Type} [FloatOps F]

theorem cst_first_char {x : Cst} (hd : Delimited x) : ∃ c t, x.text = c :: t ∧ (c = '"' ∨ c = '[' ∨ c = '{') := by
  cases x with
  | str k => exact ⟨'"', _, rfl, by simp⟩
  | arr es => exact ⟨'[', _, rfl, by simp⟩
  | obj ms => exact ⟨'{', _, rfl, by simp⟩
  | _ => exact absurd hd (by simp [Delimited])

theorem arrPre_head {p : Str} (h : ArrPre p) : ∃ t, p = '[' :: t := by cases h <;> exact ⟨_, rfl⟩
theorem objPre_head {p : Str} (h : ObjPre p) : ∃ t, p = '{' :: t := by cases h <;> exact ⟨_, rfl⟩

theorem malformed_head {t : Str} (h : Malformed t) : t = [] ∨ (∃ c g, t = c :: g ∧ ¬ IsWs c ∧ ¬ CanStart c) ∨
    ∃ c g, t = c :: g ∧ (c = '"' ∨ c = '[' ∨ c = '{') := by
  cases h with
  | empty => exact .inl rfl
  | start c g h hw => exact .inr (.inl ⟨c, g, rfl, hw, h⟩)
  | after x g hx hd hg =>
    obtain ⟨c, t, e, hc⟩ := cst_first_char hd
    exact .inr (.inr ⟨c, t ++ g, by rw [e]; rfl, hc⟩)
  | arrOpen p w hp hw => obtain ⟨t, rfl⟩ := arrPre_head hp; exact .inr (.inr ⟨'[', _, rfl, by simp⟩)
  | arrUnclosed es h => exact .inr (.inr ⟨'[', _, rfl, by simp⟩)
  | elem p w c g hp hw h hc h0 => obtain ⟨t, rfl⟩ := arrPre_head hp; exact .inr (.inr ⟨'[', _, by simp; rfl, by simp⟩)
  | sep p w x w' c g hp => obtain ⟨t, rfl⟩ := arrPre_head hp; exact .inr (.inr ⟨'[', _, by simp; rfl, by simp⟩)
  | objOpen p w hp hw => obtain ⟨t, rfl⟩ := objPre_head hp; exact .inr (.inr ⟨'{', _, rfl, by simp⟩)
  | objKeyOnly p w k w' hp => obtain ⟨t, rfl⟩ := objPre_head hp; exact .inr (.inr ⟨'{', _, by simp; rfl, by simp⟩)
  | objNoValue p w k w' w'' hp => obtain ⟨t, rfl⟩ := objPre_head hp; exact .inr (.inr ⟨'{', _, by simp; rfl, by simp⟩)
  | objUnclosed ms h => exact .inr (.inr ⟨'{', _, rfl, by simp⟩)
  | key p w c g hp => obtain ⟨t, rfl⟩ := objPre_head hp; exact .inr (.inr ⟨'{', _, by simp; rfl, by simp⟩)
  | colon p w k w' c g hp => obtain ⟨t, rfl⟩ := objPre_head hp; exact .inr (.inr ⟨'{', _, by simp; rfl, by simp⟩)
  | value p w k w' w'' c g hp => obtain ⟨t, rfl⟩ := objPre_head hp; exact .inr (.inr ⟨'{', _, by simp; rfl, by simp⟩)
  | objSep p w k w' w'' x w3 c g hp => obtain ⟨t, rfl⟩ := objPre_head hp; exact .inr (.inr ⟨'{', _, by simp; rfl, by simp⟩)

theorem trimWs_cons {c : Char} (hc : ¬ IsWs c) (u : Str) : ∃ v b, trimWs (c :: u) = c :: v ∧ WsStr b ∧ u = v ++ b := by
  obtain ⟨a, b, ha, hb, e⟩ := trimWs_split (c :: u)
  cases a with
  | cons d a =>
    simp only [List.cons_append, List.cons.injEq] at e
    exact absurd (ha d (by simp)) (by rw [← e.1]; exact hc)
  | nil =>
    cases ht : trimWs (c :: u) with
    | nil =>
      rw [ht] at e
      exact absurd (hb c (by rw [List.nil_append, List.nil_append] at e; rw [← e]; simp)) hc
    | cons d v =>
      rw [ht] at e
      simp only [List.nil_append, List.cons_append, List.cons.injEq] at e
      obtain ⟨rfl, e⟩ := e
      exact ⟨v, b, rfl, hb, e⟩

/-- **C15.** Every text in the malformed classes of `Spec.Malformed`, with or without surrounding whitespace, is rejected. -/
theorem C15_rejects (t pre post : Str) (h : Malformed t) (h1 : WsStr pre) (h2 : WsStr post) (j : Json F) :
    Json.parse (pre ++ t ++ post) ≠ .ok j := by
  rw [parse_around _ _ _ h1 h2]
  rcases malformed_head h with rfl | ⟨c, g, rfl, hw, hc⟩ | ⟨c, g, rfl, hc⟩
  · exact parse_nil_bad j
  · obtain ⟨v, b, e, _, _⟩ := trimWs_cons hw g
    rw [e]
    exact not_canStart_bad hc v j
  · have hw : ¬ IsWs c := by rcases hc with rfl | rfl | rfl <;> simp [IsWs]
    obtain ⟨v, b, e, hb, rfl⟩ := trimWs_cons hw g
    rw [e]
    intro hj
    exact malformed_bad h j (parseRaw_trail hc v b hb j hj)

/-- **C15.** What is not guarded: anything may follow an empty container. -/
theorem C15_after_empty (g : Str) :
    (Json.parse ("[]".toList ++ g) : Res (Json F)) = .ok (.array []) ∧ (Json.parse ("{}".toList ++ g) : Res (Json F)) = .ok (.object []) := by
  constructor
  · obtain ⟨v, b, e, _, he⟩ := trimWs_cons (c := '[') (by simp [IsWs]) (']' :: g)
    have e' : (Json.parse ("[]".toList ++ g) : Res (Json F)) = parseRaw ('[' :: v) := by rw [← e]; rfl
    rw [e', parseRaw_arr, parseArray]
    cases v with
    | nil =>
      rename_i hb
      rw [List.nil_append] at he
      exact absurd (hb ']' (by rw [← he]; simp)) (by simp [IsWs])
    | cons d v =>
      simp only [List.cons_append, List.cons.injEq] at he
      rw [← he.1]; rfl
  · obtain ⟨v, b, e, _, he⟩ := trimWs_cons (c := '{') (by simp [IsWs]) ('}' :: g)
    have e' : (Json.parse ("{}".toList ++ g) : Res (Json F)) = parseRaw ('{' :: v) := by rw [← e]; rfl
    rw [e', parseRaw_obj, parseObject]
    cases v with
    | nil =>
      rename_i hb
      rw [List.nil_append] at he
      exact absurd (hb '}' (by rw [← he]; simp)) (by simp [IsWs])
    | cons d v =>
      simp only [List.cons_append, List.cons.injEq] at he
      rw [← he.1]; rfl

/-- The double 1.0 (bits 0x3FF0000000000000). -/
def one64 : F64 := .fin false 0x3FF0000000000000 (by decide)
/-- The double 12.0 (bits 0x4028000000000000). -/
def twelve64 : F64 := .fin false 0x4028000000000000 (by decide)

/-- **C15, refuted as first stated**: `[1 2]`, `{"a":1:2}` and `01` are accepted, and read as `[12]`, `{"a":12}` and `1`. -/
theorem C15_accepted_malformed :
    Json.parse "[1 2]".toList = .ok (.array [.number twelve64]) ∧
    Json.parse "{\"a\":1:2}".toList = .ok (.object [("a".toList, .number twelve64, [])]) ∧
    Json.parse "01".toList = .ok (.number one64) := by
  refine ⟨?_, ?_, ?_⟩
  · have h : (match (Json.parse "[1 2]".toList : Res (Json F64)) with | .ok (.array [.number x]) => decide (x = twelve64) | _ => false) = true := by
      decide +kernel
    split at h
    · rename_i x e; rw [e, of_decide_eq_true h]
    · cases h
  · have h : (match (Json.parse "{\"a\":1:2}".toList : Res (Json F64)) with | .ok (.object [(k, (.number x, []))]) => decide (k = "a".toList ∧ x = twelve64) | _ => false) = true := by
      decide +kernel
    split at h
    · rename_i k x e; rw [e, (of_decide_eq_true h).1, (of_decide_eq_true h).2]
    · cases h
  · rw [← isNum_iff]; decide +kernel

-- members of the classes
example : Malformed "[1,]".toList :=
  .elem "[1,".toList [] ']' [] (.comma (.one [] (.num ⟨false, ['1'], none, none⟩) []) (by simp [Elems.Valid, Cst.Valid, NumLit.Valid, NumLit.Loose, WsStr, Digits, IsDigit]))
    wsStr_nil (by simp [CanStart, IsDigit]) (by simp [IsWs]) (by simp)
example : Malformed "{\"a\" 1}".toList :=
  .colon "{".toList [] [.plain 'a'] [' '] '1' "}".toList .open wsStr_nil (by simp [StrItem.Valid]) (by intro c hc; simp at hc; subst hc; simp [IsWs])
    (by simp [IsWs]) (by simp)
example : Malformed "{\"a\":null".toList :=
  .objUnclosed (.one [] [.plain 'a'] [] [] .null []) (by simp [Members.Valid, Cst.Valid, StrItem.Valid, WsStr])
example : Malformed "\"a\"x".toList :=
  .after (.str [.plain 'a']) "x".toList (by simp [Cst.Valid, StrItem.Valid]) trivial (by simp [WsStr, IsWs])

end RJ
