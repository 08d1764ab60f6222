import Verif.Proof.NonFinite
import Verif.Props.Print
import Verif.Props.Exact
import Verif.Props.Convert
import Verif.Proof.IeeeText
/-
  C50, C51: texts determine values.
-/
set_option linter.unusedSectionVars false
namespace RJ
open Spec
variable {F : Type} [FloatOps F] [LawfulFloat F]

/-! ### C50 -/

/-- **C50, the grammar.** A text is spelled by at most one RFC 8259 syntax tree: "the value a text denotes" (C02, C08, C09, C16) is
well defined. -/
theorem C50_grammar (d d' : Doc) (h : d.Valid) (h' : d'.Valid) (he : d.text = d'.text) : d = d' := doc_unique d d' h h' he

/-- **C50.** Two documents with finite numbers print to the same text exactly if they are the same abstract value (equal up to the
iteration order of their hash maps, numbers bit for bit). -/
theorem C50_injective (a b : Json F) (ha : AllNum (fun f => FloatOps.isFinite f = true) a) (hb : AllNum (fun f => FloatOps.isFinite f = true) b)
    (wa : WF a) (wb : WF b) : a.toString = b.toString ↔ absJ a = absJ b := by
  constructor
  · intro h
    obtain ⟨x, h1, h2, h3⟩ := C02_to_string_denotes a ha wa
    obtain ⟨y, g1, g2, g3⟩ := C02_to_string_denotes b hb wb
    have hs : Stop [] := fun c hc => by cases hc
    obtain ⟨rfl, _⟩ := cst_unique x y [] [] h1 g1 hs hs (by rw [List.append_nil, List.append_nil, ← h2, ← g2, h])
    exact Option.some.inj (h3.symm.trans g3)
  · exact C04_order_independent a b wa wb

theorem AllNum_mono {P Q : F → Prop} (h : ∀ f, P f → Q f) (j : Json F) (hj : AllNum P j) : AllNum Q j := by
  induction j using Json.ind with
  | hobj m ih =>
    refine (AllNumMap_iff _ _).mpr fun k v l hm => ?_
    have := (AllNumMap_iff _ _).mp hj k v l hm
    exact ⟨(ih k v l hm).1 this.1, fun x hx => (ih k v l hm).2 x hx (this.2 x hx)⟩
  | harr l ih => exact (AllNumList_iff _ _).mpr fun x hx => ih x hx ((AllNumList_iff _ _).mp hj x hx)
  | hnum f => exact h f hj
  | _ => trivial

theorem f64_refl (f : F64) (h : FloatOps.isFinite f = true) : FloatOps.beq f f = true := by
  cases f with
  | fin n b hb => simp [FloatOps.beq, Fl.beq]
  | inf n => cases h
  | nan => cases h

/-- **C50, with `==`.** Documents with finite numbers and the same text are `==`. -/
theorem C50_same_text_eq (a b : Json F64) (ha : AllNum (fun f => FloatOps.isFinite f = true) a) (hb : AllNum (fun f => FloatOps.isFinite f = true) b)
    (wa : WF a) (wb : WF b) (h : a.toString = b.toString) : Json.eq a b = true := by
  rw [C38_order_independent a a b a wa wa wb wa rfl ((C50_injective a b ha hb wa wb).mp h).symm, C38_refl_iff a wa]
  exact AllNum_mono (fun f hf => f64_refl f hf) a ha

/-- `f` is one of the numbers in the value. -/
inductive HasNum {F : Type} (f : F) : Val F → Prop
  | num : HasNum f (.num f)
  | arr {l x} : x ∈ l → HasNum f x → HasNum f (.arr l)
  | obj {m k x} : x ∈ m k → HasNum f x → HasNum f (.obj m)

omit [FloatOps F] [LawfulFloat F] in
theorem veq_eq {R : F → F → Prop} {v w : Val F} (h : VEq R v w) : (∀ f g, HasNum f v → HasNum g w → R f g → f = g) → v = w := by
  refine VEq.rec (motive_1 := fun v w _ => (∀ f g, HasNum f v → HasNum g w → R f g → f = g) → v = w)
    (motive_2 := fun l l' _ => (∀ f g x y, x ∈ l → y ∈ l' → HasNum f x → HasNum g y → R f g → f = g) → l = l') ?_ ?_ ?_ ?_ ?_ ?_ ?_ ?_ h
  · intro m m' _ ih hf
    have : m = m' := funext fun k => ih k fun f g x y hx hy h1 h2 => hf f g (.obj hx h1) (.obj hy h2)
    rw [this]
  · intro l l' _ ih hf
    rw [ih fun f g x y hx hy h1 h2 => hf f g (.arr hx h1) (.arr hy h2)]
  · intro s _; rfl
  · intro f g hr hf; rw [hf f g .num .num hr]
  · intro b _; rfl
  · intro _; rfl
  · intro _; rfl
  · intro x y t t' _ _ ih1 ih2 hf
    rw [ih1 fun f g h1 h2 => hf f g x y (by simp) (by simp) h1 h2,
      ih2 fun f g x y hx hy h1 h2 => hf f g x y (by simp [hx]) (by simp [hy]) h1 h2]

theorem hasNum_abs {P : F → Prop} {f : F} (j : Json F) (hw : WF j) (hj : AllNum P j) (h : HasNum f (absJ j)) : P f := by
  induction j using Json.ind with
  | hobj m ih =>
    have hw' := (wf_object_iff m).mp hw
    have hj' := (AllNumMap_iff _ _).mp hj
    cases h with
    | @obj _ k x hx hf =>
      by_cases hk : k ∈ m.map (·.1)
      · obtain ⟨⟨k', v, l⟩, he, rfl⟩ := List.mem_map.mp hk
        rw [absMap_of_mem hw'.1 he, absList_eq] at hx
        have w := hw'.2 _ _ he
        rcases List.mem_append.mp hx with hx | hx
        · obtain ⟨y, hy, rfl⟩ := List.mem_map.mp (List.mem_reverse.mp hx)
          exact (ih _ _ _ he).2 y hy (w.2 y hy) ((hj' _ _ _ he).2 y hy) hf
        · rw [List.mem_singleton] at hx
          subst hx
          exact (ih _ _ _ he).1 w.1 (hj' _ _ _ he).1 hf
      · rw [absMap_eq_nil.mpr hk] at hx; cases hx
  | harr l ih =>
    have hw' := (wf_array_iff l).mp hw
    have hj' := (AllNumList_iff _ _).mp hj
    cases h with
    | arr hx hf =>
      rw [absList_eq] at hx
      obtain ⟨y, hy, rfl⟩ := List.mem_map.mp hx
      exact ih y hy (hw' y hy) (hj' y hy) hf
  | hnum f => cases h; exact hj
  | _ => cases h

/-- **C50, with `==`.** Documents which are `==` print to the same text, unless a negative zero occurs in one of them. -/
theorem C50_eq_same_text (a b : Json F64) (wa : WF a) (wb : WF b)
    (ha : AllNum (fun f => f ≠ .fin true 0 (by decide)) a) (hb : AllNum (fun f => f ≠ .fin true 0 (by decide)) b)
    (h : Json.eq a b = true) : a.toString = b.toString := by
  refine C04_order_independent a b wa wb (veq_eq ((C38_eq_iff a b wa wb).mp h) fun f g hf hg hr => ?_)
  have h1 := hasNum_abs a wa ha hf
  have h2 := hasNum_abs b wb hb hg
  cases f with
  | fin n x hx =>
    cases g with
    | fin n' y hy =>
      simp only [FloatOps.beq, Fl.beq, Bool.or_eq_true, Bool.and_eq_true, beq_iff_eq] at hr
      rcases hr with ⟨rfl, rfl⟩ | ⟨rfl, rfl⟩
      · rfl
      · cases n
        · cases n'
          · rfl
          · exact absurd rfl h2
        · exact absurd rfl h1
    | _ => simp [FloatOps.beq, Fl.beq] at hr
  | inf n =>
    cases g with
    | inf n' => simp only [FloatOps.beq, Fl.beq, beq_iff_eq] at hr; rw [hr]
    | _ => simp [FloatOps.beq, Fl.beq] at hr
  | nan => simp [FloatOps.beq, Fl.beq] at hr

/-- **C50**, the converse is false: the two zeros are `==` but print differently. -/
theorem C50_zeros : Json.eq (.number (.fin false 0 (by decide)) : Json F64) (.number (.fin true 0 (by decide))) = true ∧
    (Json.number (.fin false 0 (by decide)) : Json F64).toString ≠ (Json.number (.fin true 0 (by decide)) : Json F64).toString := by decide +kernel

/-! ### C51 -/

theorem f64_printsBad : PrintsBad F64 := by
  intro f hf
  cases f with
  | fin n b hb => exact absurd rfl hf
  | inf n => cases n <;> decide
  | nan => decide

/-- **C51.** `to_string` returns an RFC 8259 text exactly if all numbers are finite: a NaN or infinity anywhere in the document makes
the text invalid JSON. -/
theorem C51_valid_iff_finite (j : Json F64) : (∃ d : Doc, d.Valid ∧ d.text = j.toString) ↔ AllNum (fun f => FloatOps.isFinite f = true) j := by
  constructor
  · rintro ⟨⟨p, x, q⟩, ⟨h1, h2, h3⟩, h⟩
    have hs : Stop [] := fun c hc => by cases hc
    simp only [Doc.text, List.append_assoc] at h
    have h : j.toString ++ [] = p ++ (x.text ++ q) := by rw [List.append_nil]; exact h.symm
    have h := (ws_unique [] p _ _ (by simp [WsStr]) h1 (print_nws f64_printsBad j []) (nws_value x h2 _) h).2
    have hq := stop_ws q [] h3 hs
    rw [List.append_nil] at hq
    exact (onlyFin f64_printsBad j x [] q h2 hs hq h).1
  · intro h
    exact ⟨⟨[], cstOf j, []⟩, ⟨by simp [WsStr], cstOf_valid j h, by simp [WsStr]⟩, by rw [cstOf_text j h]; simp [Doc.text]⟩

/-- **C51.** The text of a number that is not finite is rejected by `parse`. -/
theorem C51_rejected (f : F64) (hf : ¬ FloatOps.isFinite f = true) :
    ∃ e, (Json.parse (Json.number f).toString : Res (Json F64)) = .error e ∧ (e.kind = .InvalidJson ∨ e.kind = .ParseNumberError) := by
  cases f with
  | fin n b hb => exact absurd rfl hf
  | inf n =>
    cases n
    · exact ⟨⟨.InvalidJson, "invalid json.".toList⟩, by rfl, .inl rfl⟩
    · exact ⟨⟨.ParseNumberError, "invalid number.".toList⟩, by rfl, .inr rfl⟩
  | nan => exact ⟨⟨.InvalidJson, "invalid json.".toList⟩, by rfl, .inl rfl⟩

-- the hypotheses are met by values with members in either order
example : (Json.object [("a".toList, (.null, [.boolean true])), ("b".toList, (.number (.fin true 5 (by decide)), []))] : Json F64).toString =
    (Json.object [("b".toList, (.number (.fin true 5 (by decide)), [])), ("a".toList, (.null, [.boolean true]))] : Json F64).toString := by
  rw [C50_injective _ _ (by simp [AllNum, AllNumMap, AllNumList, FloatOps.isFinite, Fl.isFinite]) (by simp [AllNum, AllNumMap, AllNumList, FloatOps.isFinite, Fl.isFinite])
    (by simp [WF, WFMap, WFList]) (by simp [WF, WFMap, WFList])]
  simp only [absJ]
  congr 1
  funext k
  simp only [absMap]
  by_cases h1 : "a".toList = k
  · subst h1; rfl
  · rw [if_neg h1]
    by_cases h2 : "b".toList = k
    · subst h2; rfl
    · rw [if_neg h2, if_neg h2, if_neg h1]

/-- `[NaN]` is no JSON. -/
example : ¬ ∃ d : Doc, d.Valid ∧ d.text = (Json.array [.number .nan] : Json F64).toString := by
  rw [C51_valid_iff_finite]
  simp [AllNum, AllNumList, FloatOps.isFinite, Fl.isFinite]

end RJ
