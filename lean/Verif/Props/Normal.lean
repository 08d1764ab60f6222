import Verif.Props.Unique
import Verif.Props.Exact
/-
  C80: `to_string` after `parse` is a normal form.
-/
set_option linter.unusedSectionVars false
namespace RJ
open Spec
variable {F : Type} [FloatOps F] [LawfulFloat F]

/-- Parse a text and print the result. -/
def normalise (F : Type) [FloatOps F] (t : Str) : Res Str :=
  match (Json.parse t : Res (Json F)) with
  | .ok j => .ok j.toString
  | .error e => .error e

/-- **C80.** A normal form that is accepted is its own normal form. -/
theorem C80_idempotent (t u v : Str) (h1 : normalise F t = .ok u) (h2 : normalise F u = .ok v) : v = u := by
  unfold normalise at h1 h2
  cases hp : (Json.parse t : Res (Json F)) with
  | error e => rw [hp] at h1; cases h1
  | ok j =>
    rw [hp] at h1
    cases h1
    obtain ⟨hf, hw⟩ := C14_parse_well_formed t j hp
    cases hq : (Json.parse j.toString : Res (Json F)) with
    | error e => rw [hq] at h2; cases h2
    | ok j' =>
      rw [hq] at h2
      cases h2
      have := (C01_round_trip_iff j hf hw).2 j' hq
      exact C04_order_independent j' j (C14_parse_well_formed _ _ hq).2 hw this

/-- **C80.** It is accepted exactly if the strings inside the containers have balanced brackets. -/
theorem C80_accepted (t : Str) (j : Json F) (h : Json.parse t = .ok j) : normalise F j.toString = .ok j.toString ↔ NestedBalanced j := by
  obtain ⟨hf, hw⟩ := C14_parse_well_formed t j h
  rw [← (C01_round_trip_iff j hf hw).1]
  constructor
  · intro hn
    unfold normalise at hn
    cases hq : (Json.parse j.toString : Res (Json F)) with
    | error e => rw [hq] at hn; cases hn
    | ok j' => exact ⟨j', rfl⟩
  · rintro ⟨j', hj'⟩
    have h1 : normalise F t = .ok j.toString := by unfold normalise; rw [h]
    have h2 : normalise F j.toString = .ok j'.toString := by unfold normalise; rw [hj']
    rw [h2, C80_idempotent t _ _ h1 h2]

/-- **C80.** Two accepted texts have the same normal form exactly if `parse` reads the same value from them. -/
theorem C80_same_value (t t' : Str) (j j' : Json F) (h : Json.parse t = .ok j) (h' : Json.parse t' = .ok j') :
    normalise F t = normalise F t' ↔ absJ j = absJ j' := by
  obtain ⟨hf, hw⟩ := C14_parse_well_formed t j h
  obtain ⟨hf', hw'⟩ := C14_parse_well_formed t' j' h'
  unfold normalise
  rw [h, h', ← C50_injective j j' hf hf' hw hw']
  simp

/-- **C80.** ... for JSON documents: exactly if they denote the same value (members in any order, any whitespace, any way of writing the strings and numbers). -/
theorem C80_documents (d d' : Doc) (hv : d.Valid) (hv' : d'.Valid) (u u' : Str) (h : normalise F d.text = .ok u) (h' : normalise F d'.text = .ok u') :
    u = u' ↔ (d.body.value : Option (Val F)) = d'.body.value := by
  cases hp : (Json.parse d.text : Res (Json F)) with
  | error e => unfold normalise at h; rw [hp] at h; cases h
  | ok j =>
    cases hp' : (Json.parse d'.text : Res (Json F)) with
    | error e => unfold normalise at h'; rw [hp'] at h'; cases h'
    | ok j' =>
      have e := C80_same_value d.text d'.text j j' hp hp'
      rw [h, h'] at e
      rw [C09_never_wrong d hv j hp, C09_never_wrong d' hv' j' hp', Option.some.injEq, ← e]
      exact ⟨fun h => by rw [h], fun h => Except.ok.inj h⟩

/-- Two ways to write one document, and its normal form. -/
example : ∃ u, normalise F64 " {\"b\":[1.0, 2e0],\t\"\\u0061\" : null}".toList = .ok u ∧ normalise F64 "{\"a\":null,\"b\":[1,2]}".toList = .ok u ∧
    u = "{\"a\": null, \"b\": [1, 2]}".toList := by
  refine ⟨_, ?_, ?_, rfl⟩ <;> decide +kernel

end RJ
