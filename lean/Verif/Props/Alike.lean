import Verif.Proof.Alike
import Verif.Props.History
import Verif.Props.Convert
import Verif.Proof.IeeeVal
/-
  C101: documents that compare equal behave alike.
-/
namespace RJ
open Spec
variable {F : Type}

/-- C101.  Whatever calls are made, in whatever order and to whatever depth: if two documents differ in their numbers only, by a relation `R` (any relation), and so do the values passed to the calls, then call by
call the same happens - the same error, a panic in both cases, or values that differ in numbers only, by `R` again - and so do the documents in the end.  No call looks at a number. -/
theorem C101_history (R : F → F → Prop) (lim : Nat) (cs cs' : List (Call F)) (hc : List.Forall₂ (CallAlike R) cs cs') (w : ∀ c ∈ cs, c.WF) (w' : ∀ c ∈ cs', c.WF)
    (j j' : Json F) (hj : WF j) (hj' : WF j') (h : VEq R (absJ j) (absJ j')) :
    List.Forall₂ (SawAlike R) (runAll lim cs j).1 (runAll lim cs' j').1 ∧
    Option.Rel (fun a b => WF a ∧ WF b ∧ VEq R (absJ a) (absJ b)) (runAll lim cs j).2 (runAll lim cs' j').2 := by
  obtain ⟨h1, h2⟩ := C70_history lim cs j hj w
  obtain ⟨h1', h2'⟩ := C70_history lim cs' j' hj' w'
  obtain ⟨os, r, h3, h4, h5⟩ := alike_history hc h h1
  obtain ⟨rfl, rfl⟩ := history_unique h3 h1'
  refine ⟨h4, ?_⟩
  revert h2 h2' h5
  cases (runAll lim cs j).2 with
  | none =>
    cases (runAll lim cs' j').2 with
    | none => intro _ _ _; exact .none
    | some y => intro _ _ h5; cases h5
  | some x =>
    cases (runAll lim cs' j').2 with
    | none => intro _ _ h5; cases h5
    | some y =>
      intro h2 h2' h5
      cases h5 with
      | some h5 => exact .some ⟨h2 _ rfl, h2' _ rfl, h5⟩

theorem alike_saw {R : F → F → Prop} {r r' : Res (Json F)} (h : SawAlike R (sawValue r) (sawValue r')) : ResAlike (fun a b => VEq R (absJ a) (absJ b)) r r' := by
  cases r with
  | ok x =>
    cases r' with
    | ok y => cases h with
      | value h => exact .ok h
    | error e => cases h
  | error e =>
    cases r' with
    | ok y => cases h
    | error e' => cases h; exact .error e

/-- C101.  `get` with any text: the same error, or values that differ in numbers only. -/
theorem C101_get (R : F → F → Prop) (s : Str) (j j' : Json F) (hj : WF j) (hj' : WF j') (h : VEq R (absJ j) (absJ j')) :
    ResAlike (fun a b => VEq R (absJ a) (absJ b)) (j.get s) (j'.get s) := by
  obtain ⟨⟨_, a1, _⟩, _⟩ := run_step 0 (.get (.text s)) j hj trivial
  obtain ⟨⟨_, b1, _⟩, _⟩ := run_step 0 (.get (.text s)) j' hj' trivial
  obtain ⟨e', o', h3, h4, h5⟩ := alike_step (CallAlike.get (.text s)) h a1
  obtain ⟨_, rfl⟩ := step_unique h3 b1
  exact alike_saw h5

/-- C101.  `del` with any text: the same error, or values and documents that differ in numbers only. -/
theorem C101_del (R : F → F → Prop) (s : Str) (j j' : Json F) (hj : WF j) (hj' : WF j') (h : VEq R (absJ j) (absJ j')) :
    ResAlike (fun a b => VEq R (absJ a) (absJ b)) (j.del s).2 (j'.del s).2 ∧ VEq R (absJ (j.del s).1) (absJ (j'.del s).1) := by
  have hh := C101_history R 0 [.del (.text s)] [.del (.text s)] (.cons (.del _) .nil) (by intro c hc; cases List.mem_singleton.1 hc; trivial) (by intro c hc; cases List.mem_singleton.1 hc; trivial) j j' hj hj' h
  have e : ∀ j : Json F, runAll 0 [.del (.text s)] j = ([sawValue (j.del s).2], some (j.del s).1) := by
    intro j
    simp only [runAll, Call.run]
    cases (j.del s).2 <;> rfl
  rw [e, e] at hh
  obtain ⟨h1, h2⟩ := hh
  cases h1 with
  | cons h1 _ => cases h2 with
    | some h2 => exact ⟨alike_saw h1, h2.2.2⟩

/-- C101.  A value read at a type without `f32` and maps: the same error, or values that differ in floats only - provided `R` relates numbers with the same integer casts. -/
theorem C101_decode [FloatOps F] (R : F → F → Prop) (hR : ∀ f g lo hi, R f g → FloatOps.toInt lo hi f = FloatOps.toInt lo hi g) (t : Ty) (hp : Plain t) (hn : NoF32 t)
    (j j' : Json F) (h : VEq R (absJ j) (absJ j')) : ResAlike (AlikeAt R t) (t.dec j) (t.dec j') := alike_dec hR t hp hn j j' h

theorem same_casts (f g : F64) (lo hi : Int) (h : FloatOps.beq f g = true) : FloatOps.toInt lo hi f = FloatOps.toInt lo hi g := by
  have h : Fl.beq f g = true := h
  show toIntFl lo hi f = toIntFl lo hi g
  cases f with
  | fin n x hx =>
    cases g with
    | fin n' y hy =>
      simp only [Fl.beq, Bool.or_eq_true, Bool.and_eq_true, beq_iff_eq] at h
      rcases h with ⟨rfl, rfl⟩ | ⟨rfl, rfl⟩
      · rfl
      · have z : ∀ n : Bool, toIntFl lo hi (.fin n 0 hx : F64) = clampI lo hi 0 := by
          intro n
          simp [toIntFl, magVal]
        rw [z n, z n']
    | _ => simp [Fl.beq] at h
  | inf n =>
    cases g with
    | inf n' =>
      simp only [Fl.beq, beq_iff_eq] at h
      subst h
      rfl
    | _ => simp [Fl.beq] at h
  | nan => cases g <;> simp [Fl.beq] at h

/-- C101.  Equal documents (in the sense of `==`), the same calls with equal arguments: call by call the same errors, the same panics, and equal values; and equal documents in the end. -/
theorem C101_equal (lim : Nat) (cs cs' : List (Call F64)) (hc : List.Forall₂ (CallAlike (fun f g => FloatOps.beq f g = true)) cs cs') (w : ∀ c ∈ cs, c.WF) (w' : ∀ c ∈ cs', c.WF)
    (j j' : Json F64) (hj : WF j) (hj' : WF j') (h : Json.eq j j' = true) :
    List.Forall₂ (SawAlike (fun f g => FloatOps.beq f g = true)) (runAll lim cs j).1 (runAll lim cs' j').1 ∧
    Option.Rel (fun a b => Json.eq a b = true) (runAll lim cs j).2 (runAll lim cs' j').2 := by
  obtain ⟨h1, h2⟩ := C101_history _ lim cs cs' hc w w' j j' hj hj' ((C38_eq_iff j j' hj hj').1 h)
  refine ⟨h1, ?_⟩
  revert h2
  generalize (runAll lim cs j).2 = r
  generalize (runAll lim cs' j').2 = r'
  intro h2
  cases h2 with
  | some h2 => exact .some ((C38_eq_iff _ _ h2.1 h2.2.1).2 h2.2.2)
  | none => exact .none

/-- C101.  Equal documents are read alike at every type without `f32` and maps: the same error, or values that are equal (floats by `==`). -/
theorem C101_equal_decode (t : Ty) (hp : Plain t) (hn : NoF32 t) (j j' : Json F64) (hj : WF j) (hj' : WF j') (h : Json.eq j j' = true) :
    ResAlike (AlikeAt (fun f g => FloatOps.beq f g = true) t) (t.dec j) (t.dec j') :=
  C101_decode _ (fun f g lo hi => same_casts f g lo hi) t hp hn j j' ((C38_eq_iff j j' hj hj').1 h)

/-! Two documents that are equal and print differently (`0` and `-0`), and two that differ in a number. -/

def plusZero : Json F64 := .array [.number (.fin false 0 (by decide)), .string ['a']]
def minusZero : Json F64 := .array [.number (.fin true 0 (by decide)), .string ['a']]

theorem zeros_wf : WF plusZero ∧ WF minusZero := by
  constructor <;> (simp [plusZero, minusZero, WF, WFList])

example : Json.eq plusZero minusZero = true ∧ plusZero ≠ minusZero := by
  refine ⟨by decide +kernel, ?_⟩
  intro h
  simp [plusZero, minusZero] at h

example (s : Str) : ResAlike (fun a b => VEq (fun f g : F64 => FloatOps.beq f g = true) (absJ a) (absJ b)) (plusZero.get s) (minusZero.get s) :=
  C101_get _ s _ _ zeros_wf.1 zeros_wf.2 ((C38_eq_iff _ _ zeros_wf.1 zeros_wf.2).1 (by decide +kernel))

/-- The document `n` (an array of two numbers) and a history with another number in it: the numbers do not matter to what happens. -/
example (a b c d x y : Nat) : List.Forall₂ (SawAlike (fun _ _ => True))
    (runAll 9 [.set (.text "4".toList) (.number x), .get (.text "7".toList), .del (.text "0".toList)] (.array [.number a, .number b])).1
    (runAll 9 [.set (.text "4".toList) (.number y), .get (.text "7".toList), .del (.text "0".toList)] (.array [.number c, .number d])).1 :=
  (C101_history (fun _ _ => True) 9 _ _ (.cons (.set _ (.num trivial)) (.cons (.get _) (.cons (.del _) .nil)))
    (by intro c hc; simp at hc; rcases hc with rfl | rfl | rfl <;> simp [Call.WF, WF])
    (by intro c hc; simp at hc; rcases hc with rfl | rfl | rfl <;> simp [Call.WF, WF])
    _ _ (by simp [WF, WFList]) (by simp [WF, WFList]) (.arr (.cons (.num trivial) (.cons (.num trivial) .nil)))).1

end RJ
