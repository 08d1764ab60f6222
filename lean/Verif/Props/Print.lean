import Verif.Proof.Ascii
import Verif.Proof.Trim
import Verif.Proof.ParseInv
/-
  C01 (sufficient condition), C02, C03, C04: the printer.
-/
set_option linter.unusedSectionVars false
namespace RJ
open Spec

theorem joinComma_intercalate (l : List Str) : joinComma l = List.intercalate ", ".toList l := by
  induction l with
  | nil => rfl
  | cons x t ih =>
    cases t with
    | nil => simp [joinComma]
    | cons y t => rw [joinComma, ih, List.intercalate_cons_cons]

theorem codeLe_iff (a b : Str) : codeLe a b = true ↔ a ≤ b := by
  induction a generalizing b with
  | nil => simp [codeLe]
  | cons x a ih =>
    cases b with
    | nil => simp [codeLe]
    | cons y b =>
      rw [codeLe, List.cons_le_cons_iff]
      have hlt : ∀ x y : Char, x < y ↔ x.toNat < y.toNat := fun x y => Iff.rfl
      have heq : x = y ↔ x.toNat = y.toNat := ⟨fun h => h ▸ rfl, fun h => Char.toNat_inj.mp h⟩
      rw [hlt, heq]
      by_cases h1 : x.toNat < y.toNat
      · simp [h1]
      · rw [if_neg h1]
        by_cases h2 : y.toNat < x.toNat
        · rw [if_pos h2]; simp; omega
        · rw [if_neg h2, ih]
          have : x.toNat = y.toNat := by omega
          simp [this]

variable {F : Type} [FloatOps F]

section
variable [LawfulFloat F]

/-- **C02.** The text `to_string` returns for a value with finite numbers is a text of the RFC 8259 grammar, and
the value which that text denotes is the printed value (every name with the same values in the same order). -/
theorem C02_to_string_denotes (j : Json F) (hfin : AllNum (fun f => FloatOps.isFinite f = true) j) (hwf : WF j) :
    ∃ x : Cst, x.Valid ∧ j.toString = x.text ∧ x.value = some (absJ j) :=
  ⟨cstOf j, cstOf_valid j hfin, cstOf_text j hfin, cstOf_value j hfin hwf⟩

/-- **C03.** The printed text of a value with finite numbers consists of printable ASCII characters only. -/
theorem C03_printable_ascii (j : Json F) (hfin : AllNum (fun f => FloatOps.isFinite f = true) j) :
    ∀ c ∈ j.toString, 0x20 ≤ c.toNat ∧ c.toNat ≤ 0x7E := toString_pr j hfin

/-- Sufficient half of **C01**: if the strings nested in containers have balanced brackets, printing and parsing
gives back the value.  (`C01_round_trip_iff` adds that this is the only obstacle.) -/
theorem C01_round_trip (j : Json F) (hfin : AllNum (fun f => FloatOps.isFinite f = true) j) (hwf : WF j)
    (hb : NestedBalanced j) : ∃ j' : Json F, Json.parse j.toString = .ok j' ∧ absJ j' = absJ j := by
  have hv := cstOf_valid j hfin
  have ht : (cstOf j).TopPlain := by
    cases j with
    | string s => simp [cstOf, Cst.TopPlain]
    | object m =>
      have := (cstOf_plain (.object m)).mpr hb
      revert this
      cases cstOf (Json.object m) <;> simp [Cst.TopPlain]
    | array m =>
      have := (cstOf_plain (.array m)).mpr hb
      revert this
      cases cstOf (Json.array m) <;> simp [Cst.TopPlain]
    | number f => simp [cstOf, Cst.TopPlain, Cst.Plain]
    | boolean b => cases b <;> simp [cstOf, Cst.TopPlain, Cst.Plain]
    | null => simp [cstOf, Cst.TopPlain, Cst.Plain]
  obtain ⟨j', h1, h2⟩ := complete_top (cstOf j) (absJ j) hv ht (cstOf_value j hfin hwf)
  refine ⟨j', ?_, h2⟩
  rw [cstOf_text j hfin, Json.parse, trimWs_cst _ hv, h1]

end

/-- **C04, determinism.** Two documents with the same abstract value - that is, equal up to the iteration order of their
hash maps, at every depth - print to the same text (also when numbers are not finite). -/
theorem C04_order_independent (j j' : Json F) (hwf : WF j) (hwf' : WF j') (h : absJ j = absJ j') :
    j.toString = j'.toString := toString_abs j j' hwf hwf' h

/-- **C04, order.** An object prints as its members `"key": value` separated by `, `, in ascending order of the keys
(lexicographic by code point), the values of one key in the order of its history. -/
theorem C04_sorted_members (m : Obj F) (hwf : WF (.object m)) :
    ∃ ms : List (Str × Json F),
      (Json.object m).toString =
        ['{'] ++ List.intercalate ", ".toList (ms.map (fun p => escape p.1 ++ ": ".toList ++ p.2.toString)) ++ ['}'] ∧
      (ms.map (·.1)).Pairwise (· ≤ ·) ∧
      (∀ q, (ms.filter (fun p => p.1 = q)).map (fun p => absJ p.2) = absMap m q) := by
  refine ⟨flatVals m, ?_, ?_, ?_⟩
  · rw [toString_object, joinComma_intercalate]; rfl
  · rw [List.pairwise_map]
    unfold flatVals
    rw [List.pairwise_flatten]
    constructor
    · intro l hl
      obtain ⟨e, _, rfl⟩ := List.mem_map.mp hl
      rw [List.pairwise_map]
      apply List.pairwise_of_forall
      intro a b
      exact List.le_refl _
    · rw [List.pairwise_map]
      apply (sortByKey_sorted m).imp
      intro a b hab x hx y hy
      obtain ⟨_, _, rfl⟩ := List.mem_map.mp hx
      obtain ⟨_, _, rfl⟩ := List.mem_map.mp hy
      exact (codeLe_iff _ _).mp hab
  · intro q
    have hn' : ((sortByKey m).map (·.1)).Nodup := ((sortByKey_perm m).map (·.1)).nodup_iff.mpr hwf.1
    have := named_flat (sortByKey m) hn' q
    rw [absMap_eq, mapGet_perm (sortByKey_perm m) hn', ← absMap_eq] at this
    rw [← this]
    unfold named flatVals
    rw [List.filter_map, List.map_map]
    rfl

/-- The order of `str::cmp` (bytes of the UTF-8 encodings), by which the members are sorted, is the lexicographic
order of the code points. -/
theorem C04_byte_order_is_code_order (a b : Str) : strLe a b = true ↔ a ≤ b := by
  rw [strLe_eq_codeLe, codeLe_iff]

end RJ
