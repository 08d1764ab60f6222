import Verif.Props.Store
import Verif.Proof.Ascii
/-
  C94: documents kept as strings inside documents.
-/
namespace RJ
open Spec
variable {F : Type} [FloatOps F]

theorem bnet_append (a b : Str) : bracketNet (a ++ b) = bracketNet a + bracketNet b := by
  induction a with
  | nil => simp [bracketNet]
  | cons c a ih => rw [List.cons_append, bracketNet, bracketNet, ih]; omega

theorem bnet_none (a : Str) (h : ∀ c ∈ a, c ≠ '[' ∧ c ≠ '{' ∧ c ≠ ']' ∧ c ≠ '}') : bracketNet a = 0 := by
  induction a with
  | nil => rfl
  | cons c a ih =>
    obtain ⟨h1, h2, h3, h4⟩ := h c List.mem_cons_self
    rw [bracketNet, ih (fun c hc => h c (List.mem_cons_of_mem _ hc))]
    simp [h1, h2, h3, h4]

theorem hexDigit_noBr (u : Nat) : hexDigit u ≠ '[' ∧ hexDigit u ≠ '{' ∧ hexDigit u ≠ ']' ∧ hexDigit u ≠ '}' := by
  unfold hexDigit
  have : u % 16 < 16 := Nat.mod_lt _ (by omega)
  generalize u % 16 = n at this
  have : n = 0 ∨ n = 1 ∨ n = 2 ∨ n = 3 ∨ n = 4 ∨ n = 5 ∨ n = 6 ∨ n = 7 ∨ n = 8 ∨ n = 9 ∨ n = 10 ∨ n = 11 ∨ n = 12 ∨ n = 13 ∨ n = 14 ∨ n = 15 := by omega
  rcases this with rfl | rfl | rfl | rfl | rfl | rfl | rfl | rfl | rfl | rfl | rfl | rfl | rfl | rfl | rfl | rfl <;> decide

theorem hexLoop_noBr (n u : Nat) : ∀ c ∈ hexLoop n u, c ≠ '[' ∧ c ≠ '{' ∧ c ≠ ']' ∧ c ≠ '}' := by
  induction n generalizing u with
  | zero => intro c hc; cases hc
  | succ n ih =>
    intro c hc
    rw [hexLoop] at hc
    split at hc
    · cases hc
    · rcases List.mem_cons.1 hc with rfl | hc
      · exact hexDigit_noBr u
      · exact ih _ c hc

theorem hex_noBr (u : Nat) : ∀ c ∈ hex u, c ≠ '[' ∧ c ≠ '{' ∧ c ≠ ']' ∧ c ≠ '}' := by
  unfold hex
  split
  · decide
  · intro c hc
    rw [List.mem_reverse, List.mem_append] at hc
    rcases hc with hc | hc
    · split at hc
      · rcases List.mem_append.1 hc with hc | hc
        · exact hexLoop_noBr _ _ c hc
        · rw [(List.mem_replicate.1 hc).2]; decide
      · exact hexLoop_noBr _ _ c hc
    · simp only [List.mem_cons, List.not_mem_nil, or_false] at hc
      rcases hc with rfl | rfl <;> decide

theorem bnet_escapeChar (c : Char) : bracketNet (escapeChar c) = bracketNet [c] := by
  by_cases h0 : c = '"'
  · subst h0; decide
  by_cases h1 : c = '\\'
  · subst h1; decide
  by_cases h2 : c = '/'
  · subst h2; decide
  by_cases h3 : c = '\x08'
  · subst h3; decide
  by_cases h4 : c = '\x0C'
  · subst h4; decide
  by_cases h5 : c = '\n'
  · subst h5; decide
  by_cases h6 : c = '\r'
  · subst h6; decide
  by_cases h7 : c = '\t'
  · subst h7; decide
  unfold escapeChar
  rw [if_neg h0, if_neg h1, if_neg h2, if_neg h3, if_neg h4, if_neg h5, if_neg h6, if_neg h7]
  by_cases h9 : 0x20 ≤ c.toNat ∧ c.toNat ≤ 0x7E
  · rw [if_neg (by omega), if_pos h9]
  have hc : bracketNet [c] = 0 := by
    apply bnet_none
    intro d hd
    rw [List.mem_singleton.1 hd]
    refine ⟨?_, ?_, ?_, ?_⟩ <;> (rintro rfl; exact h9 (by decide))
  rw [hc]
  split
  · exact bnet_none _ (hex_noBr _)
  · dsimp only
    split
    · exact bnet_none _ (hex_noBr _)
    · rw [bnet_append, bnet_none _ (hex_noBr _), bnet_none _ (hex_noBr _)]; rfl

theorem bnet_escape (s : Str) : bracketNet (escape s) = bracketNet s := by
  have hb : bracketNet (escapeBody s) = bracketNet s := by
    induction s with
    | nil => rfl
    | cons c s ih =>
      rw [escapeBody, bnet_append, ih, bnet_escapeChar, bracketNet, bracketNet, bracketNet]
      omega
  rw [escape, bnet_append, bnet_append, hb]
  simp [bracketNet]

theorem bnet_joinComma (l : List Str) (h : ∀ s ∈ l, bracketNet s = 0) : bracketNet (joinComma l) = 0 := by
  induction l with
  | nil => rfl
  | cons x t ih =>
    cases t with
    | nil => exact h x (by simp)
    | cons y t =>
      rw [joinComma, bnet_append, bnet_append, h x (by simp), ih (fun s hs => h s (List.mem_cons_of_mem _ hs))]
      decide

theorem numChar_noBr {c : Char} (h : NumChar c) : c ≠ '[' ∧ c ≠ '{' ∧ c ≠ ']' ∧ c ≠ '}' := by
  have aux : ∀ d : Char, c = d ↔ c.toNat = d.toNat :=
    fun d => ⟨fun h => h ▸ rfl, fun h => Char.toNat_inj.mp h⟩
  unfold NumChar IsDigit at h
  simp only [aux, Char.reduceToNat, Ne] at h ⊢
  omega

variable [LawfulFloat F]

theorem bnet_toString (j : Json F) (hf : AllNum (fun f => FloatOps.isFinite f = true) j) (hs : AllStr Balanced j) : bracketNet j.toString = 0 := by
  induction j using Json.ind with
  | hobj m ih =>
    rw [toString_object, bnet_append, bnet_append, bnet_joinComma]
    · decide
    intro s hm
    obtain ⟨p, hp, rfl⟩ := List.mem_map.mp hm
    obtain ⟨v, l, hm, hx⟩ := mem_flatVals hp
    have hfin := (AllNumMap_iff _ m).mp hf _ _ _ hm
    have hstr := (AllStrMap_iff _ m).mp hs _ _ _ hm
    have hih := ih _ _ _ hm
    have hp2 : bracketNet p.2.toString = 0 := by
      rcases hx with h | h
      · rw [h]; exact hih.1 hfin.1 hstr.2.1
      · exact hih.2 _ h (hfin.2 _ h) (hstr.2.2 _ h)
    rw [memberText, bnet_append, bnet_append, bnet_escape, hp2, show bracketNet p.1 = 0 from hstr.1]
    decide
  | harr l ih =>
    rw [Json.toString, printList_eq, bnet_append, bnet_append, bnet_joinComma]
    · decide
    intro s hm
    obtain ⟨p, hp, rfl⟩ := List.mem_map.mp hm
    exact ih p hp ((AllNumList_iff _ l).mp hf p hp) ((AllStrList_iff _ l).mp hs p hp)
  | hstr s => rw [Json.toString, bnet_escape]; exact hs
  | hnum f =>
    obtain ⟨n, hv, _, h⟩ := LawfulFloat.print_shape f hf
    rw [Json.toString, h]
    exact bnet_none _ (fun c hc => numChar_noBr (accepted_chars (NumLit.Loose.accepted hv.1) c hc))
  | hbool b => cases b <;> (rw [Json.toString]; decide)
  | hnull => rw [Json.toString]; decide

/-- **C94.** The text of a document whose strings have balanced brackets has balanced brackets itself. -/
theorem C94_balanced (j : Json F) (hj : Printable j) : Balanced j.toString := bnet_toString j hj.2.1 hj.2.2

/-- **C94.** So it may be kept as a string inside another document (or in a key): that survives printing, and what is read back is the very text, which gives back the document. -/
theorem C94_kept (j : Json F) (hj : Printable j) :
    Printable (.string j.toString : Json F) ∧
    ∀ d : Json F, Printable d → ∃ d' : Json F, Json.parse d.toString = .ok d' ∧ SameDoc d' d ∧
      ∀ (p : Str), d.get p = .ok (.string j.toString) → ∃ j', getText (F := F) .string d.toString p = .ok j.toString ∧ d'.get p = .ok (.string j.toString) ∧
        Json.parse j.toString = .ok j' ∧ SameDoc j' j := by
  refine ⟨⟨trivial, trivial, C94_balanced j hj⟩, fun d hd => ?_⟩
  obtain ⟨d', h1, h2⟩ := C01_round_trip d hd.2.1 hd.1 (nested_of_all _ hd.2.2)
  obtain ⟨j', h3, h4⟩ := C01_round_trip j hj.2.1 hj.1 (nested_of_all _ hj.2.2)
  refine ⟨d', h1, h2, fun p hp => ⟨j', ?_, ?_, h3, h4⟩⟩
  all_goals
    have hg : d'.get p = .ok (.string j.toString) := by
      by_cases ht : ∃ fs, PathText p fs
      · obtain ⟨fs, ht⟩ := ht
        have h5 := get_look ht d _ hp
        rw [← h2] at h5
        obtain ⟨x, h6, h7⟩ := look_get ht d' _ h5
        cases x with
        | string t => cases h7; exact h6
        | _ => cases h7
      · obtain ⟨e, _, h, _, _⟩ := bad_path 0 p ht d .null
        rw [h] at hp; cases hp
  · unfold getText
    rw [h1]
    dsimp only
    rw [hg]
    rfl
  · exact hg

/-- A document kept as a string in an object, which is kept as a string in an object, and so on: `ks` are the member names. -/
def envelope : List Str → Json F → Json F
  | [], j => j
  | k :: ks, j => .object [(k, (.string (envelope ks j).toString, []))]

/-- Opening it: read the member, and parse its text. -/
def openAll : List Str → Json F → Option (Json F)
  | [], j => some j
  | k :: ks, j =>
    match (Finder.key k).find j with
    | .ok (.string t) =>
      match (Json.parse t : Res (Json F)) with
      | .ok j' => openAll ks j'
      | .error _ => none
    | _ => none

theorem envelope_printable (ks : List Str) (hk : ∀ k ∈ ks, Balanced k) (j : Json F) (hj : Printable j) : Printable (envelope ks j) := by
  induction ks with
  | nil => exact hj
  | cons k ks ih =>
    have := C94_balanced _ (ih (fun k h => hk k (List.mem_cons_of_mem _ h)))
    refine ⟨by simp [envelope, WF, WFMap, WFList], by simp [envelope, AllNum, AllNumMap, AllNumList], ?_⟩
    simp only [envelope, AllStr, AllStrMap, AllStrList, and_true]
    exact ⟨hk k List.mem_cons_self, this⟩

/-- **C94, to any depth.** However often a document is wrapped in this way, sending the text and opening it level by level gives the document back. -/
theorem C94_envelopes (ks : List Str) (hk : ∀ k ∈ ks, Balanced k) (j : Json F) (hj : Printable j) :
    ∃ d j', Json.parse (envelope ks j).toString = .ok d ∧ openAll ks d = some j' ∧ SameDoc j' j := by
  induction ks with
  | nil =>
    obtain ⟨d, h1, h2⟩ := C01_round_trip j hj.2.1 hj.1 (nested_of_all _ hj.2.2)
    exact ⟨d, d, h1, rfl, h2⟩
  | cons k ks ih =>
    have hp := envelope_printable (k :: ks) hk j hj
    obtain ⟨d, h1, h2⟩ := C01_round_trip _ hp.2.1 hp.1 (nested_of_all _ hp.2.2)
    obtain ⟨d1, j', h3, h4, h5⟩ := ih (fun k h => hk k (List.mem_cons_of_mem _ h))
    refine ⟨d, j', h1, ?_, h5⟩
    have hl : look [.key k] (absJ d) = some (.str (envelope ks j).toString) := by
      rw [h2]
      simp [envelope, absJ, look, absMap, absList]
    rw [Finder.find_look] at hl
    cases hf : (Finder.key k).find d with
    | error e => rw [hf] at hl; cases hl
    | ok x =>
      rw [hf] at hl
      cases x with
      | string t =>
        simp only [absJ, Option.some.injEq, Val.str.injEq] at hl
        subst hl
        simp only [openAll, hf, h3]
        exact h4
      | _ => cases hl

/-- A printable document with brackets inside a string, and a document in which its text is kept. -/
example : Printable (.object [("a".toList, (.string "f(x)[0] {}".toList, [])), ("b".toList, (.array [.null, .boolean true], []))] : Json F) ∧
    (envelope ["x".toList, "y[0]".toList] (.array [] : Json F64)).toString = "{\"x\": \"{\\\"y[0]\\\": \\\"[]\\\"}\"}".toList := by
  refine ⟨⟨?_, ?_, ?_⟩, ?_⟩
  · simp [WF, WFMap, WFList]
  · simp [AllNum, AllNumMap, AllNumList]
  · simp [AllStr, AllStrMap, AllStrList, Balanced]; decide
  · decide +kernel

end RJ
