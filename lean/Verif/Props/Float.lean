import Verif.Proof.IeeeLit
import Verif.Props.Parse
import Verif.Props.Convert
/-
  C34, C35, C46, C47: numbers, for IEEE-754 `f64` and `f32` (`Model/Ieee.lean`).
-/
set_option linter.unusedSectionVars false
namespace RJ
open Spec

/-! ### C46 number literals -/

theorem value_f64 (n : NumLit) (f : F64) (hp : parseFl b64 n.text = some f) :
    (NumLit.value n : Option F64) = if f.isFinite = true then some f else none := by
  have hp' : (FloatOps.parse n.text : Option F64) = some f := hp
  rw [NumLit.value, hp']
  rfl

/-- **C46.** A number literal `parse` accepts by its grammar is read as the `f64` nearest to its exact decimal value, ties to even, with its
sign (also of zero), if that value does not overflow; else it is a `ParseNumberError`. -/
theorem C46_nearest (n : NumLit) (hn : n.Accepted) :
    (|n.rat| < overflow64 → ∃ f : F64, Json.parse n.text = .ok (.number f) ∧ RoundsTo n.rat f ∧ signBit f = n.neg) ∧
    (overflow64 ≤ |n.rat| → ∃ e, (Json.parse n.text : Res (Json F64)) = .error e ∧ e.kind = .ParseNumberError) := by
  obtain ⟨f, hp, hs, hfin, hr⟩ := parse_rounds n hn.1 (fun f hf => (hn.2.1 f hf).1) hn.2.2
  have hval := value_f64 n f hp
  constructor
  · intro h
    have hf := hfin.mpr h
    refine ⟨f, (C12_number_iff n.text f).mpr ⟨[], n, [], wsNil, wsNil, by simp, hn, ?_⟩, hr hf, hs⟩
    rw [hval, if_pos hf]
  · intro h
    have hf : ¬ f.isFinite = true := fun hf => absurd (hfin.mp hf) (not_lt.mpr h)
    obtain ⟨c, t, ht, hc⟩ := accepted_head hn
    have hw : ∀ c ∈ n.text, ¬ IsWs c := by
      intro c hc
      rw [← isWs_iff, (numChar_inert (accepted_chars hn c hc)).2.2.2.2.2.2.2.2]; simp
    have htrim : trimWs n.text = n.text := by
      have hne : n.text ≠ [] := by rw [ht]; simp
      have e := (List.dropLast_concat_getLast hne).symm
      rw [ht]
      exact trimWs_self c t (hw c (by rw [ht]; simp)) n.text.dropLast (n.text.getLast hne) (hw _ (List.getLast_mem hne))
        (by rw [← ht]; exact e)
    rw [Json.parse, htrim, parseRaw_num n hn, hval, if_neg hf]
    exact ⟨_, rfl, rfl⟩

/-- **C46.** Rounding to nearest-even determines the value. -/
theorem C46_unique (x : ℚ) (f g : F64) (v w : ℚ) (hf : RoundsTo x f) (hg : RoundsTo x g) (hv : value64 f = some v) (hw : value64 g = some w) :
    v = w := roundsTo_unique x f g v w hf hg hv hw

/-- **C46.** Every number in a parsed text is finite: `parse` never yields an infinity or NaN. -/
theorem C46_finite (t : Str) (f : F64) (h : (Json.parse t : Res (Json F64)) = .ok (.number f)) :
    ∃ n : NumLit, n.Accepted ∧ RoundsTo n.rat f ∧ |n.rat| < overflow64 ∧ ∃ pre post, WsStr pre ∧ WsStr post ∧ t = pre ++ n.text ++ post := by
  obtain ⟨pre, n, post, h1, h2, h3, hn, hv⟩ := (C12_number_iff t f).mp h
  obtain ⟨g, hp, hs, hfin, hr⟩ := parse_rounds n hn.1 (fun f hf => (hn.2.1 f hf).1) hn.2.2
  rw [value_f64 n g hp] at hv
  by_cases hf : g.isFinite = true
  · rw [if_pos hf] at hv
    cases hv
    exact ⟨n, hn, hr hf, hfin.mp hf, pre, post, h1, h2, h3⟩
  · rw [if_neg hf] at hv; cases hv

/-- Is this result the number `f`? -/
def isNum (r : Res (Json F64)) (f : F64) : Bool :=
  match r with
  | .ok (.number g) => g = f
  | _ => false

theorem isNum_iff (r : Res (Json F64)) (f : F64) : isNum r f = true ↔ r = .ok (.number f) := by
  unfold isNum
  split <;> simp_all

/-- Is this an error of this kind? -/
def isErr {α : Type} (r : Res α) (k : ErrorKind) : Bool :=
  match r with
  | .error e => e.kind = k
  | _ => false

/-- Concrete case: `0.1` is read as the number with bits 0x3FB999999999999A. -/
example : Json.parse "0.1".toList = .ok (.number (.fin false 0x3FB999999999999A (by decide)) : Json F64) := by
  rw [← isNum_iff]; decide +kernel
/-- Concrete case: 2^53 + 1 is a tie, read as 2^53 (bits 0x4340000000000000). -/
example : Json.parse "9007199254740993".toList = .ok (.number (.fin false 0x4340000000000000 (by decide)) : Json F64) := by
  rw [← isNum_iff]; decide +kernel
/-- Concrete case: minus zero keeps its sign. -/
example : Json.parse "-0".toList = .ok (.number (.fin true 0 (by decide)) : Json F64) := by
  rw [← isNum_iff]; decide +kernel
/-- Concrete case: overflow. -/
example : isErr (Json.parse "1e309".toList : Res (Json F64)) .ParseNumberError = true := by decide +kernel

/-! ### C34 integers -/

/-- **C34.** The integer types with conversions are exactly the twelve integer types of Rust, each with its own range. -/
theorem C34_types (name : String) (lo hi : Int) : (name, lo, hi) ∈ intTypes ↔ RustInt name lo hi := by
  constructor
  · intro h
    simp only [intTypes, List.mem_cons, Prod.mk.injEq, List.not_mem_nil, or_false] at h
    rcases h with ⟨rfl, rfl, rfl⟩ | ⟨rfl, rfl, rfl⟩ | ⟨rfl, rfl, rfl⟩ | ⟨rfl, rfl, rfl⟩ | ⟨rfl, rfl, rfl⟩ | ⟨rfl, rfl, rfl⟩ |
      ⟨rfl, rfl, rfl⟩ | ⟨rfl, rfl, rfl⟩ | ⟨rfl, rfl, rfl⟩ | ⟨rfl, rfl, rfl⟩ | ⟨rfl, rfl, rfl⟩ | ⟨rfl, rfl, rfl⟩
    · exact ⟨false, 8, by decide, rfl, rfl⟩
    · exact ⟨false, 16, by decide, rfl, rfl⟩
    · exact ⟨false, 32, by decide, rfl, rfl⟩
    · exact ⟨false, 64, by decide, rfl, rfl⟩
    · exact ⟨false, 128, by decide, rfl, rfl⟩
    · exact ⟨false, 64, by decide, rfl, rfl⟩
    · exact ⟨true, 8, by decide, rfl, rfl⟩
    · exact ⟨true, 16, by decide, rfl, rfl⟩
    · exact ⟨true, 32, by decide, rfl, rfl⟩
    · exact ⟨true, 64, by decide, rfl, rfl⟩
    · exact ⟨true, 128, by decide, rfl, rfl⟩
    · exact ⟨true, 64, by decide, rfl, rfl⟩
  · rintro ⟨signed, width, h, rfl, rfl⟩
    simp only [rustInts, List.mem_cons, Prod.mk.injEq, List.not_mem_nil, or_false] at h
    rcases h with ⟨rfl, rfl, rfl⟩ | ⟨rfl, rfl, rfl⟩ | ⟨rfl, rfl, rfl⟩ | ⟨rfl, rfl, rfl⟩ | ⟨rfl, rfl, rfl⟩ | ⟨rfl, rfl, rfl⟩ |
      ⟨rfl, rfl, rfl⟩ | ⟨rfl, rfl, rfl⟩ | ⟨rfl, rfl, rfl⟩ | ⟨rfl, rfl, rfl⟩ | ⟨rfl, rfl, rfl⟩ | ⟨rfl, rfl, rfl⟩ <;> decide

/-- **C34.** Encoding an integer gives the nearest number, for every value of every integer type of the crate. -/
theorem C34_encode_nearest (name : String) (lo hi n : Int) (ht : RustInt name lo hi) (h1 : lo ≤ n) (h2 : n ≤ hi) :
    ∃ f : F64, (Ty.int name lo hi).enc (F := F64) n = .number f ∧ RoundsTo n f := by
  have hb : n.natAbs ≤ 2 ^ 128 := by
    rw [← C34_types] at ht
    simp only [intTypes, List.mem_cons, Prod.mk.injEq, List.not_mem_nil, or_false] at ht
    omega
  refine ⟨ofIntFl b64 n, rfl, ?_⟩
  exact ofInt_rounds n (by omega)

/-- **C34.** Integers of magnitude at most 2^53 survive encoding and decoding. -/
theorem C34_exact (name : String) (lo hi n : Int) (h1 : lo ≤ n) (h2 : n ≤ hi) (h3 : -(2 ^ 53) ≤ n) (h4 : n ≤ 2 ^ 53) :
    (Ty.int name lo hi).dec ((Ty.int name lo hi).enc (F := F64) n) = .ok n :=
  C30_round_trip (F := F64) (.int name lo hi) trivial trivial n ⟨h1, h2, h3, h4⟩

/-- **C34.** ... also through text. -/
theorem C34_exact_text (name : String) (lo hi n : Int) (h1 : lo ≤ n) (h2 : n ≤ hi) (h3 : -(2 ^ 53) ≤ n) (h4 : n ≤ 2 ^ 53) :
    decodeText (F := F64) (.int name lo hi) (encodeText (F := F64) (.int name lo hi) n) = .ok n :=
  C37_text_round_trip_eq (F := F64) (.int name lo hi) trivial trivial n ⟨h1, h2, h3, h4⟩ trivial trivial

/-- **C34.** Every value of the 8, 16 and 32 bit types survives encoding and decoding, as value and as text. -/
theorem C34_small_types (name : String) (lo hi n : Int) (ht : RustInt name lo hi)
    (hn : name ∈ ["u8", "u16", "u32", "i8", "i16", "i32"]) (h1 : lo ≤ n) (h2 : n ≤ hi) :
    (Ty.int name lo hi).dec ((Ty.int name lo hi).enc (F := F64) n) = .ok n ∧
    decodeText (F := F64) (.int name lo hi) (encodeText (F := F64) (.int name lo hi) n) = .ok n := by
  have hb : -(2 ^ 53) ≤ n ∧ n ≤ 2 ^ 53 := by
    rw [← C34_types] at ht
    simp only [intTypes, List.mem_cons, Prod.mk.injEq, List.not_mem_nil, or_false] at ht hn
    rcases hn with rfl | rfl | rfl | rfl | rfl | rfl <;> simp at ht <;> omega
  exact ⟨C34_exact name lo hi n h1 h2 hb.1 hb.2, C34_exact_text name lo hi n h1 h2 hb.1 hb.2⟩

/-- **C34.** The bound is sharp: 2^53 + 1 comes back as 2^53. -/
theorem C34_not_beyond : (Ty.int "u64" 0 (2 ^ 64 - 1)).dec ((Ty.int "u64" 0 (2 ^ 64 - 1)).enc (F := F64) (2 ^ 53 + 1 : Int)) = .ok (2 ^ 53 : Int) := by
  have : toIntFl 0 (2 ^ 64 - 1) (ofIntFl b64 (2 ^ 53 + 1)) = 2 ^ 53 := by decide +kernel
  exact congrArg Except.ok this

/-! ### C35 -/

/-- **C35.** Decoding a finite number to an integer type truncates toward zero and saturates at the bounds of the type. -/
theorem C35_truncate (name : String) (lo hi : Int) (hl : lo ≤ hi) (f : F64) (v : ℚ) (hv : value64 f = some v) :
    (Ty.int name lo hi).dec (.number f) = .ok (max lo (min hi (truncQ v)) : Int) := by
  show Except.ok (toIntFl lo hi f) = _
  exact congrArg Except.ok (toInt_trunc lo hi hl f v hv)

/-- **C35.** Infinities saturate, NaN becomes 0. -/
theorem C35_not_finite (name : String) (lo hi : Int) :
    (Ty.int name lo hi).dec (.number (.inf false) : Json F64) = .ok hi ∧
    (Ty.int name lo hi).dec (.number (.inf true) : Json F64) = .ok lo ∧
    (Ty.int name lo hi).dec (.number .nan : Json F64) = .ok (0 : Int) := ⟨rfl, rfl, rfl⟩

/-- **C35.** Decoding to an integer type of the crate succeeds exactly on numbers, the result is in range, and everything else is a `ConvertError`. -/
theorem C35_total (name : String) (lo hi : Int) (ht : RustInt name lo hi) (j : Json F64) :
    (∃ f, j = .number f ∧ ∃ n : Int, (Ty.int name lo hi).dec j = .ok n ∧ lo ≤ n ∧ n ≤ hi) ∨
    ((∀ f, j ≠ .number f) ∧ ∃ e, (Ty.int name lo hi).dec j = .error e ∧ e.kind = .ConvertError) := by
  have hr : lo ≤ 0 ∧ 0 ≤ hi := by
    rw [← C34_types] at ht
    simp only [intTypes, List.mem_cons, Prod.mk.injEq, List.not_mem_nil, or_false] at ht
    omega
  by_cases h : ∃ f, j = .number f
  · obtain ⟨f, rfl⟩ := h
    refine .inl ⟨f, rfl, toIntFl lo hi f, rfl, ?_⟩
    cases f with
    | fin neg b hb =>
      simp only [toIntFl, clampI]
      split
      · omega
      · split <;> omega
    | inf neg => cases neg <;> simp [toIntFl] <;> omega
    | nan => simpa [toIntFl] using hr
  · refine .inr ⟨fun f e => h ⟨f, e⟩, ?_⟩
    exact C36_wrong_kind (F := F64) (.int name lo hi) j h

/-- Is this result the integer `n`? -/
def isInt (r : Res Int) (n : Int) : Bool :=
  match r with
  | .ok m => m = n
  | _ => false

/-- Concrete case: decoding `-1.5` to `u8` and `i8`, and `1e3` to `u8`. -/
example : isInt (decodeText (F := F64) (.int "u8" 0 255) "-1.5".toList) 0 = true ∧
    isInt (decodeText (F := F64) (.int "i8" (-128) 127) "-1.5".toList) (-1) = true ∧
    isInt (decodeText (F := F64) (.int "u8" 0 255) "1e3".toList) 255 = true := by decide +kernel

/-! ### C47 f32 -/

/-- **C47.** Encoding an `f32` keeps its exact value. -/
theorem C47_exact (f : F32) (v : ℚ) (hv : value32 f = some v) :
    ∃ g : F64, Ty.f32.enc (F := F64) f = .number g ∧ value64 g = some v := ⟨convFl b32 b64 f, rfl, widen_value f v hv⟩

/-- **C47.** Every `f32` (also infinities and NaN) survives encoding and decoding. -/
theorem C47_round_trip (f : F32) : Ty.f32.dec (Ty.f32.enc (F := F64) f) = .ok f :=
  C30_round_trip (F := F64) .f32 trivial trivial f trivial

/-- **C47.** Every finite `f32` survives a round trip through text. -/
theorem C47_text (f : F32) (v : ℚ) (hv : value32 f = some v) : decodeText (F := F64) .f32 (encodeText (F := F64) .f32 f) = .ok f := by
  refine C37_text_round_trip_eq (F := F64) .f32 trivial trivial f trivial ?_ trivial
  show (convFl b32 b64 f).isFinite = true
  have := widen_value f v hv
  cases hc : convFl b32 b64 f <;> rw [hc] at this <;> simp_all [value64, Fl.isFinite]

/-- Concrete case: `0.1f32`. -/
example : encodeText (F := F64) .f32 (.fin false 0x3DCCCCCD (by decide) : F32) = "0.10000000149011612".toList := by decide +kernel

end RJ
