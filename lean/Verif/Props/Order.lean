import Verif.Props.Digits
/-
  C79: numbers keep their order.
-/
set_option linter.unusedSectionVars false
namespace RJ
open Spec

/-- Rounding keeps the order. -/
theorem rounds_mono (x y : ℚ) (hxy : x ≤ y) (f g : F64) (hf : RoundsTo x f) (hg : RoundsTo y g) (v w : ℚ) (hv : value64 f = some v) (hw : value64 g = some w) :
    v ≤ w := by
  by_contra hc
  have hc := not_lt.mp (fun h => hc h.le)
  have hlt : w < v := by
    rcases lt_or_eq_of_le hc with h | h
    · exact h
    · exact absurd h.ge ‹¬ v ≤ w›
  obtain ⟨v', hv', h1⟩ := hf
  obtain ⟨w', hw', h2⟩ := hg
  have ev : v' = v := by rw [hv] at hv'; exact (Option.some.inj hv').symm
  have ew : w' = w := by rw [hw] at hw'; exact (Option.some.inj hw').symm
  subst ev ew
  have a := (h1 g w' hw).1
  have b := (h2 f v' hv).1
  have hx : v' + w' ≤ 2 * x := by
    by_contra hn
    have hn := not_le.mp hn
    have : |w' - x| < |v' - x| := by
      rw [abs_of_pos (show 0 < v' - x by linarith)]
      exact abs_lt.mpr ⟨by linarith, by linarith⟩
    linarith
  have hy : 2 * y ≤ v' + w' := by
    by_contra hn
    have hn := not_le.mp hn
    have : |v' - y| < |w' - y| := by
      rw [abs_of_neg (show w' - y < 0 by linarith)]
      exact abs_lt.mpr ⟨by linarith, by linarith⟩
    linarith
  have : x = y := by linarith
  subst this
  have := C46_unique x f g v' w' ⟨v', hv, h1⟩ ⟨w', hw, h2⟩ hv hw
  linarith

/-- A number literal that was read, with its value. -/
theorem read_rounds (m : NumLit) (hm : m.Accepted) (f : F64) (h : Json.parse m.text = .ok (.number f)) : RoundsTo m.rat f := by
  by_cases hr : |m.rat| < overflow64
  · obtain ⟨g, h1, h2, -⟩ := (C46_nearest m hm).1 hr
    rw [h1] at h
    cases h
    exact h2
  · obtain ⟨e, he, -⟩ := (C46_nearest m hm).2 (not_lt.mp hr)
    rw [he] at h; cases h

/-- **C79.** If one number literal is at most another one, so are the numbers read from them. -/
theorem C79_parse (m n : NumLit) (hm : m.Accepted) (hn : n.Accepted) (f g : F64) (p1 : Json.parse m.text = .ok (.number f))
    (p2 : Json.parse n.text = .ok (.number g)) (h : m.rat ≤ n.rat) : ∃ v w, value64 f = some v ∧ value64 g = some w ∧ v ≤ w := by
  have r1 := read_rounds m hm f p1
  have r2 := read_rounds n hn g p2
  obtain ⟨v, hv, -⟩ := id r1
  obtain ⟨w, hw, -⟩ := id r2
  exact ⟨v, w, hv, hw, rounds_mono _ _ h f g r1 r2 v w hv hw⟩

/-- **C79.** If one number is below another one, so are the literals printed for them (and they differ). -/
theorem C79_print (f g : F64) (v w : ℚ) (hv : value64 f = some v) (hw : value64 g = some w) (h : v < w) :
    ∃ m n : NumLit, (Json.number f : Json F64).toString = m.text ∧ (Json.number g : Json F64).toString = n.text ∧ m.Valid ∧ n.Valid ∧ m.rat < n.rat := by
  have fin : ∀ (f : F64) (v : ℚ), value64 f = some v → f.isFinite = true := by
    intro f v hv
    match f, hv with
    | .fin _ _ _, _ => rfl
  have back : ∀ (f : F64) (v : ℚ), value64 f = some v → ∃ m : NumLit, (Json.number f : Json F64).toString = m.text ∧ m.Valid ∧
      (Json.parse m.text : Res (Json F64)) = .ok (.number f) := by
    intro f v hv
    obtain ⟨m, h1, h2, -⟩ := printed_lit f (fin f v hv)
    refine ⟨m, h1, h2, (C12_number_iff m.text f).mpr ⟨[], m, [], wsNil, wsNil, by simp, NumLit.Loose.accepted h2.1, ?_⟩⟩
    have hp : FloatOps.parse (FloatOps.print f) = some f := LawfulFloat.parse_print f (fin f v hv)
    have e : (FloatOps.print f : Str) = m.text := by rw [← h1]; exact (number_text f).symm
    rw [e] at hp
    rw [value_f64 m f hp, if_pos (fin f v hv)]
  obtain ⟨m, m1, m2, m3⟩ := back f v hv
  obtain ⟨n, n1, n2, n3⟩ := back g w hw
  refine ⟨m, n, m1, n1, m2, n2, ?_⟩
  by_contra hc
  obtain ⟨w', v', hw', hv', hle⟩ := C79_parse n m (NumLit.Loose.accepted n2.1) (NumLit.Loose.accepted m2.1) g f n3 m3 (not_lt.mp hc)
  rw [hw] at hw'
  rw [hv] at hv'
  cases hw'
  cases hv'
  linarith

theorem truncQ_mono (x y : ℚ) (h : x ≤ y) : truncQ x ≤ truncQ y := by
  unfold truncQ
  by_cases hx : 0 ≤ x
  · rw [if_pos hx, if_pos (hx.trans h)]; exact Int.floor_mono h
  · rw [if_neg hx]
    by_cases hy : 0 ≤ y
    · rw [if_pos hy]
      have h1 : ⌈x⌉ ≤ 0 := Int.ceil_le.mpr (by push_cast; linarith)
      have h2 : 0 ≤ ⌊y⌋ := Int.le_floor.mpr (by push_cast; exact hy)
      omega
    · rw [if_neg hy]; exact Int.ceil_mono h

/-- **C79.** The same for number literals decoded to an integer type. -/
theorem C79_integers (name : String) (lo hi : Int) (ht : RustInt name lo hi) (m n : NumLit) (hm : m.Accepted) (hn : n.Accepted) (a b : Int)
    (p1 : decodeText (F := F64) (.int name lo hi) m.text = .ok a) (p2 : decodeText (F := F64) (.int name lo hi) n.text = .ok b) (h : m.rat ≤ n.rat) : a ≤ b := by
  have hr : lo ≤ hi := by
    rw [← C34_types] at ht
    simp only [intTypes, List.mem_cons, Prod.mk.injEq, List.not_mem_nil, or_false] at ht
    omega
  have get : ∀ (m : NumLit), m.Accepted → ∀ a : Int, decodeText (F := F64) (.int name lo hi) m.text = .ok a →
      ∃ f v, Json.parse m.text = .ok (.number f : Json F64) ∧ value64 f = some v ∧ a = max lo (min hi (truncQ v)) := by
    intro m hm a hp
    by_cases hr' : |m.rat| < overflow64
    · obtain ⟨f, h1, ⟨v, hv, -⟩, -⟩ := (C46_nearest m hm).1 hr'
      refine ⟨f, v, h1, hv, ?_⟩
      unfold decodeText at hp
      rw [h1] at hp
      have hp : (Ty.int name lo hi).dec (.number f : Json F64) = .ok a := hp
      rw [C35_truncate name lo hi hr f v hv] at hp
      exact (Except.ok.inj hp).symm
    · obtain ⟨e, he, -⟩ := (C46_nearest m hm).2 (not_lt.mp hr')
      unfold decodeText at hp
      rw [he] at hp; cases hp
  obtain ⟨f, v, f1, f2, rfl⟩ := get m hm a p1
  obtain ⟨g, w, g1, g2, rfl⟩ := get n hn b p2
  obtain ⟨v', w', h1, h2, h3⟩ := C79_parse m n hm hn f g f1 g1 h
  rw [f2] at h1
  rw [g2] at h2
  cases h1
  cases h2
  have := truncQ_mono v w h3
  omega

/-- **C79.** Encoding integers keeps their order, whatever their types: the numbers are ordered as the integers (and the literals printed for different numbers likewise, by `C79_print`). -/
theorem C79_encode (name name' : String) (lo hi lo' hi' : Int) (ht : RustInt name lo hi) (ht' : RustInt name' lo' hi') (a b : Int) (ha : lo ≤ a ∧ a ≤ hi)
    (hb : lo' ≤ b ∧ b ≤ hi') (h : a ≤ b) :
    ∃ f g v w, (Ty.int name lo hi).enc (F := F64) a = .number f ∧ (Ty.int name' lo' hi').enc (F := F64) b = .number g ∧ value64 f = some v ∧ value64 g = some w ∧ v ≤ w := by
  obtain ⟨f, f1, f2⟩ := C34_encode_nearest name lo hi a ht ha.1 ha.2
  obtain ⟨g, g1, g2⟩ := C34_encode_nearest name' lo' hi' b ht' hb.1 hb.2
  obtain ⟨v, hv, -⟩ := id f2
  obtain ⟨w, hw, -⟩ := id g2
  exact ⟨f, g, v, w, f1, g1, hv, hw, rounds_mono _ _ (by exact_mod_cast h) f g f2 g2 v w hv hw⟩

/-! ### Concrete cases -/

/-- The order is not strict: neighbouring literals with many digits can be read as one number. -/
example : isNum (Json.parse "9007199254740993".toList) (.fin false 0x4340000000000000 (by decide)) = true ∧
    isNum (Json.parse "9007199254740992".toList) (.fin false 0x4340000000000000 (by decide)) = true := by decide +kernel

/-- -1.5 and 1e3, decoded as `i8`. -/
example : isInt (decodeText (F := F64) (.int "i8" (-128) 127) "-1.5".toList) (-1) = true ∧
    isInt (decodeText (F := F64) (.int "i8" (-128) 127) "1e3".toList) 127 = true := by decide +kernel

end RJ
