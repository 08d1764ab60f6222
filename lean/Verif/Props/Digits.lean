import Verif.Spec.Digits
import Verif.Proof.Digits
import Verif.Props.Width
import Verif.Props.Exact
import Verif.Props.Unique
/-
  C78: numbers with up to 15 significant digits survive `parse` and `to_string`.
-/
set_option linter.unusedSectionVars false
namespace RJ
open Spec

theorem lit_digits (m : NumLit) (hm : m.Accepted) : Digits (m.int ++ litFrac m) := by
  intro x hx
  rcases List.mem_append.mp hx with hx | hx
  · exact hm.1.2 x hx
  · unfold litFrac at hx
    cases hfr : m.frac with
    | none => rw [hfr] at hx; cases hx
    | some s => rw [hfr] at hx; exact (hm.2.1 s hfr).1 x hx

/-- A literal, as its significant digits and a power of ten. -/
theorem lit_split (m : NumLit) (hm : m.Accepted) : ∃ (d : Nat) (e : Int), m.rat = (if m.neg then -1 else 1) * dq d e ∧ d < 10 ^ m.precision ∧
    (d = 0 ∧ m.precision = 0 ∨ ¬ 10 ∣ d) ∧ ∀ q : Fmt, 1 ≤ q.p → near q (decVal (m.int ++ litFrac m) 0) (litExp m - (litFrac m).length) = near q d e := by
  obtain ⟨t, ht⟩ := sig_val (m.int ++ litFrac m)
  refine ⟨decVal (sig (m.int ++ litFrac m)) 0, litExp m - (litFrac m).length + t, ?_, ?_, ?_, fun q hq => ?_⟩
  · rw [rat_eq, ← dq_shift, ← ht]; rfl
  · exact decVal_lt _ (sig_digits _ (lit_digits m hm))
  · by_cases h0 : sig (m.int ++ litFrac m) = []
    · left
      have hp : m.precision = (sig (m.int ++ litFrac m)).length := rfl
      rw [hp, h0]; exact ⟨rfl, rfl⟩
    · right; exact (sig_bounds _ (lit_digits m hm) h0).2.2
  · exact near_eq_of_dq q hq _ _ _ _ (by rw [← dq_shift, ← ht])

theorem abs_sign (neg : Bool) (x : ℚ) (hx : 0 ≤ x) : |(if neg then -1 else 1) * x| = x := by
  cases neg <;> simp [abs_of_nonneg hx]

theorem dq_nonneg (d : Nat) (e : Int) : 0 ≤ dq d e := by
  unfold dq
  have := zpow_pos (show (0 : ℚ) < 10 by norm_num) e
  positivity

theorem everyday_fifteen (m : NumLit) (hm : m.Accepted) (h : m.Everyday) : m.Fifteen := by
  obtain ⟨d, e, h1, h2, h3, -⟩ := lit_split m hm
  rcases h with h0 | ⟨hp, hb⟩
  · refine ⟨?_, 0, by rw [h0]; simp⟩
    rcases h3 with ⟨-, h3⟩ | h3
    · omega
    · exfalso
      have hd : 0 < d := Nat.pos_of_ne_zero (fun h => h3 ⟨0, by rw [h]⟩)
      have h10 := zpow_pos (show (0 : ℚ) < 10 by norm_num) e
      have hpos : (0 : ℚ) < dq d e := by
        unfold dq
        have : (0 : ℚ) < d := by exact_mod_cast hd
        positivity
      have := abs_sign m.neg (dq d e) hpos.le
      rw [← h1, h0, abs_zero] at this
      linarith
  · refine ⟨hp, ?_⟩
    have he : -323 ≤ e := by
      by_contra hc
      rw [h1, abs_sign _ _ (dq_nonneg d e)] at hb
      have hd : d < 10 ^ 15 := Nat.lt_of_lt_of_le h2 (Nat.pow_le_pow_right (by omega) hp)
      have h3 := dq_mono d (10 ^ 15) e (-324) hd.le (by omega)
      have h4 : dq (10 ^ 15) (-324) = 1 / 10 ^ 309 := by
        have := dq_shift 1 15 (-324)
        rw [Nat.one_mul] at this
        rw [this]
        unfold dq
        rw [show (-324 : Int) + ((15 : Nat) : Int) = -((309 : Nat) : Int) by norm_num, zpow_neg, zpow_natCast]
        simp
      rw [h4] at h3
      have h5 : (1 : ℚ) / 10 ^ 309 < 1 / 2 ^ 1022 := by
        have : 2 ^ 1022 < 10 ^ 309 := by decide +kernel
        exact one_div_lt_one_div_of_lt (by positivity) (by exact_mod_cast this)
      linarith
    obtain ⟨r, hr⟩ : ∃ r : Nat, e = (r : Int) - 323 := ⟨(e + 323).toNat, by omega⟩
    refine ⟨(if m.neg then -1 else 1) * (d * 10 ^ r : Nat), ?_⟩
    rw [h1, hr]
    unfold dq
    rw [zpow_sub₀ (by norm_num), zpow_natCast]
    push_cast
    have : (10 : ℚ) ^ (323 : Int) = 10 ^ 323 := by norm_cast
    rw [this]
    ring

/-- The exact value of what is printed for a number. -/
noncomputable def printedRat : F64 → ℚ
  | .fin neg b _ => if b = 0 then 0 else
    (decLit neg (shortest b64 b (2 * b64.u) (startExp b64 b)).1 (shortest b64 b (2 * b64.u) (startExp b64 b)).2).rat
  | _ => 0

theorem printed_lit (f : F64) (hf : f.isFinite = true) : ∃ n : NumLit, (Json.number f : Json F64).toString = n.text ∧ n.Valid ∧ n.rat = printedRat f := by
  match f, hf with
  | .fin neg b hinf, _ =>
  by_cases hb : b = 0
  · subst hb
    refine ⟨⟨neg, ['0'], none, none⟩, ?_, ?_, ?_⟩
    · rw [number_text]; cases neg <;> rfl
    · refine ⟨⟨⟨by simp, fun c hc => ?_⟩, fun s hs => (by cases hs), fun _ _ _ hs => (by cases hs)⟩, fun _ => rfl⟩
      rw [List.mem_singleton] at hc; subst hc; simp [IsDigit]
    · simp [NumLit.rat, natOf, printedRat]
  · exact ⟨_, by rw [number_text, printFl_short b64 neg b hinf hb], (decLit_valid neg _ _).1, by rw [printedRat, if_neg hb]⟩

theorem decLit_rat (neg : Bool) (c : Nat) (e : Int) : (decLit neg c e).rat = (if neg then -1 else 1) * dq c e := by
  obtain ⟨j, j1, j2, j3⟩ := decLit_digits neg c e
  rw [rat_eq, j1, ← j2]
  have : (decLit neg c e).neg = neg := by cases e <;> rfl
  rw [this]; rfl

/-- What is printed for a number read from such a literal has its value. -/
theorem fifteen_printed (m : NumLit) (hm : m.Accepted) (h : m.Fifteen) (f : F64) (hv : NumLit.value m = some f) : m.rat = printedRat f := by
  obtain ⟨h15, k, hk⟩ := h
  obtain ⟨d, e, h1, h2, h3, h4⟩ := lit_split m hm
  have hp := parse_lit b64 m hm.1 (fun f hf => (hm.2.1 f hf).1) hm.2.2
  rw [value_f64 m _ hp] at hv
  split at hv
  · rename_i hfin
    rw [Option.some.injEq] at hv
    have hv : Fl.mk m.neg (near b64 (decVal (m.int ++ litFrac m) 0) (litExp m - (litFrac m).length)) = f := hv
    rw [h4 b64 (by decide)] at hv
    have hff : f.isFinite = true := by rw [← hv, ← h4 b64 (by decide)]; exact hfin
    match f, hff with
    | .fin neg b hinf, _ =>
    obtain ⟨rfl, hb⟩ := mk_fin_inj neg m.neg b _ hinf hv
    rcases h3 with ⟨rfl, -⟩ | h3
    · rw [near_zero b64 (by decide)] at hb
      subst hb
      rw [h1, printedRat, if_pos rfl]; simp [dq]
    · have he : -323 ≤ e := by
        refine exp_of_multiple d e h3 ((if m.neg then -1 else 1) * k) ?_
        have h10 : (10 : ℚ) ^ (-323 : Int) = 1 / 10 ^ 323 := by
          rw [show (-323 : Int) = -((323 : Nat) : Int) by norm_num, zpow_neg, zpow_natCast, one_div]
        rw [h10]
        rw [hk] at h1
        generalize (10 : ℚ) ^ 323 = T at *
        push_cast
        generalize dq d e = x at *
        cases hn : m.neg
        · rw [hn] at h1
          simp only [Bool.false_eq_true, if_false, one_mul] at h1 ⊢
          rw [← h1]; ring
        · rw [hn] at h1
          simp only [if_true] at h1 ⊢
          have : x = -(k / T) := by rw [h1]; ring
          rw [this]; ring
      have hd0 : 0 < d := Nat.pos_of_ne_zero (fun h => h3 ⟨0, by rw [h]⟩)
      have hb0 : 0 < b := by rw [← hb]; exact near_pos d e hd0 he
      obtain ⟨hc, hmax⟩ := shortest64 b hb0 hinf
      rw [printedRat, if_neg (by omega), decLit_rat, h1,
        short_same b hb0 _ _ hc hmax d e (Nat.lt_of_lt_of_le h2 (Nat.pow_le_pow_right (by omega) h15)) he hb]
  · cases hv

/-- **C78.** A number literal with at most 15 significant digits, none after the 323rd decimal place, that is in the range of `f64` is read, and what is printed then
denotes exactly the same number. -/
theorem C78_fifteen (m : NumLit) (hm : m.Accepted) (h : m.Fifteen) (hr : |m.rat| < overflow64) :
    ∃ (f : F64) (n : NumLit), Json.parse m.text = .ok (.number f) ∧ (Json.number f).toString = n.text ∧ n.Valid ∧ n.rat = m.rat := by
  obtain ⟨f, hp, -, hfin, -⟩ := parse_rounds m hm.1 (fun f hf => (hm.2.1 f hf).1) hm.2.2
  have hf := hfin.mpr hr
  have hval : NumLit.value m = some f := by rw [value_f64 m f hp, if_pos hf]
  obtain ⟨n, n1, n2, n3⟩ := printed_lit f hf
  exact ⟨f, n, (C12_number_iff m.text f).mpr ⟨[], m, [], wsNil, wsNil, by simp, hm, hval⟩, n1, n2, by rw [n3, fifteen_printed m hm h f hval]⟩

/-- **C78.** In particular zero and the literals with at most 15 significant digits from 2^-1022 up to the largest `f64`. -/
theorem C78_everyday (m : NumLit) (hm : m.Accepted) (h : m.Everyday) (hr : |m.rat| < overflow64) :
    ∃ (f : F64) (n : NumLit), Json.parse m.text = .ok (.number f) ∧ (Json.number f).toString = n.text ∧ n.Valid ∧ n.rat = m.rat :=
  C78_fifteen m hm (everyday_fifteen m hm h) hr

/-- **C78.** Two such literals are read as equal numbers only if they denote the same number. -/
theorem C78_distinct (m n : NumLit) (hm : m.Accepted) (hn : n.Accepted) (h1 : m.Fifteen) (h2 : n.Fifteen) (f : F64)
    (p1 : Json.parse m.text = .ok (.number f)) (p2 : Json.parse n.text = .ok (.number f)) : m.rat = n.rat := by
  have v : ∀ m : NumLit, m.Accepted → (Json.parse m.text : Res (Json F64)) = .ok (.number f) → NumLit.value m = some f := by
    intro m hm p
    have q := parse_number_text m hm f p
    rw [value_f64 m f q, if_pos]
    exact (C14_parse_well_formed m.text (.number f) p).1
  rw [fifteen_printed m hm h1 f (v m hm p1), fifteen_printed n hn h2 f (v n hn p2)]

/-! ### Documents -/

mutual
/-- The value with every number replaced by what is printed for it. -/
noncomputable def printedVal : Val F64 → Val ℚ
  | .obj m => .obj (fun k => printedVals (m k))
  | .arr l => .arr (printedVals l)
  | .str s => .str s
  | .num f => .num (printedRat f)
  | .bool b => .bool b
  | .null => .null
noncomputable def printedVals : List (Val F64) → List (Val ℚ)
  | [] => []
  | x :: t => printedVal x :: printedVals t
end

theorem printedVals_eq (l : List (Val F64)) : printedVals l = l.map printedVal := by
  induction l with
  | nil => rw [printedVals]; rfl
  | cons x t ih => rw [printedVals, ih]; rfl

theorem printed_named (ms : List (Str × Val F64)) : (fun k => printedVals (named ms k)) = named (ms.map (fun p => (p.1, printedVal p.2))) := by
  funext k
  rw [printedVals_eq]
  unfold named
  induction ms with
  | nil => rfl
  | cons p t ih =>
    simp only [List.filter_cons, List.map_cons]
    by_cases h : p.1 = k
    · simp only [h, decide_true, if_true, List.map_cons, ih]
    · simp only [h, decide_false, Bool.false_eq_true, if_false, ih]

/-- What the theorem below asks of the literals of a tree. -/
def Faithful (n : NumLit) : Prop := ∀ f : F64, NumLit.value n = some f → n.rat = printedRat f

mutual
theorem exact_of_value : ∀ (x : Cst) (v : Val F64), x.AllLit Faithful → x.value = some v → x.exact = some (printedVal v)
  | .null, v, _, h => by rw [Cst.value] at h; cases h; rw [Cst.exact, printedVal]
  | .true, v, _, h => by rw [Cst.value] at h; cases h; rw [Cst.exact, printedVal]
  | .false, v, _, h => by rw [Cst.value] at h; cases h; rw [Cst.exact, printedVal]
  | .num n, v, hl, h => by
    rw [Cst.value] at h
    obtain ⟨f, hf, rfl⟩ := Option.map_eq_some_iff.1 h
    rw [Cst.exact, printedVal, hl f hf]
  | .str s, v, _, h => by
    rw [Cst.value] at h
    obtain ⟨f, hf, rfl⟩ := Option.map_eq_some_iff.1 h
    rw [Cst.exact, printedVal, hf]; rfl
  | .arr0 _, v, _, h => by rw [Cst.value] at h; cases h; rw [Cst.exact, printedVal, printedVals]
  | .arr es, v, hl, h => by
    rw [Cst.value] at h
    obtain ⟨l, hf, rfl⟩ := Option.map_eq_some_iff.1 h
    rw [Cst.exact, printedVal, exact_of_elems es l hl hf, printedVals_eq]; rfl
  | .obj0 _, v, _, h => by rw [Cst.value] at h; cases h; rw [Cst.exact, printedVal, printed_named]; rfl
  | .obj ms, v, hl, h => by
    rw [Cst.value] at h
    obtain ⟨l, hf, rfl⟩ := Option.map_eq_some_iff.1 h
    rw [Cst.exact, printedVal, exact_of_members ms l hl hf, printed_named]; rfl
theorem exact_of_elems : ∀ (x : Elems) (l : List (Val F64)), x.AllLit Faithful → x.value = some l → x.exact = some (l.map printedVal)
  | .one _ x _, l, hl, h => by
    rw [Elems.value] at h
    obtain ⟨v, hf, rfl⟩ := Option.map_eq_some_iff.1 h
    rw [Elems.exact, exact_of_value x v hl hf]; rfl
  | .cons _ x _ t, l, hl, h => by
    rw [Elems.value] at h
    split at h
    · rename_i v l' h1 h2
      cases h
      rw [Elems.exact, exact_of_value x v hl.1 h1, exact_of_elems t l' hl.2 h2]; rfl
    · cases h
theorem exact_of_members : ∀ (x : Members) (l : List (Str × Val F64)), x.AllLit Faithful → x.value = some l →
    x.exact = some (l.map (fun p => (p.1, printedVal p.2)))
  | .one _ k _ _ x _, l, hl, h => by
    rw [Members.value] at h
    split at h
    · rename_i k' v h1 h2
      cases h
      rw [Members.exact, h1, exact_of_value x v hl h2]; rfl
    · cases h
  | .cons _ k _ _ x _ t, l, hl, h => by
    rw [Members.value] at h
    split at h
    · rename_i k' v l' h0 h1 h2
      cases h
      rw [Members.exact, h0, exact_of_value x v hl.1 h1, exact_of_members t l' hl.2 h2]; rfl
    · cases h
end

theorem mkElems_lit (P : NumLit → Prop) (w : Str) (x : Cst) (t : List Cst) (h : ∀ y ∈ x :: t, y.AllLit P) : (mkElems w x t).AllLit P := by
  induction t generalizing w x with
  | nil => exact h x (by simp)
  | cons y t ih => exact ⟨h x (by simp), ih _ y (fun z hz => h z (by simp [hz]))⟩

theorem mkMembers_lit (P : NumLit → Prop) (w : Str) (x : Str × Cst) (t : List (Str × Cst)) (h : ∀ y ∈ x :: t, y.2.AllLit P) : (mkMembers w x t).AllLit P := by
  induction t generalizing w x with
  | nil => exact h x (by simp)
  | cons y t ih => exact ⟨h x (by simp), ih _ y (fun z hz => h z (by simp [hz]))⟩

theorem cstOf_faithful (j : Json F64) (hf : AllNum (fun f => FloatOps.isFinite f = true) j) : (cstOf j).AllLit Faithful := by
  induction j using Json.ind with
  | hobj m ih =>
    rw [cstOf_object]
    have : ∀ p ∈ (flatVals m).map (fun p => (p.1, cstOf p.2)), p.2.AllLit Faithful := by
      intro p hp
      simp only [List.mem_map] at hp
      obtain ⟨q, hq, rfl⟩ := hp
      obtain ⟨v, l, hm, hx⟩ := mem_flatVals hq
      have hfin := (AllNumMap_iff _ m).mp hf _ _ _ hm
      have hih := ih _ _ _ hm
      rcases hx with h | h
      · simp only [h]; exact hih.1 hfin.1
      · exact hih.2 _ h (hfin.2 _ h)
    generalize (flatVals m).map (fun p => (p.1, cstOf p.2)) = l at *
    cases l with
    | nil => trivial
    | cons p t => exact mkMembers_lit _ _ p t this
  | harr l ih =>
    rw [cstOf, cstList_eq]
    have : ∀ p ∈ l.map cstOf, p.AllLit Faithful := by
      intro p hp
      simp only [List.mem_map] at hp
      obtain ⟨x, hx, rfl⟩ := hp
      exact ih x hx ((AllNumList_iff _ l).mp hf x hx)
    generalize l.map cstOf = l' at *
    cases l' with
    | nil => trivial
    | cons p t => exact mkElems_lit _ _ p t this
  | hstr s => rw [cstOf]; trivial
  | hnum f =>
    rw [cstOf]
    obtain ⟨n1, n2, n3⟩ := numLitOf_spec f hf
    intro g hg
    have hp : FloatOps.parse (FloatOps.print f) = some f := LawfulFloat.parse_print f hf
    rw [n3] at hp
    have hf' : f.isFinite = true := hf
    rw [value_f64 _ f hp, if_pos hf'] at hg
    cases hg
    obtain ⟨n, h1, h2, h3⟩ := printed_lit f hf
    have hs : Stop [] := fun c hc => by cases hc
    have hpr : (Json.number f : Json F64).toString = FloatOps.print f := number_text f
    have := num_unique (numLitOf f) n n1.1 h2.1 [] [] hs hs (by rw [List.append_nil, List.append_nil, ← n3, ← h1, hpr])
    rw [this.1, h3]
  | hbool b => cases b <;> trivial
  | hnull => rw [cstOf]; trivial

mutual
theorem allLit_mono {P Q : NumLit → Prop} (h : ∀ n : NumLit, n.Valid → P n → Q n) : ∀ x : Cst, x.Valid → x.AllLit P → x.AllLit Q
  | .null, _, _ => trivial
  | .true, _, _ => trivial
  | .false, _, _ => trivial
  | .num n, hv, hl => h n hv hl
  | .str _, _, _ => trivial
  | .arr0 _, _, _ => trivial
  | .arr es, hv, hl => allLit_elems h es hv hl
  | .obj0 _, _, _ => trivial
  | .obj ms, hv, hl => allLit_members h ms hv hl
theorem allLit_elems {P Q : NumLit → Prop} (h : ∀ n : NumLit, n.Valid → P n → Q n) : ∀ x : Elems, x.Valid → x.AllLit P → x.AllLit Q
  | .one _ x _, hv, hl => allLit_mono h x hv.2.1 hl
  | .cons _ x _ t, hv, hl => ⟨allLit_mono h x hv.2.1 hl.1, allLit_elems h t hv.2.2.2 hl.2⟩
theorem allLit_members {P Q : NumLit → Prop} (h : ∀ n : NumLit, n.Valid → P n → Q n) : ∀ x : Members, x.Valid → x.AllLit P → x.AllLit Q
  | .one _ _ _ _ x _, hv, hl => allLit_mono h x hv.2.2.2.2.1 hl
  | .cons _ _ _ _ x _ t, hv, hl => ⟨allLit_mono h x hv.1.2.2.2.2.1 hl.1, allLit_members h t hv.2 hl.2⟩
end

/-- **C78.** Reading and printing a document changes no number, if all of them have at most 15 significant digits: the text printed for a document that was read denotes
exactly what the text it was read from denotes, with numbers as rational numbers. -/
theorem C78_documents (d : Doc) (hv : d.Valid) (j : Json F64) (h : Json.parse d.text = .ok j) (hl : d.body.AllLit NumLit.Fifteen) :
    ∃ x : Cst, x.Valid ∧ j.toString = x.text ∧ x.exact = d.body.exact ∧ d.body.exact ≠ none := by
  obtain ⟨hf, hw⟩ := C14_parse_well_formed d.text j h
  refine ⟨cstOf j, cstOf_valid j hf, cstOf_text j hf, ?_, ?_⟩
  all_goals
    have h1 := C09_never_wrong d hv j h
    have h2 := exact_of_value _ _ (allLit_mono (fun n hn h => fifteen_printed n (NumLit.Loose.accepted hn.1) h) d.body hv.2.1 hl) h1
  · rw [exact_of_value _ _ (cstOf_faithful j hf) (cstOf_value j hf hw), h2]
  · rw [h2]; simp

/-- **C78.** The same for everyday numbers. -/
theorem C78_everyday_documents (d : Doc) (hv : d.Valid) (j : Json F64) (h : Json.parse d.text = .ok j) (hl : d.body.AllLit NumLit.Everyday) :
    ∃ x : Cst, x.Valid ∧ j.toString = x.text ∧ x.exact = d.body.exact ∧ d.body.exact ≠ none :=
  C78_documents d hv j h (allLit_mono (fun n hn h => everyday_fifteen n (NumLit.Loose.accepted hn.1) h) d.body hv.2.1 hl)

/-! ### The bounds cannot be lifted -/

/-- **C78.** Sixteen digits are too many: 2^53 + 1 becomes 2^53. -/
theorem C78_sixteen : NumLit.precision ⟨false, "9007199254740993".toList, none, none⟩ = 16 ∧
    (Json.parse "9007199254740993".toList : Res (Json F64)).map Json.toString = (.ok "9007199254740992".toList : Res Str) := by
  constructor
  · decide
  · have : Json.parse "9007199254740993".toList = .ok (.number (.fin false 0x4340000000000000 (by decide)) : Json F64) := by
      rw [← isNum_iff]; decide +kernel
    rw [this]
    exact congrArg Except.ok (by decide +kernel)

/-- **C78.** So is one digit in the 324th decimal place: the literal becomes another one. -/
theorem C78_tiny : (Json.parse "3e-324".toList : Res (Json F64)).map Json.toString = (.ok ("0.".toList ++ List.replicate 323 '0' ++ "5".toList) : Res Str) := by
  have : Json.parse "3e-324".toList = .ok (.number (.fin false 1 (by decide)) : Json F64) := by
    rw [← isNum_iff]; decide +kernel
  rw [this]
  exact congrArg Except.ok (by decide +kernel)

/-! ### Concrete cases -/

/-- A literal with 15 digits. -/
def piLit : NumLit := ⟨true, "3".toList, some "14159265358979".toList, some ('e', ['+'], "20".toList)⟩

theorem piLit_rat : piLit.rat = -314159265358979000000 := by
  have h1 : natOf "3".toList = 3 := by decide
  have h2 : natOf "14159265358979".toList = 14159265358979 := by decide
  have h3 : natOf "20".toList = 20 := by decide
  have h4 : "14159265358979".toList.length = 14 := by decide
  have h5 : ¬ ['+'] = ['-'] := by decide
  simp only [NumLit.rat, piLit, h1, h2, h3, h4, if_neg h5, if_true]
  norm_num

theorem piLit_ok : piLit.Valid ∧ piLit.Everyday ∧ |piLit.rat| < overflow64 := by
  refine ⟨⟨⟨⟨by decide, ?_⟩, ?_, ?_⟩, by decide⟩, .inr ⟨by decide, ?_⟩, ?_⟩
  · intro c hc; revert c; unfold IsDigit; decide
  · intro s hs; cases hs; refine ⟨by decide, ?_⟩; intro c hc; revert c; unfold IsDigit; decide
  · intro e sg ds hs; cases hs; refine ⟨by decide, by decide, by decide, ?_⟩; intro c hc; revert c; unfold IsDigit; decide
  · have h1 : (1 : ℚ) / 2 ^ 1022 ≤ 1 / 1 := one_div_le_one_div_of_le (by norm_num) (one_le_pow₀ (by norm_num))
    have h2 : |(-314159265358979000000 : ℚ)| = 314159265358979000000 := by norm_num
    rw [piLit_rat, h2]; linarith
  · have h2 : |(-314159265358979000000 : ℚ)| = 314159265358979000000 := by norm_num
    have h3 : (314159265358979000000 : Int) < 2 ^ 1024 - 2 ^ 970 := by decide +kernel
    rw [piLit_rat, overflow64, h2]
    exact_mod_cast h3

example : ∃ (f : F64) (n : NumLit), Json.parse piLit.text = .ok (.number f) ∧ (Json.number f).toString = n.text ∧ n.Valid ∧ n.rat = piLit.rat :=
  C78_everyday piLit (NumLit.Loose.accepted piLit_ok.1.1) piLit_ok.2.1 piLit_ok.2.2

/-- What is read and printed in this case. -/
example : piLit.text = "-3.14159265358979e+20".toList ∧
    isNum (Json.parse piLit.text) (.fin true 0x443107d5eb5b5ba0 (by decide)) = true ∧
    (Json.number (.fin true 0x443107d5eb5b5ba0 (by decide)) : Json F64).toString = "-314159265358979000000".toList := by decide +kernel

/-- A document in which it occurs. -/
example : (⟨[], .arr (.cons [' '] (.num piLit) [] (.one [] (.num ⟨false, ['0'], none, none⟩) [])), []⟩ : Doc).body.AllLit NumLit.Everyday := by
  refine ⟨piLit_ok.2.1, .inl ?_⟩
  simp [NumLit.rat, natOf]

end RJ
