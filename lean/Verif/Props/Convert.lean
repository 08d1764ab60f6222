import Verif.Proof.ConvText
import Verif.Proof.JsonEq
import Verif.Props.Path
import Verif.Props.Parse
/-
  C05, C29-C33, C36-C38: conversions and the text-level functions.
-/
set_option linter.unusedSectionVars false
namespace RJ
open Spec
variable {F : Type} [FloatOps F]

/-! ### C05 -/

/-- **C05.** Every string survives `encode`/`decode`. -/
theorem C05_any_string [LawfulFloat F] (s : Str) : decodeText (F := F) .string (encodeText (F := F) .string s) = .ok s := by
  have h := C05_string_round_trip (F := F) s
  unfold decodeText encodeText
  show (match (Json.parse (Json.toString (.string s : Json F)) : Res (Json F)) with | .ok j => decString j | .error e => .error e) = _
  rw [h]; rfl

/-! ### C30 -/

/-- **C30.** Decoding the encoding of a value gives the value, for all nestings of the types without hash maps. -/
theorem C30_round_trip [LawfulCast F] (t : Ty) (hp : Plain t) (hl : Invertible t) (x : t.T F) (hg : Good t x) :
    t.dec (t.enc x) = .ok x := by
  obtain ⟨y, h1, h2⟩ := dec_enc t hl x hg _ (wf_enc t x hg) rfl
  rw [h1, Same.plain_eq t hp y x h2]

/-- **C30**, all types: the decoded value cannot be told apart from the original (`Same`), even when the hash maps of the
encoded document are iterated in another order. -/
theorem C30_round_trip_any_order [LawfulCast F] (t : Ty) (hl : Invertible t) (x : t.T F) (hg : Good t x) (j : Json F) (hw : WF j)
    (ha : absJ j = absJ (t.enc x)) : ∃ y, t.dec j = .ok y ∧ Same t y x := dec_enc t hl x hg j hw ha

/-- `Vec<Option<String>>`, a concrete case of C30. -/
example : Plain (.vec (.option .string)) ∧ Invertible (.vec (.option .string)) ∧
    Good (F := F) (.vec (.option .string)) [some "a".toList, none] := by
  refine ⟨trivial, ⟨trivial, trivial⟩, ?_⟩
  intro x _ y _
  exact trivial

/-! ### C31 -/

/-- **C31.** `Option<T>` decodes to `None` exactly from `null`, to `Some(x)` exactly from what `T` decodes to `x` (not `null`), and
an error is exactly `T`'s. -/
theorem C31_option (t : Ty) (j : Json F) :
    ((Ty.option t).dec j = .ok none ↔ j = .null) ∧
    (∀ x : t.T F, (Ty.option t).dec j = .ok (some x) ↔ j ≠ .null ∧ t.dec j = .ok x) ∧
    (∀ e, (Ty.option t).dec j = .error e ↔ j ≠ .null ∧ t.dec j = .error e) := by
  show (decOption t.dec j = .ok none ↔ _) ∧ (∀ x : t.T F, decOption t.dec j = .ok (some x) ↔ _) ∧
    (∀ e, decOption t.dec j = .error e ↔ _)
  cases j with
  | null => simp [decOption]
  | _ =>
    simp only [decOption]
    split <;> rename_i h <;> rw [h] <;> simp

/-- **C31, consequence.** `Some(None)` encodes to `null` and comes back as `None`. -/
theorem C31_some_none (t : Ty) :
    (Ty.option (.option t)).dec ((Ty.option (.option t)).enc (some none : Option (Option (t.T F))) : Json F) =
      .ok (none : Option (Option (t.T F))) := rfl

/-! ### C32 -/

/-- **C32.** Decoding an encoded list of pairs - through any iteration order of the hash map - gives the same pairs, grouped by key,
the values of each key in their original order. -/
theorem C32_pairs [LawfulCast F] (κ : KeyCodec) (t : Ty) (hp : Plain t) (hl : Invertible (.pairs κ t)) (l : List (κ.K × t.T F))
    (hg : ∀ p ∈ l, Good t p.2) (j : Json F) (hw : WF j) (ha : absJ j = absJ ((Ty.pairs κ t).enc l)) :
    ∃ groups : List (κ.K × List (t.T F)),
      (groups.map (·.1)).Nodup ∧
      (Ty.pairs κ t).dec j = .ok (groups.flatMap (fun g => g.2.map (fun y => (g.1, y)))) ∧
      (groups.flatMap (fun g => g.2.map (fun y => (g.1, y)))).Perm l ∧
      ∀ k, valsOf k (groups.flatMap (fun g => g.2.map (fun y => (g.1, y)))) = valsOf k l := by
  have ha' : absJ j = absJ (encPairs κ t.enc l) := ha
  cases j with
  | object m =>
    have hm : ∀ q, absMap m q = (l.filter (fun p => κ.toStr p.1 = q)).map (fun p => absJ (t.enc p.2)) := by
      intro q
      have h1 := absMap_encPairs κ t.enc l [] q
      have h2 : absMap m = absMap (l.foldl (fun m p => objectInsert (κ.toStr p.1) (t.enc p.2) m) []) := by
        simpa [encPairs, absJ] using ha'
      rw [h2, h1]; rfl
    obtain ⟨groups, h1, h2, h3⟩ := decPairs_groups κ t.enc t.dec (Same t) hl.1 l
      (fun p hp j hw ha => dec_enc t hl.2 p.2 (hg p hp) j hw ha) m hw hm
    have hn := groups_nodup κ hw.1 h2
    have hv : ∀ k, valsOf k (groups.flatMap (fun g => g.2.map (fun y => (g.1, y)))) = valsOf k l := by
      obtain ⟨ys, h4, h5⟩ := dec_enc_pairs κ t.enc t.dec (Same t) hl.1 l
        (fun p hp j hw ha => dec_enc t hl.2 p.2 (hg p hp) j hw ha) (.object m) hw ha'
      rw [h1] at h4; cases h4
      exact fun k => AllTwo.eq (AllTwo.imp (fun a b h => Same.plain_eq t hp a b h) (h5 k))
    refine ⟨groups, hn, h1, ?_, hv⟩
    generalize groups.flatMap (fun g => g.2.map (fun y => (g.1, y))) = ys at hv
    classical
    rw [List.perm_iff_count]
    rintro ⟨k, y⟩
    have count_eq : ∀ zs : List (κ.K × t.T F), zs.count (k, y) = (valsOf k zs).count y := by
      intro zs
      induction zs with
      | nil => rfl
      | cons z zs ih =>
        obtain ⟨k', y'⟩ := z
        unfold valsOf at *
        rw [List.count_cons, ih, List.filter_cons]
        by_cases hk : k' = k
        · subst hk
          simp [List.count_cons]
        · have : ¬ (k', y') = (k, y) := fun h => hk (by cases h; rfl)
          simp [hk, this]
    rw [count_eq, count_eq, hv k]
  | _ => simp [encPairs, absJ] at ha'

/-- `String` keys. -/
def stringKey : KeyCodec := ⟨Str, inferInstance, id, some⟩

example : Plain Ty.bool ∧ Invertible (.pairs stringKey .bool) := ⟨trivial, fun _ => rfl, trivial⟩

/-! ### C33 -/

/-- **C33.** A `HashMap` survives encoding and decoding, whatever the iteration order of the maps involved. -/
theorem C33_map [LawfulCast F] (κ : KeyCodec) (t : Ty) (hp : Plain t) (hl : Invertible (.map κ t)) (l : List (κ.K × t.T F))
    (hn : (l.map (·.1)).Nodup) (hg : ∀ p ∈ l, Good t p.2) (j : Json F) (hw : WF j) (ha : absJ j = absJ ((Ty.map κ t).enc l)) :
    ∃ l' : List (κ.K × t.T F), (Ty.map κ t).dec j = .ok l' ∧ ∀ k, hmGet k l' = hmGet k l := by
  obtain ⟨y, h1, h2⟩ := dec_enc (.map κ t) hl l ⟨hn, hg⟩ j hw ha
  refine ⟨y, h1, fun k => ?_⟩
  have := h2 k
  revert this
  generalize hmGet k l = b
  have h1 : ∀ a b : Option (t.T F), OptTwo (Same t) a b → a = b := by
    intro a b
    cases a <;> cases b
    · intro _; rfl
    · intro h; exact h.elim
    · intro h; exact h.elim
    · intro h; rw [Same.plain_eq t hp _ _ h]
  exact h1 _ _

/-- **C33, duplicates.** Decoding an object to a `HashMap`: if no other name stands for the key, the key gets the decoded *last* value of
its name; keys without a name are absent. -/
theorem C33_last_wins (κ : KeyCodec) (t : Ty) (m : Obj F) (hw : WF (.object m)) (l : List (κ.K × t.T F))
    (h : (Ty.map κ t).dec (.object m) = .ok l) (k : κ.K) :
    (∀ q, absMap m q ≠ [] → κ.fromStr q = some k →
      (∀ q', absMap m q' ≠ [] → κ.fromStr q' = some k → q' = q) →
      ∃ x v, hmGet k l = some x ∧ t.dec v = .ok x ∧ (absMap m q).getLast? = some (absJ v)) ∧
    ((∀ q, absMap m q ≠ [] → κ.fromStr q ≠ some k) → hmGet k l = none) := by
  have hn := ((wf_object_iff m).mp hw).1
  have hd : decMap κ t.dec (.object m) = .ok l := h
  simp only [decMap] at hd
  cases hc : collect (m.map (fun e => decMember κ t.dec e.1 e.2.1)) with
  | error e => rw [hc] at hd; cases hd
  | ok ys =>
    rw [hc] at hd
    simp only [Except.ok.injEq] at hd
    have hmap := (collect_ok _ _).mp hc
    have hget : hmGet k l = (valsOf k ys).getLast? := by
      rw [← hd, hmGet_foldl]; simp [hmGet]
    -- entries of `m` and `ys` correspond
    have corr : ∀ (m : Obj F) (ys : List (κ.K × t.T F)), m.map (fun e => decMember κ t.dec e.1 e.2.1) = ys.map .ok →
        AllTwo (fun e y => κ.fromStr e.1 = some y.1 ∧ t.dec e.2.1 = .ok y.2) m ys := by
      intro m
      induction m with
      | nil => intro ys h; cases ys <;> simp_all [AllTwo]
      | cons e m ih =>
        intro ys h
        cases ys with
        | nil => simp at h
        | cons y ys =>
          simp only [List.map_cons, List.cons.injEq] at h
          refine ⟨?_, ih ys h.2⟩
          have h1 := h.1
          unfold decMember at h1
          cases hf : κ.fromStr e.1 with
          | none => rw [hf] at h1; simp [failS] at h1
          | some k' =>
            rw [hf] at h1
            cases hv : t.dec e.2.1 with
            | error er => rw [hv] at h1; simp at h1
            | ok v =>
              rw [hv] at h1
              simp only [Except.ok.injEq] at h1
              rw [← h1]; exact ⟨hf, hv⟩
    have hcorr := corr m ys hmap
    clear corr hc hd hmap h
    constructor
    · intro q hq hk huniq
      have hmem : q ∈ m.map (·.1) := Classical.byContradiction (fun hh => hq (absMap_eq_nil.mpr hh))
      obtain ⟨⟨q', v, lst⟩, he, rfl⟩ := List.mem_map.mp hmem
      have hlast : (absMap m q').getLast? = some (absJ v) := by
        rw [absMap_of_mem hn he]; simp
      -- only this entry contributes
      have huniq' : ∀ e ∈ m, κ.fromStr e.1 = some k → e.1 = q' := fun e he' hke =>
        huniq e.1 (fun h0 => absMap_eq_nil.mp h0 (List.mem_map.mpr ⟨e, he', rfl⟩)) hke
      suffices hs : ∃ x, valsOf k ys = [x] ∧ t.dec v = .ok x by
        obtain ⟨x, h1, h2⟩ := hs
        exact ⟨x, v, by rw [hget, h1]; rfl, h2, hlast⟩
      clear hget hlast huniq hq hmem
      have none_of : ∀ (m : Obj F) (ys : List (κ.K × t.T F)), (∀ e ∈ m, κ.fromStr e.1 ≠ some k) →
          AllTwo (fun e y => κ.fromStr e.1 = some y.1 ∧ t.dec e.2.1 = .ok y.2) m ys → valsOf k ys = [] := by
        intro m
        induction m with
        | nil => intro ys _ h; cases ys with
          | nil => rfl
          | cons => exact h.elim
        | cons e m ih =>
          intro ys hne h
          cases ys with
          | nil => exact h.elim
          | cons y ys =>
            have h0 := ih ys (fun e he => hne e (by simp [he])) h.2
            have hy : ¬ y.1 = k := fun hy => hne e (by simp) (by rw [h.1.1, hy])
            unfold valsOf at *
            rw [List.filter_cons, if_neg (by simpa using hy)]
            exact h0
      have main : ∀ (m : Obj F) (ys : List (κ.K × t.T F)), (m.map (·.1)).Nodup → (q', v, lst) ∈ m →
          (∀ e ∈ m, κ.fromStr e.1 = some k → e.1 = q') →
          AllTwo (fun e y => κ.fromStr e.1 = some y.1 ∧ t.dec e.2.1 = .ok y.2) m ys → ∃ x, valsOf k ys = [x] ∧ t.dec v = .ok x := by
        intro m
        induction m with
        | nil => intro ys _ h; cases h
        | cons e m ih =>
          intro ys hn he hu h
          cases ys with
          | nil => exact h.elim
          | cons y ys =>
            simp only [List.map_cons, List.nodup_cons] at hn
            rcases List.mem_cons.mp he with rfl | he'
            · have hy : y.1 = k := by
                have := h.1.1
                rw [hk] at this
                exact (Option.some.inj this).symm
              have h0 := none_of m ys (fun e he hke => hn.1 (List.mem_map.mpr ⟨e, he, hu e (by simp [he]) hke⟩)) h.2
              refine ⟨y.2, ?_, h.1.2⟩
              unfold valsOf at *
              rw [List.filter_cons, if_pos (by simpa using hy), List.map_cons, h0]
            · have hy : ¬ y.1 = k := by
                intro hy
                have := hu e (by simp) (by rw [h.1.1, hy])
                exact hn.1 (List.mem_map.mpr ⟨_, he', this.symm⟩)
              obtain ⟨x, h1, h2⟩ := ih ys hn.2 he' (fun e he => hu e (by simp [he])) h.2
              refine ⟨x, ?_, h2⟩
              unfold valsOf at *
              rw [List.filter_cons, if_neg (by simpa using hy)]
              exact h1
      exact main m ys hn he huniq' hcorr
    · intro hno
      rw [hget]
      suffices hs : valsOf k ys = [] by rw [hs]; rfl
      have hno' : ∀ e ∈ m, κ.fromStr e.1 ≠ some k := fun e he =>
        hno e.1 (fun h0 => absMap_eq_nil.mp h0 (List.mem_map.mpr ⟨e, he, rfl⟩))
      clear hget hn hw hno
      induction m generalizing ys with
      | nil => cases ys with
        | nil => rfl
        | cons => exact hcorr.elim
      | cons e m ih =>
        cases ys with
        | nil => exact hcorr.elim
        | cons y ys =>
          have h0 := ih ys hcorr.2 (fun e he => hno' e (by simp [he]))
          have hy : ¬ y.1 = k := fun hy => hno' e (by simp) (by rw [hcorr.1.1, hy])
          unfold valsOf at *
          rw [List.filter_cons, if_neg (by simpa using hy)]
          exact h0

/-! ### C36 -/

/-- **C36, wrong kind.** Decoding a value of a kind the type does not accept is a `ConvertError`. -/
theorem C36_wrong_kind (t : Ty) (j : Json F) (h : ¬ Accepts t j) : ∃ e, t.dec j = .error e ∧ e.kind = .ConvertError := by
  induction t with
  | json => exact absurd trivial h
  | option t ih =>
    have hn : j ≠ .null := fun hn => h (.inl hn)
    obtain ⟨e, h1, h2⟩ := ih (fun ha => h (.inr ha))
    exact ⟨e, ((C31_option t j).2.2 e).mpr ⟨hn, h1⟩, h2⟩
  | _ =>
    cases j
    all_goals first
      | exact ⟨_, rfl, rfl⟩
      | exact absurd ⟨_, rfl⟩ h

theorem collect_kind {α : Type} (rs : List (Res α)) (K : Error → Prop) (h : ∀ e, .error e ∈ rs → K e) (e : Error)
    (he : collect rs = .error e) : K e := by
  obtain ⟨l, t, rfl⟩ := (collect_error rs e).mp he
  exact h e (by simp)

theorem decMember_kind {α : Type} (κ : KeyCodec) (dec : Json F → Res α) (hd : ∀ j e, dec j = .error e → e.kind = .ConvertError) (q : Str)
    (j : Json F) (e : Error) (h : decMember κ dec q j = .error e) : e.kind = .ConvertError := by
  unfold decMember at h
  split at h
  · cases h; rfl
  · split at h
    · cases h
    · rename_i h1; cases h; exact hd _ _ h1

/-- **C36.** Every decoding error of the built-in types is a `ConvertError`. -/
theorem C36_only_ConvertError (t : Ty) (j : Json F) (e : Error) (h : t.dec j = .error e) : e.kind = .ConvertError := by
  induction t generalizing j e with
  | json => cases h
  | string => cases j <;> cases h <;> rfl
  | bool => cases j <;> cases h <;> rfl
  | f64 => cases j <;> cases h <;> rfl
  | f32 => cases j <;> cases h <;> rfl
  | int name lo hi => cases j <;> cases h <;> rfl
  | option t ih => exact ih j e (((C31_option t j).2.2 e).mp h).2
  | vec t ih =>
    have h : decVec t.dec j = .error e := h
    cases j with
    | array v =>
      refine collect_kind _ (fun e => e.kind = .ConvertError) ?_ e h
      intro e' he'
      obtain ⟨x, _, hx⟩ := List.mem_map.mp he'
      exact ih x e' hx
    | _ => cases h; rfl
  | pairs κ t ih =>
    have h : decPairs κ t.dec j = .error e := h
    cases j with
    | object m =>
      refine collect_kind _ (fun e => e.kind = .ConvertError) ?_ e h
      intro e' he'
      obtain ⟨en, _, hx⟩ := List.mem_flatMap.mp he'
      obtain ⟨x, _, hx⟩ := List.mem_map.mp hx
      exact decMember_kind κ _ ih _ _ _ hx
    | _ => cases h; rfl
  | map κ t ih =>
    have h : decMap κ t.dec j = .error e := h
    cases j with
    | object m =>
      simp only [decMap] at h
      split at h
      · cases h
      · rename_i hc
        cases h
        refine collect_kind _ (fun e => e.kind = .ConvertError) ?_ _ hc
        intro e' he'
        obtain ⟨x, _, hx⟩ := List.mem_map.mp he'
        exact decMember_kind κ _ ih _ _ _ hx
    | _ => cases h; rfl

/-- **C36, vectors.** An array decodes to `Vec<T>` iff all its elements decode, to their values in order; otherwise the result is the
error of the first element that does not decode. -/
theorem C36_vec (t : Ty) (v : List (Json F)) :
    (∀ l : List (t.T F), (Ty.vec t).dec (.array v) = .ok l ↔ AllTwo (fun j x => t.dec j = .ok x) v l) ∧
    (∀ e, (Ty.vec t).dec (.array v) = .error e ↔
      ∃ pre j post, v = pre ++ j :: post ∧ (∀ p ∈ pre, ∃ x, t.dec p = .ok x) ∧ t.dec j = .error e) := by
  constructor
  · intro l
    show collect (v.map t.dec) = .ok l ↔ _
    rw [collect_ok]
    induction v generalizing l with
    | nil => cases l <;> simp [AllTwo]
    | cons x v ih => cases l <;> simp [AllTwo, ih]
  · intro e
    show collect (v.map t.dec) = .error e ↔ _
    rw [collect_error]
    constructor
    · rintro ⟨l, r, h⟩
      obtain ⟨pre, rest, rfl, h1, h2⟩ := List.map_eq_append_iff.mp h
      obtain ⟨j, post, rfl, h3, _⟩ := List.map_eq_cons_iff.mp h2
      refine ⟨pre, j, post, rfl, ?_, h3⟩
      intro p hp
      have : t.dec p ∈ l.map (Except.ok (ε := Error)) := h1 ▸ List.mem_map.mpr ⟨p, hp, rfl⟩
      obtain ⟨x, _, hx⟩ := List.mem_map.mp this
      exact ⟨x, hx.symm⟩
    · rintro ⟨pre, j, post, rfl, h1, h2⟩
      have : ∃ l : List (t.T F), pre.map t.dec = l.map .ok := by
        clear h2
        induction pre with
        | nil => exact ⟨[], rfl⟩
        | cons p pre ih =>
          obtain ⟨x, hx⟩ := h1 p (by simp)
          obtain ⟨l, hl⟩ := ih (fun q hq => h1 q (by simp [hq]))
          exact ⟨x :: l, by simp [hx, hl]⟩
      obtain ⟨l, hl⟩ := this
      exact ⟨l, post.map t.dec, by simp [hl, h2]⟩

/-! ### C37 -/

/-- **C37.** `decode(encode(x))` gives back `x` (up to `Same`), for all nestings of the built-in types. -/
theorem C37_text_round_trip [LawfulFloat F] [LawfulCast F] (t : Ty) (hl : Invertible t) (x : t.T F) (hg : Good t x) (hf : FiniteVals t x)
    (hs : NestedStrs t x) : ∃ y, decodeText t (encodeText t x) = .ok y ∧ Same t y x := by
  obtain ⟨j', h1, h2⟩ := C01_round_trip (t.enc x) (finite_enc t x hg hf) (wf_enc t x hg) (nested_enc t x hs)
  obtain ⟨y, h3, h4⟩ := dec_enc t hl x hg j' (C14_parse_well_formed _ _ h1).2 h2
  refine ⟨y, ?_, h4⟩
  unfold decodeText encodeText
  rw [h1]; exact h3

/-- **C37**, types without hash maps: the identical value. -/
theorem C37_text_round_trip_eq [LawfulFloat F] [LawfulCast F] (t : Ty) (hp : Plain t) (hl : Invertible t) (x : t.T F) (hg : Good t x)
    (hf : FiniteVals t x) (hs : NestedStrs t x) : decodeText t (encodeText t x) = .ok x := by
  obtain ⟨y, h1, h2⟩ := C37_text_round_trip t hl x hg hf hs
  rw [h1, Same.plain_eq t hp y x h2]

/-! ### C29 -/

/-- **C29, set.** `set` on the text of a document prints exactly the document the path operation specifies, and `get` of the new text at
the same path returns the value set. -/
theorem C29_set_then_get [LawfulFloat F] [LawfulCast F] (lim : Nat) (t : Ty) (s path : Str) (fs : List Finder) (x : t.T F) (j : Json F)
    (hj : Json.parse s = .ok j) (hb : AllStr Balanced j)
    (hp : PathText path fs) (hi : ∀ i, Finder.index i ∈ fs → i < lim) (hk : ∀ k, Finder.key k ∈ fs → Balanced k)
    (hg : Good t x) (hf : FiniteVals t x) (hs : Strs Balanced t x) :
    ∃ s', setText lim t s path x = .ok s' ∧
      (∃ j', Json.parse s' = .ok j' ∧ absJ j' = setV fs (absJ (t.enc x)) (absJ j)) ∧
      (Invertible t → ∃ y, getText t s' path = .ok y ∧ Same t y x) := by
  obtain ⟨hfin, hwf⟩ := C14_parse_well_formed s j hj
  obtain ⟨j1, r, h1⟩ := C21_set_succeeds lim path fs hp hi j (t.enc x)
  have hdoc := C23_set_document lim path fs hp _ _ _ _ h1
  have hwx := wf_enc t x hg
  have hw1 : WF j1 := by have := C23_set_wf lim path j (t.enc x) hwf hwx; rw [h1] at this; exact this
  obtain ⟨h0, p, hpp, hu⟩ := set_ok_text h1
  obtain ⟨_, p', hp', hc⟩ := parsePath_of_text hp
  rw [hpp] at hp'; cases hp'
  have hfin1 : AllNum (fun f => FloatOps.isFinite f = true) j1 := by
    have := (parts_num (F := F) (fun f => FloatOps.isFinite f = true)).path_update lim p j (t.enc x) (fun _ _ => trivial) hfin
      (finite_enc t x hg hf)
    rw [hu] at this; exact this
  have hb1 : AllStr Balanced j1 := by
    have := (parts_str (F := F) Balanced).path_update lim p j (t.enc x) (fun k hkm => hk k (hc ▸ hkm)) hb (strs_enc Balanced t x hs)
    rw [hu] at this; exact this
  obtain ⟨j2, h2, h3⟩ := C01_round_trip j1 hfin1 hw1 (nested_of_all _ hb1)
  refine ⟨j1.toString, ?_, ⟨j2, h2, by rw [h3, hdoc]⟩, ?_⟩
  · unfold setText; rw [hj]; simp only; rw [h1]
  · intro hl
    have hget := (C20_get_after_set lim path j (t.enc x) j1 r h1).1
    have hlook : look fs (absJ j1) = some (absJ (t.enc x)) := by
      rcases C25_get path fs hp j1 with ⟨z, h4, h5, _⟩ | ⟨e, h4, _⟩
      · rw [hget] at h4; cases h4; exact h5
      · rw [hget] at h4; cases h4
    rw [← h3] at hlook
    rcases C25_get path fs hp j2 with ⟨z, h4, h5, _⟩ | ⟨e, _, h4, _⟩
    · rw [hlook] at h5
      have hz : absJ z = absJ (t.enc x) := (Option.some.inj h5).symm
      have hwz : WF z := Path.wf_find p j2 z (C14_parse_well_formed _ _ h2).2 (by rw [← get_of_text j2 h0 hpp]; exact h4)
      obtain ⟨y, h6, h7⟩ := dec_enc t hl x hg z hwz hz
      refine ⟨y, ?_, h7⟩
      unfold getText
      rw [h2]
      simp only [h4]
      exact h6
    · rw [hlook] at h4; cases h4

/-- **C29, del.** `del` on the text of a document prints the document without the addressed value. -/
theorem C29_del [LawfulFloat F] (s path : Str) (fs : List Finder) (j x : Json F) (hj : Json.parse s = .ok j) (hb : AllStr Balanced j)
    (hp : PathText path fs) (hget : j.get path = .ok x) :
    ∃ s' j', delText F s path = .ok s' ∧ Json.parse s' = .ok j' ∧ absJ j' = delV fs (absJ j) := by
  obtain ⟨hfin, hwf⟩ := C14_parse_well_formed s j hj
  obtain ⟨h1, h2, h3⟩ := C24_del path fs hp j x hwf hget
  obtain ⟨h0, p, hpp, hc⟩ := parsePath_of_text hp
  have hd : j.del path = p.discard j := del_of_text j h0 hpp
  have hfin1 := (parts_num (F := F) (fun f => FloatOps.isFinite f = true)).path_discard p j hfin
  have hb1 := (parts_str (F := F) Balanced).path_discard p j hb
  rw [← hd] at hfin1 hb1
  obtain ⟨j2, h4, h5⟩ := C01_round_trip (j.del path).1 hfin1 h3 (nested_of_all _ hb1)
  refine ⟨(j.del path).1.toString, j2, ?_, h4, by rw [h5, h2]⟩
  unfold delText
  rw [hj]
  simp only
  rw [show j.del path = ((j.del path).1, (j.del path).2) from rfl, h1]

/-- **C29, errors.** The text functions fail with the parser's error on a text that is not accepted, and otherwise with the error of the
path operation; `set` panics exactly where the operation on the document does. -/
theorem C29_errors (lim : Nat) (t : Ty) (s path : Str) (x : t.T F) :
    (∀ e, (Json.parse s : Res (Json F)) = .error e →
      getText (F := F) t s path = .error e ∧ setText lim t s path x = .err e ∧ delText F s path = .error e) ∧
    (∀ j : Json F, Json.parse s = .ok j →
      (∀ e, j.get path = .error e → getText (F := F) t s path = .error e ∧ delText F s path = .error e) ∧
      (∀ v, j.get path = .ok v → getText t s path = t.dec v) ∧
      (∀ e, (j.set lim path (t.enc x)).2 = .err e → setText lim t s path x = .err e) ∧
      ((j.set lim path (t.enc x)).2 = .panic ↔ setText lim t s path x = .panic)) := by
  constructor
  · intro e he
    simp [getText, setText, delText, he]
  · intro j hj
    refine ⟨?_, ?_, ?_, ?_⟩
    · intro e he
      have hd := (C25_del path j).1
      rw [he] at hd
      constructor
      · simp [getText, hj, he]
      · unfold delText
        rw [hj]
        simp only
        rw [show j.del path = ((j.del path).1, (j.del path).2) from rfl, hd]
    · intro v hv
      simp [getText, hj, hv]
    · intro e he
      unfold setText
      rw [hj]
      simp only
      rw [show j.set lim path (t.enc x) = ((j.set lim path (t.enc x)).1, (j.set lim path (t.enc x)).2) from rfl, he]
    · unfold setText
      rw [hj]
      simp only
      cases h : j.set lim path (t.enc x) with
      | mk a o => cases o <;> simp

/-! ### C38 -/

/-- **C38.** `==` on `Json` compares exactly the abstract values, numbers by `==` of `f64`: same kind, arrays elementwise, objects with
the same history of values, in order, for every key. -/
theorem C38_eq_iff (a b : Json F) (ha : WF a) (hb : WF b) :
    Json.eq a b = true ↔ VEq (fun f g => FloatOps.beq f g = true) (absJ a) (absJ b) := eq_iff a b ha hb

/-- **C38, reflexivity.** `a == a` exactly if no number in `a` is NaN (that is, different from itself). -/
theorem C38_refl_iff (a : Json F) (ha : WF a) : Json.eq a a = true ↔ AllNum (fun f => FloatOps.beq f f = true) a := by
  rw [eq_iff a a ha ha]; exact VEq.refl_iff _ a ha

/-- **C38, symmetry.** -/
theorem C38_symm [LawfulEq F] (a b : Json F) (ha : WF a) (hb : WF b) : Json.eq a b = Json.eq b a := by
  rw [Bool.eq_iff_iff, eq_iff a b ha hb, eq_iff b a hb ha]
  exact ⟨VEq.symm LawfulEq.symm, VEq.symm LawfulEq.symm⟩

/-- **C38, transitivity.** -/
theorem C38_trans [LawfulEq F] (a b c : Json F) (ha : WF a) (hb : WF b) (hc : WF c) (h1 : Json.eq a b = true) (h2 : Json.eq b c = true) :
    Json.eq a c = true := by
  rw [eq_iff _ _ ha hb] at h1
  rw [eq_iff _ _ hb hc] at h2
  rw [eq_iff _ _ ha hc]
  exact VEq.trans LawfulEq.trans h1 h2

/-- **C38, hash order.** The result does not depend on the iteration order of any hash map in either operand. -/
theorem C38_order_independent (a a' b b' : Json F) (ha : WF a) (ha' : WF a') (hb : WF b) (hb' : WF b') (h : absJ a = absJ a')
    (h' : absJ b = absJ b') : Json.eq a b = Json.eq a' b' := by
  rw [Bool.eq_iff_iff, eq_iff a b ha hb, eq_iff a' b' ha' hb', h, h']

end RJ
