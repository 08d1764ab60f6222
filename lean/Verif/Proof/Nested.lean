import Verif.Spec.Nested
import Verif.Props.Derive
import Verif.Proof.ConvText
/-
  Programs with derived types: the recursion between derived implementations ends; decoding inverts encoding.
-/
set_option linter.unusedSectionVars false
namespace RJ
open Spec
variable {F : Type} [FloatOps F]

section
variable {P : Program F} {decl : P.N → Struct}

theorem untag_tag {α : Type} (i : P.ι) (l : List ((P.key i).K × α)) : P.untag i (P.tag i l) = l := by
  unfold Program.untag Program.tag
  rw [List.filterMap_map]
  have h : ((fun p : P.Key × α => if h : p.1.1 = i then some ((h ▸ p.1.2, p.2) : (P.key i).K × α) else none) ∘
      fun p : (P.key i).K × α => ((⟨i, p.1⟩, p.2) : P.Key × α)) = some := by
    funext p; simp
  rw [h, List.filterMap_some]

/-! ### Lookup in a struct value -/

theorem mem_of_name {β : Type} {k : Str} {l : List (Str × β)} (h : k ∈ l.map (·.1)) : ∃ v, (k, v) ∈ l := by
  obtain ⟨p, hp, rfl⟩ := List.mem_map.1 h
  exact ⟨p.2, hp⟩

theorem kept_mem {s : Struct} {f : Field} (h : f ∈ s.kept) : f.name ∈ fieldNames s :=
  List.mem_map.2 ⟨f, List.mem_append.2 (.inl h), rfl⟩

/-! ### One derived implementation -/

theorem encStruct_eq (hD : Declared P decl) (d : Json F) (n : P.N) (enc : P.Ty → P.Val → Json F) (l : List (Str × P.Val)) :
    P.encStruct d n enc (.struct l) =
      .object ((decl n).kept.map (fun f => (f.key, (enc (P.fieldTy n f.name) (fieldOf l (.bool false) f.name), [])))) := by
  have h := C39_encode_distinct (hD.ok n) (hD.keys n) (P.structOf n enc (fun _ _ => fail .ConvertError "")) (fieldOf l (.bool false))
  unfold Program.encStruct
  dsimp only
  rw [hD.toks n]
  exact congrArg (fun o : Option (Out (Json F)) => match o with | some (.ok j) => j | _ => d) h

/-- The members of the non-ignored fields, decoded. -/
def readFields (P : Program F) (dec : P.Ty → Json F → Res P.Val) (n : P.N) (m : Obj F) : List Field → Res (List (Str × P.Val))
  | [] => .ok []
  | f :: fs =>
    match mapGet f.key m with
    | some (v, _) =>
      match dec (P.fieldTy n f.name) v with
      | .ok x =>
        match readFields P dec n m fs with
        | .ok l => .ok ((f.name, x) :: l)
        | .error e => .error e
      | .error e => .error e
    | none => missingKey f.key

theorem runGets_read (enc : P.Ty → P.Val → Json F) (dec : P.Ty → Json F → Res P.Val) (n : P.N) (m : Obj F) (fs : List Field) :
    (runGets (P.structOf n enc dec) m (fs.map (fun f => (f.key, f.name)))).map (fun l => l.map (fun p => ((p.1, p.2) : Str × P.Val))) =
      readFields P dec n m fs := by
  induction fs with
  | nil => rfl
  | cons f fs ih =>
    rw [List.map_cons, runGets, readFields, ← ih]
    cases mapGet f.key m with
    | none => rfl
    | some vr =>
      obtain ⟨v, r⟩ := vr
      dsimp only
      cases h : (P.structOf n enc dec).dec f.name v with
      | error e =>
        have h' : dec (P.fieldTy n f.name) v = .error e := h
        rw [h']; rfl
      | ok x =>
        have h' : dec (P.fieldTy n f.name) v = .ok x := h
        rw [h']
        dsimp only
        cases runGets (P.structOf n enc dec) m (fs.map (fun f => (f.key, f.name))) <;> rfl

theorem decStruct_object (hD : Declared P decl) (d : Res P.Val) (n : P.N) (dec : P.Ty → Json F → Res P.Val) (m : Obj F) :
    P.decStruct d n dec (.object m) =
      (readFields P dec n m (decl n).kept).map (fun l => .struct (l ++ (decl n).ignored.map (fun f => (f.name, P.dflt n f.name)))) := by
  unfold Program.decStruct
  rw [hD.toks n, decode_body (hD.ok n), ← runGets_read (fun _ _ => .null)]
  unfold fromJsonBody
  dsimp only
  cases runGets (P.structOf n (fun _ _ => .null) dec) m ((decl n).kept.map (fun f => (f.key, f.name))) with
  | error e => rfl
  | ok l =>
    show Except.ok _ = Except.ok _
    rw [List.map_append, List.map_map, List.map_map]
    rfl

theorem decStruct_other (hD : Declared P decl) (d : Res P.Val) (n : P.N) (dec : P.Ty → Json F → Res P.Val) (j : Json F) (hj : ∀ m, j ≠ .object m) :
    P.decStruct d n dec j =
      .error ⟨.ConvertError, "cannot convert ".toList ++ j.kindName ++ " to ".toList ++ (decl n).name ++ ".".toList⟩ := by
  unfold Program.decStruct
  rw [hD.toks n, C41_not_object (hD.ok n) _ _ hj]

/-! ### The recursion ends -/

theorem encVec_congr {α : Type} {e e' : α → Json F} {l : List α} (h : ∀ x ∈ l, e x = e' x) : encVec e l = encVec e' l := by
  unfold encVec; rw [List.map_congr_left h]

theorem encOption_congr {α : Type} {e e' : α → Json F} {o : Option α} (h : ∀ x, o = some x → e x = e' x) : encOption e o = encOption e' o := by
  cases o with
  | none => rfl
  | some x => exact h x rfl

theorem foldl_congr {α β : Type} {f g : β → α → β} {l : List α} (h : ∀ x ∈ l, ∀ b, f b x = g b x) : ∀ b, l.foldl f b = l.foldl g b := by
  induction l with
  | nil => intro b; rfl
  | cons x l ih => intro b; rw [List.foldl_cons, List.foldl_cons, h x (by simp), ih (fun y hy => h y (by simp [hy]))]

theorem encPairs_congr {α : Type} {κ : KeyCodec} {e e' : α → Json F} {l : List (κ.K × α)} (h : ∀ p ∈ l, e p.2 = e' p.2) : encPairs κ e l = encPairs κ e' l := by
  unfold encPairs
  rw [foldl_congr (fun p hp b => by rw [h p hp])]

theorem encMap_congr {α : Type} {κ : KeyCodec} {e e' : α → Json F} {l : List (κ.K × α)} (h : ∀ p ∈ l, e p.2 = e' p.2) : encMap κ e l = encMap κ e' l := by
  unfold encMap
  rw [foldl_congr (fun p hp b => by rw [h p hp])]

theorem size_vec {l : List P.Val} {x : P.Val} (h : x ∈ l) : sizeOf x < sizeOf (NVal.vec l : P.Val) := by
  have := List.sizeOf_lt_of_mem h
  simp only [NVal.vec.sizeOf_spec]; omega

theorem size_some {x : P.Val} : sizeOf x < sizeOf (NVal.option (some x) : P.Val) := by
  simp only [NVal.option.sizeOf_spec, Option.some.sizeOf_spec]; omega

theorem size_entries {i : P.ι} {l : List ((P.key i).K × P.Val)} {p : (P.key i).K × P.Val} (h : p ∈ l) :
    sizeOf p.2 < sizeOf (NVal.entries (P.tag i l) : P.Val) := by
  have h1 : ((⟨i, p.1⟩, p.2) : P.Key × P.Val) ∈ P.tag i l := List.mem_map.2 ⟨p, h, rfl⟩
  have := List.sizeOf_lt_of_mem h1
  simp only [NVal.entries.sizeOf_spec, Prod.mk.sizeOf_spec] at *
  omega

theorem size_struct {l : List (Str × P.Val)} {i : Str} {x : P.Val} (h : (i, x) ∈ l) : sizeOf x < sizeOf (NVal.struct l : P.Val) := by
  have := List.sizeOf_lt_of_mem h
  simp only [NVal.struct.sizeOf_spec, Prod.mk.sizeOf_spec] at *
  omega

theorem fieldOf_mem (hD : Declared P decl) {n : P.N} {l : List (Str × P.Val)} (hl : l.map (·.1) = fieldNames (decl n)) {f : Field} (hf : f ∈ (decl n).kept)
    (d : P.Val) : (f.name, fieldOf l d f.name) ∈ l := by
  obtain ⟨v, hv⟩ := mem_of_name (hl ▸ kept_mem hf)
  unfold fieldOf
  rw [mapGet_of_mem (by rw [hl]; exact hD.names n) hv]
  exact hv

/-- `v` has the form of a value of type `t`; the integers inside satisfy `I`. -/
inductive Shaped (P : Program F) (decl : P.N → Struct) (I : Int → Prop) : P.Ty → P.Val → Prop
  | json {j : Json F} : WF j → Shaped P decl I .json (.json j)
  | string (s : Str) : Shaped P decl I .string (.string s)
  | bool (b : Bool) : Shaped P decl I .bool (.bool b)
  | f64 (x : F) : Shaped P decl I .f64 (.f64 x)
  | f32 (x : FloatOps.F32 F) : Shaped P decl I .f32 (.f32 x)
  | int {name : String} {lo hi n : Int} : I n → Shaped P decl I (.int name lo hi) (.int n)
  | vec {t : P.Ty} {l : List P.Val} : (∀ x ∈ l, Shaped P decl I t x) → Shaped P decl I (.vec t) (.vec l)
  | none (t : P.Ty) : Shaped P decl I (.option t) (.option none)
  | some {t : P.Ty} {x : P.Val} : Shaped P decl I t x → Shaped P decl I (.option t) (.option (some x))
  | pairs {i : P.ι} {t : P.Ty} {l : List ((P.key i).K × P.Val)} : (∀ p ∈ l, Shaped P decl I t p.2) → Shaped P decl I (.pairs i t) (.entries (P.tag i l))
  | map {i : P.ι} {t : P.Ty} {l : List ((P.key i).K × P.Val)} : (∀ p ∈ l, Shaped P decl I t p.2) → Shaped P decl I (.map i t) (.entries (P.tag i l))
  | struct {n : P.N} {l : List (Str × P.Val)} : l.map (·.1) = fieldNames (decl n) →
      (∀ f ∈ (decl n).kept, ∀ x, (f.name, x) ∈ l → Shaped P decl I (P.fieldTy n f.name) x) → Shaped P decl I (.named n) (.struct l)

theorem hasTy_shaped {t : P.Ty} {v : P.Val} (h : HasTy P decl t v) : Shaped P decl (fun n => -(2 ^ 53) ≤ n ∧ n ≤ 2 ^ 53) t v := by
  induction h with
  | json h => exact .json h
  | string s => exact .string s
  | bool b => exact .bool b
  | f64 x => exact .f64 x
  | f32 x => exact .f32 x
  | int _ _ h1 h2 => exact .int ⟨h1, h2⟩
  | vec _ ih => exact .vec ih
  | none t => exact .none t
  | some _ ih => exact .some ih
  | pairs _ ih => exact .pairs ih
  | map _ _ ih => exact .map ih
  | struct hl _ ih => exact .struct hl ih

theorem enc_fuelS (hD : Declared P decl) {I : Int → Prop} {t : P.Ty} {v : P.Val} (h : Shaped P decl I t v) : ∀ (d d' : Json F) (k k' : Nat), sizeOf v < k → sizeOf v < k' →
    P.encTy d (P.encNamed d k) t v = P.encTy d' (P.encNamed d' k') t v := by
  induction h with
  | json _ => intros; rfl
  | string _ => intros; rfl
  | bool _ => intros; rfl
  | f64 _ => intros; rfl
  | f32 _ => intros; rfl
  | int _ => intros; rfl
  | @vec t l _ ih =>
    intro d d' k k' hk hk'
    exact encVec_congr (fun x hx => ih x hx d d' k k' (by have := size_vec hx; omega) (by have := size_vec hx; omega))
  | none t => intros; rfl
  | @some t x _ ih =>
    intro d d' k k' hk hk'
    exact ih d d' k k' (by have := size_some (x := x); omega) (by have := size_some (x := x); omega)
  | @pairs i t l _ ih =>
    intro d d' k k' hk hk'
    simp only [Program.encTy, untag_tag]
    exact encPairs_congr (fun p hp => ih p hp d d' k k' (by have := size_entries hp; omega) (by have := size_entries hp; omega))
  | @map i t l _ ih =>
    intro d d' k k' hk hk'
    simp only [Program.encTy, untag_tag]
    exact encMap_congr (fun p hp => ih p hp d d' k k' (by have := size_entries hp; omega) (by have := size_entries hp; omega))
  | @struct n l hl _ ih =>
    intro d d' k k' hk hk'
    cases k with
    | zero => omega
    | succ k =>
      cases k' with
      | zero => omega
      | succ k' =>
        show P.encStruct d n (P.encTy d (P.encNamed d k)) (.struct l) = P.encStruct d' n (P.encTy d' (P.encNamed d' k')) (.struct l)
        rw [encStruct_eq hD, encStruct_eq hD]
        refine congrArg _ (List.map_congr_left (fun f hf => ?_))
        have hm := fieldOf_mem hD hl hf (.bool false)
        have hs := size_struct hm
        rw [ih f hf _ hm d d' k k' (by omega) (by omega)]

theorem enc_eqS (hD : Declared P decl) {I : Int → Prop} {t : P.Ty} {v : P.Val} (h : Shaped P decl I t v) (d : Json F) {k : Nat} (hk : sizeOf v < k) :
    P.encTy d (P.encNamed d k) t v = P.enc t v := enc_fuelS hD h _ _ _ _ hk (Nat.lt_succ_self _)

theorem enc_fuel (hD : Declared P decl) {t : P.Ty} {v : P.Val} (h : HasTy P decl t v) : ∀ (d d' : Json F) (k k' : Nat), sizeOf v < k → sizeOf v < k' →
    P.encTy d (P.encNamed d k) t v = P.encTy d' (P.encNamed d' k') t v := enc_fuelS hD (hasTy_shaped h)

theorem enc_eq (hD : Declared P decl) {t : P.Ty} {v : P.Val} (h : HasTy P decl t v) (d : Json F) {k : Nat} (hk : sizeOf v < k) :
    P.encTy d (P.encNamed d k) t v = P.enc t v := enc_eqS hD (hasTy_shaped h) d hk

theorem collect_congr {α β : Type} {f g : α → Res β} {l : List α} (h : ∀ x ∈ l, f x = g x) : collect (l.map f) = collect (l.map g) := by
  rw [List.map_congr_left h]

theorem json_size_array {l : List (Json F)} {x : Json F} (h : x ∈ l) : sizeOf x < sizeOf (Json.array l) := by
  have := List.sizeOf_lt_of_mem h
  simp only [Json.array.sizeOf_spec]; omega

theorem json_size_object {m : Obj F} {e : Str × (Json F × List (Json F))} (h : e ∈ m) : sizeOf e.2.1 < sizeOf (Json.object m) ∧
    ∀ x ∈ e.2.2, sizeOf x < sizeOf (Json.object m) := by
  have h1 := List.sizeOf_lt_of_mem h
  obtain ⟨k, v, l⟩ := e
  simp only [Json.object.sizeOf_spec, Prod.mk.sizeOf_spec] at *
  refine ⟨by omega, fun x hx => ?_⟩
  have := List.sizeOf_lt_of_mem hx
  omega

theorem readFields_congr {dec dec' : P.Ty → Json F → Res P.Val} {n : P.N} {m : Obj F} (h : ∀ e ∈ m, ∀ t, dec t e.2.1 = dec' t e.2.1) :
    ∀ fs, readFields P dec n m fs = readFields P dec' n m fs := by
  intro fs
  induction fs with
  | nil => rfl
  | cons f fs ih =>
    rw [readFields, readFields, ih]
    cases hg : mapGet f.key m with
    | none => rfl
    | some vr =>
      obtain ⟨v, r⟩ := vr
      dsimp only
      rw [h _ (mapGet_mem hg)]

theorem decTy_congr {D D' : P.N → Json F → Res P.Val} (t : P.Ty) : ∀ j : Json F, (∀ x : Json F, sizeOf x ≤ sizeOf j → ∀ n, D n x = D' n x) →
    P.decTy D t j = P.decTy D' t j := by
  induction t with
  | json | string | bool | f64 | f32 => intros; rfl
  | int => intros; rfl
  | vec t ih =>
    intro j h
    show (decVec _ j).map _ = (decVec _ j).map _
    congr 1
    cases j with
    | array l => exact collect_congr (fun x hx => ih x (fun y hy => h y (by have := json_size_array hx; omega)))
    | _ => rfl
  | option t ih =>
    intro j h
    show (decOption _ j).map _ = (decOption _ j).map _
    congr 1
    cases j with
    | null => rfl
    | _ => simp only [decOption]; rw [ih _ h]
  | pairs i t ih =>
    intro j h
    show (decPairs _ _ j).map _ = (decPairs _ _ j).map _
    congr 1
    cases j with
    | object m =>
      have : ∀ e ∈ m, (e.2.2.reverse ++ [e.2.1]).map (decMember (P.key i) (P.decTy D t) e.1) =
          (e.2.2.reverse ++ [e.2.1]).map (decMember (P.key i) (P.decTy D' t) e.1) := by
        intro e he
        refine List.map_congr_left (fun x hx => ?_)
        have hs : sizeOf x < sizeOf (Json.object m) := by
          rcases List.mem_append.1 hx with hx | hx
          · exact (json_size_object he).2 x (List.mem_reverse.1 hx)
          · rw [List.mem_singleton.1 hx]; exact (json_size_object he).1
        unfold decMember
        rw [ih x (fun y hy => h y (by omega))]
      show collect _ = collect _
      rw [List.flatMap_def, List.flatMap_def, List.map_congr_left this]
    | _ => rfl
  | map i t ih =>
    intro j h
    show (decMap _ _ j).map _ = (decMap _ _ j).map _
    congr 1
    cases j with
    | object m =>
      have : ∀ e ∈ m, decMember (P.key i) (P.decTy D t) e.1 e.2.1 = decMember (P.key i) (P.decTy D' t) e.1 e.2.1 := by
        intro e he
        have := (json_size_object he).1
        unfold decMember
        rw [ih _ (fun y hy => h y (by omega))]
      unfold decMap
      dsimp only
      rw [collect_congr this]
    | _ => rfl
  | named n => intro j h; exact h j (Nat.le_refl _) n

theorem decStruct_congr (hD : Declared P decl) {dec dec' : P.Ty → Json F → Res P.Val} (d d' : Res P.Val) (n : P.N) (j : Json F)
    (h : ∀ x : Json F, sizeOf x < sizeOf j → ∀ t, dec t x = dec' t x) : P.decStruct d n dec j = P.decStruct d' n dec' j := by
  cases j with
  | object m =>
    rw [decStruct_object hD, decStruct_object hD, readFields_congr]
    intro e he t
    exact h _ (json_size_object he).1 t
  | _ => rw [decStruct_other hD _ _ _ _ (by intro m h; cases h), decStruct_other hD _ _ _ _ (by intro m h; cases h)]

theorem decNamed_fuel (hD : Declared P decl) (d d' : Res P.Val) : ∀ (N : Nat) (j : Json F), sizeOf j < N → ∀ (n : P.N) (k k' : Nat),
    sizeOf j < k → sizeOf j < k' → P.decNamed d k n j = P.decNamed d' k' n j := by
  intro N
  induction N with
  | zero => intro j h; omega
  | succ N IH =>
    intro j hj n k k' hk hk'
    cases k with
    | zero => omega
    | succ k =>
      cases k' with
      | zero => omega
      | succ k' =>
        exact decStruct_congr hD d d' n j (fun x hx t => decTy_congr t x (fun y hy n => IH y (by omega) n k k' (by omega) (by omega)))

theorem dec_fuel (hD : Declared P decl) (t : P.Ty) (j : Json F) (d d' : Res P.Val) (k k' : Nat) (hk : sizeOf j < k) (hk' : sizeOf j < k') :
    P.decTy (P.decNamed d k) t j = P.decTy (P.decNamed d' k') t j :=
  decTy_congr t j (fun x hx n => decNamed_fuel hD d d' _ x (Nat.lt_succ_self _) n k k' (by omega) (by omega))

theorem dec_eq (hD : Declared P decl) (t : P.Ty) (j : Json F) (d : Res P.Val) {k : Nat} (hk : sizeOf j < k) :
    P.decTy (P.decNamed d k) t j = P.dec t j := dec_fuel hD t j _ _ _ _ hk (Nat.lt_succ_self _)

/-! ### The equations of the recursion -/

theorem dec_solves (hD : Declared P decl) (t : P.Ty) (j : Json F) : P.dec t j = P.decTy (fun n x => P.dec (.named n) x) t j := by
  show P.decTy _ t j = _
  refine decTy_congr t j (fun x hx n => ?_)
  exact dec_eq hD (.named n) x _ (by omega)

theorem dec_struct (hD : Declared P decl) (n : P.N) (j : Json F) (d : Res P.Val) : P.dec (.named n) j = P.decStruct d n P.dec j := by
  refine Eq.trans (b := P.decStruct (fail .ConvertError "unreachable") n (P.decTy (P.decNamed (fail .ConvertError "unreachable") (sizeOf j))) j) rfl ?_
  exact decStruct_congr hD _ d n j (fun x hx t => dec_eq hD t x _ hx)

theorem dec_vec (hD : Declared P decl) (t : P.Ty) (j : Json F) : P.dec (.vec t) j = (decVec (P.dec t) j).map .vec := by
  rw [dec_solves hD]; show (decVec _ j).map _ = _; rw [show P.decTy (fun n x => P.dec (.named n) x) t = P.dec t from funext fun x => (dec_solves hD t x).symm]

theorem dec_option (hD : Declared P decl) (t : P.Ty) (j : Json F) : P.dec (.option t) j = (decOption (P.dec t) j).map .option := by
  rw [dec_solves hD]; show (decOption _ j).map _ = _; rw [show P.decTy (fun n x => P.dec (.named n) x) t = P.dec t from funext fun x => (dec_solves hD t x).symm]

theorem dec_pairs (hD : Declared P decl) (i : P.ι) (t : P.Ty) (j : Json F) :
    P.dec (.pairs i t) j = (decPairs (P.key i) (P.dec t) j).map (fun l => .entries (P.tag i l)) := by
  rw [dec_solves hD]; show (decPairs _ _ j).map _ = _; rw [show P.decTy (fun n x => P.dec (.named n) x) t = P.dec t from funext fun x => (dec_solves hD t x).symm]

theorem dec_map (hD : Declared P decl) (i : P.ι) (t : P.Ty) (j : Json F) :
    P.dec (.map i t) j = (decMap (P.key i) (P.dec t) j).map (fun l => .entries (P.tag i l)) := by
  rw [dec_solves hD]; show (decMap _ _ j).map _ = _; rw [show P.decTy (fun n x => P.dec (.named n) x) t = P.dec t from funext fun x => (dec_solves hD t x).symm]

theorem enc_vecS (hD : Declared P decl) {I : Int → Prop} {t : P.Ty} {l : List P.Val} (h : ∀ x ∈ l, Shaped P decl I t x) : P.enc (.vec t) (.vec l) = encVec (P.enc t) l :=
  encVec_congr (fun x hx => enc_eqS hD (h x hx) _ (by have := size_vec hx; omega))

theorem enc_someS (hD : Declared P decl) {I : Int → Prop} {t : P.Ty} {x : P.Val} (h : Shaped P decl I t x) : P.enc (.option t) (.option (some x)) = P.enc t x :=
  enc_eqS hD h _ (by have := size_some (x := x); omega)

theorem enc_pairsS (hD : Declared P decl) {I : Int → Prop} {i : P.ι} {t : P.Ty} {l : List ((P.key i).K × P.Val)} (h : ∀ p ∈ l, Shaped P decl I t p.2) :
    P.enc (.pairs i t) (.entries (P.tag i l)) = encPairs (P.key i) (P.enc t) l := by
  show encPairs _ _ (P.untag i (P.tag i l)) = _
  rw [untag_tag]
  exact encPairs_congr (fun p hp => enc_eqS hD (h p hp) _ (by have := size_entries hp; omega))

theorem enc_mapS (hD : Declared P decl) {I : Int → Prop} {i : P.ι} {t : P.Ty} {l : List ((P.key i).K × P.Val)} (h : ∀ p ∈ l, Shaped P decl I t p.2) :
    P.enc (.map i t) (.entries (P.tag i l)) = encMap (P.key i) (P.enc t) l := by
  show encMap _ _ (P.untag i (P.tag i l)) = _
  rw [untag_tag]
  exact encMap_congr (fun p hp => enc_eqS hD (h p hp) _ (by have := size_entries hp; omega))

theorem enc_structS (hD : Declared P decl) {I : Int → Prop} {n : P.N} {l : List (Str × P.Val)} (hl : l.map (·.1) = fieldNames (decl n))
    (h : ∀ f ∈ (decl n).kept, ∀ x, (f.name, x) ∈ l → Shaped P decl I (P.fieldTy n f.name) x) (d : Json F) :
    P.enc (.named n) (.struct l) = P.encStruct d n P.enc (.struct l) := by
  show P.encStruct _ n _ (.struct l) = _
  rw [encStruct_eq hD, encStruct_eq hD]
  refine congrArg _ (List.map_congr_left (fun f hf => ?_))
  have hm := fieldOf_mem hD hl hf (.bool false)
  rw [enc_eqS hD (h f hf _ hm) _ (size_struct hm)]

theorem enc_vec (hD : Declared P decl) {t : P.Ty} {l : List P.Val} (h : ∀ x ∈ l, HasTy P decl t x) : P.enc (.vec t) (.vec l) = encVec (P.enc t) l :=
  enc_vecS hD (fun x hx => hasTy_shaped (h x hx))

theorem enc_some (hD : Declared P decl) {t : P.Ty} {x : P.Val} (h : HasTy P decl t x) : P.enc (.option t) (.option (some x)) = P.enc t x :=
  enc_someS hD (hasTy_shaped h)

theorem enc_pairs (hD : Declared P decl) {i : P.ι} {t : P.Ty} {l : List ((P.key i).K × P.Val)} (h : ∀ p ∈ l, HasTy P decl t p.2) :
    P.enc (.pairs i t) (.entries (P.tag i l)) = encPairs (P.key i) (P.enc t) l := enc_pairsS hD (fun x hx => hasTy_shaped (h x hx))

theorem enc_map (hD : Declared P decl) {i : P.ι} {t : P.Ty} {l : List ((P.key i).K × P.Val)} (h : ∀ p ∈ l, HasTy P decl t p.2) :
    P.enc (.map i t) (.entries (P.tag i l)) = encMap (P.key i) (P.enc t) l := enc_mapS hD (fun x hx => hasTy_shaped (h x hx))

theorem enc_struct (hD : Declared P decl) {n : P.N} {l : List (Str × P.Val)} (hl : l.map (·.1) = fieldNames (decl n))
    (h : ∀ f ∈ (decl n).kept, ∀ x, (f.name, x) ∈ l → HasTy P decl (P.fieldTy n f.name) x) (d : Json F) :
    P.enc (.named n) (.struct l) = P.encStruct d n P.enc (.struct l) := enc_structS hD hl (fun f hf x hx => hasTy_shaped (h f hf x hx)) d

/-! ### What the encoding looks like -/

theorem wf_encNS (hD : Declared P decl) {I : Int → Prop} {t : P.Ty} {v : P.Val} (h : Shaped P decl I t v) : WF (P.enc t v) := by
  induction h with
  | json h => exact h
  | string _ | bool _ | f64 _ | f32 _ | none _ => exact trivial
  | int _ => exact trivial
  | vec h ih =>
    rw [enc_vecS hD h]
    refine (wf_array_iff _).mpr ?_
    intro y hy
    obtain ⟨a, ha, rfl⟩ := List.mem_map.mp hy
    exact ih a ha
  | some h ih => rw [enc_someS hD h]; exact ih
  | pairs h ih => rw [enc_pairsS hD h]; exact wf_encPairs _ _ _ (fun p hp => ih p hp) [] wf_nil
  | map h ih => rw [enc_mapS hD h]; exact wf_encMap _ _ _ (fun p hp => ih p hp) [] wf_nil
  | @struct n l hl h ih =>
    rw [enc_structS hD hl h .null, encStruct_eq hD]
    refine ⟨?_, ?_⟩
    · rw [List.map_map]; exact hD.keys n
    · rw [WFMap_iff]
      intro k v r hm
      obtain ⟨f, hf, he⟩ := List.mem_map.mp hm
      cases he
      exact ⟨ih f hf _ (fieldOf_mem hD hl hf _), by simp⟩

theorem parts_encNS (hD : Declared P decl) {I : Int → Prop} {num : F → Prop} {str : Str → Prop} {Q : Json F → Prop} {K : Str → Prop} (hp : Parts Q K)
    (hjson : ∀ j, AllNum num j → AllStr str j → Q j) (hstr : ∀ s, str s → Q (.string s)) (hbool : ∀ b, Q (.boolean b)) (hnum : ∀ x, num x → Q (.number x))
    (hint : ∀ n : Int, I n → Q (.number (FloatOps.ofInt n))) (hK : ∀ s, str s → K s)
    {t : P.Ty} {v : P.Val} (h : Shaped P decl I t v) (hw : Within P decl num str t v) : Q (P.enc t v) := by
  induction h with
  | json _ => cases hw with | json h1 h2 => exact hjson _ h1 h2
  | string _ => cases hw with | string h1 => exact hstr _ h1
  | bool _ => exact hbool _
  | f64 _ => cases hw with | f64 h1 => exact hnum _ h1
  | f32 _ => cases hw with | f32 h1 => exact hnum _ h1
  | int h => exact hint _ h
  | none _ => exact hp.null
  | vec h ih =>
    cases hw with
    | vec hw =>
      rw [enc_vecS hD h]
      refine (hp.arr _).mpr ?_
      intro y hy
      obtain ⟨a, ha, rfl⟩ := List.mem_map.mp hy
      exact ih a ha (hw a ha)
  | some h ih => cases hw with | some hw => rw [enc_someS hD h]; exact ih hw
  | @pairs i t l h ih =>
    rw [enc_pairsS hD h]
    generalize he : NVal.entries (P.tag i l) = v at hw
    cases hw with
    | @pairs _ _ l' h1 h2 =>
      injection he with he
      have hl : l = l' := by rw [← untag_tag i l, he, untag_tag]
      subst hl
      exact hp.encPairs _ _ _ (fun p hm => ⟨hK _ (h1 p hm), ih p hm (h2 p hm)⟩)
  | @map i t l h ih =>
    rw [enc_mapS hD h]
    generalize he : NVal.entries (P.tag i l) = v at hw
    cases hw with
    | @map _ _ l' h1 h2 =>
      injection he with he
      have hl : l = l' := by rw [← untag_tag i l, he, untag_tag]
      subst hl
      exact hp.encMap _ _ _ (fun p hm => ⟨hK _ (h1 p hm), ih p hm (h2 p hm)⟩)
  | @struct n l hl h ih =>
    cases hw with
    | struct h1 h2 =>
      rw [enc_structS hD hl h .null, encStruct_eq hD]
      refine (hp.obj _).mpr ?_
      intro k v r hm
      obtain ⟨f, hf, he⟩ := List.mem_map.mp hm
      cases he
      have hm := fieldOf_mem hD hl hf (.bool false)
      exact ⟨hK _ (h1 f hf), ih f hf _ hm (h2 f hf _ hm), by simp⟩

theorem wf_encN (hD : Declared P decl) {t : P.Ty} {v : P.Val} (h : HasTy P decl t v) : WF (P.enc t v) := wf_encNS hD (hasTy_shaped h)

theorem parts_encN (hD : Declared P decl) {num : F → Prop} {str : Str → Prop} {Q : Json F → Prop} {K : Str → Prop} (hp : Parts Q K)
    (hjson : ∀ j, AllNum num j → AllStr str j → Q j) (hstr : ∀ s, str s → Q (.string s)) (hbool : ∀ b, Q (.boolean b)) (hnum : ∀ x, num x → Q (.number x))
    (hint : ∀ n : Int, -(2 ^ 53) ≤ n → n ≤ 2 ^ 53 → Q (.number (FloatOps.ofInt n))) (hK : ∀ s, str s → K s)
    {t : P.Ty} {v : P.Val} (h : HasTy P decl t v) (hw : Within P decl num str t v) : Q (P.enc t v) :=
  parts_encNS hD hp hjson hstr hbool hnum (fun n h => hint n h.1 h.2) hK (hasTy_shaped h) hw

/-! ### Decoding an encoding -/

theorem allTwo_get {α β : Type} {R : α → β → Prop} : ∀ {l : List α} {l' : List β}, AllTwo R l l' → l.length = l'.length ∧
    ∀ (a : Nat) x y, l[a]? = some x → l'[a]? = some y → R x y
  | [], [], _ => ⟨rfl, by simp⟩
  | x :: l, y :: l', ⟨h1, h2⟩ => by
    obtain ⟨h3, h4⟩ := allTwo_get h2
    refine ⟨by simp [h3], fun a u w hu hw => ?_⟩
    cases a with
    | zero => simp at hu hw; rw [← hu, ← hw]; exact h1
    | succ a => simp at hu hw; exact h4 a u w hu hw
  | [], _ :: _, h => h.elim
  | _ :: _, [], h => h.elim

theorem optTwo_flip {α β : Type} {R : α → β → Prop} {o : Option α} {o' : Option β} (h : OptTwo R o o') :
    o.isSome = o'.isSome ∧ ∀ x y, o = some x → o' = some y → R x y := by
  cases o <;> cases o' <;> first | exact h.elim | simp | skip
  exact h

theorem neverNull (hD : Declared P decl) {t : P.Ty} {v : P.Val} (h : HasTy P decl t v) (hn : NeverNullN t) : absJ (P.enc t v) ≠ .null := by
  cases h with
  | json _ | none _ | some _ => exact hn.elim
  | string _ | bool _ | f64 _ | f32 _ => intro h; cases h
  | int _ _ _ _ => intro h; cases h
  | vec h => rw [enc_vec hD h]; intro h; cases h
  | pairs h => rw [enc_pairs hD h]; intro h; cases h
  | map _ h => rw [enc_map hD h]; intro h; cases h
  | struct hl h => rw [enc_struct hD hl h .null, encStruct_eq hD]; intro h; cases h

theorem hmInsert_keys {K α : Type} [DecidableEq K] (k : K) (v : α) (m : List (K × α)) :
    (hmInsert k v m).map (·.1) = if k ∈ m.map (·.1) then m.map (·.1) else m.map (·.1) ++ [k] := by
  induction m with
  | nil => rfl
  | cons p m ih =>
    obtain ⟨k', v'⟩ := p
    rw [hmInsert]
    by_cases hk : k' = k
    · rw [if_pos hk]; simp [hk]
    · rw [if_neg hk, List.map_cons, ih]
      by_cases hm : k ∈ m.map (·.1)
      · rw [if_pos hm, if_pos (by simp only [List.map_cons, List.mem_cons]; exact .inr hm)]; rfl
      · rw [if_neg hm, if_neg]
        · rfl
        · simp only [List.map_cons, List.mem_cons]
          rintro (h | h)
          · exact hk h.symm
          · exact hm h

theorem hmInserts_nodup {K α : Type} [DecidableEq K] (l : List (K × α)) : ∀ m : List (K × α), (m.map (·.1)).Nodup →
    ((l.foldl (fun m p => hmInsert p.1 p.2 m) m).map (·.1)).Nodup := by
  induction l with
  | nil => intro m h; exact h
  | cons p l ih =>
    intro m h
    rw [List.foldl_cons]
    refine ih _ ?_
    rw [hmInsert_keys]
    by_cases hm : p.1 ∈ m.map (·.1)
    · rw [if_pos hm]; exact h
    · rw [if_neg hm, List.nodup_append]
      refine ⟨h, by simp, ?_⟩
      intro a ha b hb e
      rw [List.mem_singleton.1 hb] at e
      exact hm (e ▸ ha)

theorem decMap_nodup {α : Type} {κ : KeyCodec} {dec : Json F → Res α} {j : Json F} {l : List (κ.K × α)} (h : decMap κ dec j = .ok l) :
    (l.map (·.1)).Nodup := by
  cases j with
  | object m =>
    unfold decMap at h
    dsimp only at h
    cases hc : collect (m.map (fun e => decMember κ dec e.1 e.2.1)) with
    | error e => rw [hc] at h; cases h
    | ok l' =>
      rw [hc] at h
      cases h
      exact hmInserts_nodup _ [] (by simp)
  | _ => cases h

theorem hmGet_isSome {K α : Type} [DecidableEq K] (k : K) (l : List (K × α)) : (hmGet k l).isSome = true ↔ k ∈ l.map (·.1) := by
  induction l with
  | nil => simp [hmGet]
  | cons p l ih =>
    obtain ⟨k', v⟩ := p
    rw [hmGet]
    by_cases hk : k' = k
    · rw [if_pos hk]; simp [hk]
    · rw [if_neg hk, ih, List.map_cons, List.mem_cons]
      exact ⟨.inr, fun h => h.resolve_left (fun e => hk e.symm)⟩

theorem hmGet_of_mem {K α : Type} [DecidableEq K] {k : K} {x : α} {l : List (K × α)} (hn : (l.map (·.1)).Nodup) (h : (k, x) ∈ l) : hmGet k l = some x := by
  induction l with
  | nil => cases h
  | cons p l ih =>
    obtain ⟨k', v'⟩ := p
    rw [List.map_cons, List.nodup_cons] at hn
    rw [hmGet]
    rcases List.mem_cons.1 h with h | h
    · cases h; rw [if_pos rfl]
    · rw [if_neg, ih hn.2 h]
      intro hk
      exact hn.1 (hk ▸ List.mem_map.2 ⟨(k, x), h, rfl⟩)

theorem dec_encN [LawfulCast F] (hD : Declared P decl) (hI : ∀ n, ∀ f ∈ (decl n).kept, InvertibleN P (P.fieldTy n f.name)) {t : P.Ty} {v : P.Val}
    (h : HasTy P decl t v) : InvertibleN P t → ∀ j : Json F, WF j → absJ j = absJ (P.enc t v) → ∃ y, P.dec t j = .ok y ∧ Back P decl t v y := by
  induction h with
  | json _ =>
    intro _ j _ ha
    exact ⟨.json j, rfl, .json ha.symm⟩
  | string s =>
    intro _ j _ ha
    cases j with
    | string s' => cases ha; exact ⟨.string s, rfl, .string s⟩
    | _ => cases ha
  | bool s =>
    intro _ j _ ha
    cases j with
    | boolean s' => cases ha; exact ⟨.bool s, rfl, .bool s⟩
    | _ => cases ha
  | f64 s =>
    intro _ j _ ha
    cases j with
    | number s' => cases ha; exact ⟨.f64 s, rfl, .f64 s⟩
    | _ => cases ha
  | f32 s =>
    intro _ j _ ha
    cases j with
    | number s' =>
      cases ha
      refine ⟨.f32 s, ?_, .f32 s⟩
      show Except.ok (NVal.f32 (FloatOps.narrow (FloatOps.widen s : F))) = _
      rw [LawfulCast.narrow_widen]
    | _ => cases ha
  | @int name lo hi n h1 h2 h3 h4 =>
    intro _ j _ ha
    cases j with
    | number s' =>
      cases ha
      refine ⟨.int n, ?_, .int name lo hi n⟩
      show Except.ok (NVal.int (FloatOps.toInt lo hi (FloatOps.ofInt n : F))) = _
      rw [LawfulCast.toInt_ofInt lo hi n h1 h2 h3 h4]
    | _ => cases ha
  | @vec t l h ih =>
    intro hi j hw ha
    rw [enc_vec hD h] at ha
    obtain ⟨ys, h1, h2⟩ := dec_enc_vec (P.enc t) (P.dec t) (fun y x => Back P decl t x y) l (fun x hx j' hw' ha' => ih x hx hi j' hw' ha') j hw ha
    refine ⟨.vec ys, ?_, ?_⟩
    · rw [dec_vec hD, h1]; rfl
    · obtain ⟨h3, h4⟩ := allTwo_get h2
      exact .vec h3.symm (fun a x y hx hy => h4 a y x hy hx)
  | none t =>
    intro hi j hw ha
    cases j with
    | null => exact ⟨.option none, rfl, .none t⟩
    | _ => cases ha
  | @some t x h ih =>
    intro hi j hw ha
    rw [enc_some hD h] at ha
    obtain ⟨y, h1, h2⟩ := ih hi.2 j hw ha
    refine ⟨.option (some y), ?_, .some h2⟩
    rw [dec_option hD]
    cases j with
    | null => exact absurd ha.symm (neverNull hD h hi.1)
    | _ => simp only [decOption, h1]; rfl
  | @pairs i t l h ih =>
    intro hi j hw ha
    rw [enc_pairs hD h] at ha
    obtain ⟨ys, h1, h2⟩ := dec_enc_pairs (P.key i) (P.enc t) (P.dec t) (fun y x => Back P decl t x y) hi.1 l
      (fun p hp j' hw' ha' => ih p hp hi.2 j' hw' ha') j hw ha
    refine ⟨.entries (P.tag i ys), ?_, ?_⟩
    · rw [dec_pairs hD, h1]; rfl
    · exact .pairs (fun k => (allTwo_get (h2 k)).1.symm) (fun k a x y hx hy => (allTwo_get (h2 k)).2 a y x hy hx)
  | @map i t l hn h ih =>
    intro hi j hw ha
    rw [enc_map hD h] at ha
    obtain ⟨ys, h1, h2⟩ := dec_enc_map (P.key i) (P.enc t) (P.dec t) (fun y x => Back P decl t x y) hi.1 l hn
      (fun p hp j' hw' ha' => ih p hp hi.2 j' hw' ha') j hw ha
    refine ⟨.entries (P.tag i ys), ?_, ?_⟩
    · rw [dec_map hD, h1]; rfl
    · have hys := decMap_nodup h1
      refine .map hys (fun k => ?_) (fun k x y hx hy => ?_)
      · rw [← hmGet_isSome, ← hmGet_isSome, (optTwo_flip (h2 k)).1]
      · exact (optTwo_flip (h2 k)).2 y x (hmGet_of_mem hys hy) (hmGet_of_mem hn hx)
  | @struct n l hl h ih =>
    intro _ j hw ha
    rw [enc_struct hD hl h .null, encStruct_eq hD] at ha
    cases j with
    | object m' =>
      simp only [absJ, Val.obj.injEq] at ha
      have key : ∀ fs : List Field, (∀ f ∈ fs, f ∈ (decl n).kept) → ∃ ys, readFields P P.dec n m' fs = .ok ys ∧ ys.map (·.1) = fs.map Field.name ∧
          ∀ f ∈ fs, ∃ y, (f.name, y) ∈ ys ∧ Back P decl (P.fieldTy n f.name) (fieldOf l (.bool false) f.name) y := by
        intro fs
        induction fs with
        | nil => intro _; exact ⟨[], rfl, rfl, by simp⟩
        | cons f fs ihf =>
          intro hm
          obtain ⟨ys, h1, h2, h3⟩ := ihf (fun g hg => hm g (by simp [hg]))
          have hf := hm f (by simp)
          have hg : mapGet f.key ((decl n).kept.map (fun f => (f.key, (P.enc (P.fieldTy n f.name) (fieldOf l (.bool false) f.name), ([] : List (Json F)))))) =
              some (P.enc (P.fieldTy n f.name) (fieldOf l (.bool false) f.name), []) := by
            apply mapGet_mem_nodup
            · rw [List.map_map]; exact hD.keys n
            · exact List.mem_map.mpr ⟨f, hf, rfl⟩
          have h4 := mapGet_abs_last m' f.key
          rw [ha, mapGet_abs_last, hg] at h4
          cases h5 : mapGet f.key m' with
          | none => rw [h5] at h4; simp at h4
          | some e =>
            obtain ⟨v, rest⟩ := e
            rw [h5] at h4
            simp at h4
            obtain ⟨y, hy1, hy2⟩ := ih f hf _ (fieldOf_mem hD hl hf _) (hI n f hf) v (((WFMap_iff m').mp hw.2 _ _ _ (mapGet_mem h5)).1) h4.symm
            refine ⟨(f.name, y) :: ys, ?_, by simp [h2], ?_⟩
            · rw [readFields, h5]
              dsimp only
              rw [hy1]
              dsimp only
              rw [h1]
            · intro g hg
              rcases List.mem_cons.1 hg with rfl | hg
              · exact ⟨y, by simp, hy2⟩
              · obtain ⟨z, hz1, hz2⟩ := h3 g hg
                exact ⟨z, by simp [hz1], hz2⟩
      obtain ⟨ys, h1, h2, h3⟩ := key (decl n).kept (fun _ h => h)
      refine ⟨.struct (ys ++ (decl n).ignored.map (fun f => (f.name, P.dflt n f.name))), ?_, ?_⟩
      · rw [dec_struct hD n _ (fail .ConvertError ""), decStruct_object hD, h1]; rfl
      · have hnames : (ys ++ (decl n).ignored.map (fun f => (f.name, P.dflt n f.name))).map (·.1) = fieldNames (decl n) := by
          unfold fieldNames
          rw [List.map_append, List.map_append, h2, List.map_map]; rfl
        refine .struct hl hnames (fun f hf x y hx hy => ?_) (fun f hf => ?_)
        · obtain ⟨z, hz1, hz2⟩ := h3 f hf
          have hnd : ((ys ++ (decl n).ignored.map (fun f => (f.name, P.dflt n f.name))).map (·.1)).Nodup := by rw [hnames]; exact hD.names n
          have e1 := mapGet_mem_nodup _ _ _ hnd hy
          have e2 := mapGet_mem_nodup _ _ _ hnd (List.mem_append.2 (.inl hz1))
          rw [e1] at e2
          cases e2
          have e3 : fieldOf l (.bool false) f.name = x := by
            unfold fieldOf
            rw [mapGet_mem_nodup _ _ _ (by rw [hl]; exact hD.names n) hx]; rfl
          rw [← e3]; exact hz2
        · exact List.mem_append.2 (.inr (List.mem_map.2 ⟨f, hf, rfl⟩))
    | _ => cases ha

/-- For plain types without ignored fields what comes back is the value itself. -/
theorem back_plain (hp : ∀ n, ∀ f ∈ (decl n).kept, PlainN (P.fieldTy n f.name)) (hD : Declared P decl) (hi : ∀ n, (decl n).ignored = []) {t : P.Ty} {x y : P.Val}
    (h : Back P decl t x y) : PlainN t → y = x := by
  induction h with
  | json _ => intro h; exact h.elim
  | string _ | bool _ | f64 _ | f32 _ | none _ => intro _; rfl
  | int => intro _; rfl
  | @vec t l l' h1 _ ih =>
    intro h
    refine congrArg _ (List.ext_getElem? (fun a => ?_))
    cases ha : l[a]? with
    | none =>
      rw [List.getElem?_eq_none_iff] at ha ⊢
      omega
    | some x =>
      cases hb : l'[a]? with
      | none =>
        rw [List.getElem?_eq_none_iff] at hb
        have := (List.getElem?_eq_some_iff.1 ha).1
        omega
      | some y => rw [ih a x y ha hb h]
  | some _ ih => intro h; rw [ih h]
  | pairs _ _ => intro h; exact h.elim
  | map _ _ _ => intro h; exact h.elim
  | @struct n l l' h1 h2 h3 h4 ih =>
    intro _
    refine congrArg _ ?_
    have hn : (fieldNames (decl n)).Nodup := hD.names n
    have key : ∀ f ∈ (decl n).kept, mapGet f.name l' = mapGet f.name l := by
      intro f hf
      obtain ⟨x, hx⟩ := mem_of_name (h1 ▸ kept_mem hf)
      obtain ⟨y, hy⟩ := mem_of_name (h2 ▸ kept_mem hf)
      rw [mapGet_mem_nodup _ _ _ (h1 ▸ hn) hx, mapGet_mem_nodup _ _ _ (h2 ▸ hn) hy, ih f hf x y hx hy (hp n f hf)]
    refine List.ext_getElem? (fun a => ?_)
    have hlen : l.length = l'.length := by rw [← List.length_map (f := (·.1)) (as := l), h1, ← h2, List.length_map]
    cases ha : l[a]? with
    | none =>
      rw [List.getElem?_eq_none_iff] at ha ⊢
      omega
    | some p =>
      cases hb : l'[a]? with
      | none =>
        rw [List.getElem?_eq_none_iff] at hb
        have := (List.getElem?_eq_some_iff.1 ha).1
        omega
      | some q =>
        have e1 : (l.map (·.1))[a]? = some p.1 := by rw [List.getElem?_map, ha]; rfl
        have e2 : (l'.map (·.1))[a]? = some q.1 := by rw [List.getElem?_map, hb]; rfl
        rw [h1] at e1
        rw [h2, e1] at e2
        injection e2 with e2
        have hmem : p.1 ∈ fieldNames (decl n) := List.mem_of_getElem? e1
        unfold fieldNames at hmem
        rw [hi n, List.append_nil] at hmem
        obtain ⟨f, hf, hfn⟩ := List.mem_map.1 hmem
        have := key f hf
        rw [hfn] at this
        rw [mapGet_mem_nodup l' p.1 q.2 (h2 ▸ hn) (e2 ▸ List.mem_of_getElem? hb), mapGet_mem_nodup l p.1 p.2 (h1 ▸ hn) (List.mem_of_getElem? ha)] at this
        injection this with this
        rw [Prod.ext e2.symm this]

end
end RJ
