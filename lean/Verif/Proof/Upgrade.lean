import Verif.Spec.Upgrade
import Verif.Proof.Compat
/-
  Changes of types one after the other.
-/
set_option linter.unusedSectionVars false
namespace RJ
open Spec
variable {F : Type} [FloatOps F] {P : Program F} {decl : P.N → Struct} {R S : P.N → P.N → Prop}

theorem upgrade_compat {t t' : P.Ty} (h : Upgrade P decl R t t') : Compat P decl R t t' := by
  induction h with
  | json => exact .json _
  | string => exact .string
  | bool => exact .bool
  | f64 => exact .f64
  | f32 => exact .f32
  | wider => exact .wider
  | float => exact .float ..
  | int h1 h2 => exact .int h1 h2
  | vec _ ih => exact .vec ih
  | some hn _ ih => exact .some hn ih
  | option hn _ ih => exact .option hn ih
  | pairs hk _ ih => exact .pairs hk ih
  | map hk _ ih => exact .map hk ih
  | named h => exact .named h

theorem upgrades_evolve (h : Upgrades P decl R) : Evolves P decl R := by
  intro n n' hr f hf
  obtain ⟨f', h1, h2, h3⟩ := h n n' hr f hf
  exact ⟨f', h1, h2, upgrade_compat h3⟩

theorem upgrade_never {t t' : P.Ty} (h : Upgrade P decl R t t') (hn : NeverNullN t) : NeverNullN t' := by
  cases h <;> first | exact hn.elim | trivial

theorem upgrade_after {t t' : P.Ty} (h : Upgrade P decl R t t') : ∀ {t''}, Upgrade P decl S t' t'' → Upgrade P decl (After R S) t t'' := by
  induction h with
  | json => intro t'' h2; cases h2; exact .json
  | string => intro t'' h2; cases h2; exact .string
  | bool => intro t'' h2; cases h2; exact .bool
  | f64 =>
    intro t'' h2
    cases h2 with
    | f64 => exact .f64
    | wider => exact .wider
    | float => exact .float ..
  | f32 => intro t'' h2; cases h2; exact .f32
  | wider => intro t'' h2; cases h2; exact .wider
  | float => intro t'' h2; cases h2; exact .float ..
  | int h1 h3 =>
    intro t'' h2
    cases h2 with
    | int g1 g2 => exact .int (Int.le_trans h1 g1) (Int.le_trans g2 h3)
  | vec _ ih => intro t'' h2; cases h2 with | vec h2 => exact .vec (ih h2)
  | some hn _ ih => intro t'' h2; exact .some (upgrade_never h2 hn) (ih h2)
  | option hn _ ih =>
    intro t'' h2
    cases h2 with
    | some hn' h2 => exact .some hn' (ih h2)
    | option hn' h2 => exact .option hn' (ih h2)
  | pairs hk _ ih => intro t'' h2; cases h2 with | pairs _ h2 => exact .pairs hk (ih h2)
  | map hk _ ih => intro t'' h2; cases h2 with | map _ h2 => exact .map hk (ih h2)
  | named h => intro t'' h2; cases h2 with | named h2 => exact .named ⟨_, h, h2⟩

theorem upgrades_after (hR : Upgrades P decl R) (hS : Upgrades P decl S) : Upgrades P decl (After R S) := by
  rintro n n'' ⟨n', h1, h2⟩ f hf
  obtain ⟨f', g1, g2, g3⟩ := hR n n' h1 f hf
  obtain ⟨f'', g4, g5, g6⟩ := hS n' n'' h2 f' g1
  exact ⟨f'', g4, g5.trans g2, upgrade_after g3 g6⟩

/-! ### What is seen has the new type -/

theorem valsOf_mem {K α : Type} [DecidableEq K] {k : K} {x : α} {l : List (K × α)} : x ∈ valsOf k l ↔ (k, x) ∈ l := by
  unfold valsOf
  rw [List.mem_map]
  constructor
  · rintro ⟨⟨k', x'⟩, h1, rfl⟩
    rw [List.mem_filter, decide_eq_true_eq] at h1
    obtain ⟨h1, rfl⟩ := h1
    exact h1
  · intro h
    exact ⟨(k, x), List.mem_filter.2 ⟨h, by simp⟩, rfl⟩

theorem get_other {α β : Type} {l : List α} {l' : List β} (h : l.length = l'.length) {a : Nat} {x : α} (hx : l[a]? = some x) : ∃ y, l'[a]? = some y := by
  have : a < l'.length := h ▸ (List.getElem?_eq_some_iff.1 hx).1
  exact ⟨_, List.getElem?_eq_getElem this⟩

theorem mem_key {K α : Type} {k : K} {l : List (K × α)} (h : k ∈ l.map (·.1)) : ∃ x, (k, x) ∈ l := by
  obtain ⟨⟨k', x⟩, h1, rfl⟩ := List.mem_map.1 h
  exact ⟨x, h1⟩

theorem key_mem {K α : Type} {k : K} {x : α} {l : List (K × α)} (h : (k, x) ∈ l) : k ∈ l.map (·.1) := List.mem_map.2 ⟨_, h, rfl⟩

theorem hasTy_entries {i : P.ι} {t : P.Ty} {l : List ((P.key i).K × P.Val)} (h : HasTy P decl (.pairs i t) (.entries (P.tag i l)) ∨ HasTy P decl (.map i t) (.entries (P.tag i l))) :
    ∀ k x, (k, x) ∈ l → HasTy P decl t x := by
  generalize e : (NVal.entries (P.tag i l) : P.Val) = v at h
  rcases h with h | h
  · cases h with
    | pairs h =>
      have e := tag_inj (NVal.entries.inj e)
      subst e
      exact fun k x hx => h _ hx
  · cases h with
    | map _ h =>
      have e := tag_inj (NVal.entries.inj e)
      subst e
      exact fun k x hx => h _ hx

theorem view_typed (hU : Upgrades P decl R) {t t' : P.Ty} {y x : P.Val} (hv : View P decl t y t' x) : Upgrade P decl R t t' → HasTy P decl t' x → HasTy P decl t y := by
  induction hv with
  | json hw _ => intro _ _; exact .json hw
  | string => intro _ _; exact .string _
  | bool => intro _ _; exact .bool _
  | f64 => intro _ _; exact .f64 _
  | f32 => intro _ _; exact .f32 _
  | wider => intro _ _; exact .f64 _
  | float => intro _ _; exact .f64 _
  | int =>
    intro hu hx
    cases hu with
    | int h1 h2 =>
    cases hx with
    | int g1 g2 g3 g4 => exact .int (Int.le_trans h1 g1) (Int.le_trans g2 h2) g3 g4
  | vec hl _ ih =>
    intro hu hx
    cases hu with
    | vec hu =>
    cases hx with
    | vec hx =>
    refine .vec (fun y hy => ?_)
    obtain ⟨a, ha⟩ := List.mem_iff_getElem?.1 hy
    obtain ⟨x, hx'⟩ := get_other hl ha
    exact ih a y x ha hx' hu (hx x (List.mem_iff_getElem?.2 ⟨a, hx'⟩))
  | some hn _ ih =>
    intro hu hx
    cases hu with
    | some _ hu => exact .some (ih hu hx)
    | option => exact hn.elim
  | none => intro _ _; exact .none _
  | option _ ih =>
    intro hu hx
    cases hx with
    | some hx =>
    cases hu with
    | some hn => exact hn.elim
    | option _ hu => exact .some (ih hu hx)
  | @pairs i t t' l l' hl _ ih =>
    intro hu hx
    cases hu with
    | pairs _ hu =>
    refine .pairs (fun p hp => ?_)
    obtain ⟨k, y⟩ := p
    obtain ⟨a, ha⟩ := List.mem_iff_getElem?.1 (valsOf_mem.2 hp)
    obtain ⟨x, hx'⟩ := get_other (hl k) ha
    exact ih k a y x ha hx' hu (hasTy_entries (.inl hx) k x (valsOf_mem.1 (List.mem_iff_getElem?.2 ⟨a, hx'⟩)))
  | @map i t t' l l' hn hk _ ih =>
    intro hu hx
    cases hu with
    | map _ hu =>
    refine .map hn (fun p hp => ?_)
    obtain ⟨k, y⟩ := p
    obtain ⟨x, hx'⟩ := mem_key ((hk k).1 (key_mem hp))
    exact ih k y x hp hx' hu (hasTy_entries (.inr hx) k x hx')
  | listed => intro hu; cases hu
  | mapped => intro hu; cases hu
  | members => intro hu; cases hu
  | fields => intro hu; cases hu
  | @struct n n' l l' hl _ _ ih =>
    intro hu hx
    cases hu with
    | named hr =>
    cases hx with
    | struct hl' hx =>
    refine .struct hl (fun f hf y hy => ?_)
    obtain ⟨f', hf', e, hu⟩ := hU n n' hr f hf
    obtain ⟨x, hx'⟩ := mem_of_name (hl' ▸ kept_mem hf')
    exact ih f hf f' hf' e y x hy hx' hu (hx f' hf' x hx')

/-! ### What is seen of what is seen -/

theorem view_after (hD : Declared P decl) (hU : Upgrades P decl R) (hV : Upgrades P decl S) {t t' : P.Ty} {y x : P.Val} (hv : View P decl t y t' x) :
    Upgrade P decl R t t' → ∀ {t'' : P.Ty} {w : P.Val}, Upgrade P decl S t' t'' → View P decl t' x t'' w → View P decl t y t'' w := by
  induction hv with
  | json hw ha =>
    intro hu t'' w hs h2
    cases hu
    cases hs
    cases h2 with
    | json _ ha' => exact .json hw (ha.trans ha')
  | string => intro _ t'' w _ h2; exact h2
  | bool => intro _ t'' w _ h2; exact h2
  | f64 => intro _ t'' w _ h2; exact h2
  | f32 => intro _ t'' w _ h2; exact h2
  | wider => intro _ t'' w _ h2; cases h2; exact .wider _
  | float => intro _ t'' w _ h2; cases h2; exact .float ..
  | int => intro _ t'' w _ h2; cases h2; exact .int ..
  | @vec t t' l l' hl _ ih =>
    intro hu t'' w hs h2
    cases hu with
    | vec hu =>
    cases hs with
    | vec hs =>
    cases h2 with
    | vec hl' h2 =>
    refine .vec (hl.trans hl') (fun a y w hy hw => ?_)
    obtain ⟨x, hx⟩ := get_other hl hy
    exact ih a y x hy hx hu hs (h2 a x w hx hw)
  | some hn _ ih =>
    intro hu t'' w hs h2
    cases hu with
    | some _ hu => exact .some (upgrade_never hs hn) (ih hu hs h2)
    | option => exact hn.elim
  | none =>
    intro _ t'' w _ h2
    cases h2 with
    | none => exact .none ..
  | option _ ih =>
    intro hu t'' w hs h2
    cases hu with
    | some hn => exact hn.elim
    | option _ hu =>
    cases h2 with
    | some hn h2 =>
      cases hs with
      | some _ hs => exact .some hn (ih hu hs h2)
      | option => exact hn.elim
    | option h2 =>
      cases hs with
      | some hn => exact hn.elim
      | option _ hs => exact .option (ih hu hs h2)
  | @pairs i t t' l l' hl _ ih =>
    intro hu t'' w hs h2
    cases hu with
    | pairs _ hu =>
    cases hs with
    | pairs _ hs =>
    generalize e : (NVal.entries (P.tag i l') : P.Val) = v at h2
    cases h2 with
    | pairs hl' h2 =>
    have e := tag_inj (NVal.entries.inj e)
    subst e
    refine .pairs (fun k => (hl k).trans (hl' k)) (fun k a y w hy hw => ?_)
    obtain ⟨x, hx⟩ := get_other (hl k) hy
    exact ih k a y x hy hx hu hs (h2 k a x w hx hw)
  | @map i t t' l l' hn hk _ ih =>
    intro hu t'' w hs h2
    cases hu with
    | map _ hu =>
    cases hs with
    | map _ hs =>
    generalize e : (NVal.entries (P.tag i l') : P.Val) = v at h2
    cases h2 with
    | map _ hk' h2 =>
    have e := tag_inj (NVal.entries.inj e)
    subst e
    refine .map hn (fun k => (hk k).trans (hk' k)) (fun k y w hy hw => ?_)
    obtain ⟨x, hx⟩ := mem_key ((hk k).1 (key_mem hy))
    exact ih k y x hy hx hu hs (h2 k x w hx hw)
  | listed => intro hu; cases hu
  | mapped => intro hu; cases hu
  | members => intro hu; cases hu
  | fields => intro hu; cases hu
  | @struct n n' l l' hl _ hi ih =>
    intro hu t'' w hs h2
    cases hu with
    | named hr =>
    cases hs with
    | @named _ n'' hr' =>
    cases h2 with
    | struct hl' h2 _ =>
    refine .struct hl (fun f hf f'' hf'' e y w hy hw => ?_) hi
    obtain ⟨f', hf', e1, hu⟩ := hU n n' hr f hf
    obtain ⟨g, hg, e2, hs⟩ := hV n' n'' hr' f' hf'
    have : g = f'' := List.inj_on_of_nodup_map (hD.keys n'') hg hf'' ((e2.trans e1).trans e.symm)
    subst this
    obtain ⟨x, hx⟩ := mem_of_name (hl' ▸ kept_mem hf')
    exact ih f hf f' hf' e1 y x hy hx hu hs (h2 f' hf' g hg e2 x w hx hw)

/-! ### There is one thing to see -/

theorem view_unique (hD : Declared P decl) (hE : Evolves P decl R) {t t' : P.Ty} {y x : P.Val} (hv : View P decl t y t' x) :
    Compat P decl R t t' → HasTy P decl t' x → ∀ {z : P.Val}, View P decl t z t' x → Back P decl t y z := by
  induction hv with
  | json _ ha =>
    intro _ _ z h2
    cases h2 with
    | json _ ha' => exact .json (ha.trans ha'.symm)
  | string => intro _ _ z h2; cases h2; exact .string _
  | bool => intro _ _ z h2; cases h2; exact .bool _
  | f64 => intro _ _ z h2; cases h2; exact .f64 _
  | f32 => intro _ _ z h2; cases h2; exact .f32 _
  | wider => intro _ _ z h2; cases h2; exact .f64 _
  | float => intro _ _ z h2; cases h2; exact .f64 _
  | int => intro _ _ z h2; cases h2; exact .int ..
  | @vec t t' l l' hl _ ih =>
    intro hc hx z h2
    cases hc with
    | vec hc =>
    cases hx with
    | vec hx =>
    cases h2 with
    | vec hl' h2 =>
    refine .vec (hl.trans hl'.symm) (fun a y w hy hw => ?_)
    obtain ⟨x, hx'⟩ := get_other hl hy
    exact ih a y x hy hx' hc (hx x (List.mem_iff_getElem?.2 ⟨a, hx'⟩)) (h2 a w x hw hx')
  | some hn _ ih =>
    intro hc hx z h2
    cases hc with
    | some _ hc =>
      cases h2 with
      | some _ h2 => exact .some (ih hc hx h2)
      | none => exact hn.elim
      | option => exact hn.elim
    | option => exact hn.elim
  | none =>
    intro _ _ z h2
    cases h2 with
    | none => exact .none _
    | some hn => exact hn.elim
  | option _ ih =>
    intro hc hx z h2
    cases hx with
    | some hx =>
    cases hc with
    | some hn => exact hn.elim
    | option _ hc =>
    cases h2 with
    | some hn => exact hn.elim
    | option h2 => exact .some (ih hc hx h2)
  | @pairs i t t' l l' hl _ ih =>
    intro hc hx z h2
    cases hc with
    | pairs _ hc =>
    generalize e : (NVal.entries (P.tag i l') : P.Val) = v at h2
    cases h2 with
    | pairs hl' h2 =>
    have e := tag_inj (NVal.entries.inj e)
    subst e
    refine .pairs (fun k => (hl k).trans (hl' k).symm) (fun k a y w hy hw => ?_)
    obtain ⟨x, hx'⟩ := get_other (hl k) hy
    exact ih k a y x hy hx' hc (hasTy_entries (.inl hx) k x (valsOf_mem.1 (List.mem_iff_getElem?.2 ⟨a, hx'⟩))) (h2 k a w x hw hx')
  | @map i t t' l l' hn hk _ ih =>
    intro hc hx z h2
    cases hc with
    | map _ hc =>
    generalize e : (NVal.entries (P.tag i l') : P.Val) = v at h2
    cases h2 with
    | map hn' hk' h2 =>
    have e := tag_inj (NVal.entries.inj e)
    subst e
    refine .map hn' (fun k => (hk k).trans (hk' k).symm) (fun k y w hy hw => ?_)
    obtain ⟨x, hx'⟩ := mem_key ((hk k).1 (key_mem hy))
    exact ih k y x hy hx' hc (hasTy_entries (.inr hx) k x hx') (h2 k w x hw hx')
  | @listed i t t' l l' hn hk _ ih =>
    intro hc hx z h2
    cases hc with
    | listed _ hc =>
    generalize e : (NVal.entries (P.tag i l') : P.Val) = v at h2
    cases h2 with
    | @listed _ _ _ l2 _ hn' hk' h2 =>
    have e := tag_inj (NVal.entries.inj e)
    subst e
    have one : ∀ {l : List ((P.key i).K × P.Val)}, (l.map (·.1)).Nodup → ∀ k (a : Nat) y, (valsOf k l)[a]? = some y → (k, y) ∈ l :=
      fun _ k a y h => valsOf_mem.1 (List.mem_iff_getElem?.2 ⟨a, h⟩)
    refine .pairs (fun k => ?_) (fun k a y w hy hw => ?_)
    · rw [← hmGet_valsOf l hn, ← hmGet_valsOf l2 hn']
      by_cases hm : k ∈ l'.map (·.1)
      · obtain ⟨y, hy⟩ := mem_key ((hk k).2 hm)
        obtain ⟨w, hw⟩ := mem_key ((hk' k).2 hm)
        rw [hmGet_of_mem hn hy, hmGet_of_mem hn' hw]; rfl
      · have h3 : hmGet k l = none := by
          cases e : hmGet k l with
          | none => rfl
          | some y => exact absurd ((hk k).1 (key_mem (hmGet_mem e))) hm
        have h4 : hmGet k l2 = none := by
          cases e : hmGet k l2 with
          | none => rfl
          | some y => exact absurd ((hk' k).1 (key_mem (hmGet_mem e))) hm
        rw [h3, h4]
    · have hy := one hn k a y hy
      have hw := one hn' k a w hw
      obtain ⟨x, hx'⟩ := mem_key ((hk k).1 (key_mem hy))
      exact ih k y x hy hx' hc (hasTy_entries (.inr hx) k x hx') (h2 k w x hw hx')
  | @mapped i t t' l l' hn hk _ ih =>
    intro hc hx z h2
    cases hc with
    | mapped _ hc =>
    generalize e : (NVal.entries (P.tag i l') : P.Val) = v at h2
    cases h2 with
    | mapped hn' hk' h2 =>
    have e := tag_inj (NVal.entries.inj e)
    subst e
    refine .map hn' (fun k => (hk k).trans (hk' k).symm) (fun k y w hy hw => ?_)
    obtain ⟨x, hx'⟩ := mem_key ((hk k).1 (key_mem hy))
    cases e : (valsOf k l').getLast? with
    | none =>
      rw [List.getLast?_eq_none_iff] at e
      have := valsOf_mem.2 hx'
      rw [e] at this; cases this
    | some x =>
      exact ih k y x hy e hc (hasTy_entries (.inl hx) k x (valsOf_mem.1 (List.mem_of_getLast? e))) (h2 k w x hw e)
  | @members i t n' l l' hn hk _ ih =>
    intro hc hx z h2
    cases hc with
    | members _ _ hc =>
    cases hx with
    | struct hl' hx =>
    cases h2 with
    | members hn' hk' h2 =>
    refine .map hn' (fun k => (hk k).trans (hk' k).symm) (fun k y w hy hw => ?_)
    obtain ⟨f, hf, e⟩ := (hk k).1 (key_mem hy)
    obtain ⟨x, hx'⟩ := mem_of_name (hl' ▸ kept_mem hf)
    exact ih k y hy f hf e x hx' (hc f hf) (hx f hf x hx') (h2 k w hw f hf e x hx')
  | @fields i t n' l l' hn hk _ ih =>
    intro hc hx z h2
    cases hc with
    | fields _ _ hc =>
    cases hx with
    | struct hl' hx =>
    cases h2 with
    | @fields _ _ _ l2 _ hn' hk' h2 =>
    refine .pairs (fun k => ?_) (fun k a y w hy hw => ?_)
    · rw [← hmGet_valsOf l hn, ← hmGet_valsOf l2 hn']
      by_cases hm : k ∈ l.map (·.1)
      · obtain ⟨y, hy⟩ := mem_key hm
        obtain ⟨w, hw⟩ := mem_key ((hk' k).2 ((hk k).1 hm))
        rw [hmGet_of_mem hn hy, hmGet_of_mem hn' hw]; rfl
      · have h3 : hmGet k l = none := by
          cases e : hmGet k l with
          | none => rfl
          | some y => exact absurd (key_mem (hmGet_mem e)) hm
        have h4 : hmGet k l2 = none := by
          cases e : hmGet k l2 with
          | none => rfl
          | some y => exact absurd ((hk k).2 ((hk' k).1 (key_mem (hmGet_mem e)))) hm
        rw [h3, h4]
    · have hy := valsOf_mem.1 (List.mem_iff_getElem?.2 ⟨a, hy⟩)
      have hw := valsOf_mem.1 (List.mem_iff_getElem?.2 ⟨a, hw⟩)
      obtain ⟨f, hf, e⟩ := (hk k).1 (key_mem hy)
      obtain ⟨x, hx'⟩ := mem_of_name (hl' ▸ kept_mem hf)
      exact ih k y hy f hf e x hx' (hc f hf) (hx f hf x hx') (h2 k w hw f hf e x hx')
  | @struct n n' l l' hl _ _ ih =>
    intro hc hx z h2
    cases hc with
    | named hr =>
    cases hx with
    | struct hl' hx =>
    cases h2 with
    | struct hl2 h2 hi =>
    refine .struct hl hl2 (fun f hf y w hy hw => ?_) hi
    obtain ⟨f', hf', e, hc⟩ := hE n n' hr f hf
    obtain ⟨x, hx'⟩ := mem_of_name (hl' ▸ kept_mem hf')
    exact ih f hf f' hf' e y x hy hx' hc (hx f' hf' x hx') (h2 f hf f' hf' e w x hw hx')

end RJ
