import Verif.Proof.FnGram
import Verif.Proof.IeeeLit
import Verif.Proof.PathText
/-
  Canonical declarations are well-formed and canonical.
-/
namespace RJ
open Spec

theorem aval_canon_ok {v : AVal} (h : v.Ok) : v.canon.Ok := by
  cases v with
  | str v => exact h
  | flag b => exact h
  | num n ds suf => exact h

theorem aval_canon_twice (v : AVal) : v.canon.canon = v.canon := by cases v <;> rfl

mutual
theorem ann_canon_ok : ∀ (a : Ann), a.Ok → a.canon.Ok
  | .word _, h => h
  | .lit _, h => aval_canon_ok h
  | .pair _ _ _, h => ⟨h.1, aval_canon_ok h.2⟩
  | .list _ _ args _, h => ⟨by
      have := h.1
      cases args with
      | nil => exact absurd rfl this
      | cons a l => simp [annsCanon], anns_canon_ok args h.2⟩
theorem anns_canon_ok : ∀ (l : List Ann), AnnsOk l → AnnsOk (annsCanon l)
  | [], _ => trivial
  | a :: l, h => ⟨ann_canon_ok a h.1, anns_canon_ok l h.2⟩
end

mutual
theorem ann_canon_twice : ∀ (a : Ann), a.canon.canon = a.canon
  | .word _ => rfl
  | .lit v => by simp only [Ann.canon]; rw [aval_canon_twice]
  | .pair _ _ v => by simp only [Ann.canon]; rw [aval_canon_twice]
  | .list _ _ args _ => by simp only [Ann.canon]; rw [anns_canon_twice args]
theorem anns_canon_twice : ∀ (l : List Ann), annsCanon (annsCanon l) = annsCanon l
  | [] => rfl
  | a :: l => by simp only [annsCanon]; rw [ann_canon_twice a, anns_canon_twice l]
end

theorem tfield_canon_ok {f : TField} (h : f.Ok) : f.canon.Ok := ⟨anns_canon_ok _ h.1, h.2⟩

theorem nfield_canon_ok {f : NField} (h : f.Ok) : f.canon.Ok := ⟨anns_canon_ok _ h.1, h.2⟩

theorem tfield_canon_twice (f : TField) : f.canon.canon = f.canon := by simp [TField.canon, anns_canon_twice]

theorem nfield_canon_twice (f : NField) : f.canon.canon = f.canon := by simp [NField.canon, anns_canon_twice]

theorem shape_canon_ok {s : Shape} (h : s.Ok) : s.canon.Ok := by
  cases s with
  | unit => trivial
  | tuple l c =>
    refine ⟨by simpa using h.1, ?_⟩
    intro f hf
    obtain ⟨g, hg, rfl⟩ := List.mem_map.mp hf
    exact tfield_canon_ok (h.2 g hg)
  | named l c =>
    refine ⟨by simpa using h.1, ?_⟩
    intro f hf
    obtain ⟨g, hg, rfl⟩ := List.mem_map.mp hf
    exact nfield_canon_ok (h.2 g hg)

theorem shape_canon_twice (s : Shape) : s.canon.canon = s.canon := by
  cases s with
  | unit => rfl
  | tuple l c => simp [Shape.canon, Function.comp_def, tfield_canon_twice]
  | named l c => simp [Shape.canon, Function.comp_def, nfield_canon_twice]

theorem head_canon_ok {h : Head} (ho : h.Ok) : h.canon.Ok := ⟨anns_canon_ok _ ho.1, ho.2⟩

theorem head_canon_twice (h : Head) : h.canon.canon = h.canon := by simp [Head.canon, anns_canon_twice]

theorem structDecl_canon_ok {d : StructDecl} (h : d.Ok) : d.canon.Ok := by
  have hh := head_canon_ok h.1
  have hs := shape_canon_ok h.2
  unfold StructDecl.canon
  cases hd : d.shape with
  | unit => exact ⟨⟨hh.1, hh.2.1, by simp, by simp [joinWith]⟩, trivial⟩
  | tuple l c => rw [hd] at hs; exact ⟨hh, hs⟩
  | named l c => rw [hd] at hs; exact ⟨hh, hs⟩

theorem structDecl_canon_twice (d : StructDecl) : d.canon.canon = d.canon := by
  have e2 := shape_canon_twice d.shape
  unfold StructDecl.canon
  cases hd : d.shape with
  | unit => simp [Head.canon, anns_canon_twice]
  | tuple l c =>
    rw [hd] at e2
    dsimp only
    rw [show (Shape.tuple l c).canon = Shape.tuple (l.map TField.canon) false from rfl] at *
    dsimp only
    rw [head_canon_twice, e2]
  | named l c =>
    rw [hd] at e2
    dsimp only
    rw [show (Shape.named l c).canon = Shape.named (l.map NField.canon) true from rfl] at *
    dsimp only
    rw [head_canon_twice, e2]

theorem natOf_toDigits (n : Nat) : natOf (Nat.toDigits 10 n) = n := by
  have := (toDigits_spec n).2.1
  unfold Spec.decVal at this
  unfold natOf
  exact this

theorem discVal_canon (p : Bool × Str) : discVal (decide (discVal p < 0), Nat.toDigits 10 (natOf p.2)) = discVal p := by
  obtain ⟨b, ds⟩ := p
  unfold discVal
  simp only [natOf_toDigits]
  cases b
  · simp
  · by_cases h : natOf ds = 0
    · simp [h]
    · have : 0 < natOf ds := by omega
      simp [this]

theorem variant_canon_ok {v : Variant} (h : v.Ok) : v.canon.Ok := by
  obtain ⟨h1, h2, h3⟩ := h
  refine ⟨anns_canon_ok _ h1, shape_canon_ok h2, ?_⟩
  intro p hp
  unfold Variant.canon at hp
  dsimp only at hp
  cases hv : v.disc with
  | none => rw [hv] at hp; simp at hp
  | some q =>
    rw [hv] at hp
    simp only [Option.map_some, Option.some.injEq] at hp
    subst hp
    obtain ⟨_, _, a3, a4⟩ := h3 q hv
    rw [discVal_canon]
    exact ⟨(toDigits_spec _).2.2, (toDigits_spec _).1, a3, a4⟩

theorem variant_canon_disc {text : List Tok → Str} {v : Variant} (h : DiscOk text v) : DiscOk text v.canon := by
  intro ds hd
  unfold Variant.canon at hd
  dsimp only at hd
  cases hv : v.disc with
  | none => rw [hv] at hd; simp at hd
  | some q =>
    obtain ⟨b, ds'⟩ := q
    cases b with
    | true => exact h ds' hv
    | false =>
      rw [hv] at hd
      simp [discVal] at hd
      omega

theorem variant_canon_twice (v : Variant) : v.canon.canon = v.canon := by
  unfold Variant.canon
  dsimp only
  rw [anns_canon_twice, shape_canon_twice]
  cases v.disc with
  | none => rfl
  | some p => simp only [Option.map_some]; rw [discVal_canon, natOf_toDigits]

theorem enumDecl_canon_ok {d : EnumDecl} (h : d.Ok) : d.canon.Ok := by
  obtain ⟨h1, h2, h3⟩ := h
  refine ⟨head_canon_ok h1, by simpa [EnumDecl.canon] using h2, ?_⟩
  intro v hv
  obtain ⟨w, hw, rfl⟩ := List.mem_map.mp hv
  exact variant_canon_ok (h3 w hw)

theorem enumDecl_canon_disc {text : List Tok → Str} {d : EnumDecl} (h : ∀ v ∈ d.variants, DiscOk text v) : ∀ v ∈ d.canon.variants, DiscOk text v := by
  intro v hv
  obtain ⟨w, hw, rfl⟩ := List.mem_map.mp hv
  exact variant_canon_disc (h w hw)

theorem enumDecl_canon_twice (d : EnumDecl) : d.canon.canon = d.canon := by
  unfold EnumDecl.canon
  dsimp only
  rw [head_canon_twice]
  simp [Function.comp_def, variant_canon_twice]

theorem fnDecl_canon_ok {sp : Prop} {d : FnDecl} (h : d.Ok sp) : d.canon.Ok sp := ⟨head_canon_ok h.1, h.2⟩

theorem fnDecl_canon_twice (d : FnDecl) : d.canon.canon = d.canon := by
  unfold FnDecl.canon
  dsimp only
  rw [head_canon_twice]
  match d.ext with
  | none => rfl
  | some none => rfl
  | some (some s) => rfl

end RJ
