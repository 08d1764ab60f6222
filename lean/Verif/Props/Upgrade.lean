import Verif.Props.Compat
import Verif.Proof.Upgrade
/-
  C88: upgrades in steps.
-/
set_option linter.unusedSectionVars false
namespace RJ
open Spec
variable {F : Type} [FloatOps F]

/-- **C86, unique.** There is one thing to see of a value at a compatible type: two values that are what one sees of it are the same, up to what an observer cannot see (`Back`, see C77). -/
theorem C86_unique {P : Program F} {decl : P.N → Struct} (hD : Declared P decl) {R : P.N → P.N → Prop} (hE : Evolves P decl R) {t t' : P.Ty} (hc : Compat P decl R t t') {x y z : P.Val}
    (hx : HasTy P decl t' x) (hy : View P decl t y t' x) (hz : View P decl t z t' x) : Back P decl t y z := view_unique hD hE hy hc hx hz

/-- **C88, skipping versions.** A later version of a later version is a later version. -/
theorem C88_skip {P : Program F} {decl : P.N → Struct} {R S : P.N → P.N → Prop} (hR : Upgrades P decl R) (hS : Upgrades P decl S) :
    Upgrades P decl (After R S) ∧ ∀ t t' t'' : P.Ty, Upgrade P decl R t t' → Upgrade P decl S t' t'' → Upgrade P decl (After R S) t t'' :=
  ⟨upgrades_after hR hS, fun _ _ _ h1 h2 => upgrade_after h1 h2⟩

/-- What the proofs carry along a migration. -/
theorem migrated_view [LawfulCast F] {P : Program F} {decl : P.N → Struct} (hD : Declared P decl) {t0 t : P.Ty} {x0 y : P.Val} (hx : HasTy P decl t0 x0) (h : Migrated P decl t0 x0 t y) :
    ∃ R, Upgrades P decl R ∧ Upgrade P decl R t t0 ∧ HasTy P decl t y ∧ View P decl t y t0 x0 := by
  induction h with
  | @first R t j y hR hu hw ha hd =>
    obtain ⟨y', h1, h2⟩ := C86_compat hD (upgrades_evolve hR) (upgrade_compat hu) hx hw ha
    rw [hd] at h1
    cases h1
    exact ⟨R, hR, hu, view_typed hR h2 hu hx, h2⟩
  | @next R t t' x y j _ hR hu hw ha hd ih =>
    obtain ⟨S, hS, hs, hx', hv⟩ := ih
    obtain ⟨y', h1, h2⟩ := C86_compat hD (upgrades_evolve hR) (upgrade_compat hu) hx' hw ha
    rw [hd] at h1
    cases h1
    exact ⟨After R S, upgrades_after hR hS, upgrade_after hu hs, view_typed hR h2 hu hx', view_after hD hR hS h2 hu hs hv⟩

/-- **C88.** However often a value was read by a later version and written again on the way, what is read last is what one sees of the original value, and what the last version reads directly from the
original document. -/
theorem C88_steps [LawfulCast F] {P : Program F} {decl : P.N → Struct} (hD : Declared P decl) {t0 t : P.Ty} {x0 y : P.Val} (hx : HasTy P decl t0 x0) (h : Migrated P decl t0 x0 t y) :
    View P decl t y t0 x0 ∧ ∀ j : Json F, WF j → absJ j = absJ (P.enc t0 x0) → ∃ z, P.dec t j = .ok z ∧ Back P decl t y z := by
  obtain ⟨R, hR, hu, _, hv⟩ := migrated_view hD hx h
  refine ⟨hv, fun j hw ha => ?_⟩
  obtain ⟨z, h1, h2⟩ := C86_compat hD (upgrades_evolve hR) (upgrade_compat hu) hx hw ha
  exact ⟨z, h1, view_unique hD (upgrades_evolve hR) hv (upgrade_compat hu) hx h2⟩

/-- **C88, no dead end.** Every further version reads it. -/
theorem C88_next [LawfulCast F] {P : Program F} {decl : P.N → Struct} (hD : Declared P decl) {t0 t' t : P.Ty} {x0 x : P.Val} (hx : HasTy P decl t0 x0) (h : Migrated P decl t0 x0 t' x)
    {R : P.N → P.N → Prop} (hR : Upgrades P decl R) (hu : Upgrade P decl R t t') {j : Json F} (hw : WF j) (ha : absJ j = absJ (P.enc t' x)) :
    ∃ y, P.dec t j = .ok y ∧ Migrated P decl t0 x0 t y := by
  obtain ⟨_, _, _, hx', _⟩ := migrated_view hD hx h
  obtain ⟨y, h1, _⟩ := C86_compat hD (upgrades_evolve hR) (upgrade_compat hu) hx' hw ha
  exact ⟨y, h1, .next h hR hu hw ha h1⟩

/-- **C88, the limit.** Not so for all compatible changes: a `Vec<(K, bool)>` that is read as a `HashMap<K, bool>`, written, and read as a `Vec<(K, bool)>` again has lost the first of two pairs with
the same key, which a direct reading sees. -/
theorem C88_limit [LawfulCast F] {P : Program F} {decl : P.N → Struct} (hD : Declared P decl) {i : P.ι} (hk : KeysBack P i) (k : (P.key i).K) :
    ∃ (x0 x y z : P.Val) (j : Json F), HasTy P decl (.pairs i .bool) x0 ∧ j = P.enc (.pairs i .bool) x0 ∧ P.dec (.map i .bool) j = .ok x ∧
      P.dec (.pairs i .bool) (P.enc (.map i .bool) x) = .ok y ∧ P.dec (.pairs i .bool) j = .ok z ∧ Back P decl (.pairs i .bool) x0 z ∧ ¬ Back P decl (.pairs i .bool) x0 y := by
  have hE : Evolves P decl (fun _ _ => False) := fun _ _ h => h.elim
  let l0 : List ((P.key i).K × P.Val) := [(k, .bool true), (k, .bool false)]
  have hx : HasTy P decl (.pairs i .bool) (.entries (P.tag i l0)) := .pairs (by
    intro p hp
    rcases List.mem_cons.1 hp with rfl | hp
    · exact .bool _
    · rcases List.mem_cons.1 hp with rfl | hp
      · exact .bool _
      · cases hp)
  have hw := wf_encN hD hx
  obtain ⟨x, h1, h2⟩ := C86_compat hD hE (Compat.mapped hk .bool) hx hw rfl
  obtain ⟨z, h3, h4⟩ := C86_compat hD hE (Compat.pairs hk .bool) hx hw rfl
  have hxt : HasTy P decl (.map i .bool) x := by
    generalize e : (NVal.entries (P.tag i l0) : P.Val) = v at h2
    cases h2 with
    | mapped hn hkk h2 =>
      have e := tag_inj (NVal.entries.inj e)
      subst e
      refine .map hn (fun p hp => ?_)
      obtain ⟨k', y⟩ := p
      have hm := (hkk k').1 (key_mem hp)
      have hk' : k' = k := by
        have : k' = k ∨ k' = k := by simpa [l0] using hm
        exact this.elim id id
      subst hk'
      have h5 := h2 k' y (.bool false) hp (by simp [valsOf, l0])
      cases h5
      exact .bool _
  obtain ⟨y, h5, h6⟩ := C86_compat hD hE (Compat.listed hk .bool) hxt (wf_encN hD hxt) rfl
  refine ⟨_, x, y, z, _, hx, rfl, h1, h5, h3, ?_, fun hb => ?_⟩
  · have h7 : View P decl (.pairs i .bool) (.entries (P.tag i l0)) (.pairs i .bool) (.entries (P.tag i l0)) := by
      refine .pairs (fun _ => rfl) (fun k' a u v hu hv => ?_)
      rw [hu] at hv
      cases hv
      have := hasTy_entries (.inl hx) k' u (valsOf_mem.1 (List.mem_iff_getElem?.2 ⟨a, hu⟩))
      cases this
      exact .bool _
    exact view_unique hD hE h7 (Compat.pairs hk .bool) hx h4
  · cases h6 with
    | listed hn _ _ =>
      generalize e : (NVal.entries (P.tag i l0) : P.Val) = v at hb
      generalize e' : (NVal.entries (P.tag i _) : P.Val) = w at hb
      cases hb with
      | pairs hl _ =>
        have e := tag_inj (NVal.entries.inj e)
        subst e
        have e' := tag_inj (NVal.entries.inj e')
        subst e'
        have h7 := hl k
        rw [← hmGet_valsOf _ hn] at h7
        have h8 : (valsOf k l0).length = 2 := by simp [valsOf, l0]
        rw [h8] at h7
        cases h9 : hmGet k _ with
        | none => rw [h9] at h7; cases h7
        | some v => rw [h9] at h7; cases h7

/-! ### Example: three versions of a program -/

/-- The declarations: version 0 and 1 as in `fsProgram`, version 2 with the new `Dir` of `fs2Program`; `false` is `File`, `true` is `Dir`. -/
def fs3Decl : Fin 3 × Bool → Struct
  | (2, true) => dirDecl2
  | (_, b) => fsDecl b

/-- The types of the fields: sizes become larger, names optional; the fields of version 2 have other names. -/
def fs3Ty (n : Fin 3 × Bool) (f : Str) : NTy Unit (Fin 3 × Bool) :=
  if f = "size".toList then (if n.1 = 0 then .int "i32" (-(2 ^ 31)) (2 ^ 31 - 1) else if n.1 = 1 then .int "i64" (-(2 ^ 63)) (2 ^ 63 - 1) else .f64)
  else if f = "unpacked".toList then .option (.named (n.1, true))
  else if f = "name".toList then (if n.1 = 0 then .string else .option .string)
  else if f = "title".toList then .option .string
  else if f = "_files".toList then .vec (.named (n.1, false))
  else if f = "files".toList then .vec (.named (n.1, false))
  else .map () (.named (n.1, true))

/-- All three. -/
def fs3Program (F : Type) [FloatOps F] : Program F where
  ι := Unit
  eqι := inferInstance
  key _ := stringKey
  N := Fin 3 × Bool
  toks n := (fs3Decl n).toks
  fieldTy := fs3Ty
  dflt _ _ := .bool false

theorem fs3_decls (n : Fin 3 × Bool) : fs3Decl n = fileDecl ∨ fs3Decl n = dirDecl ∨ fs3Decl n = dirDecl2 := by
  obtain ⟨a, b⟩ := n
  match a, b with
  | 0, false => exact .inl rfl
  | 0, true => exact .inr (.inl rfl)
  | 1, false => exact .inl rfl
  | 1, true => exact .inr (.inl rfl)
  | 2, false => exact .inl rfl
  | 2, true => exact .inr (.inr rfl)

theorem fs3_declared : Declared (fs3Program F) fs3Decl where
  toks _ := rfl
  ok n := by rcases fs3_decls n with e | e | e <;> rw [e]; exacts [fileDecl_ok, dirDecl_ok, dirDecl2_ok]
  keys n := by rcases fs3_decls n with e | e | e <;> rw [e] <;> decide
  names n := by rcases fs3_decls n with e | e | e <;> rw [e] <;> decide

/-- Version `a + 1` of a struct after version `a`. -/
def fs3Later (a : Fin 3) (n n' : Fin 3 × Bool) : Prop := n.2 = n'.2 ∧ n'.1 = a ∧ n.1 = a + 1

theorem fs3_keys : KeysBack (fs3Program F) () := fun _ => rfl

theorem fs3_first : Upgrades (fs3Program F) fs3Decl (fs3Later 0) := by
  rintro ⟨a, b⟩ ⟨a', b'⟩ ⟨rfl, rfl, rfl⟩ f hf
  cases b with
  | false =>
    have hf : f ∈ fileDecl.kept := hf
    refine ⟨f, hf, rfl, ?_⟩
    simp only [file_kept, List.mem_cons, List.not_mem_nil, or_false] at hf
    rcases hf with rfl | rfl
    · exact .int (by decide) (by decide)
    · exact .option trivial (.named ⟨rfl, rfl, rfl⟩)
  | true =>
    have hf : f ∈ dirDecl.kept := hf
    refine ⟨f, hf, rfl, ?_⟩
    simp only [dir_kept, List.mem_cons, List.not_mem_nil, or_false] at hf
    rcases hf with rfl | rfl | rfl
    · exact .some trivial .string
    · exact .vec (.named ⟨rfl, rfl, rfl⟩)
    · exact .map fs3_keys (.named ⟨rfl, rfl, rfl⟩)

theorem fs3_second : Upgrades (fs3Program F) fs3Decl (fs3Later 1) := by
  rintro ⟨a, b⟩ ⟨a', b'⟩ ⟨rfl, rfl, rfl⟩ f hf
  cases b with
  | false =>
    have hf : f ∈ fileDecl.kept := hf
    refine ⟨f, hf, rfl, ?_⟩
    simp only [file_kept, List.mem_cons, List.not_mem_nil, or_false] at hf
    rcases hf with rfl | rfl
    · exact .float ..
    · exact .option trivial (.named ⟨rfl, rfl, rfl⟩)
  | true =>
    have hf : f ∈ dirDecl2.kept := hf
    have hk : dirDecl2.kept = [⟨[.key '=' (.cooked [.plain 'n', .plain 'a', .plain 'm', .plain 'e'])], none, "title".toList, [id' "Option", .punct '<', id' "String", .punct '>']⟩,
        ⟨[.key '=' (.cooked [.plain 'f'])], none, "files".toList, [id' "Vec", .punct '<', id' "File", .punct '>']⟩, ⟨[], none, "dirs".toList, [id' "Dirs"]⟩] := rfl
    simp only [hk, List.mem_cons, List.not_mem_nil, or_false] at hf
    rcases hf with rfl | rfl | rfl
    · exact ⟨⟨[], none, "name".toList, [id' "String"]⟩, by show _ ∈ dirDecl.kept; simp [dir_kept], rfl, .option trivial .string⟩
    · exact ⟨⟨[.key '=' (.cooked [.plain 'f'])], none, "_files".toList, [id' "Vec", .punct '<', id' "File", .punct '>']⟩,
        by show _ ∈ dirDecl.kept; simp [dir_kept], rfl, .vec (.named ⟨rfl, rfl, rfl⟩)⟩
    · exact ⟨⟨[], none, "dirs".toList, [id' "HashMap", .punct '<', id' "String", .punct ',', id' "Dir", .punct '>']⟩,
        by show _ ∈ dirDecl.kept; simp [dir_kept], rfl, .map fs3_keys (.named ⟨rfl, rfl, rfl⟩)⟩

/-- A directory (and all below it) as version 0 writes it, read and written again by version 1, is for version 2 what it reads from the file of version 0. -/
theorem C88_example [LawfulCast F] {x0 : (fs3Program F).Val} (hx : HasTy (fs3Program F) fs3Decl (.named (0, true)) x0) :
    ∃ x y z, (fs3Program F).dec (.named (1, true)) ((fs3Program F).enc (.named (0, true)) x0) = .ok x ∧
      (fs3Program F).dec (.named (2, true)) ((fs3Program F).enc (.named (1, true)) x) = .ok y ∧
      (fs3Program F).dec (.named (2, true)) ((fs3Program F).enc (.named (0, true)) x0) = .ok z ∧ Back (fs3Program F) fs3Decl (.named (2, true)) y z := by
  have hu1 : Upgrade (fs3Program F) fs3Decl (fs3Later 0) (.named (1, true)) (.named (0, true)) := .named ⟨rfl, rfl, rfl⟩
  have hu2 : Upgrade (fs3Program F) fs3Decl (fs3Later 1) (.named (2, true)) (.named (1, true)) := .named ⟨rfl, rfl, rfl⟩
  have hw := wf_encN fs3_declared hx
  obtain ⟨x, h1, h2⟩ := C86_compat fs3_declared (upgrades_evolve fs3_first) (upgrade_compat hu1) hx hw rfl
  have hm : Migrated (fs3Program F) fs3Decl (.named (0, true)) x0 (.named (1, true)) x := .first fs3_first hu1 hw rfl h1
  have hx' := view_typed fs3_first h2 hu1 hx
  obtain ⟨y, h3, h4⟩ := C88_next fs3_declared hx hm fs3_second hu2 (wf_encN fs3_declared hx') rfl
  obtain ⟨z, h5, h6⟩ := (C88_steps fs3_declared hx h4).2 _ hw rfl
  exact ⟨x, y, z, h1, h3, h5, h6⟩

/-- A file of version 0 that meets the hypothesis of such a theorem. -/
example : HasTy (fs3Program F) fs3Decl (.named (0, false)) (.struct [("size".toList, .int 7), ("unpacked".toList, .option none)]) := by
  refine .struct rfl ?_
  intro f hf x hx
  have hf : f ∈ fileDecl.kept := hf
  simp only [file_kept, List.mem_cons, List.not_mem_nil, or_false] at hf
  rcases hf with rfl | rfl <;> simp at hx <;> subst hx
  · exact .int (by decide) (by decide) (by decide) (by decide)
  · exact .none _

end RJ
