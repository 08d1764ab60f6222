import Verif.Proof.ItemLink
import Verif.Props.DeriveCases
/-
  C60-C65: the item parser (`json_parse`) on structs, enums, functions and attributes.
-/
set_option linter.unusedSectionVars false
namespace RJ
open Spec

/-! ### A printer with all the assumed laws -/

mutual
/-- A sample of `TokenStream::to_string` for one token. -/
def sampleTok : Tok → Str
  | .punct c => [c]
  | .ident s => s
  | .lit s => s
  | .group .paren g => '(' :: (sampleText g ++ [')'])
  | .group .bracket g => '[' :: (sampleText g ++ [']'])
  | .group _ g => '{' :: (sampleText g ++ ['}'])
/-- A space after every token but the minus sign and the last one. -/
def sampleText : List Tok → Str
  | [] => []
  | [t] => sampleTok t
  | t :: u :: r => sampleTok t ++ ((if t.isPunct '-' then [] else [' ']) ++ sampleText (u :: r))
end

/-- The laws are consistent. -/
theorem sample_prints : Prints sampleText ∧ Spaced sampleText ∧ Tight sampleText := by
  refine ⟨⟨fun s => by simp [sampleText, sampleTok, Tok.isPunct], fun s => by simp [sampleText, sampleTok, Tok.isPunct], fun g => ⟨_, by simp [sampleText, sampleTok, Tok.isPunct]; rfl⟩,
    fun g => ⟨_, by simp [sampleText, sampleTok, Tok.isPunct]; rfl⟩⟩, ?_, ?_⟩
  · intro f g rest hf
    cases rest with
    | nil => exact ⟨sampleText g ++ [')'], by simp [sampleText, sampleTok, Tok.isPunct]⟩
    | cons t r => exact ⟨sampleText g ++ ([')'] ++ ([' '] ++ sampleText (t :: r))), by simp [sampleText, sampleTok, Tok.isPunct]⟩
  · intro s
    simp [sampleText, sampleTok, Tok.isPunct]

/-! ### C60: structs -/

/-- **C60.** Every well-formed struct declaration - unit, tuple or named, with any attributes, visibility, generic parameters and where clauses - is
read as exactly that struct: same name, same fields in the same order with their attributes, visibilities and types, positions counted from 0. -/
theorem C60_structs (text : List Tok → Str) (d : StructDecl) (h : d.Ok) : ∃ s, AnyItem.parse text d.toks = some (.struct s) ∧ StructIs d s := by
  obtain ⟨s, h1, h2, _⟩ := structDecl_parse text h
  exact ⟨s, h1, h2⟩

/-- **C60**, on every token stream, well-formed or not: the derive macros see a struct with named fields exactly when the item parser does, and the same one. -/
theorem C60_macros_agree (text : List Tok → Str) (ts : List Tok) : (Item.parse ts).bind StructItem.named? = (AnyItem.parse text ts).bind AnyItem.named? :=
  parsers_agree text ts

/-! ### C61: enums -/

/-- **C61.** Every well-formed enum declaration is read as exactly that enum: the variants in order, each with its attributes, name, fields and
discriminant.  Negative discriminants are read if the compiler prints `-1` without a space. -/
theorem C61_enums (text : List Tok → Str) (hT : Prints text) (d : EnumDecl) (h : d.Ok) (hN : (∃ v ∈ d.variants, ∃ ds, v.disc = some (true, ds)) → Tight text) :
    ∃ e, AnyItem.parse text d.toks = some (.enum e) ∧ EnumIs d e := by
  obtain ⟨e, h1, h2, _⟩ := enumDecl_parse hT h (fun v hv ds hd => hN ⟨v, hv, ds, hd⟩)
  exact ⟨e, h1, h2⟩

/-! ### C62: functions -/

/-- **C62.** Every well-formed function declaration is read as exactly that function: the qualifiers, the ABI, the name, the generic parameters, the
parameters in order with names and types, the result type, the where clauses and the body. -/
theorem C62_functions (text : List Tok → Str) (hT : Prints text) (d : FnDecl) (h : d.Ok (Spaced text)) :
    ∃ f, AnyItem.parse text d.toks = some (.fn f) ∧ FnIs d f := by
  obtain ⟨f, h1, h2, _⟩ := fnDecl_parse hT h
  exact ⟨f, h1, h2⟩

/-! ### C63: `to_string` -/

/-- **C63.** A struct is written back as its canonical declaration; parsing and writing that again changes nothing. -/
theorem C63_structs (text : List Tok → Str) (d : StructDecl) (h : d.Ok) :
    ∃ x y, AnyItem.parse text d.toks = some x ∧ x.toks = d.canon.toks ∧ AnyItem.parse text x.toks = some y ∧ y.toks = x.toks := by
  obtain ⟨s, h1, _, h2⟩ := structDecl_parse text h
  obtain ⟨t, h3, _, h4⟩ := structDecl_parse text (structDecl_canon_ok h)
  refine ⟨.struct s, .struct t, h1, h2, ?_, ?_⟩
  · rw [show (AnyItem.struct s).toks = d.canon.toks from h2]; exact h3
  · rw [show (AnyItem.struct s).toks = d.canon.toks from h2, show (AnyItem.struct t).toks = d.canon.canon.toks from h4, structDecl_canon_twice]

/-- **C63**, enums. -/
theorem C63_enums (text : List Tok → Str) (hT : Prints text) (d : EnumDecl) (h : d.Ok) (hN : (∃ v ∈ d.variants, ∃ ds, v.disc = some (true, ds)) → Tight text) :
    ∃ x y, AnyItem.parse text d.toks = some x ∧ x.toks = d.canon.toks ∧ AnyItem.parse text x.toks = some y ∧ y.toks = x.toks := by
  have hD : ∀ v ∈ d.variants, DiscOk text v := fun v hv ds hd => hN ⟨v, hv, ds, hd⟩
  obtain ⟨s, h1, _, h2⟩ := enumDecl_parse hT h hD
  obtain ⟨t, h3, _, h4⟩ := enumDecl_parse hT (enumDecl_canon_ok h) (enumDecl_canon_disc hD)
  refine ⟨.enum s, .enum t, h1, h2, ?_, ?_⟩
  · rw [show (AnyItem.enum s).toks = d.canon.toks from h2]; exact h3
  · rw [show (AnyItem.enum s).toks = d.canon.toks from h2, show (AnyItem.enum t).toks = d.canon.canon.toks from h4, enumDecl_canon_twice]

/-- **C63**, functions. -/
theorem C63_functions (text : List Tok → Str) (hT : Prints text) (d : FnDecl) (h : d.Ok (Spaced text)) :
    ∃ x y, AnyItem.parse text d.toks = some x ∧ x.toks = d.canon.toks ∧ AnyItem.parse text x.toks = some y ∧ y.toks = x.toks := by
  obtain ⟨s, h1, _, h2⟩ := fnDecl_parse hT h
  obtain ⟨t, h3, _, h4⟩ := fnDecl_parse hT (fnDecl_canon_ok h)
  refine ⟨.fn s, .fn t, h1, h2, ?_, ?_⟩
  · rw [show (AnyItem.fn s).toks = d.canon.toks from h2]; exact h3
  · rw [show (AnyItem.fn s).toks = d.canon.toks from h2, show (AnyItem.fn t).toks = d.canon.canon.toks from h4, fnDecl_canon_twice]

/-! ### C64: attributes and their accessors -/

theorem annsAre_cons {a : Ann} {as : List Ann} {l : List RMeta} (h : AnnsAre (a :: as) l) : ∃ m ms, l = m :: ms ∧ AnnIs a m ∧ AnnsAre as ms := h

/-- **C64.** `idents()`: the words, in order. -/
theorem C64_idents : ∀ {l : List Ann} {its : List RMeta}, AnnsAre l its → metaIdents its = l.filterMap Ann.word?
  | [], its, h => by rw [show its = [] from h]; rfl
  | a :: as, its, h => by
    obtain ⟨m, ms, rfl, h1, h2⟩ := annsAre_cons h
    have ih := C64_idents h2
    unfold metaIdents at ih ⊢
    cases a with
    | word s => rw [show m = .ident s from h1]; simp [Ann.word?, ih]
    | lit v => obtain ⟨x, rfl, _⟩ := h1; exact ih
    | pair k eq v => obtain ⟨x, rfl, _⟩ := h1; exact ih
    | list k d args c => obtain ⟨x, rfl, _⟩ := h1; exact ih

/-- **C64.** `literals()`: the literals, in order. -/
theorem C64_literals : ∀ {l : List Ann} {its : List RMeta}, AnnsAre l its → (metaLiterals its).map RLit.lit = l.filterMap Ann.lit?
  | [], its, h => by rw [show its = [] from h]; rfl
  | a :: as, its, h => by
    obtain ⟨m, ms, rfl, h1, h2⟩ := annsAre_cons h
    have ih := C64_literals h2
    unfold metaLiterals at ih ⊢
    cases a with
    | word s => rw [show m = .ident s from h1]; exact ih
    | lit v => obtain ⟨x, rfl, hx⟩ := h1; simp [Ann.lit?, ih, hx]
    | pair k eq v => obtain ⟨x, rfl, _⟩ := h1; exact ih
    | list k d args c => obtain ⟨x, rfl, _⟩ := h1; exact ih

/-- **C64.** `get(n)`: the `n`-th among the words and literals. -/
theorem C64_get_index : ∀ {l : List Ann} {its : List RMeta}, AnnsAre l its → ∀ n : Nat, OptTwo AnnIs (l.filter Ann.single)[n]? (metaNth its n)
  | [], its, h, n => by rw [show its = [] from h]; trivial
  | a :: as, its, h, n => by
    obtain ⟨m, ms, rfl, h1, h2⟩ := annsAre_cons h
    have ih := C64_get_index h2
    have skip : ∀ x : RMeta, x.isSingle = false → metaNth (x :: ms) n = metaNth ms n := by
      intro x hx
      unfold metaNth
      rw [List.filter_cons_of_neg]
      simp [hx]
    have take : ∀ x : RMeta, x.isSingle = true →
        metaNth (x :: ms) n = (x :: ms.filter RMeta.isSingle)[n]? := by
      intro x hx
      unfold metaNth
      rw [List.filter_cons_of_pos hx]
    cases a with
    | word s =>
      have h1' : m = .ident s := h1
      rw [List.filter_cons_of_pos rfl, take _ (by rw [h1']; rfl)]
      cases n with
      | zero => exact h1
      | succ k => rw [List.getElem?_cons_succ, List.getElem?_cons_succ]; exact ih k
    | lit v =>
      have h1' := h1
      obtain ⟨x, rfl, _⟩ := h1
      rw [List.filter_cons_of_pos rfl, take _ rfl]
      cases n with
      | zero => exact h1'
      | succ k => rw [List.getElem?_cons_succ, List.getElem?_cons_succ]; exact ih k
    | pair k eq v =>
      obtain ⟨x, rfl, _⟩ := h1
      rw [List.filter_cons_of_neg (by simp [Ann.single]), skip _ rfl]; exact ih n
    | list k d args c =>
      obtain ⟨x, rfl, _⟩ := h1
      rw [List.filter_cons_of_neg (by simp [Ann.single]), skip _ rfl]; exact ih n

/-- **C64.** `get("key")`: the value of the first pair with that key. -/
theorem C64_get_key (key : Str) : ∀ {l : List Ann} {its : List RMeta}, AnnsAre l its → (metaGet key its).map RLit.lit = (l.filterMap (Ann.value? key)).head?
  | [], its, h => by rw [show its = [] from h]; rfl
  | a :: as, its, h => by
    obtain ⟨m, ms, rfl, h1, h2⟩ := annsAre_cons h
    have ih := C64_get_key key h2
    cases a with
    | word s => rw [show m = .ident s from h1]; exact ih
    | lit v => obtain ⟨x, rfl, hx⟩ := h1; exact ih
    | pair k eq v =>
      obtain ⟨x, rfl, hx⟩ := h1
      rw [metaGet]
      by_cases hk : k = key
      · simp [Ann.value?, hk, hx]
      · simpa [Ann.value?, hk] using ih
    | list k d args c => obtain ⟨x, rfl, _⟩ := h1; exact ih

theorem optTwo_map_some {α β : Type} {R : α → β → Prop} {a : α} {b : β} (h : R a b) : OptTwo R (some a) (some b) := h

/-- **C64.** `get(("name", ()))`: the items of the first list with that name. -/
theorem C64_get_group (name : Str) : ∀ {l : List Ann} {its : List RMeta}, AnnsAre l its → OptTwo AnnsAre (l.filterMap (Ann.items? name)).head? (metaGroup name its)
  | [], its, h => by rw [show its = [] from h]; trivial
  | a :: as, its, h => by
    obtain ⟨m, ms, rfl, h1, h2⟩ := annsAre_cons h
    have ih := C64_get_group name h2
    cases a with
    | word s => rw [show m = .ident s from h1]; exact ih
    | lit v => obtain ⟨x, rfl, hx⟩ := h1; exact ih
    | pair k eq v => obtain ⟨x, rfl, hx⟩ := h1; exact ih
    | list k d args c =>
      obtain ⟨x, rfl, hx⟩ := h1
      rw [metaGroup]
      by_cases hk : k = name
      · rw [if_pos hk, List.filterMap_cons_some (b := args) (by simp [Ann.items?, hk])]; exact hx
      · rw [if_neg hk, List.filterMap_cons_none (by simp [Ann.items?, hk])]; exact ih

/-- **C64.** `get(("name", "key"))`: the first pair with that key in the first list with that name. -/
theorem C64_get_nested (name key : Str) {l : List Ann} {its : List RMeta} (h : AnnsAre l its) :
    (metaIn name (metaGet key) its).map RLit.lit = (l.filterMap (Ann.items? name)).head?.bind (fun args => (args.filterMap (Ann.value? key)).head?) := by
  have hg := C64_get_group name h
  unfold metaIn
  cases ha : (l.filterMap (Ann.items? name)).head? with
  | none =>
    rw [ha] at hg
    cases hm : metaGroup name its with
    | none => rfl
    | some b => rw [hm] at hg; exact hg.elim
  | some args =>
    rw [ha] at hg
    cases hm : metaGroup name its with
    | none => rw [hm] at hg; exact hg.elim
    | some b => rw [hm] at hg; exact C64_get_key key hg

theorem mapGet_collect {α : Type} (key : Str) : ∀ (l m : List (Str × α)), mapGet key (l.foldl (fun m p => mapInsert p.1 p.2 m) m) =
    ((l.filterMap (fun p => if p.1 = key then some p.2 else none)).getLast?).or (mapGet key m)
  | [], m => by simp
  | p :: l, m => by
    rw [List.foldl_cons, mapGet_collect key l, mapGet_insert]
    by_cases hk : p.1 = key
    · rw [if_pos hk, List.filterMap_cons_some (b := p.2) (by simp [hk])]
      cases hl : (l.filterMap (fun p => if p.1 = key then some p.2 else none)) with
      | nil => simp
      | cons a b => simp [List.getLast?_cons_cons, List.getLast?_eq_some_getLast]
    · rw [if_neg hk, List.filterMap_cons_none (by simp [hk])]

/-- **C64.** `pairs()[key]`: the value of the LAST pair with that key. -/
theorem C64_pairs (key : Str) {l : List Ann} {its : List RMeta} (h : AnnsAre l its) : (mapGet key (metaPairs its)).map RLit.lit = (l.filterMap (Ann.value? key)).getLast? := by
  unfold metaPairs collectMap
  rw [mapGet_collect]
  have : ∀ {l : List Ann} {its : List RMeta}, AnnsAre l its →
      ((its.filterMap RMeta.pairOf).filterMap (fun p : Str × RLit => if p.1 = key then some p.2 else none)).map RLit.lit = l.filterMap (Ann.value? key) := by
    intro l
    induction l with
    | nil => intro its h; rw [show its = [] from h]; rfl
    | cons a as ih =>
      intro its h
      obtain ⟨m, ms, rfl, h1, h2⟩ := annsAre_cons h
      have ih := ih h2
      cases a with
      | word s => rw [show m = .ident s from h1]; exact ih
      | lit v => obtain ⟨x, rfl, hx⟩ := h1; exact ih
      | pair k eq v =>
        obtain ⟨x, rfl, hx⟩ := h1
        rw [List.filterMap_cons_some (f := RMeta.pairOf) (b := (k, x)) rfl]
        by_cases hk : k = key
        · rw [List.filterMap_cons_some (b := x) (by simp [hk]), List.filterMap_cons_some (b := v.lit) (by simp [Ann.value?, hk]), List.map_cons, ih, hx]
        · rw [List.filterMap_cons_none (by simp [hk]), List.filterMap_cons_none (by simp [Ann.value?, hk]), ih]
      | list k d args c => obtain ⟨x, rfl, _⟩ := h1; exact ih
  rw [← this h, List.getLast?_map, show mapGet key ([] : List (Str × RLit)) = none from rfl, Option.or_none]

/-- **C64.** The keys of `pairs()` are pairwise different, and they are the keys that occur. -/
theorem C64_pairs_keys {l : List Ann} {its : List RMeta} (h : AnnsAre l its) (key : Str) :
    (mapGet key (metaPairs its)).isSome = true ↔ ∃ eq v, Ann.pair key eq v ∈ l := by
  have hp := C64_pairs key h
  have : (mapGet key (metaPairs its)).isSome = ((l.filterMap (Ann.value? key)).getLast?).isSome := by rw [← hp]; simp
  rw [this, List.getLast?_isSome]
  constructor
  · intro hne
    obtain ⟨x, hx⟩ := List.exists_mem_of_ne_nil _ hne
    obtain ⟨a, ha, hax⟩ := List.mem_filterMap.mp hx
    cases a with
    | pair k eq v =>
      unfold Ann.value? at hax
      by_cases hk : k = key
      · subst hk; exact ⟨eq, v, ha⟩
      · simp [hk] at hax
    | _ => cases hax
  · rintro ⟨eq, v, hm⟩ he
    have : v.lit ∈ l.filterMap (Ann.value? key) := List.mem_filterMap.mpr ⟨_, hm, by simp [Ann.value?]⟩
    rw [he] at this
    cases this

/-- **C64.** `groups()[name]`: the items of the LAST list with that name. -/
theorem C64_groups (name : Str) {l : List Ann} {its : List RMeta} (h : AnnsAre l its) : OptTwo AnnsAre (l.filterMap (Ann.items? name)).getLast? (mapGet name (metaGroups its)) := by
  unfold metaGroups collectMap
  rw [mapGet_collect]
  have : ∀ {l : List Ann} {its : List RMeta}, AnnsAre l its →
      AllTwo AnnsAre (l.filterMap (Ann.items? name)) ((its.filterMap RMeta.groupOf).filterMap (fun p : Str × List RMeta => if p.1 = name then some p.2 else none)) := by
    intro l
    induction l with
    | nil => intro its h; rw [show its = [] from h]; trivial
    | cons a as ih =>
      intro its h
      obtain ⟨m, ms, rfl, h1, h2⟩ := annsAre_cons h
      have ih := ih h2
      cases a with
      | word s => rw [show m = .ident s from h1]; exact ih
      | lit v => obtain ⟨x, rfl, hx⟩ := h1; exact ih
      | pair k eq v => obtain ⟨x, rfl, hx⟩ := h1; exact ih
      | list k d args c =>
        obtain ⟨x, rfl, hx⟩ := h1
        rw [List.filterMap_cons_some (f := RMeta.groupOf) (b := (k, x)) rfl]
        by_cases hk : k = name
        · rw [List.filterMap_cons_some (f := fun p : Str × List RMeta => if p.1 = name then some p.2 else none) (b := x) (by simp [hk]), List.filterMap_cons_some (f := Ann.items? name) (b := args) (by simp [Ann.items?, hk])]; exact ⟨hx, ih⟩
        · rw [List.filterMap_cons_none (f := fun p : Str × List RMeta => if p.1 = name then some p.2 else none) (by simp [hk]), List.filterMap_cons_none (f := Ann.items? name) (by simp [Ann.items?, hk])]; exact ih
  have hl : ∀ (as : List (List Ann)) (bs : List (List RMeta)), AllTwo AnnsAre as bs → OptTwo AnnsAre as.getLast? bs.getLast? := by
    intro as
    induction as with
    | nil => intro bs hb; cases bs <;> [trivial; exact hb.elim]
    | cons a as ih =>
      intro bs hb
      cases bs with
      | nil => exact hb.elim
      | cons b bs =>
        have h2 := ih bs hb.2
        cases as with
        | nil =>
          cases bs with
          | nil => exact hb.1
          | cons _ _ => exact hb.2.elim
        | cons a2 as =>
          cases bs with
          | nil => exact hb.2.elim
          | cons b2 bs => rw [List.getLast?_cons_cons, List.getLast?_cons_cons]; exact h2
  have := hl _ _ (this h)
  simpa [mapGet] using this

end RJ
