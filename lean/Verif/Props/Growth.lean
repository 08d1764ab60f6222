import Verif.Proof.Growth
import Verif.Props.History
import Verif.Props.Path
import Verif.Props.Accept
/-
  C89: documents grow only by what is put in.
-/
set_option linter.unusedSectionVars false
namespace RJ
open Spec
variable {F : Type}

/-! ### Single calls -/

/-- **C89.** After `set` a document has fewer values than before, those of the new value, and those built on the way to it, together: the value at the place is gone. -/
theorem C89_set (lim : Nat) (s : Str) (fs : List Finder) (hs : PathText s fs) (j v j' : Json F) (r : Ref F) (h : j.set lim s v = (j', .ok r)) :
    nodes j' < nodes j + nodes v + onTheWay fs := by
  obtain ⟨h0, p, hp, rfl⟩ := parsePath_of_text hs
  rw [set_of_text lim j v h0 hp] at h
  exact Path.update_nodes lim p j v j' r h

theorem Finder.update_null {lim : Nat} {f : Finder} {v j' : Json F} {r : Ref F} (h : f.update lim .null v = (j', .ok r)) : nodes j' = nodes v + onTheWay [f] := by
  cases f with
  | key k =>
    simp only [Finder.update, Prod.mk.injEq] at h
    obtain ⟨rfl, -⟩ := h
    simp only [mapInsert, nodes, nodesMap, nodesList, onTheWay]
    omega
  | index i =>
    simp only [Finder.update] at h
    by_cases hl : i + 1 ≤ lim
    · rw [if_pos hl] at h
      dsimp only at h
      cases hi : (Json.array (resizeNull ([] : List (Json F)) (i + 1))).indexMut (.index i) with
      | ok js =>
        rw [hi] at h
        simp only [Ref.assign, Prod.mk.injEq] at h
        obtain ⟨rfl, -⟩ := h
        have h1 := indexMut_ok hi
        have h2 := Finder.nodes_put h1 v
        have h3 : js.val = .null := by
          simp only [Finder.findMut] at h1
          cases hg : (resizeNull ([] : List (Json F)) (i + 1))[i]? with
          | none => rw [hg] at h1; cases h1
          | some y =>
            rw [hg] at h1
            cases h1
            have := List.mem_iff_getElem?.2 ⟨i, hg⟩
            simp only [resizeNull, List.nil_append] at this
            exact List.eq_of_mem_replicate this
        rw [h3] at h2
        simp only [nodes, resize_nodes, nodesList, List.length_nil] at h2
        simp only [onTheWay]
        omega
      | err e => rw [hi] at h; cases h
      | panic => rw [hi] at h; cases h
    · rw [if_neg hl] at h; cases h

theorem Path.update_null (lim : Nat) (p : Path) (v j' : Json F) (r : Ref F) (h : p.update lim .null v = (j', .ok r)) : nodes j' = nodes v + onTheWay (comps p) := by
  induction p generalizing j' r with
  | last f => exact Finder.update_null h
  | cons f p ih =>
    rcases Path.update_step lim f p .null v with ⟨j1, inner, hf, hc, hu⟩ | ⟨hu, _⟩
    · rw [hu] at h
      rcases hc with ⟨_, hc⟩ | ⟨_, hn, o, ho⟩
      · cases f <;> cases hc
      · rw [hn] at h
        cases hp : p.update lim .null v with
        | mk j2 o =>
          rw [hp] at h
          cases o with
          | ok r2 =>
            simp only [Prod.mk.injEq, Out.ok.injEq] at h
            obtain ⟨rfl, rfl⟩ := h
            have h2 := ih _ _ hp
            have h3 := Finder.nodes_put hf j2
            have h4 := Finder.update_null ho
            rw [hn] at h3
            have hway : onTheWay (comps (.cons f p)) = onTheWay [f] + onTheWay (comps p) := by cases f <;> simp [comps, onTheWay]
            omega
          | err e => simp at h
          | panic => simp at h
    · rw [hu] at h; simp at h

/-- **C89.** On `null` that is exact: the values of the new one and those built on the way. -/
theorem C89_set_null (lim : Nat) (s : Str) (fs : List Finder) (hs : PathText s fs) (v j' : Json F) (r : Ref F) (h : Json.null.set lim s v = (j', .ok r)) :
    nodes j' = nodes v + onTheWay fs := by
  obtain ⟨h0, p, hp, rfl⟩ := parsePath_of_text hs
  rw [set_of_text lim _ v h0 hp] at h
  exact Path.update_null lim p v j' r h

theorem Finder.discard_takes {f : Finder} {j j' x : Json F} (h : f.discard j = (j', .ok x)) : nodes j' + nodes x ≤ nodes j := by
  cases f with
  | key k =>
    cases j with
    | object m =>
      simp only [Finder.discard] at h
      have h1 := nodesMap_remove k m
      cases hm : mapGet k m with
      | none => rw [hm] at h; cases h
      | some e =>
        obtain ⟨y, l⟩ := e
        rw [hm] at h h1
        simp only [Prod.mk.injEq, Except.ok.injEq] at h
        obtain ⟨rfl, rfl⟩ := h
        simp only [entryNodes] at h1
        simp only [nodes]
        omega
    | _ => cases h
  | index i =>
    cases j with
    | array l =>
      simp only [Finder.discard] at h
      cases hm : l[i]? with
      | none => rw [hm] at h; cases h
      | some y =>
        rw [hm] at h
        simp only [Prod.mk.injEq, Except.ok.injEq] at h
        obtain ⟨rfl, rfl⟩ := h
        have := nodesList_erase hm
        simp only [nodes]
        omega
    | _ => cases h

theorem Path.discard_takes {p : Path} {j j' x : Json F} (h : p.discard j = (j', .ok x)) : nodes j' + nodes x ≤ nodes j := by
  induction p generalizing j j' x with
  | last f => exact Finder.discard_takes h
  | cons f p ih =>
    simp only [Path.discard] at h
    cases hf : f.findMut j with
    | error e => rw [hf] at h; simp at h
    | ok inner =>
      rw [hf] at h
      dsimp only at h
      cases hp : p.discard inner.val with
      | mk j2 o =>
        rw [hp] at h
        simp only [Prod.mk.injEq] at h
        obtain ⟨rfl, rfl⟩ := h
        have h1 := ih hp
        have h2 := Finder.nodes_put hf j2
        omega

/-- **C89.** `del` takes out the value it returns (and the older ones of its key). -/
theorem C89_del (s : Str) (j j' x : Json F) (h : j.del s = (j', .ok x)) : nodes j' + nodes x ≤ nodes j := by
  unfold Json.del at h
  by_cases h0 : s = []
  · rw [if_pos h0] at h; simp [fail] at h
  · rw [if_neg h0] at h
    cases hp : parsePath s with
    | ok p => rw [hp] at h; exact Path.discard_takes h
    | error e => rw [hp] at h; simp at h

/-- **C89.** `push` and `append` add exactly the new value: the older values of a key are kept. -/
theorem C89_push_append (j v j' : Json F) (k : Str) : (j.push v = (j', .ok ()) → nodes j' = nodes j + nodes v) ∧ (j.append k v = (j', .ok ()) → nodes j' = nodes j + nodes v) := by
  constructor
  · intro h
    cases j with
    | array l =>
      simp only [Json.push, Prod.mk.injEq] at h
      obtain ⟨rfl, -⟩ := h
      simp only [nodes, nodesList_append, nodesList]
      omega
    | _ => cases h
  · intro h
    cases j with
    | object o =>
      have h : (Json.object (objectInsert k v o), (Except.ok () : Res Unit)) = (j', .ok ()) := h
      simp only [Prod.mk.injEq] at h
      obtain ⟨rfl, -⟩ := h
      simp only [nodes, nodesMap_objectInsert]
      omega
    | _ => cases h

/-! ### Histories -/

theorem bad_text {s : Str} (h : ∀ fs, ¬ PathText s fs) : s = [] ∨ ∃ e, parsePath s = .error e := by
  by_cases h0 : s = []
  · exact .inl h0
  · rcases parsePath_spec s with ⟨p, ts, hp, h1, h2, _⟩ | ⟨e, ts, he, _⟩
    · exact absurd ⟨h0, ts, h1, (h2 _).2 rfl⟩ (h (comps p))
    · exact .inr ⟨e, he⟩

/-- What `set` comes to: nothing, a panic, or an update along the keys and indices the place stands for. -/
theorem run_set_cases (lim : Nat) (l : Loc) (v j : Json F) :
    (Call.run lim (.set l v) j).1 = j ∨ (Call.run lim (.set l v) j).2 = .panic ∨
    ∃ p r, l.Means (comps p) ∧ p.update lim j v = ((Call.run lim (.set l v) j).1, .ok r) := by
  have key : ∀ p : Path, l.Means (comps p) → (∀ a o, p.update lim j v = (a, o) → Call.run lim (.set l v) j = (a, match o with | .ok r => .value (absJ r.val) | .err e => .error e | .panic => .panic)) →
      (Call.run lim (.set l v) j).2 = .panic ∨ ∃ p r, l.Means (comps p) ∧ p.update lim j v = ((Call.run lim (.set l v) j).1, .ok r) := by
    intro p hm hr
    rcases Path.update_total lim p j v with ⟨j', r, h⟩ | ⟨⟨j', h⟩, _⟩
    · exact .inr ⟨p, r, hm, by rw [hr _ _ h, h]⟩
    · exact .inl (by rw [hr _ _ h])
  cases l with
  | text s =>
    by_cases hs : ∃ fs, PathText s fs
    · obtain ⟨fs, hs⟩ := hs
      obtain ⟨h0, p, hp, rfl⟩ := parsePath_of_text hs
      refine .inr (key p hs (fun a o h => ?_))
      simp only [Call.run, set_of_text lim j v h0 hp, h]
      cases o <;> rfl
    · rcases bad_text (fun fs h => hs ⟨fs, h⟩) with rfl | ⟨e, he⟩
      · exact .inl rfl
      · left
        simp only [Call.run, Json.set, he]
        by_cases h0 : s = []
        · rw [if_pos h0]
        · rw [if_neg h0]
  | path f r =>
    refine .inr (key (Path.build f r) (by rw [comps_build]; rfl) (fun a o h => ?_))
    simp only [Call.run, h]
    cases o <;> rfl

theorem run_nodes (lim : Nat) (c : Call F) (n : Nat) (hc : AddsAtMost c n) (j : Json F) (hp : (Call.run lim c j).2 ≠ .panic) : nodes (Call.run lim c j).1 ≤ nodes j + n := by
  have stay : ∀ {a : Json F}, a = j → nodes a ≤ nodes j + n := fun h => by subst h; exact Nat.le_add_right _ _
  cases c with
  | get l => cases l <;> exact stay rfl
  | set l v =>
    rcases run_set_cases lim l v j with h | h | ⟨p, r, hm, h⟩
    · exact stay h
    · exact absurd h hp
    · have h1 := Path.update_nodes lim p j v _ r h
      have h2 := hc v _ _ (.set hm)
      omega
  | del l =>
    cases l with
    | text s =>
      simp only [Call.run, Json.del]
      by_cases h0 : s = []
      · rw [if_pos h0]; exact stay rfl
      · rw [if_neg h0]
        cases hs : parsePath s with
        | ok p => have := Path.discard_nodes p j; dsimp only; omega
        | error e => exact stay rfl
    | path f r =>
      have := Path.discard_nodes (Path.build f r) j
      simp only [Call.run]
      omega
  | direct m => exact method_nodes m j n (fun d v h => by have := hc v d 0 (.direct h); omega)
  | via f r m =>
    simp only [Call.run] at hp ⊢
    cases hf : (Path.build f r).findMut j with
    | ok ref =>
      have h1 := Path.nodes_put hf (Method.call m ref.val).1
      have h2 := method_nodes m ref.val n (fun d v h => by have := hc v _ 0 (.via (f := f) (r := r) h); omega)
      simp only [Ref.call]
      omega
    | error e => exact stay rfl
  | index f r m =>
    simp only [Call.run] at hp ⊢
    cases hf : j.indexAll (f :: r) with
    | ok ref =>
      have h1 := indexAll_nodes hf (Method.call m ref.val).1
      have h2 := method_nodes m ref.val n (fun d v h => by have := hc v _ 0 (.index (f := f) (r := r) h); omega)
      simp only [Ref.call]
      omega
    | err e => exact stay rfl
    | panic => exact stay rfl

theorem runAll_step {lim : Nat} {c : Call F} {cs : List (Call F)} {j j' : Json F} (h : (runAll lim (c :: cs) j).2 = some j') :
    (Call.run lim c j).2 ≠ .panic ∧ (runAll lim cs (Call.run lim c j).1).2 = some j' := by
  rw [runAll] at h
  cases hr : Call.run lim c j with
  | mk a b =>
    rw [hr] at h
    cases b <;> first | exact ⟨by simp, h⟩ | cases h

/-- **C89.** Whatever calls are made: a document never has more values than it had and than the calls put in, together. -/
theorem C89_history (lim : Nat) (cs : List (Call F)) (n : Call F → Nat) (hc : ∀ c ∈ cs, AddsAtMost c (n c)) (j j' : Json F) (h : (runAll lim cs j).2 = some j') :
    nodes j' ≤ nodes j + (cs.map n).sum := by
  induction cs generalizing j with
  | nil => cases h; simp
  | cons c cs ih =>
    obtain ⟨hp, h⟩ := runAll_step h
    have h1 := ih (fun c h => hc c (List.mem_cons_of_mem _ h)) _ h
    have h2 := run_nodes lim c (n c) (hc c List.mem_cons_self) j hp
    simp only [List.map_cons, List.sum_cons]
    omega

theorem run_levels (lim : Nat) (D : Nat) (c : Call F) (hc : StaysAbove D c) (j : Json F) (hj : Levels D j) (hp : (Call.run lim c j).2 ≠ .panic) : Levels D (Call.run lim c j).1 := by
  cases c with
  | get l => cases l <;> exact hj
  | set l v =>
    rcases run_set_cases lim l v j with h | h | ⟨p, r, hm, h⟩
    · rw [h]; exact hj
    · exact absurd h hp
    · have h1 := hc v _ _ (.set hm)
      have h2 := h1 0 v (.self v)
      obtain ⟨E, rfl⟩ : ∃ E, D = E + (comps p).length := ⟨D - (comps p).length, by omega⟩
      exact Path.update_levels lim p j v _ r h hj (fun n x hx => by have := h1 n x hx; omega)
  | del l =>
    cases l with
    | text s =>
      simp only [Call.run, Json.del]
      by_cases h0 : s = []
      · rw [if_pos h0]; exact hj
      · rw [if_neg h0]
        cases hs : parsePath s with
        | ok p => exact Path.discard_levels p j hj
        | error e => exact hj
    | path f r => exact Path.discard_levels (Path.build f r) j hj
  | direct m => exact method_levels m j hj (fun d v h => hc v d 0 (.direct h))
  | via f r m =>
    simp only [Call.run] at hp ⊢
    cases hf : (Path.build f r).findMut j with
    | ok ref =>
      have hl : (comps (Path.build f r)).length = (f :: r).length := by rw [comps_build]
      by_cases hd : D ≤ (f :: r).length
      · exact absurd (Path.levels_put (D := 0) hf (levels_mono hj (by omega))).1 (levels_zero _)
      · obtain ⟨E, rfl⟩ : ∃ E, D = E + (comps (Path.build f r)).length := ⟨D - (f :: r).length, by omega⟩
        obtain ⟨h1, h2⟩ := Path.levels_put hf hj
        refine h2 _ (method_levels m ref.val h1 (fun d v h n x hx => ?_))
        have := hc v _ 0 (.via (f := f) (r := r) h) n x hx
        omega
    | error e => exact hj
  | index f r m =>
    simp only [Call.run] at hp ⊢
    cases hf : j.indexAll (f :: r) with
    | ok ref =>
      by_cases hd : D ≤ (f :: r).length
      · exact absurd (indexAll_levels (D := 0) hf (levels_mono hj (by omega))).1 (levels_zero _)
      · obtain ⟨E, rfl⟩ : ∃ E, D = E + (f :: r).length := ⟨D - (f :: r).length, by omega⟩
        obtain ⟨h1, h2⟩ := indexAll_levels hf hj
        refine h2 _ (method_levels m ref.val h1 (fun d v h n x hx => ?_))
        have := hc v _ 0 (.index (f := f) (r := r) h) n x hx
        omega
    | err e => exact hj
    | panic => exact hj

/-- **C89.** ... and never nests deeper than it did and than the calls put values: with `D` set to what the stack allows (C69, C84), printing it and parsing its text stay safe for ever. -/
theorem C89_levels (lim : Nat) (D : Nat) (cs : List (Call F)) (hc : ∀ c ∈ cs, StaysAbove D c) (j j' : Json F) (hj : Levels D j) (h : (runAll lim cs j).2 = some j') : Levels D j' := by
  induction cs generalizing j with
  | nil => cases h; exact hj
  | cons c cs ih =>
    obtain ⟨hp, h⟩ := runAll_step h
    exact ih (fun c h => hc c (List.mem_cons_of_mem _ h)) _ (run_levels lim D c (hc c List.mem_cons_self) j hj hp) h

/-! ### Texts -/

section
variable [FloatOps F]

theorem elems_nodes {n : Nat} (ih : ∀ (s : Str) (j : Json F), s.length ≤ n → parseRaw s = .ok j → 2 * nodes j ≤ s.length + 1) {body : Str} {js : List (Json F)}
    (h : ElemsR parseRaw body js) (hn : body.length ≤ n) : 2 * nodesList js ≤ body.length + 1 := by
  induction h with
  | one gs v hs hv =>
    have h1 := glyphs_squeeze_le IsWs gs
    have h2 := ih _ _ (Nat.le_trans h1 hn) hv
    simp only [nodesList]
    omega
  | cons gs v t vs hs hv ht iht =>
    simp only [List.length_append, List.length_cons] at hn ⊢
    have h1 := glyphs_squeeze_le IsWs gs
    have h2 := ih _ _ (by omega) hv
    have h3 := iht (by omega)
    simp only [nodesList]
    omega

theorem insertAll_nodes (ms : List (Str × Json F)) : ∀ m : Obj F, nodesMap (insertAll m ms) = nodesMap m + (ms.map (fun p => nodes p.2)).sum := by
  induction ms with
  | nil => intro m; simp [insertAll]
  | cons p ms ih =>
    intro m
    have : insertAll m (p :: ms) = insertAll (objectInsert p.1 p.2 m) ms := rfl
    rw [this, ih, nodesMap_objectInsert]
    simp only [List.map_cons, List.sum_cons]
    omega

theorem members_nodes {n : Nat} (ih : ∀ (s : Str) (j : Json F), s.length ≤ n → parseRaw s = .ok j → 2 * nodes j ≤ s.length + 1) {body : Str} {ms : List (Str × Json F)}
    (h : MembersR parseRaw body ms) (hn : body.length ≤ n) : 2 * (ms.map (fun p => nodes p.2)).sum ≤ body.length + 1 := by
  induction h with
  | one kg vg k v hk hkv hs hv =>
    simp only [List.length_append, List.length_cons] at hn ⊢
    have h2 := glyphs_squeeze_le ValueDrop vg
    have h4 := ih _ _ (by omega) hv
    simp only [List.map_cons, List.map_nil, List.sum_cons, List.sum_nil]
    omega
  | cons kg vg k v t ms hk hkv hs hv ht iht =>
    simp only [List.length_append, List.length_cons] at hn ⊢
    have h2 := glyphs_squeeze_le ValueDrop vg
    have h4 := ih _ _ (by omega) hv
    have h5 := iht (by omega)
    simp only [List.map_cons, List.sum_cons]
    omega

theorem raw_nodes : ∀ (n : Nat) (t : Str) (j : Json F), t.length ≤ n → parseRaw t = .ok j → 2 * nodes j ≤ t.length + 1 := by
  intro n
  induction n with
  | zero =>
    intro t j hn h
    rw [List.length_eq_zero_iff.1 (Nat.le_zero.1 hn)] at h
    exact absurd h (parse_nil_bad j)
  | succ n ih =>
    intro t j hn h
    rcases parseRaw_cases _ _ h with ⟨e, e'⟩ | ⟨e, e'⟩ | ⟨e, e'⟩ | ⟨f, e', hnum, hfin, c, s, hc, _⟩ | ⟨s, u, e', hu, hs⟩ | ⟨u, l, hu, e', ha⟩ | ⟨u, m, hu, e', ha⟩
    · rw [e, e']; simp [nodes]
    · rw [e, e']; simp [nodes]
    · rw [e, e']; simp [nodes]
    · rw [e', hc]; simp [nodes]
    · rw [e', hu]; simp [nodes]
    · subst hu
      unfold parseArray at ha
      simp only [List.drop_succ_cons, List.drop_zero] at ha
      by_cases hh : u.head? = some ']'
      · rw [if_pos hh] at ha
        rw [← Except.ok.inj ha]
        simp [nodes, nodesList]
      · rw [if_neg hh] at ha
        obtain ⟨b, js, w, h1, h2, h3, h4⟩ := arr_sound parseRaw j u.length u [] [] (Nat.le_refl _) (NoStop.nil _) ha
        have hlen : b.length ≤ n := by
          rw [h1] at hn; simp only [List.length_cons, List.length_append] at hn; omega
        have h5 := elems_nodes ih h4 (by simpa [glyphs] using hlen)
        rw [h3, h1, List.nil_append]
        simp only [nodes, List.length_append, List.length_cons]
        simp only [glyphs, List.flatMap_nil, List.nil_append] at h5
        omega
    · subst hu
      unfold parseObject at ha
      simp only [List.drop_succ_cons, List.drop_zero] at ha
      by_cases hh : u.head? = some '}'
      · rw [if_pos hh] at ha
        rw [← Except.ok.inj ha]
        simp [nodes, nodesMap]
      · rw [if_neg hh] at ha
        obtain ⟨b, js, w, h1, h2, h3, h4⟩ := obj_sound_key parseRaw j u.length u [] [] (Nat.le_refl _) (NoStop.nil _) ha
        have hlen : b.length ≤ n := by
          rw [h1] at hn; simp only [List.length_cons, List.length_append] at hn; omega
        have h5 := members_nodes ih h4 (by simpa [glyphs] using hlen)
        rw [h3, h1]
        simp only [nodes, insertAll_nodes, nodesMap, List.length_append, List.length_cons]
        simp only [glyphs, List.flatMap_nil, List.nil_append] at h5
        omega

/-- **C89.** A text of `n` characters is never read as more than `(n + 1) / 2` values. -/
theorem C89_parse (t : Str) (j : Json F) (h : Json.parse t = .ok j) : 2 * nodes j ≤ t.length + 1 := by
  obtain ⟨a, b, ha, hb, ht⟩ := trimWs_split t
  have h1 := raw_nodes (trimWs t).length (trimWs t) j (Nat.le_refl _) h
  have h2 : (trimWs t).length ≤ t.length := by
    have := congrArg List.length ht
    simp only [List.length_append] at this
    omega
  omega

end

/-! ### The bounds are reached -/

/-- Five characters in a path, a document of 10001 values: the bound of `C89_set` is met. -/
example : PathText "#9999".toList [.index 9999] ∧ onTheWay [.index 9999] = 10000 ∧
    ∀ j' r, (Json.null : Json Nat).set 10000 "#9999".toList .null = (j', .ok r) → nodes j' = 10001 := by
  have hp : PathText "#9999".toList [.index 9999] := by
    obtain ⟨p, hp⟩ : ∃ p, parsePath "#9999".toList = .ok p := ⟨_, rfl⟩
    rcases parsePath_spec "#9999".toList with ⟨q, ts, hq, h1, h2, _⟩ | ⟨e, ts, he, _⟩
    · refine ⟨by decide, ts, h1, (h2 _).2 ?_⟩
      cases hq; rfl
    · cases he
  exact ⟨hp, rfl, fun j' r h => C89_set_null 10000 _ _ hp _ _ _ h⟩

/-- The history of C70 without its panic: the values of the calls sum up to 7, and no value is put within 3 arrays and objects. -/
example : ∃ n : Call Nat → Nat, (∀ c ∈ sampleCalls.take 6, AddsAtMost c (n c)) ∧ ((sampleCalls.take 6).map n).sum = 7 ∧ (∀ c ∈ sampleCalls.take 6, StaysAbove 3 c) ∧ Levels 3 (.null : Json Nat) ∧
    ∃ j', (runAll 100 (sampleCalls.take 6) .null).2 = some j' ∧ nodes j' = 5 := by
  have leaf : ∀ {x : Json Nat}, (x = .null ∨ x = .boolean true) → ∀ n y, Inside n y x → n = 0 := by
    intro x hx n y hy
    rcases hx with rfl | rfl <;> cases hy <;> rfl
  have hp : ∀ fs, PathText "a.#1".toList fs → fs = [.key "a".toList, .index 1] := by
    intro fs h
    obtain ⟨_, p, h1, h2⟩ := parsePath_of_text h
    cases h1
    exact h2.symm
  refine ⟨fun c => match c with | .set _ _ => 4 | .index _ _ _ => 1 | .via _ _ _ => 1 | .direct (.append _ _) => 1 | _ => 0, ?_, rfl, ?_, ?_, _, rfl, rfl⟩
  · intro c hc
    simp only [sampleCalls, List.take_succ_cons, List.take_zero, List.mem_cons, List.not_mem_nil, or_false] at hc
    rcases hc with rfl | rfl | rfl | rfl | rfl | rfl <;> intro v d w h <;> cases h
    · rename_i fs h; rw [hp fs h]; decide
    · rename_i d h; cases h; decide
    · rename_i d h; cases h; decide
    · rename_i h; cases h; decide
    · rename_i h; cases h
  · intro c hc
    simp only [sampleCalls, List.take_succ_cons, List.take_zero, List.mem_cons, List.not_mem_nil, or_false] at hc
    rcases hc with rfl | rfl | rfl | rfl | rfl | rfl <;> intro v d w h n x hx <;> cases h
    · rename_i fs h; rw [hp fs h, leaf (.inr rfl) _ _ hx]; decide
    · rename_i d h; cases h; rw [leaf (.inl rfl) _ _ hx]; decide
    · rename_i d h; cases h; rw [leaf (.inl rfl) _ _ hx]; decide
    · rename_i h; cases h; rw [leaf (.inl rfl) _ _ hx]; decide
    · rename_i h; cases h
  · intro n x hx; rw [leaf (.inl rfl) _ _ hx]; decide

end RJ
