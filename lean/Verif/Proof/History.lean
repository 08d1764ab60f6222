import Verif.Model.History
import Verif.Props.Errors
import Verif.Props.Ops
/-
  The model follows the specification of histories, call by call.
-/
set_option linter.unusedSectionVars false
namespace RJ
open Spec
variable {F : Type}

/-! ### Methods -/

theorem kindErr_obj {α : Type} (j : Json F) : (kindErr "object" j : Res α) = .error (wrongKind "object".toList (absJ j)) := by
  unfold kindErr failS wrongKind
  rw [kindWord_abs]
  simp [say]

theorem kindErr_arr {α : Type} (j : Json F) : (kindErr "array" j : Res α) = .error (wrongKind "array".toList (absJ j)) := by
  unfold kindErr failS wrongKind
  rw [kindWord_abs]
  simp [say]

/-- The method does what the specification says. -/
def Agrees (m : Method F) (j : Json F) : Prop :=
  (absJ (Method.call m j).1, (Method.call m j).2) = m.spec (absJ j) ∧ WF (Method.call m j).1

theorem agrees_err {m : Method F} {j : Json F} (hw : WF j) {e : Error} (h1 : Method.call m j = (j, .error e)) (h2 : m.spec (absJ j) = (absJ j, .error e)) : Agrees m j := by
  unfold Agrees; rw [h1, h2]; exact ⟨rfl, hw⟩

theorem absList_length (l : List (Json F)) : (absList l).length = l.length := by rw [absList_eq, List.length_map]

theorem method_agrees (m : Method F) (j : Json F) (hw : WF j) (hm : m.WF) : Agrees m j := by
  cases m with
  | read => exact ⟨rfl, hw⟩
  | assign v => exact ⟨rfl, hm⟩
  | insert k v =>
    cases j with
    | object o =>
      obtain ⟨m', h1, h2, h3⟩ := call_step (.insert k v) o hw hm
      have h1 : (Json.object o).insert k v = (.object m', .ok ()) := h1
      unfold Agrees
      simp only [Method.call, h1, sawUnit, absJ, h3, Method.spec, ObjOp.spec]
      exact ⟨trivial, h2⟩
    | _ => refine agrees_err hw (e := wrongKind "object".toList (absJ _)) ?_ rfl; simp only [Method.call, Json.insert, Json.addOption, kindErr_obj, sawUnit]
  | append k v =>
    cases j with
    | object o =>
      obtain ⟨m', h1, h2, h3⟩ := call_step (.append k v) o hw hm
      have h1 : (Json.object o).append k v = (.object m', .ok ()) := h1
      unfold Agrees
      simp only [Method.call, h1, sawUnit, absJ, h3, Method.spec, ObjOp.spec]
      exact ⟨trivial, h2⟩
    | _ => refine agrees_err hw (e := wrongKind "object".toList (absJ _)) ?_ rfl; simp only [Method.call, Json.append, Json.addOption, kindErr_obj, sawUnit]
  | delete k =>
    cases j with
    | object o =>
      obtain ⟨m', h1, h2, h3⟩ := call_step (.delete k) o hw trivial
      have h1 : (Json.object o).delete k = (.object m', .ok ()) := h1
      unfold Agrees
      simp only [Method.call, h1, sawUnit, absJ, h3, Method.spec, ObjOp.spec]
      exact ⟨trivial, h2⟩
    | _ => refine agrees_err hw (e := wrongKind "object".toList (absJ _)) ?_ rfl; simp only [Method.call, Json.delete, kindErr_obj, sawUnit]
  | merge k =>
    cases j with
    | object o =>
      refine ⟨?_, hw⟩
      simp only [Method.call, Json.indexAndMerge, absJ, Method.spec, absMap_eq]
      cases mapGet k o with
      | none => simp only [missingKey_say, if_true]; rfl
      | some p => simp [absList_eq]
    | _ => refine agrees_err hw (e := wrongKind "object".toList (absJ _)) ?_ rfl; simp only [Method.call, Json.indexAndMerge, kindErr_obj]
  | push v =>
    cases j with
    | array l =>
      refine ⟨?_, ?_⟩
      · simp [Method.call, Json.push, sawUnit, absJ, Method.spec, absList_eq]
      · show WF (.array (l ++ [v]))
        rw [wf_array_iff] at hw ⊢
        intro x hx
        rcases List.mem_append.mp hx with h | h
        · exact hw x h
        · simp only [List.mem_singleton] at h; exact h ▸ hm
    | _ => refine agrees_err hw (e := wrongKind "array".toList (absJ _)) ?_ rfl; simp only [Method.call, Json.push, kindErr_arr, sawUnit]
  | replace i v =>
    cases j with
    | array l =>
      unfold Agrees
      simp only [Method.call, Json.replace, absJ, Method.spec, absList_length]
      by_cases h : i < l.length
      · rw [if_pos h, List.getElem?_eq_getElem h]
        simp only [sawUnit, absJ, absList_set l i v h]
        refine ⟨trivial, ?_⟩
        rw [wf_array_iff] at hw ⊢
        intro x hx
        rcases List.mem_or_eq_of_mem_set hx with hx | rfl
        · exact hw x hx
        · exact hm
      · rw [if_neg h, List.getElem?_eq_none (by omega)]
        simp only [indexErr_say, sawUnit, absJ]
        exact ⟨rfl, hw⟩
    | _ => refine agrees_err hw (e := wrongKind "array".toList (absJ _)) ?_ rfl; simp only [Method.call, Json.replace, kindErr_arr, sawUnit]
  | remove i =>
    cases j with
    | array l =>
      unfold Agrees
      simp only [Method.call, Json.remove, absJ, Method.spec, absList_length]
      by_cases h : i < l.length
      · rw [if_pos h, if_pos h]
        simp only [absJ, absList_eq, List.eraseIdx_eq_take_drop_succ, List.map_append, List.map_take, List.map_drop]
        refine ⟨trivial, ?_⟩
        rw [wf_array_iff] at hw ⊢
        intro x hx
        rw [← List.eraseIdx_eq_take_drop_succ] at hx
        exact hw x (List.mem_of_mem_eraseIdx hx)
      · rw [if_neg h, if_neg h]
        exact ⟨rfl, hw⟩
    | _ => refine agrees_err hw (e := wrongKind "array".toList (absJ _)) ?_ rfl; simp only [Method.call, Json.remove, kindErr_arr, Out.ofRes]

/-! ### Paths -/

theorem finder_complaint (f : Finder) (j : Json F) (e : Error) (h : f.find j = .error e) : complaint f (absJ j) = e := by
  have h := find_blame f j e h
  obtain ⟨k, m⟩ := e
  dsimp only at h
  cases f with
  | key q =>
    generalize absJ j = d at h ⊢
    cases h with
    | missing _ => rfl
    | notObject hn => cases d <;> first | rfl | exact absurd rfl (hn _)
  | index q =>
    generalize absJ j = d at h ⊢
    cases h with
    | range _ => rfl
    | notArray hn => cases d <;> first | rfl | exact absurd rfl (hn _)

theorem look_step (f : Finder) (r : List Finder) (x : Val F) : look (f :: r) x = (look [f] x).bind (look r) := by
  cases f with
  | key k =>
    cases x with
    | obj m => simp only [look]; cases (m k).getLast? <;> rfl
    | _ => rfl
  | index i =>
    cases x with
    | arr m => simp only [look]; cases m[i]? <;> rfl
    | _ => rfl

theorem path_fault (p : Path) (j : Json F) :
    fault (comps p) (absJ j) = match p.find j with | .ok _ => none | .error e => some e := by
  induction p generalizing j with
  | last f =>
    simp only [comps, fault, Path.find, Finder.find_look]
    cases h : f.find j with
    | ok x => rfl
    | error e => simp only [finder_complaint f j e h]
  | cons f p ih =>
    simp only [comps, fault, Path.find, Finder.find_look]
    cases h : f.find j with
    | ok x => exact ih x
    | error e => simp only [finder_complaint f j e h]

theorem path_ref (p : Path) (j : Json F) (r : Ref F) (h : p.findMut j = .ok r) (hw : WF j) :
    look (comps p) (absJ j) = some (absJ r.val) ∧ (∀ y, absJ (r.put y) = change (comps p) (absJ y) (absJ j)) ∧ WF r.val ∧ ∀ y, WF y → WF (r.put y) := by
  induction p generalizing j r with
  | last f =>
    simp only [Path.findMut] at h
    have hl := (Finder.abs_put h r.val).2
    refine ⟨hl, fun y => ?_, Finder.wf_put h hw⟩
    simp only [comps, change, hl, (Finder.abs_put h y).1]
  | cons f p ih =>
    simp only [Path.findMut] at h
    cases hf : f.findMut j with
    | error e => rw [hf] at h; cases h
    | ok inner =>
      rw [hf] at h
      dsimp only at h
      cases hp : p.findMut inner.val with
      | error e => rw [hp] at h; cases h
      | ok r2 =>
        rw [hp] at h
        cases h
        have hl := (Finder.abs_put hf r2.val).2
        have hin := Finder.wf_put hf hw
        obtain ⟨h1, h2, h3, h4⟩ := ih inner.val r2 hp hin.1
        refine ⟨?_, fun y => ?_, h3, fun y hy => hin.2 _ (h4 y hy)⟩
        · rw [comps, look_step, hl]; exact h1
        · simp only [comps, change, hl, (Finder.abs_put hf _).1, h2]

theorem build_cons (f g : Finder) (r : List Finder) : Path.build f (g :: r) = .cons f (Path.build g r) := by
  have : ∀ (r : List Finder) (p : Path), r.foldl Path.append (.cons f p) = .cons f (r.foldl Path.append p) := by
    intro r
    induction r with
    | nil => intro p; rfl
    | cons h r ih => intro p; rw [List.foldl_cons, List.foldl_cons, Path.append]; exact ih _
  exact this r (.last g)

/-- The index operators one after the other: `find_mut` with a panic instead of an error. -/
theorem indexAll_build (f : Finder) (r : List Finder) (j : Json F) :
    j.indexAll (f :: r) = match (Path.build f r).findMut j with | .ok x => .ok x | .error _ => .panic := by
  induction r generalizing f j with
  | nil =>
    show (match j.indexMut f with | .ok inner => _ | .err e => _ | .panic => _) = _
    simp only [Json.indexMut, Path.build, List.foldl_nil, Path.findMut]
    cases f.findMut j with
    | ok x => rfl
    | error e => rfl
  | cons g r ih =>
    rw [build_cons, Path.findMut, Json.indexAll]
    unfold Json.indexMut
    cases f.findMut j with
    | error e => rfl
    | ok inner =>
      dsimp only
      rw [ih]
      cases (Path.build g r).findMut inner.val with
      | ok x => rfl
      | error e => rfl

/-! ### `set` and its panic -/

theorem finder_room (lim : Nat) (f : Finder) (j v : Json F) : RoomFor lim [f] (absJ j) ↔ ∃ j' r, f.update lim j v = (j', .ok r) := by
  simp only [RoomFor, Finder.find_look]
  cases f with
  | key k =>
    rcases Finder.update_cases lim (.key k) j v with ⟨j', r, h, _⟩ | ⟨_, h⟩
    · refine ⟨fun _ => ⟨j', r, h⟩, fun _ => ?_⟩
      cases (Finder.key k).find j with
      | ok x => trivial
      | error e => exact ⟨trivial, trivial⟩
    · exact absurd trivial h
  | index i =>
    cases hf : (Finder.index i).find j with
    | ok x =>
      refine ⟨fun _ => ?_, fun _ => trivial⟩
      rcases Finder.update_cases lim (.index i) j v with ⟨j', r, h, _⟩ | ⟨h, _⟩
      · exact ⟨j', r, h⟩
      · exfalso
        cases j with
        | array l =>
          have hi : ¬ i ≥ l.length := by
            intro hi
            simp only [Finder.find, List.getElem?_eq_none hi] at hf
            rw [indexErr_say] at hf; cases hf
          simp only [Finder.update, if_neg hi, Json.indexMut, Finder.findMut, List.getElem?_eq_getElem (show i < l.length by omega), Ref.assign] at h
          exact nomatch congrArg Prod.snd h
        | _ => cases hf
    | error e =>
      refine ⟨fun h => ?_, fun ⟨j', r, h⟩ => ⟨?_, trivial⟩⟩
      · rcases Finder.update_cases lim (.index i) j v with ⟨j', r, h, _⟩ | ⟨_, h'⟩
        · exact ⟨j', r, h⟩
        · exact absurd h.1 h'
      · show i < lim
        by_cases h2 : i + 1 ≤ lim
        · omega
        · exfalso
          cases j with
          | array l =>
            have hi : i ≥ l.length := by
              by_cases hi : i ≥ l.length
              · exact hi
              · simp only [Finder.find, List.getElem?_eq_getElem (show i < l.length by omega)] at hf
                cases hf
            simp only [Finder.update, if_pos hi, if_neg h2] at h
            cases h
          | _ => simp only [Finder.update, if_neg h2] at h; cases h

theorem room_cons (lim : Nat) (f : Finder) (r : List Finder) (d : Val F) :
    RoomFor lim (f :: r) d ↔ RoomFor lim [f] d ∧ RoomFor lim r ((look [f] d).getD .null) := by
  simp only [RoomFor]
  cases look [f] d with
  | some x => simp
  | none => simp

/-- `update` succeeds exactly if there is room, and panics otherwise. -/
theorem path_room (lim : Nat) (p : Path) (j v : Json F) :
    (RoomFor lim (comps p) (absJ j) ∧ ∃ j' r, p.update lim j v = (j', .ok r)) ∨ (¬ RoomFor lim (comps p) (absJ j) ∧ ∃ j', p.update lim j v = (j', .panic)) := by
  induction p generalizing j with
  | last f =>
    have h := finder_room lim f j v
    by_cases hr : RoomFor lim (comps (.last f)) (absJ j)
    · exact .inl ⟨hr, h.mp hr⟩
    · refine .inr ⟨hr, ?_⟩
      rcases Finder.update_cases lim f j v with ⟨j', r, h', _⟩ | ⟨h', _⟩
      · exact absurd (h.mpr ⟨j', r, h'⟩) hr
      · exact ⟨j, h'⟩
  | cons f p ih =>
    rw [comps, room_cons]
    cases hf : f.findMut j with
    | ok inner =>
      have hfind : f.find j = .ok inner.val := by rw [Finder.find_eq, hf]
      have h1 : RoomFor lim [f] (absJ j) := by simp only [RoomFor, Finder.find_look, hfind]
      have h2 : (look [f] (absJ j)).getD .null = absJ inner.val := by rw [Finder.find_look, hfind]; rfl
      rw [h2]
      simp only [Path.update, hfind, hf]
      rcases ih inner.val with ⟨h3, j2, r2, h4⟩ | ⟨h3, j2, h4⟩
      · rw [h4]; exact .inl ⟨⟨h1, h3⟩, _, _, rfl⟩
      · rw [h4]; exact .inr ⟨fun h => h3 h.2, _, rfl⟩
    | error e =>
      have hfind : f.find j = .error e := by rw [Finder.find_eq, hf]
      have h2 : (look [f] (absJ j)).getD .null = absJ (.null : Json F) := by rw [Finder.find_look, hfind]; rfl
      rw [h2]
      simp only [Path.update, hfind]
      rcases Finder.update_cases lim f j .null with ⟨j1, r, h5, h6, _⟩ | ⟨h5, _⟩
      · rw [h5]
        simp only [h6]
        have h1 := (finder_room lim f j .null).mpr ⟨j1, r, h5⟩
        rcases ih .null with ⟨h3, j2, r2, h4⟩ | ⟨h3, j2, h4⟩
        · rw [h4]; exact .inl ⟨⟨h1, h3⟩, _, _, rfl⟩
        · rw [h4]; exact .inr ⟨fun h => h3 h.2, _, rfl⟩
      · rw [h5]
        refine .inr ⟨fun h => ?_, _, rfl⟩
        obtain ⟨j', r, h'⟩ := (finder_room lim f j .null).mp h.1
        rw [h5] at h'; cases h'

/-! ### Texts that are not paths -/

theorem bad_path (lim : Nat) (s : Str) (hs : ¬ ∃ fs, PathText s fs) (j v : Json F) :
    ∃ e, BadPath s e ∧ j.get s = .error e ∧ j.del s = (j, .error e) ∧ j.set lim s v = (j, .err e) := by
  obtain ⟨t, r, ht⟩ := pieces_exist s.length s (Nat.le_refl _)
  by_cases h0 : s = []
  · subst h0
    exact ⟨⟨.PathSyntaxError, "invalid syntax: empty path.".toList⟩, ⟨rfl, .inl ⟨rfl, rfl⟩⟩, rfl, rfl, rfl⟩
  · obtain ⟨e, hk, h1, h2, h3, h4⟩ := C49_path_syntax lim s _ ht hs j v
    refine ⟨e, ⟨hk, ?_⟩, h1, ?_, ?_⟩
    · rcases h4 with ⟨h, _⟩ | ⟨pre, x, post, h5, h6, h7, h8⟩
      · exact absurd h h0
      · exact .inr ⟨h0, pre, x, post, h5 ▸ ht, h6, h7, h8⟩
    · refine Prod.ext ?_ h2
      exact (C25_del s j).2 e h1
    · refine Prod.ext ?_ h3
      have := C21_error_only_for_syntax lim s j v (j.set lim s v).1 e (Prod.ext rfl h3)
      exact this.2.2

theorem badPath_noText {s : Str} {e : Error} (h : BadPath s e) : ¬ ∃ fs, PathText s fs := by
  rintro ⟨fs, h0, ts, h1, h2⟩
  rcases h.2 with ⟨h, _⟩ | ⟨_, pre, x, post, h1', h3, h4, _⟩
  · exact h0 h
  · have : ts = pre ++ ('#' :: x) :: post := by rw [← cut_pieces h1, ← cut_pieces h1']
    subst this
    clear h1 h1' h
    induction pre generalizing fs with
    | nil =>
      cases h2 with
      | cons hc _ =>
        obtain ⟨s', hs, hn⟩ := h4
        simp only [List.cons.injEq, true_and] at hs
        subst hs
        cases hc with
        | index hi => exact hn ⟨_, hi⟩
        | plain _ h1 _ => exact h1 rfl
    | cons t pre ih =>
      cases h2 with
      | cons _ hr => exact ih _ (fun t ht => h3 t (List.mem_cons_of_mem _ ht)) hr

theorem badPath_unique {s : Str} {e e' : Error} (h : BadPath s e) (h' : BadPath s e') : e = e' := by
  obtain ⟨k, m⟩ := e
  obtain ⟨k', m'⟩ := e'
  obtain ⟨hk, h⟩ := h
  obtain ⟨hk', h'⟩ := h'
  dsimp only at hk hk' h h'
  subst hk hk'
  rcases h with ⟨h0, h⟩ | ⟨h0, pre, x, post, h3, h4, h5, h⟩
  · rcases h' with ⟨_, h'⟩ | ⟨h0', _⟩
    · rw [h, h']
    · exact absurd h0 h0'
  · rcases h' with ⟨h0', _⟩ | ⟨_, pre', x', post', h3', h4', h5', h'⟩
    · exact absurd h0' h0
    · have heq : pre ++ ('#' :: x) :: post = pre' ++ ('#' :: x') :: post' := by rw [← cut_pieces h3, ← cut_pieces h3']
      clear h3 h3'
      have hx : x = x' := by
        induction pre generalizing pre' with
        | nil =>
          cases pre' with
          | nil => simp only [List.nil_append, List.cons.injEq, true_and] at heq; exact heq.1
          | cons t pre' =>
            simp only [List.nil_append, List.cons_append, List.cons.injEq] at heq
            exact absurd (heq.1 ▸ h5) (h4' t List.mem_cons_self)
        | cons t pre ih =>
          cases pre' with
          | nil =>
            simp only [List.nil_append, List.cons_append, List.cons.injEq] at heq
            exact absurd (heq.1 ▸ h5') (h4 t List.mem_cons_self)
          | cons t' pre' =>
            simp only [List.cons_append, List.cons.injEq] at heq
            exact ih (fun t ht => h4 t (List.mem_cons_of_mem _ ht)) pre' (fun t ht => h4' t (List.mem_cons_of_mem _ ht)) heq.2
      rw [h, h', hx]

/-! ### Calls -/

theorem run_get (lim : Nat) (l : Loc) (p : Path) (j : Json F) (hm : l.Means (comps p)) : Step lim (.get l) (absJ j) (absJ j) (sawValue (p.find j)) := by
  have h1 := Path.find_look p j
  have h2 := path_fault p j
  cases hp : p.find j with
  | ok x => rw [hp] at h1; exact .get hm h1
  | error e => rw [hp] at h2; exact .getFault hm h2

theorem run_del (lim : Nat) (l : Loc) (p : Path) (j : Json F) (hw : WF j) (hm : l.Means (comps p)) :
    Step lim (.del l) (absJ j) (absJ (p.discard j).1) (sawValue (p.discard j).2) ∧ WF (p.discard j).1 := by
  have h1 := Path.find_look p j
  have h2 := path_fault p j
  rw [Path.discard_result]
  cases hp : p.find j with
  | ok x =>
    rw [hp] at h1
    obtain ⟨h3, h4⟩ := Path.discard_abs p j x hw hp
    rw [h3]
    exact ⟨.del hm h1, h4⟩
  | error e =>
    rw [hp] at h2
    rw [Path.discard_fail p j e hp]
    exact ⟨.delFault hm h2, hw⟩

/-- What the caller sees of `set`. -/
def sawSet : Out (Ref F) → Saw F
  | .ok r => .value (absJ r.val)
  | .err e => .error e
  | .panic => .panic

theorem run_set (lim : Nat) (l : Loc) (p : Path) (j v : Json F) (hw : WF j) (hv : WF v) (hm : l.Means (comps p)) :
    (∃ d', Step lim (.set l v) (absJ j) d' (sawSet (p.update lim j v).2) ∧ (sawSet (p.update lim j v).2 ≠ .panic → d' = absJ (p.update lim j v).1)) ∧ WF (p.update lim j v).1 := by
  refine ⟨?_, Path.update_wf lim p j v hw hv⟩
  rcases path_room lim p j v with ⟨h1, j', r, h2⟩ | ⟨h1, j', h2⟩
  · rw [h2]
    have h3 := (Path.update_get lim p j v j' r h2).2
    refine ⟨_, ?_, fun _ => rfl⟩
    show Step lim _ _ (absJ j') (.value (absJ r.val))
    rw [h3, Path.update_abs lim p j v j' r h2]
    exact .set hm h1
  · rw [h2]
    exact ⟨_, .setPanic hm h1, fun h => absurd rfl h⟩

theorem run_ref (f : Finder) (r : List Finder) (m : Method F) (j : Json F) (ref : Ref F) (h : (Path.build f r).findMut j = .ok ref) (hw : WF j) (hm : m.WF) :
    (look (f :: r) (absJ j) = some (absJ ref.val) ∧ absJ (ref.call m).1 = change (f :: r) (m.spec (absJ ref.val)).1 (absJ j) ∧ (ref.call m).2 = (m.spec (absJ ref.val)).2) ∧ WF (ref.call m).1 := by
  obtain ⟨h1, h2, h3, h4⟩ := path_ref _ _ _ h hw
  rw [comps_build] at h1 h2
  obtain ⟨h5, h6⟩ := method_agrees m ref.val h3 hm
  refine ⟨⟨h1, ?_, ?_⟩, h4 _ h6⟩
  · show absJ (ref.put (Method.call m ref.val).1) = _
    rw [h2, ← h5]
  · show (Method.call m ref.val).2 = _
    rw [← h5]

theorem path_err (f : Finder) (r : List Finder) (j : Json F) (e : Error) (h : (Path.build f r).findMut j = .error e) : fault (f :: r) (absJ j) = some e := by
  have h1 := path_fault (Path.build f r) j
  rw [comps_build, Path.find_eq, h] at h1
  exact h1

/-- One call does what the specification says. -/
theorem run_step (lim : Nat) (c : Call F) (j : Json F) (hw : WF j) (hc : c.WF) :
    (∃ d', Step lim c (absJ j) d' (Call.run lim c j).2 ∧ ((Call.run lim c j).2 ≠ .panic → d' = absJ (Call.run lim c j).1)) ∧ WF (Call.run lim c j).1 := by
  cases c with
  | get l =>
    cases l with
    | text s =>
      refine ⟨⟨absJ j, ?_, fun _ => rfl⟩, hw⟩
      by_cases ht : ∃ fs, PathText s fs
      · obtain ⟨fs, ht⟩ := ht
        obtain ⟨h0, p, hp, rfl⟩ := parsePath_of_text ht
        show Step lim _ _ _ (sawValue (j.get s))
        rw [get_of_text j h0 hp]
        exact run_get lim (.text s) p j ht
      · obtain ⟨e, h1, h2, _⟩ := bad_path lim s ht j .null
        show Step lim _ _ _ (sawValue (j.get s))
        rw [h2]; exact .getBad h1
    | path f r =>
      refine ⟨⟨absJ j, ?_, fun _ => rfl⟩, hw⟩
      exact run_get lim (.path f r) (Path.build f r) j (comps_build f r)
  | set l v =>
    cases l with
    | text s =>
      have e : Call.run lim (.set (.text s) v) j = ((j.set lim s v).1, sawSet (j.set lim s v).2) := by
        simp only [Call.run]; cases (j.set lim s v).2 <;> rfl
      rw [e]
      by_cases ht : ∃ fs, PathText s fs
      · obtain ⟨fs, ht⟩ := ht
        obtain ⟨h0, p, hp, rfl⟩ := parsePath_of_text ht
        rw [set_of_text lim j v h0 hp]
        exact run_set lim (.text s) p j v hw hc ht
      · obtain ⟨e, h1, _, _, h2⟩ := bad_path lim s ht j v
        rw [h2]
        exact ⟨⟨_, .setBad h1, fun _ => rfl⟩, hw⟩
    | path f r =>
      have e : Call.run lim (.set (.path f r) v) j = (((Path.build f r).update lim j v).1, sawSet ((Path.build f r).update lim j v).2) := by
        simp only [Call.run]; cases ((Path.build f r).update lim j v).2 <;> rfl
      rw [e]
      exact run_set lim (.path f r) (Path.build f r) j v hw hc (comps_build f r)
  | del l =>
    cases l with
    | text s =>
      by_cases ht : ∃ fs, PathText s fs
      · obtain ⟨fs, ht⟩ := ht
        obtain ⟨h0, p, hp, rfl⟩ := parsePath_of_text ht
        have e : Call.run lim (.del (.text s)) j = ((p.discard j).1, sawValue (p.discard j).2) := by
          simp only [Call.run, del_of_text j h0 hp]
        rw [e]
        obtain ⟨h1, h2⟩ := run_del lim (.text s) p j hw ht
        exact ⟨⟨_, h1, fun _ => rfl⟩, h2⟩
      · obtain ⟨e, h1, _, h2, _⟩ := bad_path lim s ht j .null
        have e : Call.run lim (.del (.text s)) j = (j, .error e) := by
          simp only [Call.run, h2, sawValue]
        rw [e]
        exact ⟨⟨_, .delBad h1, fun _ => rfl⟩, hw⟩
    | path f r =>
      obtain ⟨h1, h2⟩ := run_del lim (.path f r) (Path.build f r) j hw (comps_build f r)
      exact ⟨⟨_, h1, fun _ => rfl⟩, h2⟩
  | direct m =>
    obtain ⟨h5, h6⟩ := method_agrees m j hw hc
    refine ⟨⟨_, ?_, fun _ => rfl⟩, h6⟩
    show Step lim _ _ (absJ (Method.call m j).1) (Method.call m j).2
    have := Step.direct (lim := lim) (m := m) (d := absJ j)
    rw [← h5] at this
    exact this
  | via f r m =>
    cases hp : (Path.build f r).findMut j with
    | ok ref =>
      have e : Call.run lim (.via f r m) j = ref.call m := by simp only [Call.run, hp]
      rw [e]
      obtain ⟨⟨h1, h2, h3⟩, h4⟩ := run_ref f r m j ref hp hw hc
      refine ⟨⟨_, ?_, fun _ => rfl⟩, h4⟩
      rw [h2, h3]; exact .via h1
    | error e' =>
      have e : Call.run lim (.via f r m) j = (j, .error e') := by simp only [Call.run, hp]
      rw [e]
      exact ⟨⟨_, .viaFault (path_err f r j e' hp), fun _ => rfl⟩, hw⟩
  | index f r m =>
    have hi := indexAll_build f r j
    cases hp : (Path.build f r).findMut j with
    | ok ref =>
      rw [hp] at hi
      have e : Call.run lim (.index f r m) j = ref.call m := by simp only [Call.run, hi]
      rw [e]
      obtain ⟨⟨h1, h2, h3⟩, h4⟩ := run_ref f r m j ref hp hw hc
      refine ⟨⟨_, ?_, fun _ => rfl⟩, h4⟩
      rw [h2, h3]; exact .index h1
    | error e' =>
      rw [hp] at hi
      have e : Call.run lim (.index f r m) j = (j, .panic) := by simp only [Call.run, hi]
      rw [e]
      exact ⟨⟨_, .indexPanic (path_err f r j e' hp), fun h => absurd rfl h⟩, hw⟩

/-! ### The specification is deterministic -/

theorem fault_look (fs : List Finder) (d : Val F) : (fault fs d).isSome ↔ look fs d = none := by
  induction fs generalizing d with
  | nil => simp [fault, look]
  | cons f r ih =>
    have hs := look_step f r d
    rw [fault, hs]
    cases look [f] d with
    | none => simp
    | some x => exact ih x

theorem fault_no {fs : List Finder} {d x : Val F} {e : Error} (h : look fs d = some x) (h' : fault fs d = some e) : False := by
  have := (fault_look fs d).mp (by rw [h']; rfl)
  rw [h] at this; cases this

theorem means_unique {l : Loc} {fs gs : List Finder} (h : l.Means fs) (h' : l.Means gs) : fs = gs := by
  cases l with
  | text s => exact C27_unambiguous s fs gs h h'
  | path f r => exact Eq.trans h h'.symm

theorem step_unique {lim : Nat} {c : Call F} {d d1 d2 : Val F} {o1 o2 : Saw F} (h1 : Step lim c d d1 o1) (h2 : Step lim c d d2 o2) : d1 = d2 ∧ o1 = o2 := by
  cases h1 with
  | get a b =>
    cases h2 with
    | get a' b' => cases means_unique a a'; rw [b] at b'; cases b'; exact ⟨rfl, rfl⟩
    | getFault a' b' => cases means_unique a a'; exact absurd b' (fun h => fault_no b h)
    | getBad a' => exact absurd ⟨_, a⟩ (badPath_noText a')
  | getFault a b =>
    cases h2 with
    | get a' b' => cases means_unique a a'; exact absurd b (fun h => fault_no b' h)
    | getFault a' b' => cases means_unique a a'; rw [b] at b'; cases b'; exact ⟨rfl, rfl⟩
    | getBad a' => exact absurd ⟨_, a⟩ (badPath_noText a')
  | getBad a =>
    cases h2 with
    | get a' b' => exact absurd ⟨_, a'⟩ (badPath_noText a)
    | getFault a' b' => exact absurd ⟨_, a'⟩ (badPath_noText a)
    | getBad a' => cases badPath_unique a a'; exact ⟨rfl, rfl⟩
  | set a b =>
    cases h2 with
    | set a' b' => cases means_unique a a'; exact ⟨rfl, rfl⟩
    | setPanic a' b' => cases means_unique a a'; exact absurd b b'
    | setBad a' => exact absurd ⟨_, a⟩ (badPath_noText a')
  | setPanic a b =>
    cases h2 with
    | set a' b' => cases means_unique a a'; exact absurd b' b
    | setPanic a' b' => exact ⟨rfl, rfl⟩
    | setBad a' => exact absurd ⟨_, a⟩ (badPath_noText a')
  | setBad a =>
    cases h2 with
    | set a' b' => exact absurd ⟨_, a'⟩ (badPath_noText a)
    | setPanic a' b' => exact absurd ⟨_, a'⟩ (badPath_noText a)
    | setBad a' => cases badPath_unique a a'; exact ⟨rfl, rfl⟩
  | del a b =>
    cases h2 with
    | del a' b' => cases means_unique a a'; rw [b] at b'; cases b'; exact ⟨rfl, rfl⟩
    | delFault a' b' => cases means_unique a a'; exact absurd b' (fun h => fault_no b h)
    | delBad a' => exact absurd ⟨_, a⟩ (badPath_noText a')
  | delFault a b =>
    cases h2 with
    | del a' b' => cases means_unique a a'; exact absurd b (fun h => fault_no b' h)
    | delFault a' b' => cases means_unique a a'; rw [b] at b'; cases b'; exact ⟨rfl, rfl⟩
    | delBad a' => exact absurd ⟨_, a⟩ (badPath_noText a')
  | delBad a =>
    cases h2 with
    | del a' b' => exact absurd ⟨_, a'⟩ (badPath_noText a)
    | delFault a' b' => exact absurd ⟨_, a'⟩ (badPath_noText a)
    | delBad a' => cases badPath_unique a a'; exact ⟨rfl, rfl⟩
  | direct => cases h2; exact ⟨rfl, rfl⟩
  | via a =>
    cases h2 with
    | via a' => rw [a] at a'; cases a'; exact ⟨rfl, rfl⟩
    | viaFault a' => exact absurd a' (fun h => fault_no a h)
  | viaFault a =>
    cases h2 with
    | via a' => exact absurd a (fun h => fault_no a' h)
    | viaFault a' => rw [a] at a'; cases a'; exact ⟨rfl, rfl⟩
  | index a =>
    cases h2 with
    | index a' => rw [a] at a'; cases a'; exact ⟨rfl, rfl⟩
    | indexPanic a' => exact absurd a' (fun h => fault_no a h)
  | indexPanic a =>
    cases h2 with
    | index a' => exact absurd a (fun h => fault_no a' h)
    | indexPanic a' => exact ⟨rfl, rfl⟩

theorem history_unique {lim : Nat} {cs : List (Call F)} {d : Val F} {os os' : List (Saw F)} {r r' : Option (Val F)}
    (h : History lim cs d os r) (h' : History lim cs d os' r') : os = os' ∧ r = r' := by
  induction h generalizing os' r' with
  | nil => cases h'; exact ⟨rfl, rfl⟩
  | panic h =>
    cases h' with
    | panic _ => exact ⟨rfl, rfl⟩
    | step h' hn _ => exact absurd (step_unique h h').2.symm hn
  | step h hn _ ih =>
    cases h' with
    | panic h' => exact absurd (step_unique h h').2 hn
    | step h' _ hr =>
      obtain ⟨rfl, rfl⟩ := step_unique h h'
      obtain ⟨rfl, rfl⟩ := ih hr
      exact ⟨rfl, rfl⟩

end RJ
