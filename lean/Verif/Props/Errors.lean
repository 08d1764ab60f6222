import Verif.Model.Error
import Verif.Spec.Errors
import Verif.Props.Convert
import Verif.Props.Ops
/-
  C49: what error texts say.
-/
set_option linter.unusedSectionVars false
namespace RJ
open Spec
variable {F : Type}

/-! ### Display -/

theorem kind_takeWhile (k : ErrorKind) (r : Str) : (k.display ++ ':' :: r).takeWhile (· ≠ ':') = k.display := by
  have h : ∀ s : Str, s.all (· ≠ ':') = true → (s ++ ':' :: r).takeWhile (· ≠ ':') = s := by
    intro s
    induction s with
    | nil => intro _; simp
    | cons c s ih =>
      intro hs
      simp only [List.all_cons, Bool.and_eq_true] at hs
      rw [List.cons_append, List.takeWhile_cons, if_pos hs.1, ih hs.2]
  exact h _ (by cases k <;> decide)

theorem kind_display_inj (k k' : ErrorKind) (r r' : Str) (h : k.display ++ ':' :: r = k'.display ++ ':' :: r') : k = k' ∧ r = r' := by
  have hk : k.display = k'.display := by rw [← kind_takeWhile k r, h, kind_takeWhile]
  have hd : ∀ k k' : ErrorKind, k.display = k'.display → k = k' := by
    intro k k'
    cases k <;> cases k' <;> first | exact fun _ => rfl | exact fun h => absurd h (by decide)
  refine ⟨hd _ _ hk, ?_⟩
  rw [hk] at h
  simpa using h

/-- **C49, Display.** The text of an error is the name of its kind, a colon, a space and the message. -/
theorem C49_display (e : Error) : e.display = say [(errorWord e.kind).toList, ": ".toList, e.msg] := by
  obtain ⟨k, m⟩ := e
  have : k.display = (errorWord k).toList := by cases k <;> rfl
  simp only [Error.display, say, this, List.append_assoc, List.append_nil]

/-- **C49, Display.** Errors are told apart by their texts: same text, same kind and message. -/
theorem C49_display_injective (e e' : Error) : e.display = e'.display ↔ e = e' := by
  constructor
  · intro h
    obtain ⟨k, m⟩ := e
    obtain ⟨k', m'⟩ := e'
    have h : k.display ++ ':' :: ' ' :: m = k'.display ++ ':' :: ' ' :: m' := by
      simpa [Error.display] using h
    obtain ⟨rfl, h2⟩ := kind_display_inj _ _ _ _ h
    simpa using h2
  · rintro rfl; rfl

example : (⟨.MissingKey, "missing key \"a\".".toList⟩ : Error).display = "MissingKey: missing key \"a\".".toList := rfl

/-- **C49, FromStr.** `str::parse::<Json>` is `Json::parse`: same values, same errors. -/
theorem C49_from_str [FloatOps F] (s : Str) : (Json.fromStr s : Res (Json F)) = Json.parse s := rfl

/-! ### Operations -/

theorem kindWord_abs (j : Json F) : (kindWord (absJ j)).toList = j.kindName := by
  cases j <;> rfl

theorem lit3 (a b c : String) (x y : Str) (h : d = a.toList ++ b.toList ++ c.toList) : a.toList ++ b.toList ++ c.toList ++ x ++ y = say [d, x, y] := by
  subst h; simp [say]

theorem kindErr_object {α : Type} (j : Json F) : (kindErr "object" j : Res α) = .error ⟨.InvalidValueKind,
    say ["invalid value kind, expect object, got ".toList, (kindWord (absJ j)).toList, ".".toList]⟩ := by
  rw [kindWord_abs]
  unfold kindErr failS
  rw [lit3 (d := "invalid value kind, expect object, got ".toList) _ _ _ _ _ (by decide)]; rfl

theorem kindErr_array {α : Type} (j : Json F) : (kindErr "array" j : Res α) = .error ⟨.InvalidValueKind,
    say ["invalid value kind, expect array, got ".toList, (kindWord (absJ j)).toList, ".".toList]⟩ := by
  rw [kindWord_abs]
  unfold kindErr failS
  rw [lit3 (d := "invalid value kind, expect array, got ".toList) _ _ _ _ _ (by decide)]; rfl

theorem missingKey_say {α : Type} (k : Str) : (missingKey k : Res α) = .error ⟨.MissingKey, say ["missing key \"".toList, k, "\".".toList]⟩ := by
  unfold missingKey failS
  simp only [say, List.append_assoc, List.append_nil]

theorem indexErr_say {α : Type} (i : Nat) : (indexErr i : Res α) = .error ⟨.IndexOutOfRange, say ["index ".toList, (toString i).toList, " out of range.".toList]⟩ := by
  unfold indexErr failS
  simp only [say, List.append_assoc, List.append_nil]; rfl

theorem keyKindErr_say {α : Type} (k : Str) (j : Json F) : (keyKindErr k j : Res α) = .error ⟨.InvalidValueKind,
    say ["find value by key \"".toList, k, "\" error: invalid value kind, expect object, got ".toList, (kindWord (absJ j)).toList, ".".toList]⟩ := by
  rw [kindWord_abs]
  unfold keyKindErr failS
  simp only [say, List.append_assoc, List.append_nil]; rfl

theorem indexKindErr_say {α : Type} (i : Nat) (j : Json F) : (indexKindErr i j : Res α) = .error ⟨.InvalidValueKind,
    say ["find value by index ".toList, (toString i).toList, " error: invalid value kind, expect array, got ".toList, (kindWord (absJ j)).toList, ".".toList]⟩ := by
  rw [kindWord_abs]
  unfold indexKindErr failS
  simp only [say, List.append_assoc, List.append_nil]; rfl

theorem abs_obj {j : Json F} {m : Str → List (Val F)} (h : absJ j = .obj m) : ∃ o, j = .object o := by
  cases j <;> first | exact ⟨_, rfl⟩ | cases h

theorem abs_arr {j : Json F} {l : List (Val F)} (h : absJ j = .arr l) : ∃ o, j = .array o := by
  cases j <;> first | exact ⟨_, rfl⟩ | cases h

/-- **C49, operations.** Object operations on another kind of value name both kinds. -/
theorem C49_object_ops (op : ObjOp F) (j : Json F) (h : ∀ m, j ≠ .object m) :
    (ObjOp.call op j).2 = .error ⟨.InvalidValueKind,
      say ["invalid value kind, expect object, got ".toList, (kindWord (absJ j)).toList, ".".toList]⟩ := by
  rw [← kindErr_object]
  cases j with
  | object m => exact absurd rfl (h m)
  | _ => cases op <;> rfl

/-- **C49, operations.** `index_and_merge`: the missing key, or both kinds. -/
theorem C49_index_and_merge (j : Json F) (k : Str) (e : Error) (h : j.indexAndMerge k = .error e) :
    (∃ m, absJ j = .obj m ∧ m k = [] ∧ e = ⟨.MissingKey, say ["missing key \"".toList, k, "\".".toList]⟩) ∨
    ((∀ m, absJ j ≠ .obj m) ∧ e = ⟨.InvalidValueKind, say ["invalid value kind, expect object, got ".toList, (kindWord (absJ j)).toList, ".".toList]⟩) := by
  by_cases ho : ∃ m, j = .object m
  · obtain ⟨m, rfl⟩ := ho
    simp only [Json.indexAndMerge] at h
    refine .inl ⟨_, rfl, ?_⟩
    cases hm : mapGet k m with
    | some v => rw [hm] at h; cases h
    | none =>
      rw [hm, missingKey_say] at h
      cases h
      exact ⟨by rw [absMap_eq, hm], rfl⟩
  · refine .inr ⟨fun m hm => ho (abs_obj hm), ?_⟩
    have : j.indexAndMerge k = kindErr "object" j := by
      cases j <;> first | rfl | exact absurd ⟨_, rfl⟩ ho
    rw [this, kindErr_object] at h
    cases h; rfl

/-- **C49, operations.** Array operations on another kind of value name both kinds; `replace` out of range names the index. -/
theorem C49_array_ops (j v : Json F) (i : Nat) (e : Error)
    (h : (j.push v).2 = .error e ∨ (j.replace i v).2 = .error e ∨ (j.remove i).2 = .err e) :
    (∃ l, absJ j = .arr l ∧ l.length ≤ i ∧ e = ⟨.IndexOutOfRange, say ["index ".toList, (toString i).toList, " out of range.".toList]⟩) ∨
    ((∀ l, absJ j ≠ .arr l) ∧ e = ⟨.InvalidValueKind, say ["invalid value kind, expect array, got ".toList, (kindWord (absJ j)).toList, ".".toList]⟩) := by
  by_cases ho : ∃ m, j = .array m
  · obtain ⟨l, rfl⟩ := ho
    rcases h with h | h | h
    · cases h
    · left
      refine ⟨_, rfl, ?_⟩
      simp only [Json.replace] at h
      rw [absList_eq, List.length_map]
      by_cases hi : i < l.length
      · rw [List.getElem?_eq_getElem hi] at h; cases h
      · rw [List.getElem?_eq_none (by omega)] at h
        rw [indexErr_say] at h
        cases h
        exact ⟨by omega, rfl⟩
    · simp only [Json.remove] at h
      split at h <;> cases h
  · refine .inr ⟨fun m hm => ho (abs_arr hm), ?_⟩
    have h1 : (j.push v).2 = kindErr "array" j := by
      cases j <;> first | rfl | exact absurd ⟨_, rfl⟩ ho
    have h2 : (j.replace i v).2 = kindErr "array" j := by
      cases j <;> first | rfl | exact absurd ⟨_, rfl⟩ ho
    have h3 : (j.remove i).2 = Out.ofRes (kindErr "array" j) := by
      cases j <;> first | rfl | exact absurd ⟨_, rfl⟩ ho
    rw [h1, h2, h3, kindErr_array] at h
    rcases h with h | h | h <;> cases h <;> rfl

/-! ### Paths -/

theorem find_blame (f : Finder) (j : Json F) (e : Error) (h : f.find j = .error e) : Blame f (absJ j) e.kind e.msg := by
  cases f with
  | key k =>
    by_cases ho : ∃ m, j = .object m
    · obtain ⟨m, rfl⟩ := ho
      simp only [Finder.find] at h
      cases hm : mapGet k m with
      | some v => rw [hm] at h; cases h
      | none =>
        rw [hm, missingKey_say] at h
        cases h
        exact .missing (by rw [absMap_eq, hm])
    · have : (Finder.key k).find j = keyKindErr k j := by
        cases j <;> first | rfl | exact absurd ⟨_, rfl⟩ ho
      rw [this, keyKindErr_say] at h
      cases h
      exact .notObject (fun m hm => ho (abs_obj hm))
  | index i =>
    by_cases ho : ∃ m, j = .array m
    · obtain ⟨l, rfl⟩ := ho
      simp only [Finder.find] at h
      by_cases hi : i < l.length
      · rw [List.getElem?_eq_getElem hi] at h; cases h
      · rw [List.getElem?_eq_none (by omega), indexErr_say] at h
        cases h
        exact .range (by rw [absList_eq, List.length_map]; omega)
    · have : (Finder.index i).find j = indexKindErr i j := by
        cases j <;> first | rfl | exact absurd ⟨_, rfl⟩ ho
      rw [this, indexKindErr_say] at h
      cases h
      exact .notArray (fun m hm => ho (abs_arr hm))

theorem path_blame (p : Path) (j : Json F) (e : Error) (h : p.find j = .error e) :
    ∃ pre f post v, comps p = pre ++ f :: post ∧ look pre (absJ j) = some v ∧ Blame f v e.kind e.msg := by
  induction p generalizing j with
  | last f => exact ⟨[], f, [], absJ j, rfl, rfl, find_blame f j e h⟩
  | cons f p ih =>
    simp only [Path.find] at h
    cases hf : f.find j with
    | error e' =>
      rw [hf] at h
      cases h
      exact ⟨[], f, comps p, absJ j, rfl, rfl, find_blame f j _ hf⟩
    | ok x =>
      rw [hf] at h
      obtain ⟨pre, g, post, v, h1, h2, h3⟩ := ih x h
      refine ⟨f :: pre, g, post, v, by rw [comps, h1]; rfl, ?_, h3⟩
      have := Finder.find_look f j
      rw [hf] at this
      cases f with
      | key k =>
        cases j with
        | object m =>
          simp only [absJ, look] at this ⊢
          cases hm : (absMap m k).getLast? with
          | none => rw [hm] at this; cases this
          | some y => rw [hm] at this; cases this; exact h2
        | _ => cases this
      | index i =>
        cases j with
        | array m =>
          simp only [absJ, look] at this ⊢
          cases hm : (absList m)[i]? with
          | none => rw [hm] at this; cases this
          | some y => rw [hm] at this; cases this; exact h2
        | _ => cases this

/-- **C49, get and del.** The error of `get` and `del` is about the first component that cannot be followed, and says what is wrong with it: the missing key, the index, or the
kind of value found there. -/
theorem C49_get (s : Str) (fs : List Finder) (hs : PathText s fs) (j : Json F) (e : Error) (h : j.get s = .error e) :
    (j.del s).2 = .error e ∧
    ∃ pre f post v, fs = pre ++ f :: post ∧ look pre (absJ j) = some v ∧ Blame f v e.kind e.msg := by
  refine ⟨by rw [(C25_del s j).1, h], ?_⟩
  obtain ⟨h0, p, hp, rfl⟩ := parsePath_of_text hs
  rw [get_of_text j h0 hp] at h
  exact path_blame p j e h

theorem findersOf_msg (ts : List Str) (e : Error) (h : findersOf ts = .error e) :
    ∃ pre x post, ts = pre ++ ('#' :: x) :: post ∧ (∀ t ∈ pre, ¬ BadComp t) ∧ BadComp ('#' :: x) ∧
      e = ⟨.PathSyntaxError, say ["error parsing \"".toList, x, "\" to usize.".toList]⟩ := by
  induction ts with
  | nil => cases h
  | cons t ts ih =>
    simp only [findersOf] at h
    rcases finderOf_spec t with ⟨f, h1, h2⟩ | ⟨e', h1, h2, ⟨x, rfl, hx⟩, h4⟩
    · rw [h1] at h
      have hb : ¬ BadComp t := by
        rintro ⟨s, rfl, hn⟩
        have := (h2 f).mpr rfl
        cases this with
        | index hu => exact hn ⟨_, hu⟩
        | plain _ h' => simp at *
      cases hf : findersOf ts with
      | ok fs => rw [hf] at h; cases h
      | error e' =>
        rw [hf] at h
        cases h
        obtain ⟨pre, x, post, rfl, i2, i3⟩ := ih hf
        refine ⟨t :: pre, x, post, rfl, fun u hu => ?_, i3⟩
        rcases List.mem_cons.mp hu with rfl | hu
        · exact hb
        · exact i2 u hu
    · rw [h1] at h
      cases h
      refine ⟨[], x, ts, rfl, by simp, ⟨x, rfl, hx⟩, ?_⟩
      simp only [finderOf, if_true] at h1
      cases hp : parseUsize x with
      | some i => rw [hp] at h1; cases h1
      | none =>
        rw [hp] at h1
        cases h1
        simp only [say, List.append_assoc, List.append_nil]

/-- **C49, path syntax.** For a text that is no path, the error of `get`, `del` and `set` quotes the first component that is `#` without an integer. -/
theorem C49_path_syntax (lim : Nat) (s : Str) (ts : List Str) (ht : Pieces s ts) (hs : ¬ ∃ fs, PathText s fs) (j v : Json F) :
    ∃ e, e.kind = .PathSyntaxError ∧ j.get s = .error e ∧ (j.del s).2 = .error e ∧ (j.set lim s v).2 = .err e ∧
      (s = [] ∧ e.msg = "invalid syntax: empty path.".toList ∨
       ∃ pre x post, ts = pre ++ ('#' :: x) :: post ∧ (∀ t ∈ pre, ¬ BadComp t) ∧ BadComp ('#' :: x) ∧
         e.msg = say ["error parsing \"".toList, x, "\" to usize.".toList]) := by
  by_cases h0 : s = []
  · subst h0
    exact ⟨_, rfl, rfl, rfl, rfl, .inl ⟨rfl, rfl⟩⟩
  · rcases no_text hs with rfl | ⟨e, he, hk⟩
    · exact absurd rfl h0
    · refine ⟨e, hk, ?_, ?_, ?_, ?_⟩
      · simp only [Json.get, if_neg h0, he]
      · simp only [Json.del, if_neg h0, he]
      · simp only [Json.set, if_neg h0, he]
      · right
        have hc := cut_pieces ht
        simp only [parsePath, pathLoop_cut, hc] at he
        cases hf : findersOf ts with
        | ok fs =>
          rw [hf] at he
          cases fs with
          | nil =>
            cases ts with
            | nil => cases ht
            | cons t ts =>
              simp only [findersOf] at hf
              cases h1 : finderOf t with
              | error e => rw [h1] at hf; cases hf
              | ok f =>
                rw [h1] at hf
                cases h2 : findersOf ts with
                | error e => rw [h2] at hf; cases hf
                | ok fs => rw [h2] at hf; cases hf
          | cons f fs => cases he
        | error e' =>
          rw [hf] at he
          cases he
          obtain ⟨pre, x, post, h1, h2, h3, rfl⟩ := findersOf_msg ts _ hf
          exact ⟨pre, x, post, h1, h2, h3, rfl⟩

/-! ### Conversions -/

theorem convertErr_say {α : Type} (j : Json F) (t : String) : (convertErr j t : Res α) = .error ⟨.ConvertError,
    say ["cannot convert ".toList, (kindWord (absJ j)).toList, " to ".toList, t.toList]⟩ := by
  rw [kindWord_abs]
  unfold convertErr failS
  simp only [say, List.append_assoc, List.append_nil]

theorem decMember_msg [FloatOps F] {α : Type} (κ : KeyCodec) (dec : Json F → Res α) (q : Str) (j : Json F) (e : Error) (h : decMember κ dec q j = .error e) :
    (κ.fromStr q = none ∧ e.msg = say ["error converting ".toList, q, " to key.".toList]) ∨ dec j = .error e := by
  unfold decMember at h
  split at h
  · rename_i hq
    cases h
    exact .inl ⟨hq, by simp only [say, List.append_assoc, List.append_nil]⟩
  · right
    split at h
    · cases h
    · rename_i h1; cases h; exact h1

/-- **C49, conversions.** Every decoding error says what in the value does not fit the type: a value of a kind that cannot be converted, with both names, or a member name that is no key. -/
theorem C49_decode [FloatOps F] (t : Ty) (j : Json F) (e : Error) (h : t.dec j = .error e) : e.kind = .ConvertError ∧ Complains t j e.msg := by
  refine ⟨C36_only_ConvertError t j e h, ?_⟩
  induction t generalizing j e with
  | json => cases h
  | option t ih =>
    obtain ⟨h1, h2⟩ := ((C31_option t j).2.2 e).mp h
    exact .opt h1 (ih j e h2)
  | vec t ih =>
    have h : decVec t.dec j = .error e := h
    by_cases ho : ∃ m, j = .array m
    · obtain ⟨v, rfl⟩ := ho
      refine collect_kind _ (fun e => Complains (.vec t) (.array v) e.msg) ?_ e h
      intro e' he'
      obtain ⟨x, hm, hx⟩ := List.mem_map.mp he'
      exact .elem hm (ih x e' hx)
    · have : decVec t.dec j = convertErr j "Vec" := by cases j <;> first | rfl | exact absurd ⟨_, rfl⟩ ho
      rw [this, convertErr_say] at h
      cases h
      exact .kind (fun _ h => by cases h) ho
  | pairs κ t ih =>
    have h : decPairs κ t.dec j = .error e := h
    by_cases ho : ∃ m, j = .object m
    · obtain ⟨m, rfl⟩ := ho
      refine collect_kind _ (fun e => Complains (.pairs κ t) (.object m) e.msg) ?_ e h
      intro e' he'
      obtain ⟨⟨k, v, old⟩, hen, hx⟩ := List.mem_flatMap.mp he'
      obtain ⟨x, hxm, hx⟩ := List.mem_map.mp hx
      rcases decMember_msg κ _ _ _ _ hx with ⟨h1, h2⟩ | h1
      · rw [h2]; exact .key hen h1
      · refine .value hen ?_ (ih x e' h1)
        rcases List.mem_append.mp hxm with h | h
        · exact .inr (List.mem_reverse.mp h)
        · exact .inl (List.mem_singleton.mp h)
    · have : decPairs κ t.dec j = convertErr j "Vec<(K, V)>" := by cases j <;> first | rfl | exact absurd ⟨_, rfl⟩ ho
      rw [this, convertErr_say] at h
      cases h
      exact .kind (fun _ h => by cases h) ho
  | map κ t ih =>
    have h : decMap κ t.dec j = .error e := h
    by_cases ho : ∃ m, j = .object m
    · obtain ⟨m, rfl⟩ := ho
      simp only [decMap] at h
      split at h
      · cases h
      · rename_i hc
        cases h
        refine collect_kind _ (fun e => Complains (.map κ t) (.object m) e.msg) ?_ _ hc
        intro e' he'
        obtain ⟨⟨k, v, old⟩, hxm, hx⟩ := List.mem_map.mp he'
        rcases decMember_msg κ _ _ _ _ hx with ⟨h1, h2⟩ | h1
        · rw [h2]; exact .mapKey hxm h1
        · exact .mapValue hxm (ih _ e' h1)
    · have : decMap κ t.dec j = convertErr j "HashMap" := by cases j <;> first | rfl | exact absurd ⟨_, rfl⟩ ho
      rw [this, convertErr_say] at h
      cases h
      exact .kind (fun _ h => by cases h) ho
  | string =>
    have ho : ¬ ∃ s, j = .string s := by rintro ⟨s, rfl⟩; cases h
    have : decString j = convertErr j "String." := by cases j <;> first | rfl | exact absurd ⟨_, rfl⟩ ho
    have h : decString j = .error e := h
    rw [this, convertErr_say] at h
    cases h
    exact .kind (fun _ h => by cases h) ho
  | bool =>
    have ho : ¬ ∃ s, j = .boolean s := by rintro ⟨s, rfl⟩; cases h
    have : decBool j = convertErr j "bool." := by cases j <;> first | rfl | exact absurd ⟨_, rfl⟩ ho
    have h : decBool j = .error e := h
    rw [this, convertErr_say] at h
    cases h
    exact .kind (fun _ h => by cases h) ho
  | f64 =>
    have ho : ¬ ∃ s, j = .number s := by rintro ⟨s, rfl⟩; cases h
    have : decF64 j = convertErr j "f64." := by cases j <;> first | rfl | exact absurd ⟨_, rfl⟩ ho
    have h : decF64 j = .error e := h
    rw [this, convertErr_say] at h
    cases h
    exact .kind (fun _ h => by cases h) ho
  | f32 =>
    have ho : ¬ ∃ s, j = .number s := by rintro ⟨s, rfl⟩; cases h
    have : decF32 j = convertErr j "f32." := by cases j <;> first | rfl | exact absurd ⟨_, rfl⟩ ho
    have h : decF32 j = .error e := h
    rw [this, convertErr_say] at h
    cases h
    exact .kind (fun _ h => by cases h) ho
  | int name lo hi =>
    have ho : ¬ ∃ s, j = .number s := by rintro ⟨s, rfl⟩; cases h
    have : decInt name lo hi j = convertErr j (name ++ ".") := by cases j <;> first | rfl | exact absurd ⟨_, rfl⟩ ho
    have h : decInt name lo hi j = .error e := h
    rw [this, convertErr_say] at h
    cases h
    exact .kind (fun _ h => by cases h) ho

/-- Concrete cases: a path that leaves an array, a bad path, a bad element. -/
example : match (Json.object [("a".toList, (.array [.null, .null], []))] : Json F).get "a.#5".toList with
    | .error e => e.display = "IndexOutOfRange: index 5 out of range.".toList | .ok _ => False := rfl
example : (match (Json.null : Json Nat).get "a.#x.#y".toList with
    | .error e => e.display | .ok _ => []) = "PathSyntaxError: error parsing \"x\" to usize.".toList := by decide +kernel
example [FloatOps F] : match (Ty.vec .bool).dec (.array [.boolean true, .null] : Json F) with
    | .error e => e.display = "ConvertError: cannot convert null to bool.".toList | .ok _ => False := rfl
example : Blame (F := F) (.index 5) (.arr [.null, .null]) .IndexOutOfRange "index 5 out of range.".toList := .range (by simp)

end RJ
