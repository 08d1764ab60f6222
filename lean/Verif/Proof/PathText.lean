import Verif.Spec.PathText
import Verif.Proof.Path
/-
  `parse_path` against the specification of the path syntax.
-/
set_option linter.unusedSectionVars false
namespace RJ
open Spec
variable {F : Type}

/-! ### Splitting -/

/-- `pathLoop` without the conversion of components. -/
def cut : Str → Str → List Str
  | [], buf => [buf]
  | c :: iter, buf =>
    if c = '.' then buf :: cut iter []
    else if c = '\\' then
      match iter with
      | d :: iter' => if d = '.' then cut iter' (buf ++ ['.']) else cut (d :: iter') (buf ++ ['\\'])
      | [] => cut [] (buf ++ ['\\'])
    else cut iter (buf ++ [c])

/-- Convert the components, stop at the first error. -/
def findersOf : List Str → Res (List Finder)
  | [] => .ok []
  | t :: ts =>
    match finderOf t with
    | .ok f =>
      match findersOf ts with
      | .ok fs => .ok (f :: fs)
      | .error e => .error e
    | .error e => .error e

theorem pathLoop_cut (s buf : Str) (vec : List Finder) :
    pathLoop s buf vec = match findersOf (cut s buf) with
      | .ok fs => .ok (vec ++ fs)
      | .error e => .error e := by
  fun_induction cut s buf generalizing vec with
  | case1 buf =>
    simp only [pathLoop, findersOf]
    cases finderOf buf <;> rfl
  | case2 iter buf ih =>
    rw [pathLoop.eq_def]
    simp only [if_true, findersOf]
    cases finderOf buf with
    | error e => rfl
    | ok f =>
      simp only [ih]
      cases findersOf (cut iter []) with
      | error e => rfl
      | ok fs => simp
  | case3 buf iter' h ih => rw [pathLoop.eq_def]; simp only [if_neg h, if_true]; exact ih vec
  | case4 buf d iter' h hd ih => rw [pathLoop.eq_def]; simp only [if_neg h, if_neg hd, if_true]; exact ih vec
  | case5 buf h ih => rw [pathLoop.eq_def]; simp only [if_neg h, if_true]; exact ih vec
  | case6 c iter buf hc h2 ih => rw [pathLoop.eq_def]; simp only [if_neg hc, if_neg h2]; exact ih vec

theorem cut_piece {r t : Str} (h : Piece r t) (rest buf : Str) (hr : r.getLast? = some '\\' → rest.head? ≠ some '.') :
    cut (r ++ rest) buf = cut rest (buf ++ t) := by
  induction h generalizing buf with
  | nil => simp
  | @dot s t _ ih =>
    simp only [List.cons_append]
    rw [cut]
    simp only [Char.reduceEq, if_false, if_true]
    rw [ih _ (by
      intro h
      apply hr
      cases s with
      | nil => simp at h
      | cons a s => simpa [List.getLast?_cons_cons] using h)]
    simp
  | @char c s t h1 h2 _ ih =>
    have hs : s.getLast? = some '\\' → rest.head? ≠ some '.' := by
      intro h
      apply hr
      cases s with
      | nil => simp at h
      | cons a s => simpa [List.getLast?_cons_cons] using h
    simp only [List.cons_append]
    rw [cut.eq_def]
    simp only [if_neg h1]
    by_cases hc : c = '\\'
    · subst hc
      simp only [if_true]
      have hd : ∀ d l, s ++ rest = d :: l → d ≠ '.' := by
        intro d l he
        cases s with
        | nil =>
          simp only [List.nil_append] at he
          have := hr (by simp)
          rw [he] at this
          simpa using this
        | cons a s =>
          simp only [List.cons_append, List.cons.injEq] at he
          rw [← he.1]
          simpa using h2 rfl
      have := ih (buf ++ ['\\']) hs
      cases he : s ++ rest with
      | nil => rw [he] at this; simp only [this]; simp
      | cons d l =>
        rw [he] at this
        simp only [if_neg (hd d l he), this]; simp
    · simp only [if_neg hc]
      rw [ih _ hs]; simp

theorem cut_pieces {s : Str} {ts : List Str} (h : Pieces s ts) : cut s [] = ts := by
  induction h with
  | @last r t hp =>
    have := cut_piece hp [] [] (by simp)
    rw [List.append_nil] at this
    rw [this]; rfl
  | @cons r t s ts hp hl _ ih =>
    rw [cut_piece hp _ _ (fun h => absurd h hl)]
    rw [cut.eq_def]; simp [ih]

theorem pieces_dot {s : Str} {ts : List Str} (h : Pieces s ts) : ∃ t r, Pieces ('\\' :: '.' :: s) (t :: r) := by
  cases h with
  | last hp => exact ⟨_, _, .last (.dot hp)⟩
  | @cons r t s ts hp hl h =>
    refine ⟨_, _, .cons (r := '\\' :: '.' :: r) (.dot hp) ?_ h⟩
    cases r with
    | nil => simp
    | cons a r => simpa [List.getLast?_cons_cons] using hl

theorem pieces_char {c : Char} {s : Str} {ts : List Str} (h1 : c ≠ '.') (h2 : c = '\\' → s.head? ≠ some '.') (h : Pieces s ts) :
    ∃ t r, Pieces (c :: s) (t :: r) := by
  cases h with
  | last hp => exact ⟨_, _, .last (.char h1 h2 hp)⟩
  | @cons r t s ts hp hl h =>
    refine ⟨_, _, .cons (r := c :: r) (.char h1 ?_ hp) ?_ h⟩
    · intro hc
      have := h2 hc
      cases r with
      | nil => simp
      | cons a r => simpa using this
    · cases r with
      | nil =>
        have : c ≠ '\\' := by intro hc; have := h2 hc; simp at this
        simpa using this
      | cons a r => simpa [List.getLast?_cons_cons] using hl

theorem pieces_exist (n : Nat) (s : Str) (hn : s.length ≤ n) : ∃ t r, Pieces s (t :: r) := by
  induction n generalizing s with
  | zero =>
    have : s = [] := List.length_eq_zero_iff.mp (by omega)
    subst this; exact ⟨_, _, .last .nil⟩
  | succ n ih =>
    cases s with
    | nil => exact ⟨_, _, .last .nil⟩
    | cons c s =>
      simp only [List.length_cons] at hn
      by_cases h1 : c = '.'
      · subst h1
        obtain ⟨t, r, h⟩ := ih s (by omega)
        exact ⟨[], _, .cons (r := []) .nil (by simp) h⟩
      · by_cases h2 : c = '\\' ∧ s.head? = some '.'
        · obtain ⟨rfl, h2⟩ := h2
          cases s with
          | nil => cases h2
          | cons d s =>
            simp only [List.head?_cons, Option.some.injEq] at h2
            subst h2
            obtain ⟨t, r, h⟩ := ih s (by simp only [List.length_cons] at hn; omega)
            exact pieces_dot h
        · obtain ⟨t, r, h⟩ := ih s (by omega)
          exact pieces_char h1 (fun a b => h2 ⟨a, b⟩) h

/-! ### Components -/

theorem digitsVal_decVal (ds : Str) (n : Nat) :
    digitsVal ds n = ds.foldl (fun n c => 10 * n + (c.toNat - 48)) n := by
  induction ds generalizing n with
  | nil => rfl
  | cons c s ih =>
    rw [digitsVal, ih, List.foldl_cons, show ('0' : Char).toNat = 48 from rfl, Nat.mul_comm]

theorem isDigit_iff' (c : Char) : isDigit c = true ↔ IsDigit c := by
  simp [isDigit, IsDigit, show ('0' : Char).toNat = 48 from rfl, show ('9' : Char).toNat = 57 from rfl]

theorem parseUsize_iff (s : Str) (n : Nat) : parseUsize s = some n ↔ IsUsize s n := by
  have body : ∀ ds : Str, (if ds ≠ [] ∧ ds.all isDigit = true then
      (if digitsVal ds 0 < 2 ^ 64 then some (digitsVal ds 0) else none) else none) = some n ↔
      (ds ≠ [] ∧ Digits ds ∧ decVal ds = n ∧ n < 2 ^ 64) := by
    intro ds
    have hd : ds.all isDigit = true ↔ Digits ds := by
      simp only [List.all_eq_true, isDigit_iff', Digits]
    have hv : digitsVal ds 0 = decVal ds := digitsVal_decVal ds 0
    rw [hv]
    constructor
    · intro h
      split at h
      · rename_i h1
        split at h
        · rename_i h2
          cases h
          exact ⟨h1.1, hd.mp h1.2, rfl, h2⟩
        · cases h
      · cases h
    · rintro ⟨h1, h2, rfl, h3⟩
      rw [if_pos ⟨h1, hd.mpr h2⟩, if_pos h3]
  have plus : ¬ IsDigit '+' := by unfold IsDigit; decide
  unfold parseUsize
  cases s with
  | nil =>
    simp only [body]
    constructor
    · rintro ⟨h, _⟩; exact absurd rfl h
    · rintro ⟨sg, ds, h, _, h2, _⟩
      have := List.append_eq_nil_iff.mp h.symm
      exact absurd this.2 h2
  | cons c s =>
    simp only [body]
    by_cases hc : c = '+'
    · subst hc
      rw [if_pos rfl]
      constructor
      · intro h; exact ⟨['+'], s, rfl, .inr rfl, h⟩
      · rintro ⟨sg, ds, h, rfl | rfl, h2⟩
        · simp only [List.nil_append] at h
          subst h
          exact absurd (h2.2.1 '+' (by simp)) plus
        · simp only [List.cons_append, List.nil_append, List.cons.injEq, true_and] at h
          subst h; exact h2
    · rw [if_neg hc]
      constructor
      · intro h; exact ⟨[], c :: s, rfl, .inl rfl, h⟩
      · rintro ⟨sg, ds, h, rfl | rfl, h2⟩
        · simp only [List.nil_append] at h
          subst h; exact h2
        · simp only [List.cons_append, List.nil_append, List.cons.injEq] at h
          exact absurd h.1 hc

theorem finderOf_spec (t : Str) :
    (∃ f, finderOf t = .ok f ∧ ∀ g, CompOf t g ↔ g = f) ∨
    (∃ e, finderOf t = .error e ∧ e.kind = .PathSyntaxError ∧ BadComp t ∧ ∀ g, ¬ CompOf t g) := by
  cases t with
  | nil =>
    refine .inl ⟨.key [], rfl, fun g => ⟨fun h => by cases h; rfl, fun h => ?_⟩⟩
    subst h; exact .plain [] (by simp) (by simp)
  | cons c s =>
    simp only [finderOf]
    by_cases h1 : c = '#'
    · subst h1
      rw [if_pos rfl]
      cases hp : parseUsize s with
      | some i =>
        refine .inl ⟨.index i, rfl, fun g => ⟨fun h => ?_, fun h => ?_⟩⟩
        · cases h with
          | index hu => rw [(parseUsize_iff _ _).mpr hu] at hp; cases hp; rfl
          | plain _ h => simp at h
        · subst h; exact .index ((parseUsize_iff _ _).mp hp)
      | none =>
        have hn : ¬ ∃ n, IsUsize s n := by
          rintro ⟨n, h⟩; rw [(parseUsize_iff _ _).mpr h] at hp; cases hp
        refine .inr ⟨_, rfl, rfl, ⟨s, rfl, hn⟩, fun g h => ?_⟩
        cases h with
        | index hu => exact hn ⟨_, hu⟩
        | plain _ h => simp at h
    · by_cases h2 : c = '\\'
      · subst h2
        rw [if_neg (by decide), if_pos rfl]
        refine .inl ⟨.key s, rfl, fun g => ⟨fun h => ?_, fun h => ?_⟩⟩
        · cases h with
          | escaped => rfl
          | plain _ _ h => simp at h
        · subst h; exact .escaped s
      · rw [if_neg h1, if_neg h2]
        refine .inl ⟨.key (c :: s), rfl, fun g => ⟨fun h => ?_, fun h => ?_⟩⟩
        · cases h with
          | index => exact absurd rfl h1
          | escaped => exact absurd rfl h2
          | plain => rfl
        · subst h; exact .plain _ (by simpa using h1) (by simpa using h2)

theorem findersOf_spec (ts : List Str) :
    (∃ fs, findersOf ts = .ok fs ∧ (∀ gs, CompsOf ts gs ↔ gs = fs) ∧ ∀ t ∈ ts, ¬ BadComp t) ∨
    (∃ e, findersOf ts = .error e ∧ e.kind = .PathSyntaxError ∧ (∃ t ∈ ts, BadComp t) ∧ ∀ gs, ¬ CompsOf ts gs) := by
  induction ts with
  | nil => exact .inl ⟨[], rfl, fun gs => ⟨fun h => by cases h; rfl, fun h => by subst h; exact .nil⟩, by simp⟩
  | cons t ts ih =>
    simp only [findersOf]
    rcases finderOf_spec t with ⟨f, h1, h2⟩ | ⟨e, h1, h2, h3, h4⟩
    · rw [h1]
      have hb : ¬ BadComp t := by
        rintro ⟨s, rfl, hn⟩
        have := (h2 f).mpr rfl
        cases this with
        | index hu => exact hn ⟨_, hu⟩
        | plain _ h => simp at h
      rcases ih with ⟨fs, i1, i2, i3⟩ | ⟨e, i1, i2, ⟨u, iu, ib⟩, i4⟩
      · rw [i1]
        refine .inl ⟨f :: fs, rfl, fun gs => ⟨fun h => ?_, fun h => ?_⟩, ?_⟩
        · cases h with
          | cons a b => rw [(h2 _).mp a, (i2 _).mp b]
        · subst h; exact .cons ((h2 f).mpr rfl) ((i2 fs).mpr rfl)
        · intro u hu
          rcases List.mem_cons.mp hu with rfl | hu
          · exact hb
          · exact i3 u hu
      · rw [i1]
        refine .inr ⟨e, rfl, i2, ⟨u, List.mem_cons_of_mem _ iu, ib⟩, fun gs h => ?_⟩
        cases h with
        | cons a b => exact i4 _ b
    · rw [h1]
      refine .inr ⟨e, rfl, h2, ⟨t, by simp, h3⟩, fun gs h => ?_⟩
      cases h with
      | cons a b => exact h4 _ a

theorem comps_append (p : Path) (g : Finder) : comps (p.append g) = comps p ++ [g] := by
  induction p with
  | last f => rfl
  | cons f p ih => simp [Path.append, comps, ih]

theorem comps_build (f : Finder) (rest : List Finder) : comps (Path.build f rest) = f :: rest := by
  have : ∀ (p : Path), comps (rest.foldl Path.append p) = comps p ++ rest := by
    induction rest with
    | nil => simp
    | cons g rest ih => intro p; simp [List.foldl_cons, ih, comps_append]
  simp [Path.build, this, comps]

/-- `parse_path` on every text. -/
theorem parsePath_spec (s : Str) :
    (∃ p ts, parsePath s = .ok p ∧ Pieces s ts ∧ (∀ gs, CompsOf ts gs ↔ gs = comps p) ∧ ∀ t ∈ ts, ¬ BadComp t) ∨
    (∃ e ts, parsePath s = .error e ∧ e.kind = .PathSyntaxError ∧ Pieces s ts ∧ (∃ t ∈ ts, BadComp t) ∧ ∀ gs, ¬ CompsOf ts gs) := by
  obtain ⟨t, r, hp⟩ := pieces_exist s.length s (Nat.le_refl _)
  have hc := cut_pieces hp
  simp only [parsePath, pathLoop_cut, hc]
  rcases findersOf_spec (t :: r) with ⟨fs, h1, h2, h3⟩ | ⟨e, h1, h2, h3, h4⟩
  · rw [h1]
    have hcf := (h2 fs).mpr rfl
    cases hcf with
    | @cons _ f _ fs a b =>
      refine .inl ⟨Path.build f fs, _, rfl, hp, ?_, h3⟩
      rw [comps_build]; exact h2
  · rw [h1]
    exact .inr ⟨e, _, rfl, h2, hp, h3, h4⟩

/-! ### Writing paths -/

theorem escDots_head (k : Str) : (escDots k).head? ≠ some '.' := by
  cases k with
  | nil => simp [escDots]
  | cons c s =>
    simp only [escDots]
    split
    · simp
    · rename_i h; simpa using h

theorem piece_escDots (k : Str) : Piece (escDots k) k := by
  induction k with
  | nil => exact .nil
  | cons c s ih =>
    simp only [escDots]
    split
    · rename_i h; subst h; exact .dot ih
    · rename_i h; exact .char h (fun _ => escDots_head s) ih

theorem escDots_last (k : Str) : (escDots k).getLast? = k.getLast? := by
  induction k with
  | nil => rfl
  | cons c s ih =>
    cases s with
    | nil => simp only [escDots]; split <;> simp_all
    | cons a s =>
      have hne : escDots (a :: s) ≠ [] := by simp only [escDots]; split <;> simp
      obtain ⟨x, l, hx⟩ := List.exists_cons_of_ne_nil hne
      rw [escDots, List.getLast?_append, List.getLast?_cons_cons, ih]
      cases h : (a :: s).getLast? with
      | none => simp at h
      | some b => rfl

theorem digitChar_isDigit (d : Nat) (h : d < 10) : IsDigit (Nat.digitChar d) ∧ (Nat.digitChar d).toNat - 48 = d := by
  have : d = 0 ∨ d = 1 ∨ d = 2 ∨ d = 3 ∨ d = 4 ∨ d = 5 ∨ d = 6 ∨ d = 7 ∨ d = 8 ∨ d = 9 := by omega
  rcases this with rfl | rfl | rfl | rfl | rfl | rfl | rfl | rfl | rfl | rfl <;> exact ⟨by unfold IsDigit; decide, by decide⟩

theorem toDigits_spec (n : Nat) : Digits (Nat.toDigits 10 n) ∧ decVal (Nat.toDigits 10 n) = n ∧ Nat.toDigits 10 n ≠ [] := by
  induction n using Nat.strongRecOn with
  | ind n ih =>
    by_cases h : n < 10
    · rw [Nat.toDigits_of_lt_base h]
      have := digitChar_isDigit n h
      refine ⟨by intro c hc; simp only [List.mem_singleton] at hc; subst hc; exact this.1, ?_, by simp⟩
      simp [decVal, this.2]
    · obtain ⟨h1, h2, h3⟩ := ih (n / 10) (by omega)
      have hd := digitChar_isDigit (n % 10) (by omega)
      rw [Nat.toDigits_of_base_le (by omega) (by omega)]
      refine ⟨?_, ?_, by simp⟩
      · intro c hc
        rcases List.mem_append.mp hc with hc | hc
        · exact h1 c hc
        · simp only [List.mem_singleton] at hc; subst hc; exact hd.1
      · rw [decVal, List.foldl_append]
        rw [show List.foldl _ 0 (Nat.toDigits 10 (n / 10)) = n / 10 from h2]
        simp only [List.foldl_cons, List.foldl_nil, hd.2]
        omega

theorem isUsize_repr (n : Nat) (h : n < 2 ^ 64) : IsUsize (Nat.repr n).toList n := by
  have hr : (Nat.repr n).toList = Nat.toDigits 10 n := by simp [Nat.repr]
  obtain ⟨h1, h2, h3⟩ := toDigits_spec n
  rw [hr]
  exact ⟨[], _, rfl, .inl rfl, h3, h1, h2, h⟩

theorem digits_piece (s : Str) (h : Digits s) : Piece s s := by
  induction s with
  | nil => exact .nil
  | cons c s ih =>
    have hc := h c (by simp)
    refine .char ?_ ?_ (ih (fun d hd => h d (by simp [hd])))
    · rintro rfl; exact absurd hc (by unfold IsDigit; decide)
    · rintro rfl; exact absurd hc (by unfold IsDigit; decide)

/-- Text, content and meaning of one written component. -/
theorem writeComp_spec (f : Finder) (hf : ∀ i, f = .index i → i < 2 ^ 64) :
    ∃ t, Piece (writeComp f) t ∧ CompOf t f ∧ ((∀ k, f = .key k → k.getLast? ≠ some '\\') → (writeComp f).getLast? ≠ some '\\') := by
  cases f with
  | index i =>
    have hu := isUsize_repr i (hf i rfl)
    have hr : (Nat.repr i).toList = Nat.toDigits 10 i := by simp [Nat.repr]
    have hd := (toDigits_spec i).1
    refine ⟨'#' :: (Nat.repr i).toList, ?_, .index hu, fun _ => ?_⟩
    · refine .char (by decide) (fun h => absurd h (by decide)) ?_
      rw [hr]; exact digits_piece _ hd
    · simp only [writeComp, hr]
      intro h
      have := List.mem_of_getLast? h
      rcases List.mem_cons.mp this with h | h
      · exact absurd h (by decide)
      · have := hd _ h
        revert this; unfold IsDigit; decide
  | key k =>
    by_cases hk : k.head? = some '#' ∨ k.head? = some '\\'
    · refine ⟨'\\' :: k, ?_, .escaped k, fun h => ?_⟩
      · simp only [writeComp, writeKey, if_pos hk]
        exact .char (by decide) (fun _ => escDots_head k) (piece_escDots k)
      · simp only [writeComp, writeKey, if_pos hk]
        rw [List.getLast?_append, escDots_last]
        have := h k rfl
        cases k with
        | nil => simp at hk
        | cons a k =>
          cases h' : (a :: k).getLast? with
          | none => simp at h'
          | some b => rw [h'] at this; simpa using this
    · refine ⟨k, ?_, .plain k (fun h => hk (.inl h)) (fun h => hk (.inr h)), fun h => ?_⟩
      · simp only [writeComp, writeKey, if_neg hk, List.nil_append]; exact piece_escDots k
      · simp only [writeComp, writeKey, if_neg hk, List.nil_append, escDots_last]; exact h k rfl

theorem joinDots_spec (fs : List Finder) (h : Writable fs) : ∃ ts, Pieces (joinDots (fs.map writeComp)) ts ∧ CompsOf ts fs := by
  induction fs with
  | nil => exact absurd h (by simp [Writable])
  | cons f r ih =>
    cases r with
    | nil =>
      obtain ⟨t, h1, h2, _⟩ := writeComp_spec f h
      exact ⟨[t], .last h1, .cons h2 .nil⟩
    | cons g r =>
      obtain ⟨h1, h2, h3⟩ := h
      obtain ⟨ts, i1, i2⟩ := ih h3
      obtain ⟨t, t1, t2, t3⟩ := writeComp_spec f h1
      exact ⟨t :: ts, .cons t1 (t3 h2) i1, .cons t2 i2⟩

theorem writePath_spec (fs : List Finder) (h : Writable fs) : PathText (writePath fs) fs := by
  unfold writePath
  split
  · rename_i he; subst he
    exact ⟨by simp, [['\\']], .last (.char (by decide) (fun _ => by simp) .nil), .cons (.escaped []) .nil⟩
  · rename_i he
    refine ⟨?_, joinDots_spec fs h⟩
    match fs with
    | [] => exact absurd h (by simp [Writable])
    | [.index i] => simp [joinDots, writeComp]
    | [.key []] => exact absurd rfl he
    | [.key (c :: k)] => simp only [List.map, joinDots, writeComp, writeKey, escDots]; intro hh; have := congrArg List.length hh; revert this; split <;> split <;> simp
    | f :: g :: r => simp [joinDots]

theorem piece_last {r t : Str} (h : Piece r t) (hl : r.getLast? ≠ some '\\') : t.getLast? ≠ some '\\' := by
  induction h with
  | nil => simp
  | @dot s t hp ih =>
    cases s with
    | nil => cases hp; simp
    | cons a s =>
      have := ih (by simpa [List.getLast?_cons_cons] using hl)
      cases t with
      | nil => cases hp
      | cons b t => simpa [List.getLast?_cons_cons] using this
  | @char c s t h1 h2 hp ih =>
    cases s with
    | nil => cases hp; simpa using hl
    | cons a s =>
      have := ih (by simpa [List.getLast?_cons_cons] using hl)
      cases t with
      | nil => cases hp
      | cons b t => simpa [List.getLast?_cons_cons] using this

/-- Every list a text stands for is writable. -/
theorem pathText_writable {s : Str} {ts : List Str} {fs : List Finder} (h : Pieces s ts) (hc : CompsOf ts fs) : Writable fs := by
  induction h generalizing fs with
  | @last r t hp =>
    cases hc with
    | cons a b =>
      cases b
      intro i hi
      subst hi
      cases a with
      | index hu => exact hu.choose_spec.choose_spec.2.2.2.2.2
  | @cons r t s ts hp hl hs ih =>
    cases hc with
    | @cons _ f _ fs a b =>
      have hw := ih b
      cases fs with
      | nil => exact absurd hw (by simp [Writable])
      | cons g fs =>
        refine ⟨?_, ?_, hw⟩
        · intro i hi
          subst hi
          cases a with
          | index hu => exact hu.choose_spec.choose_spec.2.2.2.2.2
        · intro k hk
          subst hk
          have := piece_last hp hl
          cases a with
          | escaped =>
            cases k with
            | nil => simp
            | cons b k => simpa [List.getLast?_cons_cons] using this
          | plain => exact this

end RJ
