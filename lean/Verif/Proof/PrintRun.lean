import Verif.Model.PrintRun
import Verif.Spec.PrintRun
import Verif.Proof.PrintCst
/-
  What `to_string` costs.
-/
set_option linter.unusedSectionVars false
namespace RJ
open Spec
variable {F : Type} [FloatOps F]

theorem listRun_eq (l : List (Json F)) : listRun l = l.map Json.printRun := by
  induction l with
  | nil => simp [listRun]
  | cons x t ih => simp [listRun, ih]

theorem entriesRun_eq (m : Obj F) : entriesRun m = m.map (fun e => (e.1, entryRun e.1 e.2.1.printRun (e.2.2.map Json.printRun))) := by
  induction m with
  | nil => simp [entriesRun]
  | cons e t ih => obtain ⟨k, v, l⟩ := e; simp [entriesRun, ih, listRun_eq]

/-- The entries in the order they are printed. -/
theorem sorted_runs (m : Obj F) : sortByKey (entriesRun m) = (sortByKey m).map (fun e => (e.1, entryRun e.1 e.2.1.printRun (e.2.2.map Json.printRun))) := by
  rw [entriesRun_eq]
  exact sortByKey_map _ m

theorem run_text (j : Json F) : j.printRun.text = j.toString := by
  induction j using Json.ind with
  | hobj m ih =>
    rw [Json.printRun, sorted_runs, Json.toString, printEntries_eq, sortByKey_map]
    dsimp only
    rw [List.map_map, List.map_map]
    congr 3
    apply List.map_congr_left
    intro e he
    obtain ⟨h1, h2⟩ := ih e.1 e.2.1 e.2.2 ((sortByKey_perm m).mem_iff.mp he)
    simp only [Function.comp_def, entryRun, h1, List.map_map]
    congr 1
    exact List.map_congr_left h2
  | harr l ih =>
    rw [Json.printRun, Json.toString, listRun_eq, printList_eq]
    dsimp only
    rw [List.map_map]
    congr 3
    exact List.map_congr_left ih
  | hstr s => simp [Json.printRun, Json.toString, leafPrint]
  | hnum f => simp [Json.printRun, Json.toString, leafPrint]
  | hbool b => cases b <;> simp [Json.printRun, Json.toString, leafPrint]
  | hnull => simp [Json.printRun, Json.toString, leafPrint]

theorem le_largest {n : Nat} {l : List Nat} (h : n ∈ l) : n ≤ largest l := by
  induction l with
  | nil => cases h
  | cons a l ih =>
    rw [largest]
    rcases List.mem_cons.1 h with rfl | h
    · omega
    · have := ih h; omega

theorem largest_mem {l : List Nat} (h : l ≠ []) : largest l ∈ l := by
  induction l with
  | nil => exact absurd rfl h
  | cons a l ih =>
    rw [largest]
    cases l with
    | nil => simp [largest]
    | cons b l =>
      have := ih (by simp)
      by_cases hx : a ≤ largest (b :: l)
      · rw [Nat.max_eq_right hx]; exact List.mem_cons_of_mem _ this
      · rw [Nat.max_eq_left (by omega)]; exact List.mem_cons_self

theorem largest_le {l : List Nat} {b : Nat} (h : ∀ n ∈ l, n ≤ b) : largest l ≤ b := by
  induction l with
  | nil => simp [largest]
  | cons a l ih =>
    rw [largest]
    have h1 := h a (by simp)
    have h2 := ih (fun n hn => h n (by simp [hn]))
    omega

theorem join_length (l : List Str) : (l.map List.length).sum ≤ (joinComma l).length := by
  induction l with
  | nil => simp
  | cons x l ih =>
    cases l with
    | nil => simp [joinComma]
    | cons y l =>
      rw [joinComma, List.map_cons, List.sum_cons]
      simp only [List.length_append]
      omega

/-- Sums of costs, each bounded by a multiple of a length. -/
theorem sum_bound {α : Type} (c : Nat) (f g : α → Nat) (l : List α) (h : ∀ x ∈ l, f x ≤ c * g x) : (l.map f).sum ≤ c * (l.map g).sum := by
  induction l with
  | nil => simp
  | cons a l ih =>
    have h1 := h a (by simp)
    have h2 := ih (fun x hx => h x (by simp [hx]))
    simp only [List.map_cons, List.sum_cons, Nat.mul_add]
    omega

theorem escape_length (k : Str) : 2 ≤ (escape k).length := by simp [escape]

/-- One member. -/
theorem member_bound (k : Str) (sep D : Nat) (r : PRun) (h : r.steps ≤ 5 * D * r.text.length) :
    memberSteps k sep r ≤ (5 * D + 3) * ((escape k).length + 2 + r.text.length + sep) := by
  have e : (5 * D + 3) * ((escape k).length + 2 + r.text.length + sep) = 5 * D * r.text.length + 5 * D * ((escape k).length + 2 + sep) + 3 * ((escape k).length + 2 + r.text.length + sep) := by
    simp only [Nat.add_mul, Nat.mul_add]; omega
  rw [e]
  unfold memberSteps
  dsimp only
  generalize 5 * D * r.text.length = x at h
  generalize 5 * D * ((escape k).length + 2 + sep) = y
  omega

theorem flatten_len (l : List Str) : l.flatten.length = (l.map List.length).sum := by
  induction l with
  | nil => rfl
  | cons a l ih => simp [ih]

theorem entry_bound (k : Str) (D : Nat) (js : PRun) (list : List PRun) (h : js.steps ≤ 5 * D * js.text.length) (hl : ∀ r ∈ list, r.steps ≤ 5 * D * r.text.length) :
    (entryRun k js list).steps ≤ (5 * D + 3) * (entryRun k js list).text.length := by
  have h1 := member_bound k 0 D js h
  have h2 := sum_bound (5 * D + 3) (memberSteps k 2) (fun r => (escape k).length + 2 + r.text.length + 2) list.reverse
    (fun r hr => member_bound k 2 D r (hl r (List.mem_reverse.1 hr)))
  have e : (entryRun k js list).text.length = (list.reverse.map (fun r => (escape k).length + 2 + r.text.length + 2)).sum + ((escape k).length + 2 + js.text.length + 0) := by
    unfold entryRun printEntry
    dsimp only
    rw [List.length_append, flatten_len, ← List.map_reverse, List.map_map, List.map_map]
    congr 1
    · congr 1
      apply List.map_congr_left
      intro r _
      simp only [Function.comp_def, List.length_append]
      rfl
    · simp only [List.length_append]; rfl
  rw [e, Nat.mul_add]
  show _ + _ ≤ _
  omega

theorem run_pos (j : Json F) : 1 ≤ j.printRun.depth := by
  cases j with
  | boolean b => cases b <;> simp [Json.printRun, leafPrint]
  | _ => simp [Json.printRun, leafPrint]

theorem leaf_bound (t : Str) (h : t ≠ []) : (leafPrint t).steps ≤ 5 * (leafPrint t).depth * (leafPrint t).text.length := by
  have := List.length_pos_iff.2 h
  unfold leafPrint
  dsimp only
  omega

/-- A container: the sum of its parts and two copies. -/
theorem container_bound (D S J : Nat) (h : S ≤ (5 * D + 3) * J) : 1 + S + J + (J + 2) ≤ 5 * (1 + D) * (J + 2) := by
  have e : 5 * (1 + D) * (J + 2) = (5 * D + 3) * J + 2 * J + 10 * (1 + D) := by
    simp only [Nat.add_mul, Nat.mul_add]; omega
  rw [e]
  generalize (5 * D + 3) * J = x at h
  omega

theorem run_bound (hp : ∀ f : F, FloatOps.print f ≠ []) (j : Json F) : j.printRun.steps ≤ 5 * j.printRun.depth * j.printRun.text.length := by
  induction j using Json.ind with
  | hobj m ih =>
    rw [Json.printRun, sorted_runs]
    simp only [List.map_map, Function.comp_def]
    generalize hD : largest ((sortByKey m).map (fun e => (entryRun e.1 e.2.1.printRun (e.2.2.map Json.printRun)).depth)) = D
    have h := sum_bound (5 * D + 3) (fun e : Str × (Json F × List (Json F)) => (entryRun e.1 e.2.1.printRun (e.2.2.map Json.printRun)).steps)
      (fun e => (entryRun e.1 e.2.1.printRun (e.2.2.map Json.printRun)).text.length) (sortByKey m) (by
        intro e he
        obtain ⟨h1, h2⟩ := ih e.1 e.2.1 e.2.2 ((sortByKey_perm m).mem_iff.mp he)
        have hd : largest (e.2.1.printRun.depth :: (e.2.2.map Json.printRun).map (·.depth)) ≤ D := by
          rw [← hD]
          exact le_largest (List.mem_map.2 ⟨e, he, rfl⟩)
        have mono : ∀ x : Json F, x.printRun.depth ≤ D → x.printRun.steps ≤ 5 * x.printRun.depth * x.printRun.text.length → x.printRun.steps ≤ 5 * D * x.printRun.text.length :=
          fun x hx hs => Nat.le_trans hs (Nat.mul_le_mul_right _ (Nat.mul_le_mul_left _ hx))
        apply entry_bound
        · exact mono _ (Nat.le_trans (le_largest (by simp)) hd) h1
        · intro r hr
          obtain ⟨x, hx, rfl⟩ := List.mem_map.1 hr
          exact mono _ (Nat.le_trans (le_largest (List.mem_cons_of_mem _ (List.mem_map.2 ⟨_, hr, rfl⟩))) hd) (h2 x hx))
    have hj := join_length ((sortByKey m).map (fun e => (entryRun e.1 e.2.1.printRun (e.2.2.map Json.printRun)).text))
    rw [List.map_map] at hj
    generalize joinComma ((sortByKey m).map (fun e => (entryRun e.1 e.2.1.printRun (e.2.2.map Json.printRun)).text)) = J at hj ⊢
    have := container_bound D _ J.length (Nat.le_trans h (Nat.mul_le_mul_left _ hj))
    simpa [Nat.add_comm, Nat.add_left_comm] using this
  | harr l ih =>
    rw [Json.printRun, listRun_eq]
    simp only [List.map_map, Function.comp_def]
    generalize hD : largest (l.map (fun x => x.printRun.depth)) = D
    have h := sum_bound (5 * D + 3) (fun x : Json F => x.printRun.steps) (fun x => x.printRun.text.length) l (by
        intro x hx
        have hd : x.printRun.depth ≤ D := by rw [← hD]; exact le_largest (List.mem_map.2 ⟨x, hx, rfl⟩)
        have h1 := ih x hx
        refine Nat.le_trans h1 (Nat.mul_le_mul_right _ ?_)
        omega)
    have hj := join_length (l.map (fun x => x.printRun.text))
    rw [List.map_map] at hj
    generalize joinComma (l.map (fun x => x.printRun.text)) = J at hj ⊢
    have := container_bound D _ J.length (Nat.le_trans h (Nat.mul_le_mul_left _ hj))
    simpa [Nat.add_comm, Nat.add_left_comm] using this
  | hstr s => rw [Json.printRun]; exact leaf_bound _ (by simp [escape])
  | hnum f => rw [Json.printRun]; exact leaf_bound _ (hp f)
  | hbool b => cases b <;> rw [Json.printRun] <;> exact leaf_bound _ (by simp)
  | hnull => rw [Json.printRun]; exact leaf_bound _ (by simp)

/-- An entry is as deep as the deepest of its values. -/
theorem entry_depth (m : Obj F) : (Json.object m).printRun.depth = 1 + largest ((sortByKey m).map (fun e => largest (e.2.1.printRun.depth :: (e.2.2.map Json.printRun).map (·.depth)))) := by
  rw [Json.printRun, sorted_runs]
  simp only [List.map_map, Function.comp_def, entryRun]

theorem array_depth (l : List (Json F)) : (Json.array l).printRun.depth = 1 + largest (l.map (fun x => x.printRun.depth)) := by
  rw [Json.printRun, listRun_eq]
  simp only [List.map_map, Function.comp_def]

theorem inside_depth {n : Nat} {v j : Json F} (h : Inside n v j) : n < j.printRun.depth := by
  induction h with
  | self j => have := run_pos j; omega
  | element n v x l hx _ ih =>
    rw [array_depth]
    have := le_largest (List.mem_map.2 ⟨x, hx, rfl⟩ : x.printRun.depth ∈ l.map (fun x => x.printRun.depth))
    omega
  | member n v x m k l hm _ ih =>
    rw [entry_depth]
    have h1 := le_largest (List.mem_map.2 ⟨(k, (x, l)), (sortByKey_perm m).mem_iff.mpr hm, rfl⟩ :
      largest (x.printRun.depth :: (l.map Json.printRun).map (·.depth)) ∈ (sortByKey m).map (fun e => largest (e.2.1.printRun.depth :: (e.2.2.map Json.printRun).map (·.depth))))
    have h2 : x.printRun.depth ≤ largest (x.printRun.depth :: (l.map Json.printRun).map (·.depth)) := le_largest (by simp)
    omega
  | older n v x c m k l hm hx _ ih =>
    rw [entry_depth]
    have h1 := le_largest (List.mem_map.2 ⟨(k, (c, l)), (sortByKey_perm m).mem_iff.mpr hm, rfl⟩ :
      largest (c.printRun.depth :: (l.map Json.printRun).map (·.depth)) ∈ (sortByKey m).map (fun e => largest (e.2.1.printRun.depth :: (e.2.2.map Json.printRun).map (·.depth))))
    have h2 : x.printRun.depth ≤ largest (c.printRun.depth :: (l.map Json.printRun).map (·.depth)) :=
      le_largest (List.mem_cons_of_mem _ (List.mem_map.2 ⟨_, List.mem_map.2 ⟨x, hx, rfl⟩, rfl⟩))
    omega

theorem deepest (j : Json F) : ∃ v, Inside (j.printRun.depth - 1) v j := by
  induction j using Json.ind with
  | hobj m ih =>
    rw [entry_depth, Nat.add_sub_cancel_left]
    cases m with
    | nil => exact ⟨_, .self _⟩
    | cons e0 m0 =>
      have hne : (sortByKey (e0 :: m0)).map (fun e => largest (e.2.1.printRun.depth :: (e.2.2.map Json.printRun).map (·.depth))) ≠ [] := by
        intro h
        have := congrArg List.length h
        rw [List.length_map, (sortByKey_perm (e0 :: m0)).length_eq] at this
        cases this
      generalize hm : e0 :: m0 = m at *
      obtain ⟨⟨k, c, l⟩, he, e1⟩ := List.mem_map.1 (largest_mem hne)
      rw [← e1]
      have he := (sortByKey_perm m).mem_iff.mp he
      obtain ⟨h1, h2⟩ := ih k c l he
      rcases List.mem_cons.1 (largest_mem (l := c.printRun.depth :: (l.map Json.printRun).map (·.depth)) (by simp)) with hx | hx
      · obtain ⟨v, hv⟩ := h1
        refine ⟨v, ?_⟩
        have := Inside.member _ _ _ _ _ _ he hv
        have hp := run_pos c
        rw [Nat.sub_add_cancel hp] at this
        rw [hx]; exact this
      · obtain ⟨r, hr, e2⟩ := List.mem_map.1 hx
        obtain ⟨x, hxl, rfl⟩ := List.mem_map.1 hr
        obtain ⟨v, hv⟩ := h2 x hxl
        refine ⟨v, ?_⟩
        have := Inside.older _ _ _ _ _ _ _ he hxl hv
        have hp := run_pos x
        rw [Nat.sub_add_cancel hp] at this
        rw [← e2]; exact this
  | harr l ih =>
    rw [array_depth, Nat.add_sub_cancel_left]
    cases l with
    | nil => exact ⟨_, .self _⟩
    | cons x0 l0 =>
      obtain ⟨x, hx, e1⟩ := List.mem_map.1 (largest_mem (l := (x0 :: l0).map (fun x : Json F => x.printRun.depth)) (by simp))
      obtain ⟨v, hv⟩ := ih x hx
      have := Inside.element _ _ _ _ hx hv
      rw [Nat.sub_add_cancel (run_pos x)] at this
      exact ⟨v, by rw [← e1]; exact this⟩
  | hstr s => exact ⟨_, .self _⟩
  | hnum f => exact ⟨_, .self _⟩
  | hbool b => cases b <;> exact ⟨_, .self _⟩
  | hnull => exact ⟨_, .self _⟩

end RJ
