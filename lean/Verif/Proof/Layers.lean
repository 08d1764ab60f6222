import Mathlib.Data.List.Dedup
import Verif.Spec.Layers
import Verif.Proof.Flatten
/-
  Laying a document over another (C100).
-/
namespace RJ
open Spec
variable {F : Type}

/-- `set` with the leaves of a list, one after the other. -/
def lay (l : List (List Finder × Json F)) (x : Val F) : Val F := l.foldl (fun d c => setV c.1 (absJ c.2) d) x

theorem lay_append (l l' : List (List Finder × Json F)) (x : Val F) : lay (l ++ l') x = lay l' (lay l x) := by simp [lay, List.foldl_append]

/-- Below a component: the same below its value. -/
theorem lay_under (f : Finder) (l : List (List Finder × Json F)) (hl : ∀ c ∈ l, c.1 ≠ []) (hne : l ≠ []) (x : Val F) :
    lay (l.map (fun c => (f :: c.1, c.2))) x = grow f (lay l (child f x)) x := by
  induction l generalizing x with
  | nil => exact absurd rfl hne
  | cons c l ih =>
    have h1 : lay ((c :: l).map (fun c => (f :: c.1, c.2))) x = lay (l.map (fun c => (f :: c.1, c.2))) (grow f (setV c.1 (absJ c.2) (child f x)) x) := by
      simp only [lay, List.map_cons, List.foldl_cons]
      rw [setV_more f c.1 (hl c List.mem_cons_self)]
    rw [h1]
    cases l with
    | nil => rfl
    | cons d l =>
      rw [ih (fun e h => hl e (List.mem_cons_of_mem _ h)) (by simp), child_grow, grow_grow]
      rfl

theorem isLeaf_leaves {j : Json F} (h : isLeaf j = true) : leavesOf j = [([], j)] := by
  cases j with
  | object m => simp only [isLeaf, List.isEmpty_iff] at h; subst h; rfl
  | array l => simp only [isLeaf, List.isEmpty_iff] at h; subst h; rfl
  | _ => rfl

/-- The leaves of a document that is none are below it, and there are some. -/
theorem inner_leaves (j : Json F) : (isLeaf j = false → ∀ c ∈ leavesOf j, c.1 ≠ []) ∧ leavesOf j ≠ [] := by
  induction j using Json.ind with
  | hobj m ih =>
    cases m with
    | nil => exact ⟨fun h => (nomatch h), by simp [leavesOf]⟩
    | cons e t =>
      obtain ⟨k, v, l⟩ := e
      refine ⟨fun _ c h => ?_, ?_⟩
      · have h : c ∈ memberLeaves ((k, (v, l)) :: t) := h
        obtain ⟨k', v', l', q, _, _, e⟩ := (memberLeaves_mem _ c.1 c.2).1 h
        rw [e]; simp
      · have := (ih k v l (by simp)).1.2
        show memberLeaves _ ≠ []
        simp [memberLeaves, this]
  | harr l ih =>
    cases l with
    | nil => exact ⟨fun h => (nomatch h), by simp [leavesOf]⟩
    | cons v t =>
      refine ⟨fun _ c h => ?_, ?_⟩
      · have h : c ∈ elementLeaves 0 (v :: t) := h
        obtain ⟨n, x, q, _, _, e⟩ := (elementLeaves_mem 0 _ c.1 c.2).1 h
        rw [e]; simp
      · have := (ih v (by simp)).2
        show elementLeaves 0 _ ≠ []
        simp [elementLeaves, this]
  | hstr s => exact ⟨fun h => (nomatch h), by simp [leavesOf]⟩
  | hnum s => exact ⟨fun h => (nomatch h), by simp [leavesOf]⟩
  | hbool s => exact ⟨fun h => (nomatch h), by simp [leavesOf]⟩
  | hnull => exact ⟨fun h => (nomatch h), by simp [leavesOf]⟩

theorem grow_member (k : Str) (y x : Val F) : grow (.key k) y x = withMember k y x := by cases x <;> rfl
theorem grow_element (i : Nat) (y x : Val F) : grow (.index i) y x = withElement i y x := by cases x <;> rfl

theorem overlay_leaf {j : Json F} (h : isLeaf j = true) (x : Val F) : overlay j x = absJ j := by
  cases j with
  | object m => simp only [isLeaf, List.isEmpty_iff] at h; subst h; simp only [overlay, List.isEmpty_nil, if_true, absJ]; congr
  | array l => simp only [isLeaf, List.isEmpty_iff] at h; subst h; rfl
  | _ => simp only [overlay]

/-- One item: the leaves below it. -/
theorem lay_item (f : Finder) (v : Json F) (x : Val F) (ih : ∀ x, lay (leavesOf v) x = overlay v x) :
    lay ((leavesOf v).map (fun c => (f :: c.1, c.2))) x = if isLeaf v then setV [f] (absJ v) x else grow f (overlay v (under f x)) x := by
  by_cases h : isLeaf v = true
  · rw [if_pos h, isLeaf_leaves h]; rfl
  · rw [if_neg h]
    obtain ⟨h1, h2⟩ := inner_leaves v
    rw [lay_under f _ (h1 (by simpa using h)) h2, ih]
    rfl

theorem lay_members (m : Obj F) (ih : ∀ k v l, (k, (v, l)) ∈ m → ∀ x, lay (leavesOf v) x = overlay v x) (x : Val F) : lay (memberLeaves m) x = overlayMembers m x := by
  induction m generalizing x with
  | nil => simp [memberLeaves, overlayMembers, lay]
  | cons e t iht =>
    obtain ⟨k, v, l⟩ := e
    rw [memberLeaves, lay_append, overlayMembers, lay_item (.key k) v x (ih k v l (by simp)), iht (fun k v l h => ih k v l (by simp [h]))]
    congr 1
    by_cases h : isLeaf v = true
    · rw [if_pos h, if_pos h]
    · rw [if_neg h, if_neg h, grow_member]

theorem lay_elements (l : List (Json F)) (i : Nat) (ih : ∀ v ∈ l, ∀ x, lay (leavesOf v) x = overlay v x) (x : Val F) : lay (elementLeaves i l) x = overlayElements i l x := by
  induction l generalizing x i with
  | nil => simp [elementLeaves, overlayElements, lay]
  | cons v t iht =>
    rw [elementLeaves, lay_append, overlayElements, lay_item (.index i) v x (ih v (by simp)), iht (i + 1) (fun v h => ih v (by simp [h]))]
    congr 1
    by_cases h : isLeaf v = true
    · rw [if_pos h, overlay_leaf h, setV_one, ← grow_element]; rfl
    · rw [if_neg h, grow_element]

/-- The leaves of a document, set one after the other, lay it over the other one. -/
theorem lay_leaves (j : Json F) (x : Val F) : lay (leavesOf j) x = overlay j x := by
  induction j using Json.ind generalizing x with
  | hobj m ih =>
    by_cases h : m = []
    · subst h; rw [overlay_leaf rfl]; rfl
    · have e : m.isEmpty = false := by simpa using h
      rw [leavesOf, overlay, e]
      exact lay_members m (fun k v l hm x => (ih k v l hm).1 x) x
  | harr l ih =>
    by_cases h : l = []
    · subst h; rfl
    · have e : l.isEmpty = false := by simpa using h
      rw [leavesOf, overlay, e]
      exact lay_elements l 0 (fun v hm x => ih v hm x) x
  | hstr s => rfl
  | hnum s => rfl
  | hbool s => rfl
  | hnull => rfl

/-- Leaves are at places that part. -/
theorem leaves_part {y : Val F} {p q : List Finder} {v w : Val F} (hp : LeafAt y p v) (hq : LeafAt y q w) (h : p ≠ q) : Diverge p q := by
  rcases paths_part p q y v w hp.1 hq.1 with ⟨t, rfl⟩ | ⟨t, ht, rfl⟩ | hd
  · have ht : t ≠ [] := fun e => h (by rw [e]; simp)
    have := hp.1
    rw [look_append _ _ _ _ hq.1, look_leaf hq.2 ht] at this
    cases this
  · have := hq.1
    rw [look_append _ _ _ _ hp.1, look_leaf hp.2 ht] at this
    cases this
  · obtain ⟨pre, a, b, s, t, rfl, rfl, hab⟩ := hd
    exact ⟨pre, b, a, t, s, rfl, rfl, apart_symm hab⟩

/-- In any order. -/
theorem lay_perm {y : Val F} {l l' : List (List Finder × Json F)} (hl : ∀ c ∈ l, LeafAt y c.1 (absJ c.2)) (hp : l.Perm l') (x : Val F) : lay l x = lay l' x := by
  refine hp.foldl_eq' (fun c hc d hd z => ?_) x
  by_cases h : c.1 = d.1
  · have h1 := (hl c hc).1
    rw [h, (hl d hd).1] at h1
    have h2 := Option.some.inj h1
    rw [h, h2]
  · exact (setV_comm c.1 d.1 (leaves_part (hl c hc) (hl d hd) h) _ _ _).symm

theorem setV_again (p : List Finder) (v x : Val F) : setV p v (setV p v x) = setV p v x := by
  by_cases h : p = []
  · subst h; rfl
  · have := setV_overwrite p [] h v v x
    simpa using this

/-- Leaves that are put once more later may be left out. -/
theorem lay_seen {y : Val F} {c : List Finder × Json F} {l : List (List Finder × Json F)} (hl : ∀ d ∈ l, LeafAt y d.1 (absJ d.2)) (hc : c ∈ l) (x : Val F) : lay (c :: l) x = lay l x := by
  obtain ⟨a, b, rfl⟩ := List.append_of_mem hc
  have h1 : (a ++ c :: b).Perm (c :: (a ++ b)) := List.perm_middle
  rw [lay_perm (y := y) (l' := c :: c :: (a ++ b)) (by
    intro d hd
    rcases List.mem_cons.1 hd with rfl | hd
    · exact hl _ hc
    · exact hl d hd) (h1.cons c), lay_perm hl h1]
  simp only [lay, List.foldl_cons, setV_again]

/-- In any order, and with repetitions. -/
theorem lay_set {y : Val F} {l l' : List (List Finder × Json F)} (hl : ∀ c ∈ l, LeafAt y c.1 (absJ c.2)) (hm : ∀ c, c ∈ l ↔ c ∈ l') (x : Val F) : lay l x = lay l' x := by
  classical
  have key : ∀ l : List (List Finder × Json F), (∀ c ∈ l, LeafAt y c.1 (absJ c.2)) → ∀ x, lay l x = lay l.dedup x := by
    intro l
    induction l with
    | nil => intro _ x; rfl
    | cons c l ih =>
      intro hl x
      by_cases h : c ∈ l
      · rw [List.dedup_cons_of_mem h, ← ih (fun d hd => hl d (List.mem_cons_of_mem _ hd)), lay_seen (fun d hd => hl d (List.mem_cons_of_mem _ hd)) h]
      · rw [List.dedup_cons_of_notMem h]
        exact ih (fun d hd => hl d (List.mem_cons_of_mem _ hd)) _
  rw [key l hl, key l' (fun c h => hl c ((hm c).2 h))]
  refine lay_perm (y := y) (fun c h => hl c (List.mem_dedup.1 h)) ((List.perm_ext_iff_of_nodup (List.nodup_dedup _) (List.nodup_dedup _)).2 (fun c => ?_)) x
  rw [List.mem_dedup, List.mem_dedup, hm]

/-- A leaf that has been put, or was there, is there afterwards. -/
theorem lay_get {y : Val F} {l : List (List Finder × Json F)} (hl : ∀ c ∈ l, LeafAt y c.1 (absJ c.2)) {p : List Finder} {v : Val F} (hp : LeafAt y p v) (x : Val F)
    (h : look p x = some v ∨ ∃ c ∈ l, c.1 = p) : look p (lay l x) = some v := by
  induction l generalizing x with
  | nil =>
    rcases h with h | ⟨c, h, _⟩
    · exact h
    · cases h
  | cons c l ih =>
    have h1 := hl c List.mem_cons_self
    refine ih (fun d hd => hl d (List.mem_cons_of_mem _ hd)) _ ?_
    rcases h with h | ⟨d, hd, h⟩
    · exact .inl (leaf_kept p c.1 x y v _ hp h1.1 (.inl h))
    · rcases List.mem_cons.1 hd with rfl | hd
      · exact .inl (leaf_kept p d.1 x y v _ hp h1.1 (.inr ⟨[], by simp [h]⟩))
      · exact .inr ⟨d, hd, h⟩

/-- What is apart from all the leaves stays. -/
theorem lay_rest {l : List (List Finder × Json F)} {q : List Finder} (h : ∀ c ∈ l, Diverge c.1 q) (x z : Val F) (hz : look q x = some z) : look q (lay l x) = some z := by
  induction l generalizing x with
  | nil => exact hz
  | cons c l ih => exact ih (fun d hd => h d (List.mem_cons_of_mem _ hd)) _ (look_setV_diverge _ _ (h c List.mem_cons_self) _ _ _ hz)

/-- Lists of leaves whose places part can be put in either order. -/
theorem lay_comm {l l' : List (List Finder × Json F)} (h : ∀ c ∈ l, ∀ d ∈ l', Diverge c.1 d.1) (x : Val F) : lay l (lay l' x) = lay l' (lay l x) := by
  have one : ∀ (c : List Finder × Json F) (l' : List (List Finder × Json F)), (∀ d ∈ l', Diverge c.1 d.1) → ∀ x, setV c.1 (absJ c.2) (lay l' x) = lay l' (setV c.1 (absJ c.2) x) := by
    intro c l' h
    induction l' with
    | nil => intro x; rfl
    | cons d l' ih =>
      intro x
      have := ih (fun e he => h e (List.mem_cons_of_mem _ he)) (setV d.1 (absJ d.2) x)
      rw [setV_comm _ _ (h d List.mem_cons_self)] at this
      exact this
  induction l generalizing x with
  | nil => rfl
  | cons c l ih =>
    show lay l (setV c.1 _ (lay l' x)) = lay l' (lay l (setV c.1 _ x))
    rw [one c l' (h c List.mem_cons_self), ih (fun e he => h e (List.mem_cons_of_mem _ he))]

end RJ
