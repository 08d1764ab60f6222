import Verif.Spec.Modify
import Verif.Proof.Subst
import Verif.Proof.QuoteFuel
/-
  Modifiers inside templates.
-/
namespace RJ
open Spec
variable (dep : Nat) (ev : Ev)

theorem renderMods_ne {ts : List MTmpl} (h : ts ≠ []) : ∃ t us, renderMods ts = t :: us := by
  cases ts with
  | nil => exact absurd rfl h
  | cons t ts =>
    rw [renderMods]
    cases t with
    | plain t =>
      obtain ⟨u, us, e⟩ := renderAll_ne (ts := [t]) (by simp)
      rw [renderAll, renderAll, List.append_nil] at e
      exact ⟨u, us ++ renderMods ts, by rw [MTmpl.render, e]; rfl⟩
    | attr i ts => cases i <;> exact ⟨_, _, rfl⟩
    | _ => exact ⟨_, _, rfl⟩

/-- A modifier on its own. -/
theorem modifier_alone (k : Nat) (sc : Scope) (body : List MTok) (hk : 1 < k) :
    expand dep ev k sc [.op ['#'], .group .paren (.op ['@'] :: body)] = (modifierOut dep ev (expand dep ev (k - 1)) sc body).map (·.1) := by
  obtain ⟨k, rfl⟩ : ∃ m, k = m + 2 := ⟨k - 2, by omega⟩
  rw [expand_pound]
  show runModifier dep ev (expand dep ev (k + 1)) sc body [] = _
  rw [runModifier_eq]
  show _ = (modifierOut dep ev (expand dep ev (k + 1)) sc body).map _
  cases modifierOut dep ev (expand dep ev (k + 1)) sc body with
  | none => rfl
  | some r => simp [expand]

/-- A modifier before other text. -/
theorem modifier_before (n : Nat) (sc sc' : Scope) (body rest : List MTok) (hn : mtoksSize body < n)
    (hl : ∀ E r, modifierOut dep ev E sc body = some r → r.2 = sc') :
    expand dep ev (n + 1) sc (.op ['#'] :: .group .paren (.op ['@'] :: body) :: rest) =
      catO (expand dep ev (mtoksSize [.op ['#'], .group .paren (.op ['@'] :: body)] + 1) sc [.op ['#'], .group .paren (.op ['@'] :: body)]) (expand dep ev n sc' rest) := by
  rw [modifier_alone dep ev _ sc body (by simp only [mtoksSize, MTok.size]; omega), expand_pound]
  show runModifier dep ev (expand dep ev n) sc body rest = _
  rw [runModifier_eq]
  have : modifierOut dep ev (expand dep ev n) sc body =
      modifierOut dep ev (expand dep ev (mtoksSize [.op ['#'], .group .paren (.op ['@'] :: body)] + 1 - 1)) sc body := by
    refine modifierOut_congr dep ev (k := mtoksSize body) ?_ sc body (Nat.le_refl _)
    intro sc ts ht
    exact expand_bound dep ev _ _ sc ts (by omega) (by simp only [mtoksSize, MTok.size]; omega)
  rw [this]
  cases e : modifierOut dep ev (expand dep ev (mtoksSize [.op ['#'], .group .paren (.op ['@'] :: body)] + 1 - 1)) sc body with
  | none => rfl
  | some r => rw [← hl _ r e]; rfl

theorem literal_leaves (E : Scope → List MTok → Option (List QTok)) (sc : Scope) (tt : List MTok) (w : Str) (r : List QTok × Scope)
    (h : modifierOut dep ev E sc (.ident w :: .op [':'] :: tt) = some r) : r.2 = sc := by
  simp only [modifierOut] at h
  by_cases h1 : w = "literal".toList
  · rw [if_pos h1] at h
    split at h
    · cases h
    · cases h; rfl
  rw [if_neg h1] at h
  by_cases h1 : w = "scope".toList
  · rw [if_pos h1] at h
    split at h
    · split at h
      · rw [Option.map_eq_some_iff] at h
        obtain ⟨a, _, rfl⟩ := h
        rfl
      · cases h
    · cases h
  · rw [if_neg h1] at h; cases h

theorem params_leaves (E : Scope → List MTok → Option (List QTok)) (sc : Scope) (ps : List QParam) (tt : List MTok) (r : List QTok × Scope)
    (hp : ps ≠ []) (hc : ∀ p ∈ ps, .op [','] ∉ p.toks)
    (h : modifierOut dep ev E sc (.ident "params".toList :: .group .paren (paramsToks ps) :: .op [':'] :: tt) = some r) :
    r.2 = MTmpl.leaves ev (.params ps tt) sc := by
  have hl : paramList [] (paramsToks ps) = ps.map QParam.toks := by
    rw [paramList_join ps [] hc hp]
    cases ps with
    | nil => exact absurd rfl hp
    | cons p qs => simp
  simp only [modifierOut, if_true] at h
  split at h
  · cases h
  · rw [hl] at h
    have hs := setParams_eq ev ps sc [] (fun _ => none) rfl
    cases e : paramVals ev ps sc (fun _ => none) with
    | none => rw [e] at hs; rw [hs] at h; cases h
    | some q =>
      obtain ⟨sc', vals⟩ := q
      rw [e] at hs
      obtain ⟨m, h2, _⟩ := hs
      rw [h2] at h
      simp only [Option.map_eq_some_iff] at h
      obtain ⟨a, _, rfl⟩ := h
      rw [MTmpl.leaves, e]; rfl

mutual
/-- One piece of a template with modifiers. -/
theorem MTmpl.expand_ok : ∀ (t : MTmpl), t.Ok → ∀ (n : Nat) (sc : Scope) (rest : List MTok), mtoksSize (t.render ++ rest) < n →
    ∃ n', mtoksSize rest < n' ∧ expand dep ev n sc (t.render ++ rest) = catO (t.means (quoteMacro dep ev) ev sc) (expand dep ev n' (t.leaves ev sc) rest)
  | t, hok, 0, sc, rest, hn => by omega
  | .plain t, hok, n + 1, sc, rest, hn => Tmpl.expand_ok dep ev t hok (n + 1) sc rest hn
  | .group d ts, hok, n + 1, sc, rest, hn => by
    rw [MTmpl.render, List.singleton_append, mtoksSize, MTok.size] at hn
    exact ⟨n, by omega, by
      rw [MTmpl.render, List.singleton_append, expand_group, renderMods_ok ts hok n sc (by omega), MTmpl.means]; rfl⟩
  | .attr false ts, hok, n + 1, sc, rest, hn => by
    simp only [MTmpl.render, List.cons_append, mtoksSize, MTok.size, List.nil_append] at hn
    obtain ⟨n, rfl⟩ : ∃ m, n = m + 1 := ⟨n - 1, by omega⟩
    refine ⟨n, by omega, ?_⟩
    rw [MTmpl.render, List.cons_append, expand_pound]
    show catO (some (genPunct '#')) (expand dep ev (n + 1) sc (.group .bracket (renderMods ts) :: rest)) = _
    rw [expand_group, renderMods_ok ts hok n sc (by omega), MTmpl.means]
    show _ = catO _ (expand dep ev n sc rest)
    cases modsMean (quoteMacro dep ev) ev ts sc with
    | none => rfl
    | some g => rw [← catO_assoc]; rfl
  | .attr true ts, hok, n + 1, sc, rest, hn => by
    simp only [MTmpl.render, List.cons_append, mtoksSize, MTok.size, List.nil_append] at hn
    obtain ⟨n, rfl⟩ : ∃ m, n = m + 2 := ⟨n - 2, by omega⟩
    refine ⟨n, by omega, ?_⟩
    rw [MTmpl.render, List.cons_append, expand_pound]
    show catO (some (genPunct '#')) (expand dep ev (n + 2) sc (.op ['!'] :: .group .bracket (renderMods ts) :: rest)) = _
    rw [expand_op _ _ _ _ _ (by decide), expand_group, renderMods_ok ts hok n sc (by omega), MTmpl.means]
    show _ = catO _ (expand dep ev n sc rest)
    cases modsMean (quoteMacro dep ev) ev ts sc with
    | none => rfl
    | some g => rw [← catO_assoc, ← catO_assoc]; rfl
  | .when pos src body, hok, n + 1, sc, rest, hn => by
    simp only [MTmpl.render, List.cons_append, mtoksSize, mtoksSize_append, MTok.size, List.nil_append] at hn
    refine ⟨n, by omega, ?_⟩
    have hb := renderMods_ok body hok.2 n sc (by omega)
    obtain ⟨t, us, he⟩ := renderMods_ne hok.1
    rw [MTmpl.render, List.cons_append, expand_pound, List.cons_append, pound_form, formOf_eq]
    have hr : boolRule src.code (.op [':'] :: renderMods body) ([.op [if pos then '+' else '-']] ++ rest) = some (.when pos src.code (renderMods body), rest) := by
      rw [he]; cases pos <;> rfl
    rw [hr]
    show catO (runForm _ _ _ _) _ = _
    congr 1
    rw [runForm, MTmpl.means, hb]
    rfl
  | .optMap src x body, hok, n + 1, sc, rest, hn => by
    simp only [MTmpl.render, List.cons_append, mtoksSize, mtoksSize_append, MTok.size, List.nil_append] at hn
    refine ⟨n, by omega, ?_⟩
    have hb := fun sc => renderMods_ok body hok.2 n sc (by omega)
    obtain ⟨t, us, he⟩ := renderMods_ne hok.1
    rw [MTmpl.render, List.cons_append, expand_pound, List.cons_append, pound_form, formOf_eq]
    have hr : (boolRule src.code (.op [':'] :: binderTok x :: renderMods body) ([.op ['?']] ++ rest)
        <|> optRule src.code (.op [':'] :: binderTok x :: renderMods body) ([.op ['?']] ++ rest)
        <|> starRule src.code (.op [':'] :: binderTok x :: renderMods body) ([.op ['?']] ++ rest)) = some (.optMap src.code x (renderMods body), rest) := by
      rw [he]; cases x <;> rfl
    rw [hr]
    show catO (runForm _ _ _ _) _ = _
    congr 1
    rw [runForm, MTmpl.means]
    simp only [hb]
    rfl
  | .iterMap src x body sep, hok, n + 1, sc, rest, hn => by
    simp only [MTmpl.render, List.cons_append, mtoksSize, mtoksSize_append, MTok.size, List.nil_append] at hn
    refine ⟨n, by omega, ?_⟩
    have hb := fun sc => renderMods_ok body hok.2.1 n sc (by omega)
    obtain ⟨t, us, he⟩ := renderMods_ne hok.1
    rw [MTmpl.render, List.cons_append, expand_pound, List.cons_append, pound_form, formOf_eq]
    have hr : (boolRule src.code (.op [':'] :: binderTok x :: renderMods body) (sepTok sep ++ [.op ['*']] ++ rest)
        <|> optRule src.code (.op [':'] :: binderTok x :: renderMods body) (sepTok sep ++ [.op ['*']] ++ rest)
        <|> starRule src.code (.op [':'] :: binderTok x :: renderMods body) (sepTok sep ++ [.op ['*']] ++ rest))
          = some (.starMap src.code x (renderMods body) sep, rest) := by
      rw [he]
      cases sep with
      | none => cases x <;> rfl
      | some s =>
        obtain ⟨h1, h2, h3, h4, h5⟩ := hok.2.2 s rfl
        have e1 : boolRule src.code (.op [':'] :: binderTok x :: t :: us) (sepTok (some s) ++ [.op ['*']] ++ rest) = none := by
          show boolRule src.code (.op [':'] :: binderTok x :: t :: us) (s :: .op ['*'] :: rest) = none
          unfold boolRule
          split
          · rename_i h; cases h; exact absurd rfl h4
          · rename_i h; cases h; exact absurd rfl h5
          · rfl
        have e2 : optRule src.code (.op [':'] :: binderTok x :: t :: us) (sepTok (some s) ++ [.op ['*']] ++ rest) = none := by
          show optRule src.code (.op [':'] :: binderTok x :: t :: us) (s :: .op ['*'] :: rest) = none
          unfold optRule
          split
          · rename_i h _; cases h
          · rename_i h; cases h; exact absurd rfl h3
          · rename_i h; cases h; exact absurd rfl h3
          · rfl
        have e3 : starRule src.code (.op [':'] :: binderTok x :: t :: us) (sepTok (some s) ++ [.op ['*']] ++ rest)
            = some (.starMap src.code x (t :: us) (some s), rest) := by
          exact starRule_sep _ _ _ _ _ _ h2
        rw [e1, e2, e3]; rfl
    rw [hr]
    show catO (runForm _ _ _ _) _ = _
    congr 1
    rw [MTmpl.means]
    cases sep with
    | none =>
      rw [runForm]
      simp only [hb]
      have : forEach (fun v => modsMean (quoteMacro dep ev) ev body (bindX x v sc)) =
          fun vs => (allSome (fun v => modsMean (quoteMacro dep ev) ev body (bindX x v sc)) vs).map (joined none) := funext (fun vs => forEach_eq _ vs)
      rw [this]
    | some s =>
      obtain ⟨h1, -⟩ := hok.2.2 s rfl
      rw [runForm, expand_sep dep ev n (by omega) sc s h1]
      simp only [hb]
      have : forSep (some (codeTok s)) (fun v => modsMean (quoteMacro dep ev) ev body (bindX x v sc)) 0
          = fun vs => (allSome (fun v => modsMean (quoteMacro dep ev) ev body (bindX x v sc)) vs).map (joined (some s)) := funext (fun vs => forSep_eq _ _ vs)
      rw [this]
  | .literal tt, hok, n + 1, sc, rest, hn => by
    simp only [MTmpl.render, literalToks, List.cons_append, mtoksSize, mtoksSize_append, MTok.size, List.nil_append] at hn
    refine ⟨n, by omega, ?_⟩
    rw [MTmpl.render, MTmpl.means, literalToks]
    unfold quoteMacro
    rw [whole_at ev sc _ (.inl rfl), Option.bind_some]
    exact modifier_before dep ev n sc sc _ rest (by simp only [mtoksSize, MTok.size]; omega) (fun E r h => literal_leaves dep ev E sc tt _ r h)
  | .params ps tt, hok, n + 1, sc, rest, hn => by
    simp only [MTmpl.render, paramsMod, List.cons_append, mtoksSize, mtoksSize_append, MTok.size, List.nil_append] at hn
    refine ⟨n, by omega, ?_⟩
    rw [MTmpl.render, MTmpl.means, paramsMod]
    unfold quoteMacro
    rw [whole_params ev sc, Option.bind_some]
    exact modifier_before dep ev n sc _ _ rest (by simp only [mtoksSize, MTok.size]; omega) (fun E r h => params_leaves dep ev E sc ps tt r hok.1 hok.2 h)
  | .scope tt, hok, n + 1, sc, rest, hn => by
    simp only [MTmpl.render, scopeToks, List.cons_append, mtoksSize, mtoksSize_append, MTok.size, List.nil_append] at hn
    refine ⟨n, by omega, ?_⟩
    rw [MTmpl.render, MTmpl.means, scopeToks]
    unfold quoteMacro
    rw [whole_at ev sc _ (.inr rfl), Option.bind_some]
    exact modifier_before dep ev n sc sc _ rest (by simp only [mtoksSize, MTok.size]; omega) (fun E r h => literal_leaves dep ev E sc tt _ r h)
/-- A whole template with modifiers. -/
theorem renderMods_ok : ∀ (ts : List MTmpl), allModsOk ts → ∀ (n : Nat) (sc : Scope), mtoksSize (renderMods ts) < n →
    expand dep ev n sc (renderMods ts) = modsMean (quoteMacro dep ev) ev ts sc
  | _, _, 0, _, hn => by omega
  | [], _, n + 1, sc, _ => rfl
  | t :: ts, hok, n + 1, sc, hn => by
    rw [renderMods] at hn
    obtain ⟨n', h1, h2⟩ := MTmpl.expand_ok t hok.1 (n + 1) sc (renderMods ts) hn
    rw [renderMods, h2, renderMods_ok ts hok.2 n' _ h1, modsMean]
    rfl
end

end RJ
