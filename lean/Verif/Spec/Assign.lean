import Verif.Spec.Macros
import Verif.Model.Assign
/-
  The language of `@scope` with `#execute` statements that assign to variables of the caller: a state is the variables together with the definitions of the scope.
-/
namespace RJ.Spec
open RJ

/-- A statement that is run: `#execute` changes the variables of the caller as the statement says, and nothing else; the others see the variables as they are then. -/
def Act.DoesA (asn : Asn) (ev : Ev) : Act → Scope × Env → Scope × Env → List QTok → Prop
  | .execute stmt, s, s', out => asn s.1 stmt = some s'.1 ∧ s'.2 = s.2 ∧ out = []
  | a, s, s', out => a.Does ev s.1 s.2 s'.2 out ∧ s'.1 = s.1

/-- Statements one after the other. -/
def ActsDoA (asn : Asn) (ev : Ev) : List Act → Scope × Env → Scope × Env → List QTok → Prop
  | [], s, s', out => s' = s ∧ out = []
  | a :: l, s, s', out => ∃ s1 o1 o2, a.DoesA asn ev s s1 o1 ∧ ActsDoA asn ev l s1 s' o2 ∧ out = o1 ++ o2

/-- A branch, taken or not. -/
def BranchDoA (asn : Asn) (ev : Ev) (taken : Bool) (l : List Act) (s s' : Scope × Env) (out : List QTok) : Prop :=
  if taken then ActsDoA asn ev l s s' out else (∀ a ∈ l, a.Skips ev s.1) ∧ s' = s ∧ out = []

/-- The branches after the first: the condition of an `#elif` sees what the branches before it have assigned. -/
def BranchesDoA (asn : Asn) (ev : Ev) : Bool → List Branch → Scope × Env → Scope × Env → List QTok → Prop
  | _, [], s, s', out => s' = s ∧ out = []
  | _, .elif c l :: bs, s, s', out =>
    ∃ b s1 o1 o2, ev s.1 c = some (.bool b) ∧ BranchDoA asn ev b l s s1 o1 ∧ BranchesDoA asn ev b bs s1 s' o2 ∧ out = o1 ++ o2
  | was, .else_ l :: bs, s, s', out => ∃ s1 o1 o2, BranchDoA asn ev (!was) l s s1 o1 ∧ BranchesDoA asn ev (!was) bs s1 s' o2 ∧ out = o1 ++ o2

/-- A statement of a program. -/
def Part.DoesA (asn : Asn) (ev : Ev) : Part → Scope × Env → Scope × Env → List QTok → Prop
  | .act a, s, s', out => a.DoesA asn ev s s' out
  | .cond c l bs, s, s', out =>
    ∃ b s1 o1 o2, c.holds ev s.1 s.2.value = some b ∧ BranchDoA asn ev b l s s1 o1 ∧ BranchesDoA asn ev b bs s1 s' o2 ∧ out = o1 ++ o2

/-- A program: the variables of the caller afterwards, and what it emits. -/
def PartsDoA (asn : Asn) (ev : Ev) : List Part → Scope × Env → Scope → List QTok → Prop
  | [], s, sc', out => sc' = s.1 ∧ out = []
  | p :: l, s, sc', out => ∃ s1 o1 o2, p.DoesA asn ev s s1 o1 ∧ PartsDoA asn ev l s1 sc' o2 ∧ out = o1 ++ o2

/-- All statements of a statement of a program. -/
def Part.allActs : Part → List Act
  | .act a => [a]
  | .cond _ l bs => l ++ bs.flatMap Branch.acts

/-- The conditions of C73, for all the values that the variables may take: `S` holds of them at the start (see the theorem) and whatever the statements of the program assign. -/
def Part.OkA (asn : Asn) (ev : Ev) (S : Scope → Prop) (p : Part) : Prop :=
  (∀ sc, S sc → p.Ok ev sc) ∧ ∀ stmt, .execute stmt ∈ p.allActs → ∀ sc sc', S sc → asn sc stmt = some sc' → S sc'

end RJ.Spec
