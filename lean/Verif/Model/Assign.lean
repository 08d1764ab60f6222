import Verif.Model.Quote
/-
  `#execute(stmt)` of `@scope` with statements that assign to variables of the caller.
-/
namespace RJ

/-- What a statement does to the variables of the caller (`none`: it does not compile, or panics). -/
abbrev Asn := Scope → List MTok → Option Scope

/-- One command, /repo/json_derive/quote/src/lib.rs:127-315, with the variables of the caller before and after it.  Only `#execute(stmt)` (:217-225) runs a statement, as
`if $flag.0 { $stmt; }`; expressions with side effects are not modelled. -/
def runCmdA (asn : Asn) (ev : Ev) (expand : Scope → List MTok → Option (List QTok)) (tr : QMap → List QTok → QOut) (sc : Scope) (st : ScopeSt) (c : Cmd) :
    Option (Scope × ScopeSt × List QTok) :=
  match c with
  | .execute stmt =>
    if st.ended then none
    else if st.iter.isSome then none
    else if st.on then (asn sc stmt).map (fun sc' => (sc', st, []))
    else some (sc, st, [])
  | c => (runCmd ev expand tr sc st c).map (fun r => (sc, r))

/-- The commands of a scope one after the other, /repo/json_derive/quote/src/lib.rs:371-375: the variables of the caller at the end, and what is emitted. -/
def runCmdsA (asn : Asn) (ev : Ev) (expand : Scope → List MTok → Option (List QTok)) (tr : QMap → List QTok → QOut) :
    Scope → ScopeSt → List Cmd → Option (Scope × List QTok)
  | sc, _, [] => some (sc, [])
  | sc, st, c :: cs =>
    match runCmdA asn ev expand tr sc st c with
    | some (sc', st', out) => (runCmdsA asn ev expand tr sc' st' cs).map (fun r => (r.1, out ++ r.2))
    | none => none

/-- `quote!(@scope: tt)`, /repo/json_derive/quote/src/lib.rs:69-107, 358-376, as a statement of the caller: its variables afterwards, and the stream.  (Statements in scopes inside
`#define(..)` and `#quote(..)` are those of `expand`: they run or fail and assign nothing.) -/
def quoteScopeA (dep : Nat) (asn : Asn) (ev : Ev) (sc : Scope) (tt : List MTok) : Option (Scope × List QTok) :=
  match cmdsOf tt with
  | some cs => if cs.any Cmd.isBlock then runCmdsA asn ev (expand dep ev (mtoksSize tt + 5)) (translate dep) sc ScopeSt.init cs else none
  | none => none

end RJ
