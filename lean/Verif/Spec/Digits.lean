import Verif.Spec.Shortest
/-
  Specification: the exact value of a document, numbers as rational numbers (no `f64` involved).
-/
namespace RJ.Spec
open RJ

mutual
/-- The value a syntax tree denotes, with exact numbers; `none` if it contains a string with an unpaired surrogate. -/
def Cst.exact : Cst → Option (Val ℚ)
  | .null => some .null
  | .true => some (.bool Bool.true)
  | .false => some (.bool Bool.false)
  | .num n => some (.num n.rat)
  | .str s => (strVal s).map .str
  | .arr0 _ => some (.arr [])
  | .arr es => (Elems.exact es).map .arr
  | .obj0 _ => some (.obj (named []))
  | .obj ms => (Members.exact ms).map (fun l => .obj (named l))
def Elems.exact : Elems → Option (List (Val ℚ))
  | .one _ x _ => (Cst.exact x).map ([·])
  | .cons _ x _ t =>
    match Cst.exact x, Elems.exact t with
    | some v, some l => some (v :: l)
    | _, _ => none
def Members.exact : Members → Option (List (Str × Val ℚ))
  | .one _ k _ _ x _ =>
    match strVal k, Cst.exact x with
    | some k, some v => some [(k, v)]
    | _, _ => none
  | .cons _ k _ _ x _ t =>
    match strVal k, Cst.exact x, Members.exact t with
    | some k, some v, some l => some ((k, v) :: l)
    | _, _, _ => none
end

mutual
/-- Every number literal of the tree satisfies `P`. -/
def Cst.AllLit (P : NumLit → Prop) : Cst → Prop
  | .num n => P n
  | .arr es => es.AllLit P
  | .obj ms => ms.AllLit P
  | _ => True
def Elems.AllLit (P : NumLit → Prop) : Elems → Prop
  | .one _ x _ => x.AllLit P
  | .cons _ x _ t => x.AllLit P ∧ t.AllLit P
def Members.AllLit (P : NumLit → Prop) : Members → Prop
  | .one _ _ _ _ x _ => x.AllLit P
  | .cons _ _ _ _ x _ t => x.AllLit P ∧ t.AllLit P
end

/-- Zero, or a literal with at most 15 significant digits and a magnitude at which `f64` has its full precision (from 2^-1022 on). -/
def NumLit.Everyday (n : NumLit) : Prop := n.rat = 0 ∨ n.precision ≤ 15 ∧ 1 / 2 ^ 1022 ≤ |n.rat|

/-- At most 15 significant digits, and no digit other than zero after the 323rd decimal place. -/
def NumLit.Fifteen (n : NumLit) : Prop := n.precision ≤ 15 ∧ ∃ k : Int, n.rat = k / 10 ^ 323

end RJ.Spec
