import Verif.Spec.Ieee
/-
  Specification of the precision of a number literal.
-/
namespace RJ.Spec
open RJ

/-- The digits of a literal before and after the point, without the leading and trailing zeros: its significant digits. -/
def NumLit.significant (n : NumLit) : Str :=
  (((n.int ++ n.frac.getD []).dropWhile (· = '0')).reverse.dropWhile (· = '0')).reverse

/-- How many digits of a literal are significant. -/
def NumLit.precision (n : NumLit) : Nat := n.significant.length

end RJ.Spec
