import Verif.Model.SizeType

/-!
# Specification: counting with a type of sizes
-/

namespace ICL.Spec

/-- `0 + 1 + ... + 1` with `n` ones -/
def tally {Z : Type} (z : SizeOps Z) : Nat → Z
  | 0 => z.zero
  | n + 1 => z.add (tally z n) z.one

/-- A class that takes no value from a number: it has neither `rep` nor `size_type`, or the first of them that it has is
no number itself. -/
inductive Numberless : SizedTy → Prop
  | none (diff) : Numberless (.cls none none diff)
  | size (r s d diff) : Numberless (.cls none (some (.cls r s d)) diff)
  | rep (r s d size diff) : Numberless (.cls (some (.cls r s d)) size diff)

/-- The type of sizes of a domain type: its `size_type`, else its `difference_type`, else the type itself if it has a
`rep`, else a built-in unsigned type -/
inductive HasSize : SizedTy → SizedTy → Prop
  | size (rep s diff) : HasSize (.cls rep (some s) diff) s
  | diff (rep d) : HasSize (.cls rep none (some d)) d
  | self (r) : HasSize (.cls (some r) none none) (.cls (some r) none none)
  | plain : HasSize (.cls none none none) (.numeric false)
  | number (b) : HasSize (.numeric b) (.numeric false)

end ICL.Spec
