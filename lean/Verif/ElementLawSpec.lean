import Verif.LawSpec
import Verif.Model.ElementExpr

/-! Specification: instances of terms over containers of elements, and what the operators on partial maps of numbers do
with the values of one key. -/

namespace ICL.Spec

/-- The expression over containers of elements. That an operand is a temporary makes no difference to the operators. -/
def Term.ofElements {C ν : Type} (σ : ν → C) : Term ν → ElemExpr C
  | .var _ n => .leaf (σ n)
  | .add p q => .add (p.ofElements σ) (q.ofElements σ)
  | .sub p q => .sub (p.ofElements σ) (q.ofElements σ)
  | .inter p q => .inter (p.ofElements σ) (q.ofElements σ)
  | .flip p q => .flip (p.ofElements σ) (q.ofElements σ)

/-- Partial maps of numbers that absorb zeros, where zero stands for a missing key: `-` and `&` have no effect on a
missing key, `^` keeps the values of the keys that only one of the maps has. -/
def PointOps.partialNumbers {W : Type} [AddCommGroup W] [DecidableEq W] : PointOps W where
  add u v := u + v
  sub u v := if u = 0 then 0 else u - v
  inter u v := if u = 0 ∨ v = 0 then 0 else u + v
  flip u v := if u = 0 then v else if v = 0 then u else 0

end ICL.Spec
