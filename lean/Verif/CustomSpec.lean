import Verif.Kinds.Custom

/-!
# Specification of what a user class must do to be an interval class
-/

namespace ICL.Spec

/-- The four values of `interval_bound_type` that a class of a user can choose from, doc/customization.qbk -/
inductive BoundType
  | rightOpen | leftOpen | closed | opn

variable {D C : Type} [LinearOrder D]

/-- `x` lies between the bounds `a` and `b`. -/
def Within : BoundType → D → D → D → Prop
  | .rightOpen, a, b, x => a ≤ x ∧ x < b
  | .leftOpen, a, b, x => a < x ∧ x ≤ b
  | .closed, a, b, x => a ≤ x ∧ x ≤ b
  | .opn, a, b, x => a < x ∧ x < b

/-- What the functions of `interval_traits` and the default constructor must do: `construct(a, b)` has the bounds `a` and
`b` whenever there is an element between them, and no elements otherwise; a default constructed object has no elements. -/
structure Requirements (T : Traits D C) (k : BoundType) : Prop where
  bounds : ∀ a b, (∃ x, Within k a b x) → T.lower (T.construct a b) = a ∧ T.upper (T.construct a b) = b
  empties : ∀ a b, (¬ ∃ x, Within k a b x) → ¬ ∃ x, Within k (T.lower (T.construct a b)) (T.upper (T.construct a b)) x
  default : ¬ ∃ x, Within k (T.lower T.default) (T.upper T.default) x

/-- The functions of the library for a class with `interval_traits` `T` and bound type `k`; closed and open
intervals need a discrete domain. -/
inductive UserClass (T : Traits D C) : BoundType → IntervalOps D C → Prop
  | rightOpen : UserClass T .rightOpen T.rightOpenOps
  | leftOpen : UserClass T .leftOpen T.leftOpenOps
  | closed (s : Steps D) : UserClass T .closed (T.closedOps s)
  | opn (s : Steps D) : UserClass T .opn (T.openOps s)

end ICL.Spec
