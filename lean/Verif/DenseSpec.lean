import Verif.WeakSpec
import Verif.Kinds.Dynamic

/-!
# Specification: the values in a `continuous_interval`

In terms of `Compare` and of the bounds of the interval only, for any domain type.
-/

namespace ICL.Spec

variable {E V : Type}

/-- The value `e` lies in the interval: it is above the lower bound and below the upper bound, or equivalent to one of them
on a side that is closed. -/
def Lies (lt : E → E → Prop) (i : DItv E) (e : E) : Prop :=
  (lt i.lo e ∨ (i.bnd = Bounds.closed ∨ i.bnd = Bounds.rightOpen) ∧ Tied lt i.lo e) ∧
    (lt e i.up ∨ (i.bnd = Bounds.closed ∨ i.bnd = Bounds.leftOpen) ∧ Tied lt e i.up)

/-- The value `e` lies in one of the intervals of a set. -/
def LiesIn (lt : E → E → Prop) (s : List (DItv E)) (e : E) : Prop := ∃ i ∈ s, Lies lt i e

/-- The value `e` lies in an interval of a map with the associated value `v`. -/
def HasValue (lt : E → E → Prop) (m : List (DItv E × V)) (e : E) (v : V) : Prop := ∃ p ∈ m, Lies lt p.1 e ∧ p.2 = v

end ICL.Spec
