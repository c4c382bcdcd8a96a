import Verif.Kinds.Classes
import Mathlib.Data.Int.SuccPred
import Mathlib.Algebra.Order.Ring.Rat
import Mathlib.Algebra.Order.Field.Basic
import Mathlib.Algebra.Field.Rat

/-!
# Concrete interval classes for the examples beside the theorems
-/

namespace ICL.Ex

/-- `right_open_interval<int>` -/
abbrev ro : IntervalOps ℤ (SItv ℤ) := rightOpenOps 0
theorem ro_cls : IntervalClass ro := .rightOpen 0
abbrev roE : ElementOps ℤ (SItv ℤ) := rightOpenE stepsInt
theorem ro_disc : DiscreteClass ro roE := .rightOpen stepsInt 0
/-- `discrete_interval<int>` -/
abbrev di : IntervalOps ℤ (DItv ℤ) := discreteOps stepsInt 0
theorem di_cls : IntervalClass di := .discrete stepsInt 0
/-- `closed_interval<int>` -/
abbrev cl : IntervalOps ℤ (SItv ℤ) := closedOps stepsInt 0 1
theorem cl_cls : IntervalClass cl := .closed stepsInt 0 1 (by decide)
/-- `continuous_interval<rational>` -/
abbrev co : IntervalOps ℚ (DItv ℚ) := continuousOps 0
theorem co_cls : IntervalClass co := .continuous 0

/-- `[a, b)` -/
abbrev r (a b : ℤ) : SItv ℤ := ⟨a, b⟩

end ICL.Ex
