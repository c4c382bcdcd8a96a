import Verif.CostSpec
import Verif.Model.CostQuery

/-!
# Specification vocabulary for the complexity of queries
-/

namespace ICL.Spec
variable {α : Type}

/-- The query `q` does the same as the function `p`, and succeeds, with no more than the given number of searches and of steps;
it inserts nothing and erases nothing. -/
def Answers (q : Counted α) (p : Option α) (searches steps : Nat) : Prop :=
  ∃ a w, q = some (a, w) ∧ p = some a ∧
    w.searches ≤ searches ∧ w.steps ≤ steps ∧ w.hinted = 0 ∧ w.erased = 0 ∧ w.allocated = 0

end ICL.Spec
