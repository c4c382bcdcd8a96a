import Verif.CostSpec
import Verif.Model.CostInter

/-!
# Specification vocabulary for the complexity of intersections
-/

namespace ICL.Spec
variable {S α : Type}

/-- The call `m` on the container `t` succeeds and leaves the segments `l`, with no more searches, hinted insertions, steps
and allocations than `b` says; the nodes of the container are those it had, without those that were erased and with those
that were allocated. -/
def Yields (t : Tree S) (m : CostM S Unit) (l : Option (List S)) (b : Work) : Prop :=
  ∃ t' w, m t = some (((), t'), w) ∧ l = some t'.segs ∧
    w.searches ≤ b.searches ∧ w.hinted ≤ b.hinted ∧ w.steps ≤ b.steps ∧ w.allocated ≤ b.allocated ∧
    t'.nodes.length + w.erased = t.nodes.length + w.allocated

/-- Likewise, and in addition every node that the container had is erased. -/
def Rebuilds (t : Tree S) (m : CostM S Unit) (l : Option (List S)) (b : Work) : Prop :=
  ∃ t' w, m t = some (((), t'), w) ∧ l = some t'.segs ∧
    w.searches ≤ b.searches ∧ w.hinted ≤ b.hinted ∧ w.steps ≤ b.steps ∧ w.allocated ≤ b.allocated ∧
    t.nodes.length ≤ w.erased ∧ t'.nodes.length + w.erased = t.nodes.length + w.allocated

/-- The query `q` has the result of `p`, within the limits of `b`, and erases as many nodes as it allocates. -/
def Tests (q : Option (α × Work)) (p : Option α) (b : Work) : Prop :=
  ∃ a w, q = some (a, w) ∧ p = some a ∧
    w.searches ≤ b.searches ∧ w.hinted ≤ b.hinted ∧ w.steps ≤ b.steps ∧ w.allocated ≤ b.allocated ∧
    w.erased = w.allocated

end ICL.Spec
