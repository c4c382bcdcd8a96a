import Verif.Spec
import Verif.Model.CostFun

/-!
# Specification vocabulary for complexity
-/

namespace ICL.Spec

section
variable {D I S α : Type}

/-- On the container `t`, `m` does the same as `p`, and succeeds; there are no more searches, hinted insertions, steps and
allocations than `b` says, and a node is erased only if it was there before or has been allocated. -/
def Takes (t : Tree S) (m : CostM S α) (p : TreeM S α) (b : Work) : Prop :=
  ∃ a t' w, m t = some ((a, t'), w) ∧ p t = some (a, t') ∧
    w.searches ≤ b.searches ∧ w.hinted ≤ b.hinted ∧ w.steps ≤ b.steps ∧ w.allocated ≤ b.allocated ∧
    t'.nodes.length + w.erased = t.nodes.length + w.allocated

variable [LinearOrder D]

open Classical in
/-- How many intervals of the list share elements with `k`. -/
noncomputable def overlapped (o : IntervalOps D I) (l : List I) (k : I) : Nat :=
  (l.filter fun i => decide (∃ x, In o x i ∧ In o x k)).length

/-- All there was to do, if a search or a hinted insertion is worth `lg` steps. -/
def time (lg : Nat) (w : Work) : Nat := (w.searches + w.hinted) * lg + w.steps + w.erased + w.allocated

end

section
variable {I : Type}

/-- How many segments a call adds or subtracts, if it does only that. -/
def calls : Tree.Sets.Cmd I → Option Nat
  | .add _ _ | .addHint _ _ _ | .subtract _ => some 1
  | .addSet _ r | .output _ _ r => some r.length
  | .flip _ | .join => none

end
end ICL.Spec
