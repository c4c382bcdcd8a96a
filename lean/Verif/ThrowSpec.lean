import Verif.Spec
import Verif.Model.Throw

/-!
# Specification vocabulary for exceptions
-/

namespace ICL.Spec

section
variable {D I V S α : Type}

/-- An exception can leave the function of this run with the content `m` in the container. -/
def LeavesBehind (r : Run S α) (m : List S) : Prop := m ∈ r.thrown

/-- The function does nothing if it is left by an exception. -/
def Strong (r : Run S α) (s : List S) : Prop := ∀ m, LeavesBehind r m → m = s

variable (o : IntervalOps D I)

/-- `x` is an element of an interval of `s` that has no element in common with `k`. -/
def Aside (s : List I) (k : I) (x : D) : Prop := ∃ i ∈ s, In o x i ∧ ∀ y, In o y i → ¬ In o y k

/-- `s` associates the value `v` to `x` in a segment that has no element in common with `k`. -/
def AssocAside (s : List (I × V)) (k : I) (x : D) (v : V) : Prop :=
  ∃ p ∈ s, In o x p.1 ∧ p.2 = v ∧ ∀ y, In o y p.1 → ¬ In o y k

end
end ICL.Spec
