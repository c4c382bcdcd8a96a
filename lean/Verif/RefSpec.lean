import Verif.Model.ElementRef

/-!
# Specification vocabulary: element references
-/

namespace ICL.Spec
open ElemRef

section
variable {K V : Type}

/-- Keys first, then values. -/
def Precedes [LT K] [LT V] (a b : K × V) : Prop := a.1 < b.1 ∨ a.1 = b.1 ∧ a.2 < b.2

/-- What the operators are to say about pairs. -/
def CmpOp.Says [LT K] [LT V] : CmpOp → K × V → K × V → Prop
  | .eq, a, b => a = b
  | .ne, a, b => a ≠ b
  | .lt, a, b => Precedes a b
  | .gt, a, b => Precedes b a
  | .le, a, b => Precedes a b ∨ a = b
  | .ge, a, b => Precedes b a ∨ b = a

/-- A strict weak order, as `std::sort` and `std::set` require it. -/
structure StrictWeak {A : Type} (r : A → A → Bool) : Prop where
  irrefl : ∀ a, r a a = false
  trans : ∀ a b c, r a b = true → r b c = true → r a c = true
  cotrans : ∀ a b c, r a c = true → r a b = true ∨ r b c = true

end

/-- The command neither dereferences the iterator `i`, nor assigns to it, nor ends its life. It may move it. -/
def Leaves (i : Nat) : Cmd → Prop
  | .deref j | .assign j _ | .destroy j => j ≠ i
  | _ => True

/-- The command neither assigns to the iterator `i` nor ends its life. -/
def Spares (i : Nat) : Cmd → Prop
  | .assign j _ | .destroy j => j ≠ i
  | _ => True

end ICL.Spec
