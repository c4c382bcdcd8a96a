import Verif.Spec
import Verif.Model.Tree

/-!
# Specification vocabulary for iterators
-/

namespace ICL.Spec

section
variable {D I S : Type}

/-- No two nodes of the container have the same address, and new nodes get new addresses. -/
def Proper (t : Tree S) : Prop := (t.nodes.map Prod.fst).Nodup ∧ ∀ n ∈ t.nodes, n.1 < t.fresh

/-- The iterator refers to a node with the content `s`. -/
def RefersTo (t : Tree S) (it : It) (s : S) : Prop := ∃ i, it = some i ∧ (i, s) ∈ t.nodes

/-- The iterator is `end()` or refers to a node. -/
def Usable (t : Tree S) (it : It) : Prop := it = none ∨ ∃ s, RefersTo t it s

variable [LinearOrder D] (o : IntervalOps D I)

/-- The intervals have no element in common. -/
def Disjoint (i j : I) : Prop := ∀ x, In o x i → ¬ In o x j

/-- All elements of `i` are less than those of `j`. -/
def Ahead (i j : I) : Prop := ∀ x y, In o x i → In o y j → x < y

/-- Between the intervals there is a value that belongs to neither. -/
def Apart (i j : I) : Prop :=
  ∃ z, (∀ x, In o x i → x < z) ∧ (∀ y, In o y j → z < y) ∨ (∀ x, In o x i → z < x) ∧ ∀ y, In o y j → y < z

/-- Between `i` and `k` lies another one of the intervals. -/
def Sheltered (l : List I) (i k : I) : Prop := ∃ j ∈ l, Ahead o i j ∧ Ahead o j k ∨ Ahead o k j ∧ Ahead o j i

end
end ICL.Spec
