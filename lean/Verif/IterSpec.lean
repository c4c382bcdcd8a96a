import Mathlib.Order.Defs.LinearOrder

/-!
# Specification vocabulary: loops over iterators

`none` stands for undefined behaviour, as the use of an iterator past the end.
-/

namespace ICL.Spec

section
variable {It A : Type}

/-- The loop `for(; it != stop; ++it) use(*it);` ends and uses the values `xs` one after the other. -/
inductive Forward (deref : It → Option A) (incr : It → Option It) (stop : It) : It → List A → Prop
  | done : Forward deref incr stop stop []
  | step {it it' : It} {x : A} {xs : List A} (hn : it ≠ stop) (hd : deref it = some x) (hi : incr it = some it')
      (ht : Forward deref incr stop it' xs) : Forward deref incr stop it (x :: xs)

/-- The loop `while(it != stop) { --it; use(*it); }` ends and uses the values `xs` one after the other. -/
inductive Backward (deref : It → Option A) (decr : It → Option It) (stop : It) : It → List A → Prop
  | done : Backward deref decr stop stop []
  | step {it it' : It} {x : A} {xs : List A} (hn : it ≠ stop) (hi : decr it = some it') (hd : deref it' = some x)
      (ht : Backward deref decr stop it' xs) : Backward deref decr stop it (x :: xs)

/-- `xs` lists the values with the property `P` in increasing order, each of them once. -/
def Enumerates {D : Type} [LinearOrder D] (xs : List D) (P : D → Prop) : Prop := xs.Pairwise (· < ·) ∧ ∀ x, x ∈ xs ↔ P x

end
end ICL.Spec
