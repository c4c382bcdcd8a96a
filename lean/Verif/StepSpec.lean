import Verif.Kinds.Raw

/-!
# Specification: what `++` and `--` should do, and programs that add and remove intervals
-/

namespace ICL.Spec
variable {D I : Type}

section
variable [LinearOrder D]

/-- `++` and `--` may be called wherever there is a larger, or a smaller, value. -/
def Callable (s : Incs D) : Prop :=
  (∀ x, s.hasNx x = true ↔ ∃ y, x < y) ∧ ∀ x, s.hasPr x = true ↔ ∃ y, y < x

/-- `++` gives a larger value, where there is one, and `--` a smaller one. -/
def Moves (s : Incs D) : Prop := (∀ x y, x < y → x < s.nx x) ∧ ∀ x y, x < y → s.pr y < y

/-- `++` leads to the next value, where there is one, and `--` to the prior one. -/
def Neighbours (s : Incs D) : Prop :=
  (∀ x y, x < y → x < s.nx x ∧ s.nx x ≤ y) ∧ ∀ x y, x < y → x ≤ s.pr y ∧ s.pr y < y

end

/-- A command of a program with one interval set -/
inductive Edit (I : Type)
  /-- `s += k` -/
  | add (k : I)
  /-- `s -= k` -/
  | sub (k : I)

/-- What is in the set after the commands, the last of which comes first. -/
def Should (o : IntervalOps D I) : List (Edit I) → D → Prop
  | [], _ => False
  | .add k :: cs, x => o.contains k x = true ∨ Should o cs x
  | .sub k :: cs, x => o.contains k x = false ∧ Should o cs x

/-! ## Which types count as discrete -/

/-- Domain types, as far as `is_discrete` looks at them -/
inductive DomainTy
  /-- `float`, `double`, `long double` -/
  | floating
  /-- an integral type or a pointer -/
  | scalar
  /-- a class without a member type `rep`, with or without an operator `++` -/
  | plain (inc : Bool)
  /-- a class with a member type `rep`, with or without an operator `++` -/
  | wrapper (inc : Bool) (rep : DomainTy)

/-- A type that is held by values of the type, through any number of members `rep`, and is not a class with such a
member. -/
inductive Holds : DomainTy → DomainTy → Prop
  | floating : Holds .floating .floating
  | scalar : Holds .scalar .scalar
  | plain (inc) : Holds (.plain inc) (.plain inc)
  | wrapper (inc) {rep t} : Holds rep t → Holds (.wrapper inc rep) t

/-- The type, or one that it holds, lacks an operator `++`. -/
inductive Lacks : DomainTy → Prop
  | plain : Lacks (.plain false)
  | here (rep) : Lacks (.wrapper false rep)
  | deeper (inc) {rep} : Lacks rep → Lacks (.wrapper inc rep)

end ICL.Spec
