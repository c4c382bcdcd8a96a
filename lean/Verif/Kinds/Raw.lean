import Verif.Kinds.Dynamic

/-!
# Discrete intervals over any type with `++` and `--`

`discrete_interval` and `closed_interval` again, without the assumption that `++` and `--` lead to the next and to the
prior value of the domain type.  Nothing in the library checks that: a class with an operator `++` that has no member type
`rep` counts as discrete (type_traits/is_discrete.hpp:38-60), whatever its operator `++` does.

The definitions are those of `Kinds/Static.lean` and `Kinds/Dynamic.lean`, see `Raw.discreteOps_steps` and
`Raw.closedOps_steps`.
-/

set_option linter.unusedSectionVars false

namespace ICL

/-- `operator ++` and `operator --` of a domain type, as functions; `hasNx` and `hasPr` tell where they may be called. -/
structure Incs (D : Type) where
  nx : D → D
  pr : D → D
  hasNx : D → Bool
  hasPr : D → Bool

namespace Raw
variable {D : Type} [LinearOrder D] (s : Incs D)

/-- `++x`, `none` if that overflows -/
def next (x : D) : Option D := if s.hasNx x then some (s.nx x) else none
/-- `--x`, `none` if that overflows -/
def prior (x : D) : Option D := if s.hasPr x then some (s.pr x) else none

namespace Disc
/-! `discrete_interval` -/

/-- `is_empty`, concept/interval.hpp:572-583 -/
def isEmpty (i : DItv D) : Bool :=
  if i.bnd = Bounds.closed then decide (i.up < i.lo)
  else if i.bnd = Bounds.opn then decide (i.up ≤ i.lo) || decide (i.up ≤ s.nx i.lo)
  else decide (i.up ≤ i.lo)
/-- `first`, concept/interval.hpp:405-413 -/
def first (i : DItv D) : D := if i.bnd.isLeftClosed then i.lo else s.nx i.lo
/-- `last`, concept/interval.hpp:442-456 -/
def last (i : DItv D) : D := if i.bnd.isRightClosed then i.up else s.pr i.up
/-- `non_empty::exclusive_less`, concept/interval.hpp:814-820 -/
def neLess (l r : DItv D) : Bool := last s l < first s r
/-- `exclusive_less`, concept/interval.hpp:608-614 -/
def exclusiveLess (l r : DItv D) : Bool := isEmpty s l || isEmpty s r || decide (last s l < first s r)
/-- `lower_less`, concept/interval.hpp:644-649 -/
def lowerLess (l r : DItv D) : Bool := first s l < first s r
/-- `upper_less`, concept/interval.hpp:670-675 -/
def upperLess (l r : DItv D) : Bool := last s l < last s r
/-- `lower_equal`, concept/interval.hpp:739-744 -/
def lowerEqual (l r : DItv D) : Bool := first s l = first s r
/-- `upper_equal`, concept/interval.hpp:770-775 -/
def upperEqual (l r : DItv D) : Bool := last s l = last s r
/-- `touches`, concept/interval.hpp:975-980 -/
def touches (l r : DItv D) : Bool := s.nx (last s l) = first s r
/-- `first` with a check for overflow -/
def firstC (i : DItv D) : Option D := if i.bnd.isLeftClosed then some i.lo else next s i.lo
/-- `last` with a check for overflow -/
def lastC (i : DItv D) : Option D := if i.bnd.isRightClosed then some i.up else prior s i.up
@[inherit_doc touches] def touchesC (l r : DItv D) : Option Bool := do
  let a ← lastC s l
  let n ← next s a
  let b ← firstC s r
  return decide (n = b)
end Disc

/-- `discrete_interval`, discrete_interval.hpp:25-89 -/
def discreteOps (zero : D) : IntervalOps D (DItv D) where
  contains := Dyn.contains
  isEmpty := Disc.isEmpty s
  exclusiveLess := Disc.exclusiveLess s
  neLess := Disc.neLess s
  lowerLess := Disc.lowerLess s
  upperLess := Disc.upperLess s
  lowerEqual := Disc.lowerEqual s
  upperEqual := Disc.upperEqual s
  touches := Disc.touches s
  touchesC := Disc.touchesC s
  hull := Dyn.hull (Disc.lowerLess s) (Disc.upperLess s) (Disc.isEmpty s)
  leftSubtract := Dyn.leftSubtract (Disc.exclusiveLess s)
  rightSubtract := Dyn.rightSubtract (Disc.exclusiveLess s)
  inter := Dyn.inter (Disc.lowerLess s) (Disc.upperLess s) (Disc.isEmpty s) zero
  innerComplement :=
    Dyn.innerComplement (Disc.lowerLess s) (Disc.upperLess s) (Disc.exclusiveLess s) (Disc.isEmpty s) zero
  empty := ⟨zero, zero, Bounds.rightOpen⟩

namespace Closed
/-! `closed_interval` -/

/-- `touches`, concept/interval.hpp:968-973 -/
def touches (l r : SItv D) : Bool := s.nx l.up = r.lo
@[inherit_doc touches] def touchesC (l r : SItv D) : Option Bool := (next s l.up).map fun n => decide (n = r.lo)
/-- `left_subtract`, concept/interval.hpp:1178-1188 -/
def leftSubtract (zero unit : D) (right leftMinuend : SItv D) : SItv D :=
  if ICL.Closed.exclusiveLess leftMinuend right then right
  else if ICL.Closed.upperLessEqual right leftMinuend then ⟨unit, zero⟩
  else ⟨s.nx leftMinuend.up, right.up⟩
/-- `right_subtract`, concept/interval.hpp:1231-1241 -/
def rightSubtract (zero unit : D) (left rightMinuend : SItv D) : SItv D :=
  if ICL.Closed.exclusiveLess left rightMinuend then left
  else if ICL.Closed.lowerLessEqual rightMinuend left then ⟨unit, zero⟩
  else ⟨left.lo, s.pr rightMinuend.lo⟩
/-- `inner_complement`, concept/interval.hpp:1353-1365 -/
def innerComplement (zero unit : D) (l r : SItv D) : SItv D :=
  if ICL.Closed.isEmpty l || ICL.Closed.isEmpty r then ⟨unit, zero⟩
  else if ICL.Closed.exclusiveLess l r then ⟨s.nx l.up, s.pr r.lo⟩
  else if ICL.Closed.exclusiveLess r l then ⟨s.nx r.up, s.pr l.lo⟩
  else ⟨unit, zero⟩
end Closed

/-- `closed_interval`, closed_interval.hpp:21-56 -/
def closedOps (zero unit : D) : IntervalOps D (SItv D) where
  contains i x := decide (i.lo ≤ x) && decide (x ≤ i.up)
  isEmpty := ICL.Closed.isEmpty
  exclusiveLess := ICL.Closed.exclusiveLess
  neLess := ICL.Closed.neLess
  lowerLess := Static.lowerLess
  upperLess := Static.upperLess
  lowerEqual := ICL.Closed.lowerEqual
  upperEqual := ICL.Closed.upperEqual
  touches := Closed.touches s
  touchesC := Closed.touchesC s
  hull := Static.hull ICL.Closed.isEmpty
  leftSubtract := Closed.leftSubtract s zero unit
  rightSubtract := Closed.rightSubtract s zero unit
  inter := ICL.Closed.inter zero unit
  innerComplement := Closed.innerComplement s zero unit
  empty := ⟨unit, zero⟩

/-- The functions of `++` and `--` that lead to the next and the prior value -/
def ofSteps (s : Steps D) : Incs D := ⟨s.nx, s.pr, s.hasNx, s.hasPr⟩

theorem discreteOps_steps (s : Steps D) (zero : D) : discreteOps (ofSteps s) zero = ICL.discreteOps s zero := rfl

theorem closedOps_steps (s : Steps D) (zero unit : D) :
    closedOps (ofSteps s) zero unit = ICL.closedOps s zero unit := rfl

end Raw
end ICL
