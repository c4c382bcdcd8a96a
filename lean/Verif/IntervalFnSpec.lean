import Verif.Model.IntervalFn

/-! Specification: for which interval types a function of intervals is there, as one line per function, and the tables
of the documentation. Nothing here mentions candidates or bodies. -/

namespace ICL.IntervalFnSpec
open IntervalFn (Bound Dom Ty Fn Class)

/-- The traits of dynamically bounded interval types are used as they are meant: at most one of them is specialised, and
only for types without static bounds. -/
def WellTraited (t : Ty) : Prop :=
  ¬(t.discreteInterval = true ∧ t.continuousInterval = true) ∧
  ((t.discreteInterval = true ∨ t.continuousInterval = true) → t.bound = .dynamic ∨ t.bound = .undefined)

instance (t : Ty) : Decidable (WellTraited t) := by unfold WellTraited; infer_instance

section
variable (t : Ty)
def ro : Bool := t.bound == .staticRightOpen
def lo : Bool := t.bound == .staticLeftOpen
def cl : Bool := t.bound == .staticClosed
def op : Bool := t.bound == .staticOpen
def dyn : Bool := t.bound == .dynamic
/-- dynamic bounds and the trait `is_discrete_interval` -/
def dd : Bool := t.bound == .dynamic && t.discreteInterval
/-- dynamic bounds and the trait `is_continuous_interval` -/
def dc : Bool := t.bound == .dynamic && t.continuousInterval
/-- both steps are there -/
def steps : Bool := t.dom.next && t.dom.prior
end

/-- The types for which the function can be called. -/
def usable (t : Ty) : Fn → Bool
  | .lower | .upper | .bounds | .construct | .span | .iterativeSize | .leftBracket | .rightBracket =>
    ro t || lo t || cl t || op t || dyn t
  | .constructWith => dyn t
  | .constructBounded | .boundedLower | .reverseBoundedLower | .boundedUpper | .reverseBoundedUpper => dyn t && t.bounded
  | .singleton | .addValue => dyn t || t.dom.discrete &&
      (cl t || ro t && t.dom.next || lo t && t.dom.prior || op t && steps t)
  | .unitTrail | .findValue => dyn t || cl t && t.dom.discrete || ro t && t.dom.incrementable && t.dom.next ||
      lo t && t.dom.incrementable && t.dom.prior || op t && t.dom.discrete && steps t
  | .hullValues => dyn t || cl t || ro t && t.dom.next || lo t && t.dom.prior || op t && steps t
  | .first => ro t || cl t || (lo t || op t) && t.dom.discrete && t.dom.next || dd t && t.dom.next
  | .last => lo t || cl t || (ro t || op t) && t.dom.discrete && t.dom.prior || dd t && t.dom.prior
  | .lastNext => (ro t || op t) && t.dom.discrete || (lo t || cl t) && t.dom.discrete && t.dom.next || dd t && t.dom.next
  | .isEmpty | .stream => ro t || lo t || cl t || dc t || (op t || dd t) && t.dom.next
  | .exclusiveLess | .exclusiveLessNonEmpty | .intersects | .disjoint | .contains | .containsNonEmpty | .within | .eq | .ne =>
    ro t || lo t || cl t || dc t || (op t && t.dom.discrete || dd t) && steps t
  | .lowerLess => ro t || lo t || cl t || op t || dc t || dd t && t.dom.next
  | .upperLess => ro t || lo t || cl t || op t || dc t || dd t && t.dom.prior
  | .lowerMin | .lowerMax => t.bounded && (dc t || dd t && t.dom.next)
  | .upperMin | .upperMax => t.bounded && (dc t || dd t && t.dom.prior)
  | .lowerEqual | .lowerLessEqual => ro t || lo t || cl t || dc t || (op t && t.dom.discrete || dd t) && t.dom.next
  | .upperEqual | .upperLessEqual => ro t || lo t || cl t || dc t || (op t && t.dom.discrete || dd t) && t.dom.prior
  | .containsElement => dyn t || (ro t || lo t) && !t.dom.discrete || t.dom.discrete &&
      (cl t || ro t && t.dom.prior || lo t && t.dom.next || op t && steps t)
  | .lt | .gt | .le | .ge => ro t || lo t || cl t || dc t || op t && t.dom.discrete && t.dom.next || dd t && steps t
  | .touches => ro t || lo t || dc t || (cl t || op t) && t.dom.discrete && t.dom.next || dd t && steps t
  | .cardinality | .size => dc t || (ro t || lo t) && !t.dom.discrete || dd t && t.dom.next && t.dom.minus ||
      t.dom.discrete && t.dom.minus && (ro t || (lo t || cl t || op t) && t.dom.next)
  | .length => t.dom.minus && (dc t || (ro t || lo t) && !t.dom.discrete || dd t && t.dom.next ||
      t.dom.discrete && (ro t || (lo t || cl t || op t) && t.dom.next))
  | .hull => ro t || lo t || cl t || op t && t.dom.next || t.bounded && (dc t || dd t && steps t)
  | .inter => t.ident && (ro t || lo t || cl t || op t && t.dom.next || t.bounded && (dc t || dd t && steps t))
  | .leftSubtract => ro t || lo t || cl t && t.dom.next && t.ident || op t && t.dom.discrete && steps t ||
      t.bounded && (dc t || dd t && steps t)
  | .rightSubtract => ro t || lo t || cl t && t.dom.prior && t.ident || op t && t.dom.discrete && steps t ||
      t.bounded && (dc t || dd t && steps t)
  | .innerComplement | .between => t.ident && (ro t || lo t || (cl t || op t) && t.dom.discrete && steps t ||
      t.bounded && (dc t || dd t && steps t))
  | .distance => t.dom.difference && t.dom.minus && (
      t.dom.discrete && (cl t || ro t && t.dom.prior || lo t && t.dom.next || (op t || dd t) && steps t) ||
      !t.dom.discrete && (ro t || lo t || cl t || dc t || (op t || dd t) && t.dom.next))

/-- The domain types that the classes of the library are documented for: discrete domains for discrete_interval,
closed_interval and open_interval, continuous domains for continuous_interval, any domain for the others.
doc/interface.qbk:684-693 -/
def Fits (d : Dom) : Class → Prop
  | .discrete | .closed | .open => d.discrete = true
  | .continuous => d.discrete = false
  | .rightOpen | .leftOpen => True

/-- Values can be stepped in both directions and subtracted, as numbers can. -/
def Numeric (d : Dom) : Prop :=
  d.incrementable = true ∧ d.next = true ∧ d.prior = true ∧ d.minus = true ∧ d.difference = true

/-- The functions of intervals in the tables of the documentation, doc/interface.qbk:563-616 (column of intervals) and
687-709. -/
def documentedFns : List Fn :=
  [.singleton, .construct, .constructWith, .hullValues, .span, .isEmpty, .contains, .containsElement, .within, .eq, .ne,
   .lt, .gt, .le, .ge, .size, .cardinality, .length, .hull, .lower, .upper, .first, .last, .leftSubtract, .rightSubtract,
   .inter, .intersects, .disjoint, .exclusiveLess, .lowerLess, .lowerEqual, .lowerLessEqual, .upperLess, .upperEqual,
   .upperLessEqual, .touches, .innerComplement, .distance]

/-- The entries of those tables for a domain that fits: a function is there, except that `singleton` needs a discrete
domain where bounds are static, and that `construct` with bounds needs dynamic bounds. -/
def documented (d : Dom) : Class → Fn → Bool
  | .rightOpen, .singleton | .leftOpen, .singleton => d.discrete
  | .discrete, .constructWith | .continuous, .constructWith => true
  | _, .constructWith => false
  | _, _ => true

/-- Where there is no first or no last value in general, although the tables list `first` and `last` for all
intervals. -/
def noEnd (d : Dom) : Class → Fn → Bool
  | .continuous, .first | .continuous, .last => true
  | .leftOpen, .first | .rightOpen, .last => !d.discrete
  | _, _ => false

/-- The functions the members of interval containers call for their segments:
interval_base_set.hpp, interval_base_map.hpp, interval_set.hpp, separate_interval_set.hpp, split_interval_set.hpp,
interval_map.hpp, split_interval_map.hpp, detail/interval_set_algo.hpp, detail/interval_map_algo.hpp and
detail/set_algo.hpp. -/
def segmentFns : List Fn :=
  [.isEmpty, .exclusiveLess, .contains, .touches, .hull, .inter, .leftSubtract, .rightSubtract]

end ICL.IntervalFnSpec
