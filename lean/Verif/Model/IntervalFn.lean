/-!
# Which functions of intervals can be called for which interval types

Every function of `concept/interval.hpp` is a set of function templates, and `enable_if` conditions built from the traits
of `type_traits/is_interval.hpp` and its neighbours decide which of them is a candidate for a given interval type.  This
file models what those conditions can ask of an interval type, the candidates every function offers, and what the body of
a candidate uses in turn.

Simplifications: the interval type has objects, so its constructor from two borders compiles; a type with dynamic bounds
has a member `bounds()`; values of the domain can be compared; the types of sizes and of differences exist.  Assertions
are compiled.
-/

namespace ICL.IntervalFn

/-- `interval_bound_type<Type>::value`, interval_bounds.hpp:22-27, type_traits/is_interval.hpp:18-23.  Types that are not
intervals have `undefined`. -/
inductive Bound
  | staticOpen | staticLeftOpen | staticRightOpen | staticClosed | dynamic | undefined
  deriving DecidableEq, Repr

/-- What the functions ask of a domain type. -/
structure Dom where
  /-- `is_discrete`; `is_continuous` is its negation, type_traits/is_continuous.hpp:17-22 -/
  discrete : Bool
  /-- `boost::detail::is_incrementable` -/
  incrementable : Bool
  /-- `domain_next` compiles, concept/interval.hpp:66-74: there is `++`, or `--` where the order descends -/
  next : Bool
  /-- `domain_prior` compiles, concept/interval.hpp:76-84 -/
  prior : Bool
  /-- values can be subtracted -/
  minus : Bool
  /-- `has_difference` -/
  difference : Bool
  deriving DecidableEq, Repr

/-- What the functions ask of an interval type. -/
structure Ty where
  bound : Bound
  /-- `is_discrete_interval`, type_traits/is_discrete_interval.hpp:16-20: false unless specialised -/
  discreteInterval : Bool
  /-- `is_continuous_interval`, type_traits/is_continuous_interval.hpp:16-20: false unless specialised -/
  continuousInterval : Bool
  /-- there is a member type `bounded_domain_type` -/
  bounded : Bool
  /-- the default constructor compiles, which `identity_element` calls -/
  ident : Bool
  dom : Dom
  deriving DecidableEq, Repr

/-! ## Traits -/

/-- type_traits/is_interval.hpp:25-30 -/
def Ty.isInterval (t : Ty) : Bool := t.bound != .undefined
/-- type_traits/is_interval.hpp:33-38 -/
def Ty.hasStaticBounds (t : Ty) : Bool := t.bound != .undefined && t.bound != .dynamic
/-- type_traits/is_interval.hpp:40-45 -/
def Ty.hasDynamicBounds (t : Ty) : Bool := t.bound == .dynamic
/-- type_traits/is_interval.hpp:47-54 -/
def Ty.hasAsymmetricBounds (t : Ty) : Bool := t.bound == .staticLeftOpen || t.bound == .staticRightOpen
/-- type_traits/is_interval.hpp:56-63 -/
def Ty.hasSymmetricBounds (t : Ty) : Bool := t.bound == .staticClosed || t.bound == .staticOpen
/-- type_traits/is_interval.hpp:66-73 -/
def Ty.isDiscreteStatic (t : Ty) : Bool := t.hasStaticBounds && t.dom.discrete
/-- type_traits/is_interval.hpp:87-92 -/
def Ty.isStaticRightOpen (t : Ty) : Bool := t.bound == .staticRightOpen
/-- type_traits/is_interval.hpp:94-99 -/
def Ty.isStaticLeftOpen (t : Ty) : Bool := t.bound == .staticLeftOpen
/-- type_traits/is_interval.hpp:101-106 -/
def Ty.isStaticOpen (t : Ty) : Bool := t.bound == .staticOpen
/-- type_traits/is_interval.hpp:108-113 -/
def Ty.isStaticClosed (t : Ty) : Bool := t.bound == .staticClosed
/-- type_traits/is_interval.hpp:115-123 -/
def Ty.isDiscreteStaticClosed (t : Ty) : Bool := t.isStaticClosed && t.dom.discrete
/-- type_traits/is_interval.hpp:125-133 -/
def Ty.isDiscreteStaticOpen (t : Ty) : Bool := t.isStaticOpen && t.dom.discrete
/-- type_traits/is_interval.hpp:136-142 -/
def Ty.isContinuousRightOpen (t : Ty) : Bool := t.isStaticRightOpen && !t.dom.discrete
/-- type_traits/is_interval.hpp:144-150 -/
def Ty.isContinuousLeftOpen (t : Ty) : Bool := t.isStaticLeftOpen && !t.dom.discrete
/-- type_traits/is_asymmetric_interval.hpp:16-26 -/
def Ty.isAsymmetricInterval (t : Ty) : Bool := t.isInterval && t.hasStaticBounds && t.hasAsymmetricBounds
/-- type_traits/is_asymmetric_interval.hpp:28-37 -/
def Ty.isContinuousAsymmetric (t : Ty) : Bool := t.isAsymmetricInterval && !t.dom.discrete
/-- type_traits/is_asymmetric_interval.hpp:39-48 -/
def Ty.isDiscreteAsymmetric (t : Ty) : Bool := t.isAsymmetricInterval && !(!t.dom.discrete)

/-! ## Functions -/

/-- The functions of concept/interval.hpp.  `constructBounded` is `construct` of two bounded values, `hullValues` is
`hull` of two values of the domain, `containsNonEmpty` and `exclusiveLessNonEmpty` are those of the namespace
`non_empty`, `unitTrail` is that of the namespace `detail`, and `inter` is `operator &`.
`findValue` and `addValue` are `find` and `add` of a container whose segments have the type, for a value of the
domain. -/
inductive Fn
  | singleton | unitTrail | construct | constructWith | constructBounded | span | hullValues
  | lower | upper | first | last | lastNext
  | boundedLower | reverseBoundedLower | boundedUpper | reverseBoundedUpper | bounds
  | isEmpty | exclusiveLess | lowerLess | upperLess | lowerMin | lowerMax | upperMax | upperMin
  | lowerEqual | upperEqual | lowerLessEqual | upperLessEqual
  | exclusiveLessNonEmpty | containsNonEmpty | contains | containsElement | within
  | eq | ne | lt | gt | le | ge | touches
  | cardinality | size | length | iterativeSize
  | hull | leftSubtract | rightSubtract | inter | intersects | disjoint | innerComplement | between | distance
  | leftBracket | rightBracket | stream
  | findValue | addValue
  deriving DecidableEq, Repr

/-- What a body uses besides functions of intervals: `domain_next`, `domain_prior`, subtraction of values, and
`identity_element` of the interval type. -/
inductive Need
  | next | prior | minus | ident
  deriving DecidableEq, Repr

def Need.holds (t : Ty) : Need → Bool
  | .next => t.dom.next
  | .prior => t.dom.prior
  | .minus => t.dom.minus
  | .ident => t.ident

/-- A candidate: its condition, the functions of intervals its body calls, and what else it uses. -/
structure Candidate where
  cond : Ty → Bool
  calls : List Fn
  needs : List Need

/-- The candidates of every function, in the order of concept/interval.hpp.  Where the result type is
`Type::bounded_domain_type` the candidate is dropped for types without that member. -/
def candidates : Fn → List Candidate
  | .singleton => -- 89-149
    [⟨fun t => t.isStaticRightOpen && t.dom.discrete, [], [.next]⟩,
     ⟨fun t => t.isStaticLeftOpen && t.dom.discrete, [], [.prior]⟩,
     ⟨Ty.isDiscreteStaticOpen, [], [.prior, .next]⟩,
     ⟨Ty.isDiscreteStaticClosed, [], []⟩,
     ⟨Ty.hasDynamicBounds, [], []⟩]
  | .unitTrail => -- 162-233
    [⟨fun t => t.isStaticRightOpen && t.dom.incrementable, [], [.next]⟩,
     ⟨fun t => t.isStaticLeftOpen && t.dom.incrementable, [], [.prior]⟩,
     ⟨fun t => t.isStaticOpen && t.dom.discrete, [], [.prior, .next]⟩,
     ⟨fun t => t.isStaticClosed && t.dom.discrete, [], []⟩,
     ⟨Ty.hasDynamicBounds, [], []⟩]
  | .construct => -- 240-255
    [⟨Ty.hasStaticBounds, [], []⟩, ⟨Ty.hasDynamicBounds, [], []⟩]
  | .constructWith => -- 248-255
    [⟨Ty.hasDynamicBounds, [], []⟩]
  | .constructBounded => -- 259-265
    [⟨fun t => t.hasDynamicBounds && t.bounded, [], []⟩]
  | .span => -- 267-277
    [⟨Ty.isInterval, [.construct], []⟩]
  | .hullValues => -- 281-363
    [⟨Ty.isStaticRightOpen, [.construct], [.next]⟩,
     ⟨Ty.isStaticLeftOpen, [.construct], [.prior]⟩,
     ⟨Ty.isStaticClosed, [.construct], []⟩,
     ⟨Ty.isStaticOpen, [.construct], [.prior, .next]⟩,
     ⟨Ty.hasDynamicBounds, [.constructWith], []⟩]
  | .lower => [⟨Ty.isInterval, [], []⟩] -- 369-375
  | .upper => [⟨Ty.isInterval, [], []⟩] -- 377-383
  | .first => -- 387-414
    [⟨fun t => t.isStaticRightOpen || t.isStaticClosed, [.lower], []⟩,
     ⟨fun t => (t.isStaticLeftOpen || t.isStaticOpen) && t.dom.discrete, [.lower], [.next]⟩,
     ⟨Ty.discreteInterval, [.lower], [.next]⟩]
  | .last => -- 417-456
    [⟨fun t => t.isStaticLeftOpen || t.isStaticClosed, [.upper], []⟩,
     ⟨fun t => (t.isStaticRightOpen || t.isStaticOpen) && t.dom.discrete, [.upper], [.prior]⟩,
     ⟨Ty.discreteInterval, [.upper], [.prior]⟩]
  | .lastNext => -- 459-488
    [⟨fun t => (t.isStaticLeftOpen || t.isStaticClosed) && t.dom.discrete, [.upper], [.next]⟩,
     ⟨fun t => (t.isStaticRightOpen || t.isStaticOpen) && t.dom.discrete, [.upper], []⟩,
     ⟨Ty.discreteInterval, [.upper], [.next]⟩]
  | .boundedLower => [⟨fun t => t.hasDynamicBounds && t.bounded, [.lower], []⟩] -- 491-498
  | .reverseBoundedLower => [⟨fun t => t.hasDynamicBounds && t.bounded, [.lower], []⟩] -- 500-508
  | .boundedUpper => [⟨fun t => t.hasDynamicBounds && t.bounded, [.upper], []⟩] -- 510-518
  | .reverseBoundedUpper => [⟨fun t => t.hasDynamicBounds && t.bounded, [.upper], []⟩] -- 520-528
  | .bounds => [⟨Ty.hasDynamicBounds, [], []⟩, ⟨Ty.hasStaticBounds, [], []⟩] -- 531-543
  | .isEmpty => -- 550-592
    [⟨Ty.isAsymmetricInterval, [.upper, .lower], []⟩,
     ⟨Ty.isStaticClosed, [.upper, .lower], []⟩,
     ⟨Ty.isStaticOpen, [.upper, .lower], [.next]⟩,
     ⟨Ty.discreteInterval, [.upper, .lower], [.next]⟩,
     ⟨Ty.continuousInterval, [.upper, .lower], []⟩]
  | .exclusiveLess => -- 600-633
    [⟨Ty.isAsymmetricInterval, [.isEmpty, .upper, .lower], []⟩,
     ⟨Ty.discreteInterval, [.isEmpty, .last, .first], []⟩,
     ⟨Ty.hasSymmetricBounds, [.isEmpty, .last, .first], []⟩,
     ⟨Ty.continuousInterval, [.isEmpty, .upper, .lower], []⟩]
  | .lowerLess => -- 637-659
    [⟨Ty.hasStaticBounds, [.lower], []⟩,
     ⟨Ty.discreteInterval, [.first], []⟩,
     ⟨Ty.continuousInterval, [.lower], []⟩]
  | .upperLess => -- 663-685
    [⟨Ty.hasStaticBounds, [.upper], []⟩,
     ⟨Ty.discreteInterval, [.last], []⟩,
     ⟨Ty.continuousInterval, [.upper], []⟩]
  | .lowerMin => [⟨fun t => t.hasDynamicBounds && t.bounded, [.lowerLess, .boundedLower], []⟩] -- 688-694
  | .lowerMax => [⟨fun t => t.hasDynamicBounds && t.bounded, [.lowerLess, .boundedLower], []⟩] -- 697-703
  | .upperMax => [⟨fun t => t.hasDynamicBounds && t.bounded, [.upperLess, .boundedUpper], []⟩] -- 706-712
  | .upperMin => [⟨fun t => t.hasDynamicBounds && t.bounded, [.upperLess, .boundedUpper], []⟩] -- 715-721
  | .lowerEqual => -- 725-752
    [⟨Ty.isAsymmetricInterval, [.lower], []⟩,
     ⟨Ty.hasSymmetricBounds, [.first], []⟩,
     ⟨Ty.discreteInterval, [.first], []⟩,
     ⟨Ty.continuousInterval, [.lower], []⟩]
  | .upperEqual => -- 756-783
    [⟨Ty.isAsymmetricInterval, [.upper], []⟩,
     ⟨Ty.hasSymmetricBounds, [.last], []⟩,
     ⟨Ty.discreteInterval, [.last], []⟩,
     ⟨Ty.continuousInterval, [.upper], []⟩]
  | .lowerLessEqual => [⟨Ty.isInterval, [.lowerLess, .lowerEqual], []⟩] -- 786-791
  | .upperLessEqual => [⟨Ty.isInterval, [.upperLess, .upperEqual], []⟩] -- 793-798
  | .exclusiveLessNonEmpty => -- 806-839
    [⟨Ty.isAsymmetricInterval, [.isEmpty, .upper, .lower], []⟩,
     ⟨Ty.discreteInterval, [.isEmpty, .last, .first], []⟩,
     ⟨Ty.hasSymmetricBounds, [.isEmpty, .last, .first], []⟩,
     ⟨Ty.continuousInterval, [.isEmpty, .upper, .lower], []⟩]
  | .containsNonEmpty => [⟨Ty.isInterval, [.lowerLessEqual, .upperLessEqual], []⟩] -- 841-846
  | .contains => [⟨Ty.isInterval, [.isEmpty, .containsNonEmpty], []⟩] -- 851-856
  | .containsElement => -- 858-894
    [⟨Ty.isDiscreteStatic, [.first, .last], []⟩,
     ⟨Ty.isContinuousLeftOpen, [.lower, .upper], []⟩,
     ⟨Ty.isContinuousRightOpen, [.lower, .upper], []⟩,
     ⟨Ty.hasDynamicBounds, [.lower, .upper], []⟩]
  | .within => [⟨Ty.isInterval, [.contains], []⟩] -- 897-902
  | .eq => [⟨Ty.isInterval, [.isEmpty, .lowerEqual, .upperEqual], []⟩] -- 905-911
  | .ne => [⟨Ty.isInterval, [.eq], []⟩] -- 913-918
  | .lt => [⟨Ty.isInterval, [.isEmpty, .lowerLess, .lowerEqual, .upperLess], []⟩] -- 921-928
  | .gt => [⟨Ty.isInterval, [.lt], []⟩] -- 930-935
  | .le => [⟨Ty.isInterval, [.isEmpty, .gt], []⟩] -- 938-946
  | .ge => [⟨Ty.isInterval, [.isEmpty, .lt], []⟩] -- 948-956
  | .touches => -- 961-988
    [⟨Ty.isAsymmetricInterval, [.upper, .lower], []⟩,
     ⟨Ty.hasSymmetricBounds, [.lastNext, .first], []⟩,
     ⟨Ty.discreteInterval, [.last, .first], [.next]⟩,
     ⟨Ty.continuousInterval, [.upper, .lower], []⟩]
  | .cardinality => -- 996-1051
    [⟨Ty.continuousInterval, [.isEmpty, .lower, .upper], []⟩,
     ⟨Ty.discreteInterval, [.isEmpty, .lastNext, .first], [.minus]⟩,
     ⟨Ty.isContinuousAsymmetric, [.isEmpty], []⟩,
     ⟨Ty.isDiscreteAsymmetric, [.isEmpty, .lastNext, .first], [.minus]⟩,
     ⟨Ty.hasSymmetricBounds, [.isEmpty, .lastNext, .first], [.minus]⟩]
  | .size => [⟨Ty.isInterval, [.cardinality], []⟩] -- 1056-1062
  | .length => -- 1065-1103
    [⟨Ty.continuousInterval, [.isEmpty, .upper, .lower], [.minus]⟩,
     ⟨Ty.discreteInterval, [.isEmpty, .lastNext, .first], [.minus]⟩,
     ⟨Ty.isContinuousAsymmetric, [.isEmpty, .upper, .lower], [.minus]⟩,
     ⟨Ty.isDiscreteStatic, [.isEmpty, .lastNext, .first], [.minus]⟩]
  | .iterativeSize => [⟨Ty.isInterval, [], []⟩] -- 1106-1112
  | .hull => -- 1120-1153
    [⟨Ty.hasStaticBounds, [.isEmpty, .construct, .lower, .upper], []⟩,
     ⟨Ty.hasDynamicBounds, [.isEmpty, .lowerMin, .upperMax], []⟩]
  | .leftSubtract => -- 1168-1208
    [⟨Ty.isAsymmetricInterval, [.exclusiveLess, .construct, .upper], []⟩,
     ⟨Ty.isStaticClosed, [.exclusiveLess, .upperLessEqual, .construct, .upper], [.ident, .next]⟩,
     ⟨Ty.isStaticOpen, [.exclusiveLess, .construct, .upper], [.prior]⟩,
     ⟨Ty.hasDynamicBounds, [.exclusiveLess, .reverseBoundedUpper, .boundedUpper], []⟩]
  | .rightSubtract => -- 1221-1261
    [⟨Ty.isAsymmetricInterval, [.exclusiveLess, .construct, .lower], []⟩,
     ⟨Ty.isStaticClosed, [.exclusiveLess, .lowerLessEqual, .construct, .lower], [.ident, .prior]⟩,
     ⟨Ty.isStaticOpen, [.exclusiveLess, .construct, .lower], [.next]⟩,
     ⟨Ty.hasDynamicBounds, [.exclusiveLess, .boundedLower, .reverseBoundedLower], []⟩]
  | .inter => -- 1268-1314
    [⟨Ty.isAsymmetricInterval, [.isEmpty, .construct, .lower, .upper], [.ident]⟩,
     ⟨Ty.hasSymmetricBounds, [.isEmpty, .construct, .lower, .upper], [.ident]⟩,
     ⟨Ty.hasDynamicBounds, [.isEmpty, .lowerMax, .upperMin], [.ident]⟩]
  | .intersects => [⟨Ty.isInterval, [.isEmpty, .exclusiveLess], []⟩] -- 1318-1324
  | .disjoint => [⟨Ty.isInterval, [.isEmpty, .exclusiveLess], []⟩] -- 1327-1333
  | .innerComplement => -- 1339-1393
    [⟨Ty.isAsymmetricInterval, [.isEmpty, .exclusiveLess, .construct, .upper, .lower], [.ident]⟩,
     ⟨Ty.isDiscreteStaticClosed, [.isEmpty, .exclusiveLess, .construct, .upper, .lower], [.ident, .next, .prior]⟩,
     ⟨Ty.isDiscreteStaticOpen, [.isEmpty, .exclusiveLess, .construct, .last, .first], [.ident]⟩,
     ⟨Ty.hasDynamicBounds, [.isEmpty, .exclusiveLess, .hull, .leftSubtract, .rightSubtract], [.ident]⟩]
  | .between => [⟨Ty.isInterval, [.innerComplement], []⟩] -- 1395-1400
  | .distance => -- 1407-1447
    [⟨fun t => t.isInterval && t.dom.difference && t.dom.discrete, [.isEmpty, .last, .first], [.minus]⟩,
     ⟨fun t => t.isInterval && t.dom.difference && !t.dom.discrete, [.isEmpty, .upper, .lower], [.minus]⟩]
  | .leftBracket => -- 1452-1469
    [⟨fun t => t.isStaticLeftOpen || t.isStaticOpen, [], []⟩,
     ⟨fun t => t.isStaticRightOpen || t.isStaticClosed, [], []⟩,
     ⟨Ty.hasDynamicBounds, [], []⟩]
  | .rightBracket => -- 1472-1489
    [⟨fun t => t.isStaticRightOpen || t.isStaticOpen, [], []⟩,
     ⟨fun t => t.isStaticLeftOpen || t.isStaticClosed, [], []⟩,
     ⟨Ty.hasDynamicBounds, [], []⟩]
  | .stream => [⟨Ty.isInterval, [.isEmpty, .leftBracket, .rightBracket], []⟩] -- 1492-1505
  | .findValue => -- concept/interval_associator_base.hpp:23-90
    [⟨fun t => t.dom.discrete, [.unitTrail], []⟩,
     ⟨fun t => !t.dom.discrete && t.hasDynamicBounds, [.singleton], []⟩,
     ⟨fun t => !t.dom.discrete && t.isStaticRightOpen && t.dom.incrementable, [.unitTrail, .containsElement], []⟩,
     ⟨fun t => !t.dom.discrete && t.isStaticLeftOpen && t.dom.incrementable, [.unitTrail, .containsElement], []⟩]
  | .addValue => [⟨Ty.isInterval, [.singleton], []⟩] -- concept/interval_set.hpp:74-80

/-- The candidates whose condition holds -/
def viable (t : Ty) (f : Fn) : List Candidate := (candidates f).filter fun c => c.cond t

/-- A call compiles when exactly one candidate is left and its body compiles. -/
inductive Compiles (t : Ty) : Fn → Prop
  | intro (f : Fn) (c : Candidate) : viable t f = [c] → (∀ g ∈ c.calls, Compiles t g) → (∀ n ∈ c.needs, n.holds t = true) →
      Compiles t f

/-! ## The interval classes of the library -/

/-- The interval classes of the library -/
inductive Class
  | discrete | continuous | rightOpen | leftOpen | closed | open
  deriving DecidableEq, Repr

/-- discrete_interval.hpp:34, 47, 138-150; continuous_interval.hpp:34, 47, 141-153; right_open_interval.hpp:96-101;
left_open_interval.hpp:98-103; closed_interval.hpp:42, 98-103; open_interval.hpp:98-103.  The default constructors of
discrete_interval, continuous_interval and closed_interval assert what the domain type is. -/
def Class.ty (d : Dom) : Class → Ty
  | .discrete => ⟨.dynamic, d.discrete, false, true, d.discrete, d⟩
  | .continuous => ⟨.dynamic, false, true, true, !d.discrete, d⟩
  | .rightOpen => ⟨.staticRightOpen, false, false, false, true, d⟩
  | .leftOpen => ⟨.staticLeftOpen, false, false, false, true, d⟩
  | .closed => ⟨.staticClosed, false, false, false, d.discrete, d⟩
  | .open => ⟨.staticOpen, false, false, false, true, d⟩

end ICL.IntervalFn
