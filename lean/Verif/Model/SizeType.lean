import Verif.Model.Observers

/-!
# `cardinality` over continuous domains, with values of the type of sizes

`Verif.Model.Observers` has the same functions with `⊤` for `infinity<SizeT>::value()`.
-/

namespace ICL

/-- A type of sizes: `identity_element`, `unit_element` and `infinity` of it, and `+=` -/
structure SizeOps (Z : Type) where
  zero : Z
  one : Z
  inf : Z
  add : Z → Z → Z

/-- `std::size_t` with `w` bits: `infinity` is the greatest value, type_traits/infinity.hpp:56-64; `+=` wraps around. -/
def SizeOps.unsigned (w : Nat) : SizeOps (BitVec w) := ⟨0#w, 1#w, BitVec.allOnes w, (· + ·)⟩

namespace Sized
variable {D I V S Z : Type} (z : SizeOps Z)

/-- `cardinality(continuous_interval)`, concept/interval.hpp:996-1009 -/
def cardinalityDyn [DecidableEq D] (o : IntervalOps D (DItv D)) (i : DItv D) : Z :=
  if o.isEmpty i then z.zero
  else if i.bnd = Bounds.closed && i.lo = i.up then z.one
  else z.inf

/-- `cardinality` of half open intervals over continuous domains, concept/interval.hpp:1021-1031 -/
def cardinalityHalfOpen (o : IntervalOps D I) (i : I) : Z := if o.isEmpty i then z.zero else z.inf

/-- The loop of `cardinality(container)` for continuous domains, concept/interval_associator.hpp:145-155 -/
def cardinalityLoop [DecidableEq Z] (card : I → Z) (g : SegOps I V S) : Z → List S → Z
  | size, [] => size
  | size, s :: l =>
    if card (g.key s) = z.inf then card (g.key s) else cardinalityLoop card g (z.add size (card (g.key s))) l

/-- `cardinality(container)` for continuous domains, concept/interval_associator.hpp:134-156 -/
def cardinality [DecidableEq Z] (card : I → Z) (g : SegOps I V S) (l : List S) : Z :=
  cardinalityLoop z card g z.zero l

end Sized

/-- The interval classes over continuous domains with `cardinality(interval)` -/
inductive SizedClass {Z : Type} (z : SizeOps Z) :
    {D I : Type} → [LinearOrder D] → IntervalOps D I → (I → Z) → Prop
  /-- `right_open_interval<D>`, `D` continuous -/
  | rightOpen {D : Type} [LinearOrder D] [DenselyOrdered D] (zero : D) :
      SizedClass z (rightOpenOps zero) (Sized.cardinalityHalfOpen z (rightOpenOps zero))
  /-- `left_open_interval<D>`, `D` continuous -/
  | leftOpen {D : Type} [LinearOrder D] [DenselyOrdered D] (zero : D) :
      SizedClass z (leftOpenOps zero) (Sized.cardinalityHalfOpen z (leftOpenOps zero))
  /-- `continuous_interval<D>` -/
  | continuous {D : Type} [LinearOrder D] [DenselyOrdered D] [NoMaxOrder D] [NoMinOrder D] (zero : D) :
      SizedClass z (continuousOps zero) (Sized.cardinalityDyn z (continuousOps zero))

/-! ## The type of sizes of a domain type -/

/-- Types, as far as `size_type_of` and `infinity` look at them -/
inductive SizedTy
  /-- a type for which `is_numeric` holds, with or without `std::numeric_limits::has_infinity` -/
  | numeric (hasInf : Bool)
  /-- another class, with or without member types `rep`, `size_type` and `difference_type` -/
  | cls (rep size diff : Option SizedTy)

/-- `size_type_of`, type_traits/size_type_of.hpp:29-67, without the specialisations in gregorian.hpp and ptime.hpp -/
def sizeTypeOf : SizedTy → SizedTy
  | .cls _ (some s) _ => s
  | .cls _ none (some d) => d
  | .cls (some r) none none => .cls (some r) none none
  | _ => .numeric false

/-- What `infinity` yields: `numeric_limits::infinity()`, `numeric_limits::max()`, or a default constructed value -/
inductive Infinity
  | infinite | greatest | default
  deriving DecidableEq, Repr

/-- `numeric_infinity`, type_traits/infinity.hpp:42-86 -/
def numericInfinity : SizedTy → Infinity
  | .numeric true => .infinite
  | .numeric false => .greatest
  | .cls _ _ _ => .default

/-- `infinity`, type_traits/infinity.hpp:90-163.  `identity_element` of a class is default constructed. -/
def infinity : SizedTy → Infinity
  | .numeric b => numericInfinity (.numeric b)
  | .cls (some r) _ _ => numericInfinity r
  | .cls none (some s) _ => numericInfinity s
  | .cls none none _ => .default

end ICL
