import Verif.StepSpec

/-!
# `is_discrete`

Which of the interval classes is the default for a domain type.
-/

namespace ICL.Traits
open Spec

/-- `boost::detail::is_incrementable` -/
def isIncrementable : DomainTy → Bool
  | .floating | .scalar => true
  | .plain inc | .wrapper inc _ => inc

/-- `is_non_floating_point`, type_traits/is_numeric.hpp:85-93 -/
def isNonFloatingPoint : DomainTy → Bool
  | .floating => false
  | _ => true

/-- `has_rep_type`, type_traits/rep_type_of.hpp:27-30 -/
def hasRepType : DomainTy → Bool
  | .wrapper _ _ => true
  | _ => false

/-- `is_discrete`, type_traits/is_discrete.hpp:34-60, without the specialisations in gregorian.hpp, ptime.hpp and
rational.hpp.  For a type without a member type `rep` `rep_type_of` is `no_type`, a class without operators. -/
def isDiscrete : DomainTy → Bool
  | .wrapper inc rep => isIncrementable (.wrapper inc rep) &&
      ((!hasRepType (.wrapper inc rep) && isNonFloatingPoint (.wrapper inc rep)) ||
        (hasRepType (.wrapper inc rep) && isDiscrete rep))
  | t => isIncrementable t && ((!hasRepType t && isNonFloatingPoint t) || (hasRepType t && false))

/-- The interval classes with dynamic bounds -/
inductive Dynamic
  | discrete | continuous
  deriving DecidableEq, Repr

/-- `interval_type_default`, type_traits/interval_type_default.hpp:44-49 -/
def intervalTypeDefault (t : DomainTy) : Dynamic := if isDiscrete t then .discrete else .continuous

end ICL.Traits
