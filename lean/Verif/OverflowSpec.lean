import Verif.MapSpec

/-!
# Values of a bounded type

`R` tells which values the type has.
-/

namespace ICL.Spec

variable {D I V : Type} [LinearOrder D]

/-- All associated values are values of the type. -/
def Fits (o : IntervalOps D I) (R : V → Prop) (m : List (I × V)) : Prop := ∀ x u, Assoc o m x u → R u

/-- The type has a value for `v` where there is none yet: `v` itself, unless a total map subtracts it. -/
def FitsNew (t : MapType V) (R : V → Prop) (new : V → V) (v : V) : Prop := ¬ Ignored t v → R (new v)

end ICL.Spec
