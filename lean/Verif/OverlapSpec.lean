import Verif.MapSpec

/-!
# Specification vocabulary: what a series of segments amounts to at one key
-/

namespace ICL.Spec

variable {D I V : Type} (o : IntervalOps D I)

/-- The values of the segments of `l` whose interval contains `x`, in the order of the list. -/
def valuesOver (l : List (I × V)) (x : D) : List V := (l.filter fun s => o.contains s.1 x).map Prod.snd

variable [DecidableEq V] (t : MapType V)

/-- What becomes of the value `a` of a key when all of `vs` are combined into it, one after the other: unchanged if there
are none, else the result of combining them all, which is absorbed or stored. A key that is not in the map counts as
having the identity element. -/
def aggregate (a : Option V) (vs : List V) : Option V :=
  if vs = [] then a else stored t (vs.foldl t.plus.apply (a.getD t.cfg.ident))

/-- All of `vs` combined, one after the other; `none` if there are none. -/
def together : List V → Option V
  | [] => none
  | v :: vs => some (vs.foldl t.plus.apply v)

end ICL.Spec
