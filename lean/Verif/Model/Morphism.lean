import Verif.Model.ElementMap
import Verif.Model.Extremes
import Verif.Model.SetFun

/-!
# Containers of elements from interval containers and back

Model of detail/interval_morphism.hpp.
-/

namespace ICL

section
variable {D I V S R : Type} [LinearOrder D]

/-- The inner loop of `segmental::atomize`, detail/interval_morphism.hpp:32-33: at most `n` tests of `element <= last`,
`none` if the loop has not ended by then.  `nx` is `++element`, `ins` is `icl::insert`, `last` is `last(itv)`. -/
def atomizeLoop (nx : D → D) (last : D) (ins : R → D → R) : Nat → D → R → Option R
  | 0, _, _ => none
  | n + 1, element, result =>
    if element ≤ last then atomizeLoop nx last ins n (nx element) (ins result element) else some result

/-- `segmental::atomize(result, src)`, detail/interval_morphism.hpp:24-35, where `ins` inserts an element with a value
into the result. -/
def atomize (s : Steps D) (e : ElementOps D I) (g : SegOps I V S) (ins : V → R → D → R) (n : Nat) (result : R)
    (src : List S) : Option R :=
  forEach (fun result itv => atomizeLoop s.nx (e.last (g.key itv)) (ins (g.val itv)) n (e.first (g.key itv)) result)
    result src

variable [DecidableEq V]

/-- `atomize` of an interval set to a set of elements -/
def atomizeSet (s : Steps D) (e : ElementOps D I) (n : Nat) (result : List D) (src : List I) : Option (List D) :=
  atomize s e setSeg (fun _ => ESet.add) n result src

/-- `atomize` of an interval map to an `icl::map` of type `t` -/
def atomizeMap (s : Steps D) (e : ElementOps D I) (t : MapType V) (n : Nat) (result : List (D × V))
    (src : List (I × V)) : Option (List (D × V)) :=
  atomize s e mapSeg (fun v result x => (EMap.insert t result x v).1) n result src

variable (o : IntervalOps D I)

/-- `segmental::cluster(result, src)`, detail/interval_morphism.hpp:37-51, for sets.  `key_type(key)` is the constructor
from an element, discrete_interval.hpp:53-59, right_open_interval.hpp:47-55, left_open_interval.hpp:47-57,
closed_interval.hpp:48-54, open_interval.hpp:47-57. -/
def clusterSet (e : ElementOps D I) (st : Style) (result : List I) (src : List D) : Option (List I) :=
  forEach (fun result x => ISet.add o st result (e.singleton x)) result src

/-- `segmental::cluster(result, src)`, detail/interval_morphism.hpp:37-51, for maps -/
def clusterMap (e : ElementOps D I) (t : MapType V) (result : List (I × V)) (src : List (D × V)) :
    Option (List (I × V)) :=
  forEach (fun result s => IMap.addSeg o t result (e.singleton s.1) s.2) result src

/-- `segmental::joiner`, detail/interval_morphism.hpp:71-80, for sets: the results are `joint` and `split`. -/
def joinerSet (st : Style) (joint split : List I) : Option (List I × List I) := do
  let split ← joinAll o setSeg split
  let joint ← forEach (fun joint k => ISet.add o st joint k) joint split
  pure (joint, split)

/-- `segmental::joiner`, detail/interval_morphism.hpp:71-80, for maps -/
def joinerMap (t : MapType V) (joint split : List (I × V)) : Option (List (I × V) × List (I × V)) := do
  let split ← joinAll o mapSeg split
  let joint ← forEach (fun joint s => IMap.insert o t.cfg joint s.1 s.2) joint split
  pure (joint, split)

/-- `segmental::identity_absorber`, detail/interval_morphism.hpp:82-91: `t` is the type of the absorber, `t'` that of
the enricher. -/
def identityAbsorber (t t' : MapType V) (absorber enricher : List (I × V)) :
    Option (List (I × V) × List (I × V)) := do
  let enricher := IMap.absorbIdentities t' enricher
  let absorber ← forEach (fun absorber s => IMap.insert o t.cfg absorber s.1 s.2) absorber enricher
  pure (absorber, enricher)

end
end ICL
