import Verif.MapSpec
import Mathlib.Order.Defs.LinearOrder

/-!
# Specification vocabulary for containers of elements

A set of elements is the list of its elements, a map of elements the list of its pairs, in the order of iteration.
What an operation does to the value of a single key is stated with the vocabulary of `MapSpec`.
-/

namespace ICL.Spec

variable {D V S : Type}

/-- The keys are in strictly ascending order. -/
def Ascending [LT D] (key : S → D) (m : List S) : Prop := m.Pairwise fun a b => key a < key b

/-- The value of the key `x` in the map, `none` if there is none. -/
def valueOf [DecidableEq D] (m : List (D × V)) (x : D) : Option V :=
  (m.find? fun s => decide (s.1 = x)).map Prod.snd

variable [DecidableEq V] (t : MapType V)

/-- The value of a key after `v` has been added with a hint: if there is no value yet, `v` is combined with the identity
element. -/
def addedHint (v : V) (a : Option V) : Option V :=
  if Ignored t v then a else stored t (t.plus.apply (a.getD t.cfg.ident) v)

/-- The value of a key after `v` has been subtracted from an `icl::map`: the inverse functor on all keys if the map is
total and its values have inverses, else only on the keys that are in the map, and there on all operands, even the
identity element. -/
def subtractedElem (v : V) (a : Option V) : Option V :=
  if t.cfg.total = true ∧ t.invertible = true then combined t t.minus v a
  else a.bind fun u => stored t (t.minus.apply u v)

/-- The value of a key after a partial `icl::map` has been flipped by `v` on it: it is inserted if there is no value
yet; two values yield the symmetric difference if they are sets, else the identity element. Absorbers ignore the
identity element as operand. -/
def flippedElem (v : V) : Option V → Option V
  | none => stored t v
  | some u =>
    if Ignored t v then some u
    else stored t (if t.setLike = true then t.unsect u v else t.cfg.ident)

end ICL.Spec
