import Verif.Spec
import Verif.Model.MapFun

/-!
# Specification vocabulary for interval maps: what an operation does to the value of a single key

`none` stands for: the key is not in the map. A map type `t` comes with its functors and traits:
`t.plus` (Combine), `t.minus` (its inverse), `t.sect` (Section or Combine), the identity element `t.cfg.ident`, and
whether it absorbs identity elements (`t.cfg.absorbs`) and is total (`t.cfg.total`). A functor `f` combines the
value `u` with an operand `v` into `f.apply u v`; where there is no value yet it makes `f.version v` of the
operand, which is `v` for all functors but `-=`, where it is `-v`.
-/

namespace ICL.Spec

variable {V : Type} [DecidableEq V] (t : MapType V)

/-- Absorbing maps ignore the identity element. -/
def Ignored (v : V) : Prop := t.cfg.absorbs = true ∧ v = t.cfg.ident

instance (v : V) : Decidable (Ignored t v) := by unfold Ignored; infer_instance

/-- A value `w` that has been computed: absorbed or stored. -/
def stored (w : V) : Option V := if Ignored t w then none else some w

/-- The value of a key of `k` after `f` has combined the operand `v` into the map. -/
def combined (f : Combiner V) (v : V) : Option V → Option V
  | none => if Ignored t v then none else some (f.version v)
  | some u => if Ignored t v then some u else stored t (f.apply u v)

/-- The value of a key after `v` has been added. -/
def added (v : V) (a : Option V) : Option V := combined t t.plus v a

/-- The value of a key after `v` has been subtracted: the inverse functor on all keys if the map is total and its
values have inverses, else only on the keys that are in the map. -/
def subtracted (v : V) : Option V → Option V
  | none => if t.cfg.total = true ∧ t.invertible = true then combined t t.minus v none else none
  | some u => combined t t.minus v (some u)

/-- The value of a key after `v` has been inserted. -/
def inserted (v : V) : Option V → Option V
  | none => stored t v
  | some u => some u

/-- The value of a key after the pair of it and `v` has been erased. -/
def erased (v : V) : Option V → Option V
  | none => none
  | some u => if Ignored t v then some u else if u = v then none else some u

/-- The value of a key that is in both operands of an intersection, with value `u` on the left and `v` on the
right: `u` is added to the empty map, and `v` combined with it by the section functor. -/
def sectioned (u v : V) : Option V := combined t t.sect v (combined t t.plus u none)

/-- The value of a key that is in both operands of `^=` of partial maps, with value `u` on the left and `v` on the
right: the symmetric difference if values are sets, else the identity element, which is absorbed or added twice,
first to an intermediate and then to the resulting map. -/
def flipped (u v : V) : Option V :=
  let w := if t.setLike = true then t.unsect v u else t.cfg.ident
  if Ignored t w then none else some (t.plus.version (t.plus.version w))

/-- Where there is no value yet, no functor turns another value into the identity element. All functors of the
library satisfy this. -/
structure Versions : Prop where
  plus_ne : ∀ v, v ≠ t.cfg.ident → t.plus.version v ≠ t.cfg.ident
  minus_ne : t.cfg.total = true → t.invertible = true → ∀ v, v ≠ t.cfg.ident → t.minus.version v ≠ t.cfg.ident
  sect_ne : ∀ v, v ≠ t.cfg.ident → t.sect.version v ≠ t.cfg.ident

/-- Moreover the identity element is neutral for the functor that adds values to the map: combining `v` with
it gives the same as adding `v` where there is no value yet. This holds for
`inplace_plus`, `inplace_minus`, `inplace_bit_add`, `inplace_bit_xor`, and the union of sets, but not for
`inplace_max` on signed numbers, `inplace_min`, `inplace_star`, `inplace_et`, `inplace_bit_and`. -/
structure Neutral : Prop extends Versions t where
  plus_ident : ∀ v, t.plus.apply t.cfg.ident v = t.plus.version v

/-- The associated values are a monoid with respect to the functor `Combine`, and the identity element is the
neutral element of the monoid. -/
structure MonoidValues : Prop where
  assoc : ∀ u v w, t.plus.apply (t.plus.apply u v) w = t.plus.apply u (t.plus.apply v w)
  ident_left : ∀ v, t.plus.apply t.cfg.ident v = v
  ident_right : ∀ v, t.plus.apply v t.cfg.ident = v
  version : ∀ v, t.plus.version v = v

/-- The monoid is commutative. -/
structure CommMonoidValues : Prop extends MonoidValues t where
  comm : ∀ u v, t.plus.apply u v = t.plus.apply v u

/-- Values that are combined to the identity element are identity elements themselves: this holds for sets and for
unsigned numbers (as long as sums do not overflow), but not for signed numbers. -/
def NoCancel : Prop := ∀ u v, t.plus.apply u v = t.cfg.ident → u = t.cfg.ident ∧ v = t.cfg.ident

/-- No segment of the map has a value that should have been absorbed. -/
def NoIdentity {I : Type} (m : List (I × V)) : Prop := ∀ s ∈ m, ¬ Ignored t s.2

end ICL.Spec
