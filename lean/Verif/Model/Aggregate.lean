import Verif.Model.Functors
import Verif.Model.ElementMap

/-!
# The functors of `functors.hpp` by name, their inverses, and the maps made of them
-/

namespace ICL

/-- The functor templates that can be passed as `Combine`, functors.hpp:39-253 -/
inductive Functor where
  | identity | erasure | plus | minus | bitAdd | bitSubtract | bitAnd | bitXor | et | caret
  | insert | erase | star | slash | max | min
  deriving DecidableEq

namespace Functor

/-- `inverse<Functor>::type`, functors.hpp:282-342. For `inplace_erasure`, `inplace_insert` and `inplace_erase` there
is no specialization, they get the default. -/
def inverse : Functor → Functor
  | plus => minus
  | minus => plus
  | bitAdd => bitSubtract
  | bitSubtract => bitAdd
  | et => caret
  | caret => et
  | bitAnd => bitXor
  | bitXor => bitAnd
  | star => slash
  | slash => star
  | max => min
  | min => max
  | identity => erasure
  | _ => erasure

/-- The functor for an unsigned integer type of `n` bits as codomain, functors.hpp:39-253, with its `version`,
functors.hpp:437-466; `none` for the functors that cannot be instantiated with integers. For all of them
`identity_element()` is 0, functors.hpp:21-27.
Simplification: division by zero, which is undefined in C++, yields 0. -/
def combiner (n : Nat) : Functor → Option (Combiner (BitVec n))
  | identity => some .identity
  | erasure => some (.erasure 0)
  | plus => some .plus
  | minus => some .minus
  | bitAdd => some .bitAdd
  | bitSubtract => some .bitSubtract
  | bitAnd => some .bitAnd
  | bitXor => some .bitXor
  | et => some .bitAnd
  | caret => some .bitXor
  | insert => none
  | erase => none
  | star => some .star
  | slash => some ⟨fun u v => u.udiv v, fun v => v⟩
  | max => some .max
  | min => some .min

/-- Interval maps and maps of unsigned integers with `Combine = f`, interval_base_map.hpp:118-132: integers do not have
set semantics, so that `codomain_intersect` is `codomain_combine`, and unsigned types do not satisfy `has_inverse`,
type_traits/has_inverse.hpp:17-23. -/
def mapType (n : Nat) (joining absorbs total : Bool) (f : Functor) : Option (MapType (BitVec n)) := do
  let p ← f.combiner n
  let q ← f.inverse.combiner n
  return { cfg := ⟨joining, absorbs, total, 0⟩, plus := p, minus := q, sect := p, unsect := q.apply,
           setLike := false, invertible := false }

end Functor

/-- Interval maps and maps with `Combine = inplace_identity`, hence with the inverse `inplace_erasure`,
functors.hpp:326-328; `i` is the identity element, `invertible` is `has_inverse<codomain_type>`. The codomain type does
not have set semantics. -/
def MapType.inserting {V : Type} [DecidableEq V] (joining absorbs total invertible : Bool) (i : V) : MapType V where
  cfg := ⟨joining, absorbs, total, i⟩
  plus := .identity
  minus := .erasure i
  sect := .identity
  unsect := (Combiner.erasure i).apply
  setLike := false
  invertible := invertible

end ICL
