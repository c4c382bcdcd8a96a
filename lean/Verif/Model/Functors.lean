import Verif.Model.MapFun
import Mathlib.Algebra.Group.Basic
import Mathlib.Data.Finset.SymmDiff

/-!
# The functors of `functors.hpp` and the interval map types made of them
-/

namespace ICL
namespace Combiner
variable {V : Type}

/-- `inplace_plus`, functors.hpp:70-79 -/
def plus [Add V] : Combiner V := ⟨fun u v => u + v, fun v => v⟩
/-- `inplace_minus`, functors.hpp:85-92, and its `version`, functors.hpp:448-466 and 430-435 -/
def minus [Sub V] [Zero V] : Combiner V := ⟨fun u v => u - v, fun v => 0 - v⟩
/-- `inplace_star`, functors.hpp:201-208 -/
def star [Mul V] : Combiner V := ⟨fun u v => u * v, fun v => v⟩
/-- `inplace_max`, functors.hpp:227-237: `if(object < operand) object = operand` -/
def max [LT V] [DecidableLT V] : Combiner V := ⟨fun u v => if u < v then v else u, fun v => v⟩
/-- `inplace_min`, functors.hpp:243-253: `if(object > operand) object = operand` -/
def min [LT V] [DecidableLT V] : Combiner V := ⟨fun u v => if v < u then v else u, fun v => v⟩
/-- `inplace_identity`, functors.hpp:39-44 -/
def identity : Combiner V := ⟨fun u _ => u, fun v => v⟩
/-- `inplace_erasure`, functors.hpp:51-63; `i` is the identity element -/
def erasure [DecidableEq V] (i : V) : Combiner V := ⟨fun u v => if u = v then i else u, fun v => v⟩
/-- `inplace_bit_add` for an unsigned type, functors.hpp:98-107 -/
def bitAdd {n : Nat} : Combiner (BitVec n) := ⟨fun u v => u ||| v, fun v => v⟩
/-- `inplace_bit_subtract`, functors.hpp:113-120 -/
def bitSubtract {n : Nat} : Combiner (BitVec n) := ⟨fun u v => u &&& ~~~v, fun v => v⟩
/-- `inplace_bit_and`, functors.hpp:126-133 -/
def bitAnd {n : Nat} : Combiner (BitVec n) := ⟨fun u v => u &&& v, fun v => v⟩
/-- `inplace_bit_xor`, functors.hpp:139-146 -/
def bitXor {n : Nat} : Combiner (BitVec n) := ⟨fun u v => u ^^^ v, fun v => v⟩

variable {α : Type} [DecidableEq α]

/-- `inplace_plus` for a codomain type with set semantics: `+=` is the union, functors.hpp:70-79.
Simplification: a set of values is a `Finset`; that `+=`, `-=`, `&=` and `^=` of the codomain type act as union,
difference, intersection and symmetric difference is taken for granted here. C60 has all value types that do so. -/
def union : Combiner (Finset α) := ⟨fun u v => u ∪ v, fun v => v⟩
/-- `inplace_minus` for a codomain type with set semantics, functors.hpp:85-92 and 448-466 -/
def diff : Combiner (Finset α) := ⟨fun u v => u \ v, fun v => ∅ \ v⟩
/-- `inplace_et` for a codomain type with set semantics, functors.hpp:149-156 and `inter_section`, 261-275 -/
def inter : Combiner (Finset α) := ⟨fun u v => u ∩ v, fun v => v⟩

end Combiner

/-- Interval maps with numbers as associated values and the default functors: `Combine` is `inplace_plus` and its
inverse is `inplace_minus`, functors.hpp:282-288; `codomain_intersect` is `codomain_combine`, since numbers do not
have set semantics, interval_base_map.hpp:118-132; `signed` is `has_inverse`, type_traits/has_inverse.hpp:17-23. -/
def MapType.numeric {V : Type} [AddGroup V] (joining absorbs total signed : Bool) : MapType V where
  cfg := ⟨joining, absorbs, total, 0⟩
  plus := .plus
  minus := .minus
  sect := .plus
  unsect := fun u v => u - v
  setLike := false
  invertible := signed

/-- Interval maps with unsigned numbers as associated values and the default functors, functors.hpp:282-288; they do
not satisfy `has_inverse`, type_traits/has_inverse.hpp:17-23.
Simplification: natural numbers instead of a machine type. Sums do not overflow, and a difference that would wrap
around is 0. -/
def MapType.unsigned (joining absorbs total : Bool) : MapType ℕ where
  cfg := ⟨joining, absorbs, total, 0⟩
  plus := .plus
  minus := .minus
  sect := .plus
  unsect := fun u v => u - v
  setLike := false
  invertible := false

/-- Interval maps with strings as associated values and the default functors: `+=` of strings is concatenation,
functors.hpp:70-79, and the identity element is the empty string.
Simplification: strings are lists of characters. There is no `-=` for strings, so that no function of the map that
needs `inplace_minus` can be instantiated; here it does nothing. -/
def MapType.strings (joining absorbs total : Bool) : MapType (List Char) where
  cfg := ⟨joining, absorbs, total, []⟩
  plus := ⟨fun u v => u ++ v, fun v => v⟩
  minus := .identity
  sect := ⟨fun u v => u ++ v, fun v => v⟩
  unsect := fun u _ => u
  setLike := false
  invertible := false

/-- Interval maps with sets as associated values and the default functors ("collectors"): `Combine` is
`inplace_plus`, its inverse is `inplace_minus`, functors.hpp:282-288; `Section` is `inter_section`, hence
`inplace_et`, functors.hpp:261-275, and its inverse `inplace_caret`, functors.hpp:347-365. -/
def MapType.collector {α : Type} [DecidableEq α] (joining absorbs total : Bool) : MapType (Finset α) where
  cfg := ⟨joining, absorbs, total, ∅⟩
  plus := .union
  minus := .diff
  sect := .inter
  unsect := fun u v => symmDiff u v
  setLike := true
  invertible := false

/-- Interval maps of integers that collect maxima: `Combine` is `inplace_max` and its inverse is `inplace_min`,
functors.hpp:322-324. -/
def MapType.maxima (joining absorbs total : Bool) : MapType Int where
  cfg := ⟨joining, absorbs, total, 0⟩
  plus := .max
  minus := .min
  sect := .max
  unsect := Combiner.min.apply
  setLike := false
  invertible := true

/-- Interval maps of bit sets: `Combine` is `inplace_bit_add` and its inverse is `inplace_bit_subtract`,
functors.hpp:290-292; `has_inverse` does not hold for unsigned types. -/
def MapType.bits {n : Nat} (joining absorbs total : Bool) : MapType (BitVec n) where
  cfg := ⟨joining, absorbs, total, 0⟩
  plus := .bitAdd
  minus := .bitSubtract
  sect := .bitAdd
  unsect := Combiner.bitSubtract.apply
  setLike := false
  invertible := false

end ICL
