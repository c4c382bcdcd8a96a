import Verif.Model.LargeBitset
import Verif.Spec
import Verif.MapSpec
import Mathlib.Logic.Basic
import Mathlib.Data.Set.Defs

/-!
# Specification of the large bit set

What a large bit set means: the set of numbers `x` such that bit `x % n` of the word that the map gives to chunk
`x / n` is set, where `n` is the number of bits of a word.
-/

namespace ICL.LargeBitset

open Spec

variable {N n : Nat}

/-- Chunk number `c`, as a value of the domain type -/
def chunk (N c : Nat) : Fin (2 ^ N) := Fin.ofNat _ c

/-- The number `x` is in the large bit set `m`. -/
def Bit (m : BitMap N n) (x : Fin (2 ^ N)) : Prop :=
  ∃ w, Assoc (itv N) m (chunk N (x.val / n)) w ∧ w.getLsbD (x.val % n) = true

/-- The word types: the number of bits is a power of two, at least two (8, 16, 32 or 64 in the example), and the
domain type is not empty. -/
structure Sizes (N n : Nat) : Prop where
  word : ∃ s, 1 ≤ s ∧ n = 2 ^ s
  domain : 1 ≤ N

/-- All elements of the interval lie in one chunk. -/
def OneChunk (n : Nat) (k : DItv (Fin (2 ^ N))) : Prop :=
  ∃ c, ∀ x, In (itv N) x k → x.val / n = c

/-- What an operation should do with the set of numbers it is applied to. -/
def BitOp.meaning (S : Set (Fin (2 ^ N))) : BitOp N n → Set (Fin (2 ^ N))
  | .add k => {x | x ∈ S ∨ In (itv N) x k}
  | .subtract k => {x | x ∈ S ∧ ¬ In (itv N) x k}
  | .intersect _ k => {x | x ∈ S ∧ In (itv N) x k}
  | .flip _ k => {x | Xor (x ∈ S) (In (itv N) x k)}
  | .addE y => {x | x ∈ S ∨ x = y}
  | .subtractE y => {x | x ∈ S ∧ x ≠ y}
  | .intersectE _ y => {x | x ∈ S ∧ x = y}
  | .flipE _ y => {x | Xor (x ∈ S) (x = y)}

/-- What an operation with another large bit set should do. -/
def BitOp2.meaning (S T : Set (Fin (2 ^ N))) : BitOp2 N n → Set (Fin (2 ^ N))
  | .add _ => {x | x ∈ S ∨ x ∈ T}
  | .subtract => {x | x ∈ S ∧ x ∉ T}
  | .intersect _ => {x | x ∈ S ∧ x ∈ T}
  | .flip _ => {x | Xor (x ∈ S) (x ∈ T)}

/-- Intersections with intervals work only for intervals within one chunk that are not empty. -/
def BitOp.Works : BitOp N n → Prop
  | .intersect _ k => (∃ x, In (itv N) x k) ∧ OneChunk n k
  | _ => True

/-- The operand is in the list, as an interval. -/
def BitOp.Uses (K : List (DItv (Fin (2 ^ N)))) : BitOp N n → Prop
  | .add k | .subtract k | .intersect _ k | .flip _ k => k ∈ K
  | .addE x | .subtractE x | .intersectE _ x | .flipE _ x => dynSingleton x ∈ K

/-- The large bit sets that a program can make, by any number of operations, with intervals of `K` only. -/
inductive MadeOf (K : List (DItv (Fin (2 ^ N)))) : BitMap N n → Prop
  | new : MadeOf K []
  | op {m m' : BitMap N n} (c : BitOp N n) (hc : c.Uses K) (hm : MadeOf K m) (e : c.run m = some m') : MadeOf K m'
  | op2 {m b m' : BitMap N n} (c : BitOp2 N n) (hm : MadeOf K m) (hb : MadeOf K b) (e : c.run m b = some m') :
      MadeOf K m'

end ICL.LargeBitset
