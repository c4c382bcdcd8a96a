import Verif.Model.MapHistory
import Verif.Model.Functors
import Verif.Kinds.Classes
import Mathlib.Order.Fin.Basic

/-!
# The large bit set

`mini::large_bitset<DomainT, bits<word_type>>`, example/large_bitset_/large_bitset.hpp: a set of numbers, stored as
an interval map from intervals of chunk numbers to bit sets of one machine word.

The numbers are of an unsigned type of `N` bits, `Fin (2 ^ N)`, so that `+` wraps around as in C++; the words have
`n` bits, `BitVec n`.  The interval type is the default one, `discrete_interval<DomainT>`.
Simplifications: `Compare` is `<`; integral promotions of types narrower than `int` have no effect on the results
and are left out; the functions that print are not modelled.
-/

namespace ICL

/-- `++` and `--` of an unsigned type of `N` bits, type_traits/succ_pred.hpp:26-48; `hasNx` and `hasPr` say where
they do not wrap around. -/
def stepsFin (N : Nat) : Steps (Fin (2 ^ N)) where
  nx x := x + 1
  pr x := x - 1
  hasNx x := decide (x.val + 1 < 2 ^ N)
  hasPr x := decide (0 < x.val)
  hasNx_iff x := by
    rw [decide_eq_true_eq]
    exact ⟨fun h => ⟨⟨x.val + 1, h⟩, by rw [Fin.lt_def]; simp⟩, fun ⟨y, hy⟩ => by
      have := y.isLt; rw [Fin.lt_def] at hy; omega⟩
  hasPr_iff x := by
    rw [decide_eq_true_eq]
    exact ⟨fun h => ⟨⟨0, by have := x.isLt; omega⟩, h⟩, fun ⟨y, hy⟩ => by rw [Fin.lt_def] at hy; omega⟩
  nx_spec x y h := by
    rw [Fin.lt_def] at h
    have hy := y.isLt
    have e : (x + 1).val = x.val + 1 := by
      rw [Fin.val_add, Fin.coe_ofNat_eq_mod, Nat.mod_eq_of_lt (show 1 < 2 ^ N by omega)]
      exact Nat.mod_eq_of_lt (by omega)
    rw [Fin.lt_def, Fin.le_def, e]; omega
  pr_spec x y h := by
    rw [Fin.lt_def] at h
    have hy := y.isLt
    have e : (y - 1).val = y.val - 1 := by
      rw [Fin.val_sub, Fin.coe_ofNat_eq_mod, Nat.mod_eq_of_lt (show 1 < 2 ^ N by omega)]
      rw [show 2 ^ N - 1 + y.val = 2 ^ N + (y.val - 1) by omega, Nat.add_mod_left]
      exact Nat.mod_eq_of_lt (by omega)
    rw [Fin.lt_def, Fin.le_def, e]; omega

/-- `interval_map<D, bits<word>, Traits, less, inplace_bit_add, inplace_bit_and>`: since `bits` is a set,
bits.hpp:58-74, sections are made by the given functor, interval_base_map.hpp:126-132, and its inverse is
`inplace_bit_xor`, functors.hpp:306-308; the inverse of `inplace_bit_add` is `inplace_bit_subtract`,
functors.hpp:290-292.  The identity element is `bits()`, bits.hpp:28. -/
def MapType.bitSets {n : Nat} (joining absorbs total : Bool) : MapType (BitVec n) where
  cfg := ⟨joining, absorbs, total, 0⟩
  plus := .bitAdd
  minus := .bitSubtract
  sect := .bitAnd
  unsect := Combiner.bitXor.apply
  setLike := true
  invertible := false

namespace LargeBitset

/-- `bits::contains`, bits.hpp:39 -/
def contains {n : Nat} (w : BitVec n) (element : Nat) : Bool := ((1#n <<< element) &&& w) != 0

/-- `log_<a>`, meta_log.hpp:13-20; the first argument bounds the recursion -/
def logGo : Nat → Nat → Nat
  | 0, _ => 0
  | fuel + 1, a => if a ≤ 1 then 0 else 1 + logGo fuel (a / 2)
/-- `log2_<a>`, meta_log.hpp:19-20 -/
def log2 (a : Nat) : Nat := logGo a a

/-! The constants, large_bitset.hpp:143-155 -/
section
variable (n : Nat)
/-- large_bitset.hpp:146-147 -/
def digits : BitVec n := BitVec.ofNat n n
/-- large_bitset.hpp:148 -/
def divisor : BitVec n := digits n
/-- large_bitset.hpp:149 -/
def last : BitVec n := digits n - 1#n
/-- large_bitset.hpp:150 -/
def shift : BitVec n := BitVec.ofNat n (log2 (divisor n).toNat)
/-- large_bitset.hpp:152 -/
def mask : BitVec n := divisor n - 1#n
/-- large_bitset.hpp:153 -/
def all : BitVec n := ~~~ (0#n)
/-- large_bitset.hpp:154 -/
def top : BitVec n := 1#n <<< (digits n - 1#n)
end

variable {N n : Nat}

/-- `from_lower_to`, large_bitset.hpp:162 -/
def fromLowerTo (bit : BitVec n) : BitVec n :=
  if bit = last n then all n else (1#n <<< (bit + 1#n)) - 1#n
/-- `to_upper_from`, large_bitset.hpp:163 -/
def toUpperFrom (bit : BitVec n) : BitVec n :=
  if bit = last n then top n else ~~~ ((1#n <<< bit) - 1#n)

/-- The interval type, large_bitset.hpp:43 and 82 -/
abbrev itv (N : Nat) : IntervalOps (Fin (2 ^ N)) (DItv (Fin (2 ^ N))) := discreteOps (stepsFin N) 0
/-- The member `_map`, large_bitset.hpp:74-76 and 206 -/
abbrev BitMap (N n : Nat) : Type := List (DItv (Fin (2 ^ N)) × BitVec n)
/-- `interval_bitmap_type`, large_bitset.hpp:74-76 -/
abbrev bitmap (n : Nat) : MapType (BitVec n) := .bitSets true true false

/-- `segment_combiner`, large_bitset.hpp:158 -/
abbrev SegmentCombiner (N n : Nat) : Type :=
  BitMap N n → Fin (2 ^ N) → Fin (2 ^ N) → BitVec n → Option (BitMap N n)

/-- `segment_apply`, large_bitset.hpp:167-194 -/
def segmentApply (combine : SegmentCombiner N n) (m : BitMap N n) (operand : DItv (Fin (2 ^ N))) :
    Option (BitMap N n) :=
  if (itv N).isEmpty operand then some m
  else
    let fst := Disc.first (stepsFin N) operand
    let lst := Disc.last (stepsFin N) operand
    let base : Fin (2 ^ N) := Fin.ofNat _ (fst.val >>> (shift n).toNat)
    let ceil : Fin (2 ^ N) := Fin.ofNat _ (lst.val >>> (shift n).toNat)
    let baseRest : BitVec n := BitVec.ofNat n (fst.val &&& (mask n).toNat)
    let ceilRest : BitVec n := BitVec.ofNat n (lst.val &&& (mask n).toNat)
    if base = ceil then combine m base (base + 1) (toUpperFrom baseRest &&& fromLowerTo ceilRest)
    else
      let midLow := if baseRest = 0#n then base else base + 1
      let midUp := if ceilRest = all n then ceil + 1 else ceil
      (if 0#n < baseRest then combine m base (base + 1) (toUpperFrom baseRest) else some m).bind fun m =>
      (if ceilRest < all n then combine m ceil (ceil + 1) (fromLowerTo ceilRest) else some m).bind fun m =>
      if midLow < midUp then combine m midLow midUp (all n) else some m

/-- `interval_type::right_open(lo, up)`, discrete_interval.hpp:77 -/
def rightOpen (lo up : Fin (2 ^ N)) : DItv (Fin (2 ^ N)) := ⟨lo, up, Bounds.rightOpen⟩

/-- `add_`, large_bitset.hpp:198 -/
def addCombiner : SegmentCombiner N n := fun m lo up bits => IMap.addSeg (itv N) (bitmap n) m (rightOpen lo up) bits
/-- `subtract_`, large_bitset.hpp:199 -/
def subtractCombiner : SegmentCombiner N n := fun m lo up bits =>
  IMap.subSeg (itv N) (bitmap n) m (rightOpen lo up) bits
/-- `intersect_`, large_bitset.hpp:200.  The argument `oracle` stands for where the underlying tree puts hinted
insertions. -/
def intersectCombiner (oracle : BitMap N n → DItv (Fin (2 ^ N)) → Nat) : SegmentCombiner N n := fun m lo up bits =>
  IMap.addInterSeg (itv N) (bitmap n) oracle [] m (rightOpen lo up) bits
/-- `flip_`, large_bitset.hpp:201 -/
def flipCombiner (oracle : BitMap N n → DItv (Fin (2 ^ N)) → Nat) : SegmentCombiner N n := fun m lo up bits =>
  IMap.flipSeg (itv N) (bitmap n) oracle m (rightOpen lo up) bits

/-- `add`, `+=` and `|=` with an interval, large_bitset.hpp:102-103 and 109 -/
def add (m : BitMap N n) (k : DItv (Fin (2 ^ N))) : Option (BitMap N n) := segmentApply addCombiner m k
/-- `subtract`, `-=` with an interval, large_bitset.hpp:104 and 110 -/
def subtract (m : BitMap N n) (k : DItv (Fin (2 ^ N))) : Option (BitMap N n) := segmentApply subtractCombiner m k
/-- `intersect`, `&=` with an interval, large_bitset.hpp:105 and 111 -/
def intersect (oracle : BitMap N n → DItv (Fin (2 ^ N)) → Nat) (m : BitMap N n) (k : DItv (Fin (2 ^ N))) :
    Option (BitMap N n) := segmentApply (intersectCombiner oracle) m k
/-- `flip`, `^=` with an interval, large_bitset.hpp:106 and 112 -/
def flip (oracle : BitMap N n → DItv (Fin (2 ^ N)) → Nat) (m : BitMap N n) (k : DItv (Fin (2 ^ N))) :
    Option (BitMap N n) := segmentApply (flipCombiner oracle) m k

/-- The public operations that change a large bit set. -/
inductive BitOp (N n : Nat)
  /-- `+= k`, `|= k`, `add(k)`; large_bitset.hpp:102-103 -/
  | add (k : DItv (Fin (2 ^ N)))
  /-- `-= k`, `subtract(k)`; large_bitset.hpp:104 -/
  | subtract (k : DItv (Fin (2 ^ N)))
  /-- `&= k`, `intersect(k)`; large_bitset.hpp:105 -/
  | intersect (oracle : BitMap N n → DItv (Fin (2 ^ N)) → Nat) (k : DItv (Fin (2 ^ N)))
  /-- `^= k`, `flip(k)`; large_bitset.hpp:106 -/
  | flip (oracle : BitMap N n → DItv (Fin (2 ^ N)) → Nat) (k : DItv (Fin (2 ^ N)))
  /-- `+= x`, `|= x`; large_bitset.hpp:96-97 -/
  | addE (x : Fin (2 ^ N))
  /-- `-= x`; large_bitset.hpp:98 -/
  | subtractE (x : Fin (2 ^ N))
  /-- `&= x`; large_bitset.hpp:99 -/
  | intersectE (oracle : BitMap N n → DItv (Fin (2 ^ N)) → Nat) (x : Fin (2 ^ N))
  /-- `^= x`; large_bitset.hpp:100 -/
  | flipE (oracle : BitMap N n → DItv (Fin (2 ^ N)) → Nat) (x : Fin (2 ^ N))

/-- Execution of an operation.  `interval_type(rhs)` is the closed interval of one element,
discrete_interval.hpp:53-59. -/
def BitOp.run (m : BitMap N n) : BitOp N n → Option (BitMap N n)
  | .add k => LargeBitset.add m k
  | .subtract k => LargeBitset.subtract m k
  | .intersect oracle k => LargeBitset.intersect oracle m k
  | .flip oracle k => LargeBitset.flip oracle m k
  | .addE x => LargeBitset.add m (dynSingleton x)
  | .subtractE x => LargeBitset.subtract m (dynSingleton x)
  | .intersectE oracle x => LargeBitset.intersect oracle m (dynSingleton x)
  | .flipE oracle x => LargeBitset.flip oracle m (dynSingleton x)

/-- The public operations with another large bit set. -/
inductive BitOp2 (N n : Nat)
  /-- `+= b`, `|= b`; large_bitset.hpp:90-91 -/
  | add (oracle : BitMap N n → DItv (Fin (2 ^ N)) → Nat)
  /-- `-= b`; large_bitset.hpp:92 -/
  | subtract
  /-- `&= b`; large_bitset.hpp:93 -/
  | intersect (oracle : BitMap N n → DItv (Fin (2 ^ N)) → Nat)
  /-- `^= b`; large_bitset.hpp:94 -/
  | flip (oracle : BitMap N n → DItv (Fin (2 ^ N)) → Nat)

/-- Execution of an operation with another large bit set, large_bitset.hpp:90-94. -/
def BitOp2.run (m b : BitMap N n) : BitOp2 N n → Option (BitMap N n)
  | .add oracle => IMap.addMap (itv N) (bitmap n) oracle m b
  | .subtract => IMap.subMap (itv N) (bitmap n) m b
  | .intersect oracle => IMap.addInterMap (itv N) (bitmap n) oracle [] m b
  | .flip oracle => IMap.flipMap (itv N) (bitmap n) oracle m b

/-- `==`, large_bitset.hpp:87 -/
def eq (m b : BitMap N n) : Bool := eqC (itv N) mapSeg m b

/-- `interval_count`, large_bitset.hpp:116 -/
def intervalCount (m : BitMap N n) : Nat := m.length

/-- The large bit sets that a program can make. -/
inductive Made : BitMap N n → Prop
  /-- `large_bitset()` -/
  | new : Made []
  | op {m m' : BitMap N n} (c : BitOp N n) (hm : Made m) (e : c.run m = some m') : Made m'
  | op2 {m b m' : BitMap N n} (c : BitOp2 N n) (hm : Made m) (hb : Made b) (e : c.run m b = some m') : Made m'

end LargeBitset
end ICL
