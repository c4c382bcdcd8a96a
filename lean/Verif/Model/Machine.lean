import Verif.Model.Checked
import Mathlib.Data.Int.Order.Basic
import Mathlib.Tactic.Common

/-!
# Machine integers

Integer types with the values `lo, ..., hi`, `++` and `--` on them, and the functions that subtract values:
`cardinality`, `length` and `distance`, concept/interval.hpp:996-1103 and 1406-1426.

Simplification: types narrower than `int`, on which differences are computed in `int`, are not distinguished.
-/

namespace ICL

/-- The values of an integer type with least value `lo` and greatest value `hi` -/
abbrev MInt (lo hi : ℤ) : Type := {x : ℤ // lo ≤ x ∧ x ≤ hi}

section
variable {lo hi : ℤ}

/-- `++x` of an unsigned type, and of a signed type on usual hardware: the value after `hi` is `lo`.
`type_traits/succ_pred.hpp:26-31` -/
def wrapNext (x : MInt lo hi) : MInt lo hi :=
  if h : x.1 < hi then ⟨x.1 + 1, by have := x.2; omega, by omega⟩ else ⟨lo, le_refl _, le_trans x.2.1 x.2.2⟩
/-- `--x`: the value before `lo` is `hi`.  `type_traits/succ_pred.hpp:43-48` -/
def wrapPrior (x : MInt lo hi) : MInt lo hi :=
  if h : lo < x.1 then ⟨x.1 - 1, by omega, by have := x.2; omega⟩ else ⟨hi, le_trans x.2.1 x.2.2, le_refl _⟩

/-- Integers that wrap around.  `hasNx` and `hasPr` say where they do. -/
def wrapSteps (lo hi : ℤ) : Steps (MInt lo hi) where
  nx := wrapNext
  pr := wrapPrior
  hasNx x := decide (x.1 < hi)
  hasPr x := decide (lo < x.1)
  hasNx_iff x := by
    rw [decide_eq_true_eq]
    constructor
    · intro h
      exact ⟨⟨hi, le_trans x.2.1 x.2.2, le_refl _⟩, h⟩
    · rintro ⟨y, hy⟩
      exact lt_of_lt_of_le hy y.2.2
  hasPr_iff x := by
    rw [decide_eq_true_eq]
    constructor
    · intro h
      exact ⟨⟨lo, le_refl _, le_trans x.2.1 x.2.2⟩, h⟩
    · rintro ⟨y, hy⟩
      exact lt_of_le_of_lt y.2.1 hy
  nx_spec x y h := by
    have h1 : x.1 < y.1 := h
    have h2 : x.1 < hi := lt_of_lt_of_le h1 y.2.2
    rw [wrapNext, dif_pos h2]
    exact ⟨show x.1 < x.1 + 1 by omega, show x.1 + 1 ≤ y.1 by omega⟩
  pr_spec x y h := by
    have h1 : x.1 < y.1 := h
    have h2 : lo < y.1 := lt_of_le_of_lt x.2.1 h1
    rw [wrapPrior, dif_pos h2]
    exact ⟨show x.1 ≤ y.1 - 1 by omega, show y.1 - 1 < y.1 by omega⟩

/-- `a - b` of a signed type, `none` if that overflows -/
def subSigned (a b : MInt lo hi) : Option ℤ := if lo ≤ a.1 - b.1 ∧ a.1 - b.1 ≤ hi then some (a.1 - b.1) else none

/-- `icl::pred(d)` of a signed difference, type_traits/succ_pred.hpp:18-19 -/
def predSigned (lo d : ℤ) : Option ℤ := if lo < d then some (d - 1) else none

variable {I : Type}

/-- `cardinality(interval)` for a signed domain type, concept/interval.hpp:1010-1018 (discrete_interval), 1032-1040 (half
open), 1042-1050 (closed, open), before the conversion to `size_type`; `length(interval)`, 1075-1083, 1095-1103 -/
def cardinalitySigned (c : CheckedOps I) (ec : CheckedElementOps (MInt lo hi) I) (i : I) : Option ℤ :=
  iteC (c.isEmpty i) (some 0) ((ec.lastNext i).bind fun n => (ec.first i).bind fun f => subSigned n f)

/-- `distance(x1, x2)` for a signed domain type, concept/interval.hpp:1406-1426 -/
def distanceSigned (c : CheckedOps I) (ec : CheckedElementOps (MInt lo hi) I) (x1 x2 : I) : Option ℤ :=
  iteC (orC (c.isEmpty x1) (c.isEmpty x2)) (some 0)
    (iteC (callC (fun a b => decide (a < b)) (ec.last x1) (ec.first x2))
      (((ec.first x2).bind fun f => (ec.last x1).bind fun l => subSigned f l).bind (predSigned lo))
      (iteC (callC (fun a b => decide (a < b)) (ec.last x2) (ec.first x1))
        (((ec.first x1).bind fun f => (ec.last x2).bind fun l => subSigned f l).bind (predSigned lo))
        (some 0)))

/-- `a - b` of an unsigned type -/
def subUnsigned (a b : MInt 0 hi) : ℤ := (a.1 - b.1) % (hi + 1)

/-- `cardinality(interval)` and `length(interval)` for an unsigned domain type, lines as for `cardinalitySigned` -/
def cardinalityUnsigned (o : IntervalOps (MInt 0 hi) I) (e : ElementOps (MInt 0 hi) I) (i : I) : ℤ :=
  if o.isEmpty i then 0 else subUnsigned (e.lastNext i) (e.first i)

/-- `distance(x1, x2)` for an unsigned domain type, concept/interval.hpp:1406-1426 -/
def distanceUnsigned (o : IntervalOps (MInt 0 hi) I) (e : ElementOps (MInt 0 hi) I) (x1 x2 : I) : ℤ :=
  if o.isEmpty x1 || o.isEmpty x2 then 0
  else if e.last x1 < e.first x2 then (subUnsigned (e.first x2) (e.last x1) - 1) % (hi + 1)
  else if e.last x2 < e.first x1 then (subUnsigned (e.first x1) (e.last x2) - 1) % (hi + 1)
  else 0

/-! ### Containers

`size_type` of a container over integers is `std::size_t`, type_traits/size_type_of.hpp:28-32: its sums are modulo the number of its
values, `W`. `difference_type` is the integer type itself, type_traits/difference_type_of.hpp:72-76. -/

variable {V S : Type}

/-- `cardinality(container)` and `size(container)` for a signed domain type, concept/interval_associator.hpp:116-132 and
158-163; conversion of the cardinality of each segment to `size_type`, concept/interval.hpp:1014-1018 -/
def cardinalitySumSigned (c : CheckedOps I) (ec : CheckedElementOps (MInt lo hi) I) (W : ℤ) (g : SegOps I V S) (l : List S) :
    Option ℤ :=
  l.foldlM (fun size s => (cardinalitySigned c ec (g.key s)).map fun n => (size + n % W) % W) 0

/-- `a + b` of a signed type, `none` if that overflows -/
def addSigned (lo hi a b : ℤ) : Option ℤ := if lo ≤ a + b ∧ a + b ≤ hi then some (a + b) else none

/-- `length(container)` for a signed domain type, concept/interval_associator.hpp:165-177 -/
def lengthSumSigned (c : CheckedOps I) (ec : CheckedElementOps (MInt lo hi) I) (g : SegOps I V S) (l : List S) : Option ℤ :=
  l.foldlM (fun len s => (cardinalitySigned c ec (g.key s)).bind fun n => addSigned lo hi len n) 0

/-- `cardinality(container)` and `size(container)` for an unsigned domain type, lines as for `cardinalitySumSigned` -/
def cardinalitySumUnsigned (o : IntervalOps (MInt 0 hi) I) (e : ElementOps (MInt 0 hi) I) (W : ℤ) (g : SegOps I V S)
    (l : List S) : ℤ :=
  l.foldl (fun size s => (size + cardinalityUnsigned o e (g.key s) % W) % W) 0

/-- `length(container)` for an unsigned domain type, lines as for `lengthSumSigned` -/
def lengthSumUnsigned (o : IntervalOps (MInt 0 hi) I) (e : ElementOps (MInt 0 hi) I) (g : SegOps I V S) (l : List S) : ℤ :=
  l.foldl (fun len s => (len + cardinalityUnsigned o e (g.key s)) % (hi + 1)) 0

end

/-- The interval classes over unsigned types with the greatest value `hi`: `++` and `--` wrap around. -/
inductive UnsignedClass (hi : ℤ) : {I : Type} → IntervalOps (MInt 0 hi) I → ElementOps (MInt 0 hi) I → Prop
  | rightOpen (zero : MInt 0 hi) : UnsignedClass hi (rightOpenOps zero) (rightOpenE (wrapSteps 0 hi))
  | leftOpen (zero : MInt 0 hi) : UnsignedClass hi (leftOpenOps zero) (leftOpenE (wrapSteps 0 hi))
  | closed (zero unit : MInt 0 hi) (h : zero < unit) :
      UnsignedClass hi (closedOps (wrapSteps 0 hi) zero unit) (closedE (wrapSteps 0 hi))
  | opn (zero : MInt 0 hi) : UnsignedClass hi (openOps (wrapSteps 0 hi) zero) (openE (wrapSteps 0 hi))
  | discrete (zero : MInt 0 hi) : UnsignedClass hi (discreteOps (wrapSteps 0 hi) zero) (discreteE (wrapSteps 0 hi))

end ICL
