import Verif.Bounds
import Verif.Kinds.Static
import Mathlib.Order.Basic

/-!
# The dynamically bounded interval classes

`discrete_interval` (over discrete domains) and `continuous_interval` (over dense domains).
-/

set_option linter.unusedSimpArgs false
set_option linter.unusedSectionVars false

namespace ICL

/-- An interval with dynamic bounds, discrete_interval.hpp:62-92, continuous_interval.hpp:62-95.
The constructors do not normalise. -/
structure DItv (D : Type) where
  lo : D
  up : D
  bnd : Bounds
  deriving DecidableEq, Repr

/-- `bounded_value`, interval_bounds.hpp:61-78 -/
structure BVal (D : Type) where
  val : D
  bnd : Bounds

section
variable {D : Type}

namespace Dyn

/-- `bounded_lower`, concept/interval.hpp:491-498 -/
abbrev boundedLower (i : DItv D) : BVal D := ⟨i.lo, i.bnd.left⟩
/-- `reverse_bounded_lower`, concept/interval.hpp:500-508 -/
abbrev reverseBoundedLower (i : DItv D) : BVal D := ⟨i.lo, i.bnd.reverseLeft⟩
/-- `bounded_upper`, concept/interval.hpp:510-518 -/
abbrev boundedUpper (i : DItv D) : BVal D := ⟨i.up, i.bnd.right⟩
/-- `reverse_bounded_upper`, concept/interval.hpp:520-528 -/
abbrev reverseBoundedUpper (i : DItv D) : BVal D := ⟨i.up, i.bnd.reverseRight⟩
/-- `construct_bounded`, discrete_interval.hpp:123-132, continuous_interval.hpp:126-135 -/
abbrev constructBounded (lo up : BVal D) : DItv D :=
  ⟨lo.val, up.val, lo.bnd.left.or up.bnd.right⟩

variable (lowerLess upperLess exclusiveLess : DItv D → DItv D → Bool) (isEmpty : DItv D → Bool)

/-- `lower_min`, concept/interval.hpp:688-694 -/
def lowerMin (l r : DItv D) : BVal D := if lowerLess l r then boundedLower l else boundedLower r
/-- `lower_max`, concept/interval.hpp:697-703 -/
def lowerMax (l r : DItv D) : BVal D := if lowerLess l r then boundedLower r else boundedLower l
/-- `upper_max`, concept/interval.hpp:706-712 -/
def upperMax (l r : DItv D) : BVal D := if upperLess l r then boundedUpper r else boundedUpper l
/-- `upper_min`, concept/interval.hpp:715-721 -/
def upperMin (l r : DItv D) : BVal D := if upperLess l r then boundedUpper l else boundedUpper r

/-- `hull` of two intervals, concept/interval.hpp:1139-1153 -/
def hull (l r : DItv D) : DItv D :=
  if isEmpty r then l else if isEmpty l then r
  else constructBounded (lowerMin lowerLess l r) (upperMax upperLess l r)
/-- `left_subtract`, concept/interval.hpp:1200-1208 -/
def leftSubtract (right leftMinuend : DItv D) : DItv D :=
  if exclusiveLess leftMinuend right then right
  else constructBounded (reverseBoundedUpper leftMinuend) (boundedUpper right)
/-- `right_subtract`, concept/interval.hpp:1253-1261 -/
def rightSubtract (left rightMinuend : DItv D) : DItv D :=
  if exclusiveLess left rightMinuend then left
  else constructBounded (boundedLower left) (reverseBoundedLower rightMinuend)
/-- `operator &`, concept/interval.hpp:1304-1314 -/
def inter (zero : D) (l r : DItv D) : DItv D :=
  if isEmpty l || isEmpty r then ⟨zero, zero, Bounds.rightOpen⟩
  else constructBounded (lowerMax lowerLess l r) (upperMin upperLess l r)
/-- `inner_complement`, concept/interval.hpp:1381-1393 -/
def innerComplement (zero : D) (l r : DItv D) : DItv D :=
  if isEmpty l || isEmpty r then ⟨zero, zero, Bounds.rightOpen⟩
  else if exclusiveLess l r then
    rightSubtract exclusiveLess
      (leftSubtract exclusiveLess (hull lowerLess upperLess isEmpty l r) l) r
  else if exclusiveLess r l then
    rightSubtract exclusiveLess
      (leftSubtract exclusiveLess (hull lowerLess upperLess isEmpty r l) r) l
  else ⟨zero, zero, Bounds.rightOpen⟩

variable [LinearOrder D]
/-- `contains(interval, element)` for dynamic bounds, concept/interval.hpp:882-894 -/
def contains (i : DItv D) (x : D) : Bool :=
  (if i.bnd.isLeftClosed then decide (i.lo ≤ x) else decide (i.lo < x)) &&
  (if i.bnd.isRightClosed then decide (x ≤ i.up) else decide (x < i.up))

end Dyn

variable [LinearOrder D]

namespace Disc
variable (s : Steps D)
/-! `discrete_interval` -/

/-- `is_empty`, concept/interval.hpp:572-583 -/
def isEmpty (i : DItv D) : Bool :=
  if i.bnd = Bounds.closed then decide (i.up < i.lo)
  else if i.bnd = Bounds.opn then decide (i.up ≤ i.lo) || decide (i.up ≤ s.nx i.lo)
  else decide (i.up ≤ i.lo)
/-- `first`, concept/interval.hpp:405-413 -/
def first (i : DItv D) : D := if i.bnd.isLeftClosed then i.lo else s.nx i.lo
/-- `last`, concept/interval.hpp:442-456 -/
def last (i : DItv D) : D := if i.bnd.isRightClosed then i.up else s.pr i.up
/-- `last_next`, concept/interval.hpp:480-488 -/
def lastNext (i : DItv D) : D := if i.bnd.isRightClosed then s.nx i.up else i.up
/-- `non_empty::exclusive_less`, concept/interval.hpp:814-820 -/
def neLess (l r : DItv D) : Bool := last s l < first s r
/-- `exclusive_less`, concept/interval.hpp:608-614 -/
def exclusiveLess (l r : DItv D) : Bool := isEmpty s l || isEmpty s r || decide (last s l < first s r)
/-- `lower_less`, concept/interval.hpp:644-649 -/
def lowerLess (l r : DItv D) : Bool := first s l < first s r
/-- `upper_less`, concept/interval.hpp:670-675 -/
def upperLess (l r : DItv D) : Bool := last s l < last s r
/-- `lower_equal`, concept/interval.hpp:739-744 -/
def lowerEqual (l r : DItv D) : Bool := first s l = first s r
/-- `upper_equal`, concept/interval.hpp:770-775 -/
def upperEqual (l r : DItv D) : Bool := last s l = last s r
/-- `touches`, concept/interval.hpp:975-980 -/
def touches (l r : DItv D) : Bool := s.nx (last s l) = first s r
/-- `first` with a check for overflow -/
def firstC (i : DItv D) : Option D := if i.bnd.isLeftClosed then some i.lo else s.next i.lo
/-- `last` with a check for overflow, which is also its assertion -/
def lastC (i : DItv D) : Option D := if i.bnd.isRightClosed then some i.up else s.prior i.up
@[inherit_doc touches] def touchesC (l r : DItv D) : Option Bool := do
  let a ← lastC s l
  let n ← s.next a
  let b ← firstC s r
  return decide (n = b)
end Disc

/-- `discrete_interval`.  Default interval `[zero,zero)`, discrete_interval.hpp:41-48. -/
def discreteOps (s : Steps D) (zero : D) : IntervalOps D (DItv D) where
  contains := Dyn.contains
  isEmpty := Disc.isEmpty s
  exclusiveLess := Disc.exclusiveLess s
  neLess := Disc.neLess s
  lowerLess := Disc.lowerLess s
  upperLess := Disc.upperLess s
  lowerEqual := Disc.lowerEqual s
  upperEqual := Disc.upperEqual s
  touches := Disc.touches s
  touchesC := Disc.touchesC s
  hull := Dyn.hull (Disc.lowerLess s) (Disc.upperLess s) (Disc.isEmpty s)
  leftSubtract := Dyn.leftSubtract (Disc.exclusiveLess s)
  rightSubtract := Dyn.rightSubtract (Disc.exclusiveLess s)
  inter := Dyn.inter (Disc.lowerLess s) (Disc.upperLess s) (Disc.isEmpty s) zero
  innerComplement :=
    Dyn.innerComplement (Disc.lowerLess s) (Disc.upperLess s) (Disc.exclusiveLess s) (Disc.isEmpty s) zero
  empty := ⟨zero, zero, Bounds.rightOpen⟩

namespace Cont
/-! `continuous_interval` -/

/-- `is_empty`, concept/interval.hpp:585-592 -/
def isEmpty (i : DItv D) : Bool :=
  decide (i.up < i.lo) || (decide (i.up = i.lo) && i.bnd != Bounds.closed)
/-- `non_empty::exclusive_less`, concept/interval.hpp:831-841 -/
def neLess (l r : DItv D) : Bool :=
  decide (l.up < r.lo) ||
    (decide (l.up = r.lo) && Bounds.innerBounds l.bnd r.bnd != Bounds.opn)
/-- `exclusive_less`, concept/interval.hpp:625-633 -/
def exclusiveLess (l r : DItv D) : Bool :=
  isEmpty l || isEmpty r || (decide (l.up < r.lo) ||
    (decide (l.up = r.lo) && Bounds.innerBounds l.bnd r.bnd != Bounds.opn))
/-- `lower_less`, concept/interval.hpp:651-659 -/
def lowerLess (l r : DItv D) : Bool :=
  if Bounds.leftBounds l.bnd r.bnd = Bounds.rightOpen then decide (l.lo ≤ r.lo)
  else decide (l.lo < r.lo)
/-- `upper_less`, concept/interval.hpp:677-685 -/
def upperLess (l r : DItv D) : Bool :=
  if Bounds.rightBounds l.bnd r.bnd = Bounds.leftOpen then decide (l.up ≤ r.up)
  else decide (l.up < r.up)
/-- `lower_equal`, concept/interval.hpp:746-752 -/
def lowerEqual (l r : DItv D) : Bool := decide (l.bnd.left = r.bnd.left) && decide (l.lo = r.lo)
/-- `upper_equal`, concept/interval.hpp:777-783 -/
def upperEqual (l r : DItv D) : Bool := decide (l.bnd.right = r.bnd.right) && decide (l.up = r.up)
/-- `touches`, concept/interval.hpp:982-988 -/
def touches (l r : DItv D) : Bool :=
  (Bounds.innerBounds l.bnd r.bnd).isComplementary && decide (l.up = r.lo)
end Cont

/-- `continuous_interval`.  Default interval `[zero,zero)`, continuous_interval.hpp:41-48. -/
def continuousOps (zero : D) : IntervalOps D (DItv D) where
  contains := Dyn.contains
  isEmpty := Cont.isEmpty
  exclusiveLess := Cont.exclusiveLess
  neLess := Cont.neLess
  lowerLess := Cont.lowerLess
  upperLess := Cont.upperLess
  lowerEqual := Cont.lowerEqual
  upperEqual := Cont.upperEqual
  touches := Cont.touches
  touchesC l r := some (Cont.touches l r)
  hull := Dyn.hull Cont.lowerLess Cont.upperLess Cont.isEmpty
  leftSubtract := Dyn.leftSubtract Cont.exclusiveLess
  rightSubtract := Dyn.rightSubtract Cont.exclusiveLess
  inter := Dyn.inter Cont.lowerLess Cont.upperLess Cont.isEmpty zero
  innerComplement :=
    Dyn.innerComplement Cont.lowerLess Cont.upperLess Cont.exclusiveLess Cont.isEmpty zero
  empty := ⟨zero, zero, Bounds.rightOpen⟩

/-! ## Cuts of dynamically bounded intervals -/

namespace Dyn
/-- Right of the lower bound. -/
def Lo (i : DItv D) (x : D) : Prop := if i.bnd.l then i.lo ≤ x else i.lo < x
/-- Left of the upper bound. -/
def Up (i : DItv D) (x : D) : Prop := if i.bnd.r then x ≤ i.up else x < i.up

theorem contains_iff (i : DItv D) (x : D) : contains i x = true ↔ Lo i x ∧ Up i x := by
  obtain ⟨lo, up, ⟨_ | _, _ | _⟩⟩ := i <;>
    simp [contains, Lo, Up, Bounds.isLeftClosed, Bounds.isRightClosed]

theorem lo_mono (i : DItv D) (x y : D) : Lo i x → x ≤ y → Lo i y := by
  obtain ⟨lo, up, ⟨_ | _, _ | _⟩⟩ := i <;> simp only [Lo] <;> intros <;> simp at * <;> order

theorem up_mono (i : DItv D) (x y : D) : Up i y → x ≤ y → Up i x := by
  obtain ⟨lo, up, ⟨_ | _, _ | _⟩⟩ := i <;> simp only [Up] <;> intros <;> simp at * <;> order

theorem lo_constructBounded (a b : BVal D) (x : D) :
    Lo (constructBounded a b) x ↔ if a.bnd.l then a.val ≤ x else a.val < x := by
  simp [Lo, Bounds.left, Bounds.right, Bounds.or]

theorem up_constructBounded (a b : BVal D) (x : D) :
    Up (constructBounded a b) x ↔ if b.bnd.r then x ≤ b.val else x < b.val := by
  simp [Up, Bounds.left, Bounds.right, Bounds.or]

/-- The part of `CutModel` which is the same for both dynamic classes. -/
structure Base (o : IntervalOps D (DItv D)) (zero : D) : Prop where
  contains : o.contains = contains
  hull : o.hull = hull o.lowerLess o.upperLess o.isEmpty
  leftSubtract : o.leftSubtract = leftSubtract o.exclusiveLess
  rightSubtract : o.rightSubtract = rightSubtract o.exclusiveLess
  inter : o.inter = inter o.lowerLess o.upperLess o.isEmpty zero
  innerComplement :
    o.innerComplement = innerComplement o.lowerLess o.upperLess o.exclusiveLess o.isEmpty zero
  empty : o.empty = ⟨zero, zero, Bounds.rightOpen⟩
  isEmpty : ∀ i, o.isEmpty i = true ↔ ∀ x, ¬ (Lo i x ∧ Up i x)
  exLess : ∀ i j, o.exclusiveLess i j = (o.isEmpty i || o.isEmpty j || o.neLess i j)
  neLess : ∀ i j, o.isEmpty i = false → o.isEmpty j = false →
    (o.neLess i j = true ↔ ∀ x, ¬ (Lo j x ∧ Up i x))
  lowerLess : ∀ i j, o.isEmpty i = false → o.isEmpty j = false →
    (o.lowerLess i j = true ↔ ∃ x, Lo i x ∧ ¬ Lo j x)
  upperLess : ∀ i j, o.isEmpty i = false → o.isEmpty j = false →
    (o.upperLess i j = true ↔ ∃ x, Up j x ∧ ¬ Up i x)
  lowerEqual : ∀ i j, o.isEmpty i = false → o.isEmpty j = false →
    (o.lowerEqual i j = true ↔ ∀ x, Lo i x ↔ Lo j x)
  upperEqual : ∀ i j, o.isEmpty i = false → o.isEmpty j = false →
    (o.upperEqual i j = true ↔ ∀ x, Up i x ↔ Up j x)
  touches : ∀ i j, o.isEmpty i = false → o.isEmpty j = false → (∃ z, ¬ Up i z) →
    (o.touches i j = true ↔ ∀ x, Up i x ↔ ¬ Lo j x)
  touchesC : ∀ i j, o.isEmpty i = false → o.isEmpty j = false → (∃ z, ¬ Up i z) →
    o.touchesC i j = some (o.touches i j)

section
variable {o : IntervalOps D (DItv D)} {zero : D} (b : Base o zero)
include b

theorem Base.mem (i : DItv D) (x : D) : o.Mem x i ↔ Lo i x ∧ Up i x := by
  unfold IntervalOps.Mem; rw [b.contains, contains_iff]

theorem lo_lower (i : DItv D) (x : D) : (if (boundedLower i).bnd.l then (boundedLower i).val ≤ x
    else (boundedLower i).val < x) ↔ Lo i x := by
  simp only [Lo, Bounds.left]; rfl
theorem up_upper (i : DItv D) (x : D) : (if (boundedUpper i).bnd.r then x ≤ (boundedUpper i).val
    else x < (boundedUpper i).val) ↔ Up i x := by
  simp only [Up, Bounds.right]; rfl
theorem lo_revUpper (i : DItv D) (x : D) : (if (reverseBoundedUpper i).bnd.l
    then (reverseBoundedUpper i).val ≤ x else (reverseBoundedUpper i).val < x) ↔ ¬ Up i x := by
  obtain ⟨lo, up, ⟨_ | _, _ | _⟩⟩ := i <;> simp [Up, Bounds.reverseRight]
theorem up_revLower (i : DItv D) (x : D) : (if (reverseBoundedLower i).bnd.r
    then x ≤ (reverseBoundedLower i).val else x < (reverseBoundedLower i).val) ↔ ¬ Lo i x := by
  obtain ⟨lo, up, ⟨_ | _, _ | _⟩⟩ := i <;> simp [Lo, Bounds.reverseLeft]

theorem lo_cases (i j : DItv D) (x : D) (hi : o.isEmpty i = false) (hj : o.isEmpty j = false) :
    (o.lowerLess i j = true → (Lo j x → Lo i x)) ∧
    (o.lowerLess i j = false → (Lo i x → Lo j x)) := by
  constructor
  · intro h hx
    obtain ⟨y, h1, h2⟩ := (b.lowerLess i j hi hj).1 h
    by_contra hc
    rcases le_total x y with h | h
    · exact h2 (lo_mono _ _ _ hx h)
    · exact hc (lo_mono _ _ _ h1 h)
  · intro h hx
    by_contra hc
    have : o.lowerLess i j = true := (b.lowerLess i j hi hj).2 ⟨x, hx, hc⟩
    simp [this] at h

theorem up_cases (i j : DItv D) (x : D) (hi : o.isEmpty i = false) (hj : o.isEmpty j = false) :
    (o.upperLess i j = true → (Up i x → Up j x)) ∧
    (o.upperLess i j = false → (Up j x → Up i x)) := by
  constructor
  · intro h hx
    obtain ⟨y, h1, h2⟩ := (b.upperLess i j hi hj).1 h
    by_contra hc
    rcases le_total x y with h | h
    · exact hc (up_mono _ _ _ h1 h)
    · exact h2 (up_mono _ _ _ hx h)
  · intro h hx
    by_contra hc
    have : o.upperLess i j = true := (b.upperLess i j hi hj).2 ⟨x, hx, hc⟩
    simp [this] at h

theorem hull_lo (i j : DItv D) (x : D) (h1 : o.isEmpty i = false) (h2 : o.isEmpty j = false) :
    Lo (o.hull i j) x ↔ Lo i x ∨ Lo j x := by
  rw [b.hull]; unfold hull
  simp only [h1, h2, Bool.false_eq_true, if_false, lo_constructBounded, lowerMin]
  have := lo_cases b i j x h1 h2
  cases h : o.lowerLess i j
  · simp only [Bool.false_eq_true, if_false, lo_lower b]; tauto
  · simp only [if_true, lo_lower b]; tauto

theorem hull_up (i j : DItv D) (x : D) (h1 : o.isEmpty i = false) (h2 : o.isEmpty j = false) :
    Up (o.hull i j) x ↔ Up i x ∨ Up j x := by
  rw [b.hull]; unfold hull
  simp only [h1, h2, Bool.false_eq_true, if_false, up_constructBounded, upperMax]
  have := up_cases b i j x h1 h2
  cases h : o.upperLess i j
  · simp only [Bool.false_eq_true, if_false, up_upper b]; tauto
  · simp only [if_true, up_upper b]; tauto

theorem leftSub_lo (i j : DItv D) (x : D) (h : o.exclusiveLess j i = false) :
    Lo (o.leftSubtract i j) x ↔ ¬ Up j x := by
  rw [b.leftSubtract]; unfold leftSubtract
  simp only [h, Bool.false_eq_true, if_false, lo_constructBounded, lo_revUpper b]

theorem leftSub_up (i j : DItv D) (x : D) (h : o.exclusiveLess j i = false) :
    Up (o.leftSubtract i j) x ↔ Up i x := by
  rw [b.leftSubtract]; unfold leftSubtract
  simp only [h, Bool.false_eq_true, if_false, up_constructBounded, up_upper b]

theorem rightSub_lo (i j : DItv D) (x : D) (h : o.exclusiveLess i j = false) :
    Lo (o.rightSubtract i j) x ↔ Lo i x := by
  rw [b.rightSubtract]; unfold rightSubtract
  simp only [h, Bool.false_eq_true, if_false, lo_constructBounded, lo_lower b]

theorem rightSub_up (i j : DItv D) (x : D) (h : o.exclusiveLess i j = false) :
    Up (o.rightSubtract i j) x ↔ ¬ Lo j x := by
  rw [b.rightSubtract]; unfold rightSubtract
  simp only [h, Bool.false_eq_true, if_false, up_constructBounded, up_revLower b]

theorem Base.nonempty (i : DItv D) : o.isEmpty i = false ↔ ∃ x, Lo i x ∧ Up i x := by
  rw [← Bool.not_eq_true, b.isEmpty]; push Not; rfl

theorem compl_aux (i j : DItv D) (x : D) (hi : o.isEmpty i = false) (hj : o.isEmpty j = false)
    (h1 : o.exclusiveLess i j = true) :
    o.Mem x (o.rightSubtract (o.leftSubtract (o.hull i j) i) j) ↔ ¬ Up i x ∧ ¬ Lo j x := by
  obtain ⟨u, hu⟩ := (b.nonempty i).1 hi
  obtain ⟨v, hv⟩ := (b.nonempty j).1 hj
  have hn : ∀ y, ¬ (Lo j y ∧ Up i y) := by
    rw [← b.neLess i j hi hj]; rw [b.exLess, hi, hj] at h1; simpa using h1
  have huv : u < v := by
    by_contra hc; exact hn v ⟨hv.1, up_mono _ _ _ hu.2 (by order)⟩
  have hh : o.isEmpty (o.hull i j) = false := by
    rw [b.nonempty]
    exact ⟨u, (hull_lo b i j u hi hj).2 (Or.inl hu.1), (hull_up b i j u hi hj).2 (Or.inl hu.2)⟩
  have e1 : o.exclusiveLess i (o.hull i j) = false := by
    rw [b.exLess, hi, hh, Bool.false_or, Bool.false_or, ← Bool.not_eq_true, b.neLess _ _ hi hh]
    intro h
    exact h u ⟨(hull_lo b i j u hi hj).2 (Or.inl hu.1), hu.2⟩
  have hl : o.isEmpty (o.leftSubtract (o.hull i j) i) = false := by
    rw [b.nonempty]
    exact ⟨v, (leftSub_lo b _ _ v e1).2 fun h => hn v ⟨hv.1, h⟩,
      (leftSub_up b _ _ v e1).2 ((hull_up b i j v hi hj).2 (Or.inr hv.2))⟩
  have e2 : o.exclusiveLess (o.leftSubtract (o.hull i j) i) j = false := by
    rw [b.exLess, hl, hj, Bool.false_or, Bool.false_or, ← Bool.not_eq_true, b.neLess _ _ hl hj]
    intro h
    exact h v ⟨hv.1, (leftSub_up b _ _ v e1).2 ((hull_up b i j v hi hj).2 (Or.inr hv.2))⟩
  rw [b.mem, rightSub_lo b _ _ x e2, rightSub_up b _ _ x e2, leftSub_lo b _ _ x e1]

/-- Both dynamic classes are described by the cuts `Lo` and `Up`. -/
def Base.cuts : o.CutModel where
  Lo := Lo
  Up := Up
  lo_mono := lo_mono
  up_mono := up_mono
  mem := b.mem
  isEmpty := b.isEmpty
  exLess := b.exLess
  neLess := b.neLess
  lowerLess := b.lowerLess
  upperLess := b.upperLess
  lowerEqual := b.lowerEqual
  upperEqual := b.upperEqual
  touches := b.touches
  touchesC := b.touchesC
  hull_right i j h := by rw [b.hull]; simp [Dyn.hull, h]
  hull_left i j h1 h2 := by rw [b.hull]; simp [Dyn.hull, h1, h2]
  hull_mem i j x h1 h2 := by rw [b.mem, hull_lo b i j x h1 h2, hull_up b i j x h1 h2]
  leftSub_ex i j h := by rw [b.leftSubtract]; simp [Dyn.leftSubtract, h]
  leftSub_mem i j x h := by rw [b.mem, leftSub_lo b i j x h, leftSub_up b i j x h]
  rightSub_ex i j h := by rw [b.rightSubtract]; simp [Dyn.rightSubtract, h]
  rightSub_mem i j x h := by rw [b.mem, rightSub_lo b i j x h, rightSub_up b i j x h]
  inter_empty i j h := by rw [b.inter, b.empty]; unfold Dyn.inter; simp only [h, if_true]
  inter_mem i j x h := by
    rw [b.mem, b.inter]; unfold Dyn.inter
    simp only [h, Bool.false_eq_true, if_false, lo_constructBounded, up_constructBounded]
    rw [Bool.or_eq_false_iff] at h
    have hl := lo_cases b i j x h.1 h.2
    have hu := up_cases b i j x h.1 h.2
    unfold lowerMax upperMin
    cases h1 : o.lowerLess i j <;> cases h2 : o.upperLess i j <;>
      simp only [Bool.false_eq_true, if_false, if_true, up_upper b, lo_lower b] <;> tauto
  compl_empty i j h := by
    rw [b.innerComplement, b.empty]; unfold Dyn.innerComplement; simp only [h, if_true]
  compl_overlap i j h1 h2 := by
    rw [b.innerComplement, b.empty]; unfold Dyn.innerComplement; simp [h1, h2]
  compl_left i j x h h1 := by
    have hij := h
    rw [Bool.or_eq_false_iff] at hij
    rw [← compl_aux b i j x hij.1 hij.2 h1, b.innerComplement, b.rightSubtract, b.leftSubtract,
      b.hull]
    unfold Dyn.innerComplement
    simp only [h, h1, Bool.false_eq_true, if_false, if_true]
  compl_right i j x h h1 h2 := by
    have hij := h
    rw [Bool.or_eq_false_iff] at hij
    rw [← compl_aux b j i x hij.2 hij.1 h2, b.innerComplement, b.rightSubtract, b.leftSubtract,
      b.hull]
    unfold Dyn.innerComplement
    simp only [h, h1, h2, Bool.false_eq_true, if_false, if_true]
  empty := by
    rw [b.isEmpty, b.empty]
    simp [Lo, Up, Bounds.rightOpen]

end
end Dyn

open Dyn

/-! ### discrete_interval -/
section disc
variable (s : Steps D) (zero : D)

theorem Disc.isEmpty_iff (i : DItv D) :
    (discreteOps s zero).isEmpty i = true ↔ ∀ x, ¬ (Lo i x ∧ Up i x) := by
  show Disc.isEmpty s i = true ↔ _
  obtain ⟨lo, up, ⟨_ | _, _ | _⟩⟩ := i <;>
    simp only [Disc.isEmpty, Bounds.closed, Bounds.opn, Bounds.mk.injEq, Lo, Up] <;> simp
  · constructor
    · rintro (h | h) x h1
      · order
      · have := s.le_nx h1; order
    · intro h
      by_contra hc
      push Not at hc
      have := h _ (s.lt_nx hc.1)
      order
  · constructor
    · intro h x h1; order
    · intro h; by_contra hc; have := h up (by order); order
  · constructor
    · intro h x h1; order
    · intro h; by_contra hc; have := h lo (by order); order
  · constructor
    · intro h x h1; order
    · intro h; by_contra hc; have := h lo (by order); order

theorem Disc.nonempty {i : DItv D} (h : (discreteOps s zero).isEmpty i = false) :
    ∃ x, Lo i x ∧ Up i x := by
  rw [← Bool.not_eq_true, Disc.isEmpty_iff] at h
  push Not at h
  exact h

theorem Disc.lo_first {i : DItv D} {z : D} (hz : Lo i z) (x : D) : Lo i x ↔ Disc.first s i ≤ x := by
  obtain ⟨lo, up, ⟨_ | _, _ | _⟩⟩ := i <;>
    simp [Lo, Disc.first, Bounds.isLeftClosed] at *
  · rw [s.nx_le_iff hz]
  · rw [s.nx_le_iff hz]

theorem Disc.up_last {i : DItv D} {z : D} (hz : Up i z) (x : D) : Up i x ↔ x ≤ Disc.last s i := by
  obtain ⟨lo, up, ⟨_ | _, _ | _⟩⟩ := i <;>
    simp [Up, Disc.last, Bounds.isRightClosed] at *
  · rw [s.le_pr_iff hz]
  · rw [s.le_pr_iff hz]

theorem Disc.firstC_eq {i : DItv D} {z : D} (hz : Lo i z) : Disc.firstC s i = some (Disc.first s i) := by
  obtain ⟨lo, up, ⟨_ | _, _ | _⟩⟩ := i <;>
    simp [Lo, Disc.first, Disc.firstC, Bounds.isLeftClosed] at *
  · exact s.next_eq hz
  · exact s.next_eq hz

theorem Disc.lastC_eq {i : DItv D} {z : D} (hz : Up i z) : Disc.lastC s i = some (Disc.last s i) := by
  obtain ⟨lo, up, ⟨_ | _, _ | _⟩⟩ := i <;>
    simp [Up, Disc.last, Disc.lastC, Bounds.isRightClosed] at *
  · exact s.prior_eq hz
  · exact s.prior_eq hz

section
variable (i j : DItv D)

theorem Disc.neLess_iff {z w : D} (hz : Up i z) (hw : Lo j w) :
    (discreteOps s zero).neLess i j = true ↔ ∀ x, ¬ (Lo j x ∧ Up i x) := by
  simp only [Disc.lo_first s hw, Disc.up_last s hz, discreteOps, Disc.neLess, decide_eq_true_eq]
  constructor
  · rintro h x ⟨h1, h2⟩; order
  · intro h; by_contra hc; exact h (Disc.first s j) ⟨le_refl _, by order⟩

theorem Disc.lowerLess_iff {z w : D} (hz : Lo i z) (hw : Lo j w) :
    (discreteOps s zero).lowerLess i j = true ↔ ∃ x, Lo i x ∧ ¬ Lo j x := by
  simp only [Disc.lo_first s hw, Disc.lo_first s hz, discreteOps, Disc.lowerLess, decide_eq_true_eq]
  constructor
  · intro h; exact ⟨Disc.first s i, le_refl _, by order⟩
  · rintro ⟨x, h1, h2⟩; order

theorem Disc.upperLess_iff {z w : D} (hz : Up i z) (hw : Up j w) :
    (discreteOps s zero).upperLess i j = true ↔ ∃ x, Up j x ∧ ¬ Up i x := by
  simp only [Disc.up_last s hw, Disc.up_last s hz, discreteOps, Disc.upperLess, decide_eq_true_eq]
  constructor
  · intro h; exact ⟨Disc.last s j, le_refl _, by order⟩
  · rintro ⟨x, h1, h2⟩; order

theorem Disc.lowerEqual_iff {z w : D} (hz : Lo i z) (hw : Lo j w) :
    (discreteOps s zero).lowerEqual i j = true ↔ ∀ x, Lo i x ↔ Lo j x := by
  simp only [Disc.lo_first s hw, Disc.lo_first s hz, discreteOps, Disc.lowerEqual, decide_eq_true_eq]
  constructor
  · intro h x; rw [h]
  · intro h
    have h1 := (h _).1 (le_refl _); have h2 := (h _).2 (le_refl _); order

theorem Disc.upperEqual_iff {z w : D} (hz : Up i z) (hw : Up j w) :
    (discreteOps s zero).upperEqual i j = true ↔ ∀ x, Up i x ↔ Up j x := by
  simp only [Disc.up_last s hw, Disc.up_last s hz, discreteOps, Disc.upperEqual, decide_eq_true_eq]
  constructor
  · intro h x; rw [h]
  · intro h
    have h1 := (h _).1 (le_refl _); have h2 := (h _).2 (le_refl _); order

theorem Disc.touches_iff {z w v : D} (hz : Up i z) (hw : Lo j w) (hv : Disc.last s i < v) :
    (discreteOps s zero).touches i j = true ↔ ∀ x, Up i x ↔ ¬ Lo j x := by
  simp only [Disc.lo_first s hw, Disc.up_last s hz, discreteOps, Disc.touches, decide_eq_true_eq, not_le]
  constructor
  · intro h x; rw [← h, s.lt_nx_iff hv]
  · intro h
    have h0 := (h (Disc.last s i)).1 (le_refl _)
    have h1 := s.le_nx h0
    by_contra hc
    have h2 : s.nx (Disc.last s i) < Disc.first s j := lt_of_le_of_ne h1 hc
    have h3 := (h _).2 h2
    have h4 := s.lt_nx h0
    order
end

theorem discrete_base : Base (discreteOps s zero) zero where
  contains := rfl
  hull := rfl
  leftSubtract := rfl
  rightSubtract := rfl
  inter := rfl
  innerComplement := rfl
  empty := rfl
  isEmpty := Disc.isEmpty_iff s zero
  exLess i j := rfl
  neLess i j hi hj := by
    obtain ⟨z, hz⟩ := Disc.nonempty s zero hi
    obtain ⟨w, hw⟩ := Disc.nonempty s zero hj
    exact Disc.neLess_iff s zero i j hz.2 hw.1
  lowerLess i j hi hj := by
    obtain ⟨z, hz⟩ := Disc.nonempty s zero hi
    obtain ⟨w, hw⟩ := Disc.nonempty s zero hj
    exact Disc.lowerLess_iff s zero i j hz.1 hw.1
  upperLess i j hi hj := by
    obtain ⟨z, hz⟩ := Disc.nonempty s zero hi
    obtain ⟨w, hw⟩ := Disc.nonempty s zero hj
    exact Disc.upperLess_iff s zero i j hz.2 hw.2
  lowerEqual i j hi hj := by
    obtain ⟨z, hz⟩ := Disc.nonempty s zero hi
    obtain ⟨w, hw⟩ := Disc.nonempty s zero hj
    exact Disc.lowerEqual_iff s zero i j hz.1 hw.1
  upperEqual i j hi hj := by
    obtain ⟨z, hz⟩ := Disc.nonempty s zero hi
    obtain ⟨w, hw⟩ := Disc.nonempty s zero hj
    exact Disc.upperEqual_iff s zero i j hz.2 hw.2
  touches i j hi hj hb := by
    obtain ⟨z, hz⟩ := Disc.nonempty s zero hi
    obtain ⟨w, hw⟩ := Disc.nonempty s zero hj
    obtain ⟨v, hv⟩ := hb
    refine Disc.touches_iff s zero i j hz.2 hw.1 (v := v) ?_
    by_contra hc
    exact hv ((Disc.up_last s hz.2 v).2 (not_lt.1 hc))
  touchesC i j hi hj hb := by
    obtain ⟨z, hz⟩ := Disc.nonempty s zero hi
    obtain ⟨w, hw⟩ := Disc.nonempty s zero hj
    obtain ⟨v, hv⟩ := hb
    have hlt : Disc.last s i < v := by
      by_contra hc
      exact hv ((Disc.up_last s hz.2 v).2 (not_lt.1 hc))
    simp only [discreteOps, Disc.touchesC, Disc.lastC_eq s hz.2, Disc.firstC_eq s hw.1, s.next_eq hlt,
      Option.bind_eq_bind, Option.bind_some]
    rfl

theorem discrete_lawful : (discreteOps s zero).Lawful := (discrete_base s zero).cuts.lawful

section
variable [NoMaxOrder D] [NoMinOrder D]

theorem Dyn.exists_lo (i : DItv D) : ∃ x, Lo i x := by
  obtain ⟨x, hx⟩ := exists_gt i.lo
  refine ⟨x, ?_⟩
  unfold Lo
  split <;> order

theorem Dyn.exists_up (i : DItv D) : ∃ x, Up i x := by
  obtain ⟨x, hx⟩ := exists_lt i.up
  refine ⟨x, ?_⟩
  unfold Up
  split <;> order

theorem discrete_fully : (discreteOps s zero).FullyLawful :=
  ((discrete_base s zero).cuts.full
    (fun i j => Disc.lowerLess_iff s zero i j (Dyn.exists_lo i).choose_spec (Dyn.exists_lo j).choose_spec)
    (fun i j => Disc.upperLess_iff s zero i j (Dyn.exists_up i).choose_spec (Dyn.exists_up j).choose_spec)
    (fun i j => Disc.lowerEqual_iff s zero i j (Dyn.exists_lo i).choose_spec (Dyn.exists_lo j).choose_spec)
    (fun i j => Disc.upperEqual_iff s zero i j (Dyn.exists_up i).choose_spec (Dyn.exists_up j).choose_spec)
    (fun i j => Disc.touches_iff s zero i j (Dyn.exists_up i).choose_spec (Dyn.exists_lo j).choose_spec
      (exists_gt _).choose_spec)).fullyLawful
end
end disc

/-! ### continuous_interval -/
section cont
variable [DenselyOrdered D]

theorem continuous_neLess (zero : D) (i j : DItv D) :
    (continuousOps zero).neLess i j = true ↔ ∀ x, ¬ (Lo j x ∧ Up i x) := by
  show Cont.neLess i j = true ↔ _
  obtain ⟨lo, up, ⟨bl, br⟩⟩ := i
  obtain ⟨lo', up', ⟨bl', br'⟩⟩ := j
  constructor
  · rintro h x ⟨h1, h2⟩
    cases br <;> cases bl' <;>
      simp [Cont.neLess, Bounds.innerBounds, Bounds.reverseRight, Bounds.reverseLeft, Bounds.or,
        Bounds.opn, Lo, Up] at * <;>
    first | order | (rcases h with h | h <;> order)
  · intro h
    by_contra hc
    have hlt : lo' < up ∨ (lo' = up ∧ br = true ∧ bl' = true) := by
      rcases lt_trichotomy lo' up with h | h | h
      · exact Or.inl h
      · right; subst h
        cases br <;> cases bl' <;>
        simp [Cont.neLess, Bounds.innerBounds, Bounds.reverseRight, Bounds.reverseLeft, Bounds.or,
          Bounds.opn] at *
      · exfalso; apply hc; simp [Cont.neLess, h]
    rcases hlt with hlt | ⟨rfl, rfl, rfl⟩
    · obtain ⟨x, h1, h2⟩ := exists_between hlt
      apply h x
      cases br <;> cases bl' <;> simp [Lo, Up] <;> constructor <;> order
    · apply h lo'; simp [Lo, Up]

theorem continuous_lowerLess (zero : D) (i j : DItv D) :
    (continuousOps zero).lowerLess i j = true ↔ ∃ x, Lo i x ∧ ¬ Lo j x := by
  show Cont.lowerLess i j = true ↔ _
  obtain ⟨lo, up, ⟨bl, br⟩⟩ := i
  obtain ⟨lo', up', ⟨bl', br'⟩⟩ := j
  cases bl <;> cases bl' <;>
    simp [Cont.lowerLess, Bounds.leftBounds, Bounds.rightOpen, Lo]
  · constructor
    · intro h; exact ⟨lo', h, by order⟩
    · rintro ⟨x, h1, h2⟩; order
  · constructor
    · intro h; obtain ⟨x, h1, h2⟩ := exists_between h; exact ⟨x, h1, h2⟩
    · rintro ⟨x, h1, h2⟩; order
  · constructor
    · intro h; exact ⟨lo', h, by order⟩
    · rintro ⟨x, h1, h2⟩; order
  · constructor
    · intro h; exact ⟨lo, by order, h⟩
    · rintro ⟨x, h1, h2⟩; order

theorem continuous_upperLess (zero : D) (i j : DItv D) :
    (continuousOps zero).upperLess i j = true ↔ ∃ x, Up j x ∧ ¬ Up i x := by
  show Cont.upperLess i j = true ↔ _
  obtain ⟨lo, up, ⟨bl, br⟩⟩ := i
  obtain ⟨lo', up', ⟨bl', br'⟩⟩ := j
  cases br <;> cases br' <;>
    simp [Cont.upperLess, Bounds.rightBounds, Bounds.leftOpen, Up]
  · constructor
    · intro h; exact ⟨up, h, by order⟩
    · rintro ⟨x, h1, h2⟩; order
  · constructor
    · intro h; exact ⟨up', by order, h⟩
    · rintro ⟨x, h1, h2⟩; order
  · constructor
    · intro h; obtain ⟨x, h1, h2⟩ := exists_between h; exact ⟨x, h2, h1⟩
    · rintro ⟨x, h1, h2⟩; order
  · constructor
    · intro h; exact ⟨up', by order, h⟩
    · rintro ⟨x, h1, h2⟩; order

theorem continuous_lowerEqual (zero : D) (i j : DItv D) :
    (continuousOps zero).lowerEqual i j = true ↔ ∀ x, Lo i x ↔ Lo j x := by
  show Cont.lowerEqual i j = true ↔ _
  obtain ⟨lo, up, ⟨bl, br⟩⟩ := i
  obtain ⟨lo', up', ⟨bl', br'⟩⟩ := j
  constructor
  · intro h x
    cases bl <;> cases bl' <;> simp [Cont.lowerEqual, Bounds.left, Lo] at * <;> rw [h]
  · intro h
    cases bl <;> cases bl' <;> simp [Cont.lowerEqual, Bounds.left, Lo] at *
    · by_contra hc
      rcases lt_or_gt_of_ne hc with h1 | h1
      · have := (h lo').1 h1; order
      · have := (h lo).2 h1; order
    · have h1 := (h lo').2 (le_refl _)
      obtain ⟨z, h2, h3⟩ := exists_between h1
      have := (h z).1 h2; order
    · have h1 := (h lo).1 (le_refl _)
      obtain ⟨z, h2, h3⟩ := exists_between h1
      have := (h z).2 h2; order
    · have h1 := (h lo).1 (le_refl _)
      have h2 := (h lo').2 (le_refl _)
      order

theorem continuous_upperEqual (zero : D) (i j : DItv D) :
    (continuousOps zero).upperEqual i j = true ↔ ∀ x, Up i x ↔ Up j x := by
  show Cont.upperEqual i j = true ↔ _
  obtain ⟨lo, up, ⟨bl, br⟩⟩ := i
  obtain ⟨lo', up', ⟨bl', br'⟩⟩ := j
  constructor
  · intro h x
    cases br <;> cases br' <;> simp [Cont.upperEqual, Bounds.right, Up] at * <;> rw [h]
  · intro h
    cases br <;> cases br' <;> simp [Cont.upperEqual, Bounds.right, Up] at *
    · by_contra hc
      rcases lt_or_gt_of_ne hc with h1 | h1
      · have := (h up).2 h1; order
      · have := (h up').1 h1; order
    · have h1 := (h up').2 (le_refl _)
      obtain ⟨z, h2, h3⟩ := exists_between h1
      have := (h z).1 h3; order
    · have h1 := (h up).1 (le_refl _)
      obtain ⟨z, h2, h3⟩ := exists_between h1
      have := (h z).2 h3; order
    · have h1 := (h up).1 (le_refl _)
      have h2 := (h up').2 (le_refl _)
      order

theorem continuous_touches (zero : D) (i j : DItv D) :
    (continuousOps zero).touches i j = true ↔ ∀ x, Up i x ↔ ¬ Lo j x := by
  show Cont.touches i j = true ↔ _
  obtain ⟨lo, up, ⟨bl, br⟩⟩ := i
  obtain ⟨lo', up', ⟨bl', br'⟩⟩ := j
  constructor
  · intro h x
    cases br <;> cases bl' <;>
      simp [Cont.touches, Bounds.innerBounds, Bounds.reverseRight, Bounds.reverseLeft, Bounds.or,
        Bounds.isComplementary, Bounds.leftOpen, Bounds.rightOpen, Lo, Up] at * <;> rw [h]
  · intro h
    cases br <;> cases bl' <;>
      simp [Cont.touches, Bounds.innerBounds, Bounds.reverseRight, Bounds.reverseLeft, Bounds.or,
        Bounds.isComplementary, Bounds.leftOpen, Bounds.rightOpen, Lo, Up] at *
    · have h1 := (h lo').2 (le_refl _)
      obtain ⟨z, h2, h3⟩ := exists_between h1
      have := (h z).1 h3; order
    · by_contra hc
      rcases lt_or_gt_of_ne hc with h1 | h1
      · have := (h up).2 h1; order
      · have := (h lo').1 h1; order
    · have h1 := (h up).1 (le_refl _)
      have h2 := (h lo').2 (le_refl _)
      order
    · have h1 := (h up).1 (le_refl _)
      obtain ⟨z, h2, h3⟩ := exists_between h1
      have := (h z).2 h3; order

theorem continuous_base (zero : D) : Base (continuousOps zero) zero where
  contains := rfl
  hull := rfl
  leftSubtract := rfl
  rightSubtract := rfl
  inter := rfl
  innerComplement := rfl
  empty := rfl
  isEmpty i := by
    show Cont.isEmpty i = true ↔ _
    obtain ⟨lo, up, b⟩ := i
    constructor
    · rintro h x ⟨h1, h2⟩
      obtain ⟨_ | _, _ | _⟩ := b <;> simp [Cont.isEmpty, Bounds.closed, Lo, Up] at * <;>
      first | order | (rcases h with h | h <;> order)
    · intro h
      by_contra hc
      have hlt : lo < up ∨ (lo = up ∧ b = Bounds.closed) := by
        simp only [Cont.isEmpty, Bool.or_eq_true, decide_eq_true_eq, Bool.and_eq_true,
          bne_iff_ne, ne_eq, not_or, not_and, not_not] at hc
        rcases lt_trichotomy lo up with h | h | h
        · exact Or.inl h
        · exact Or.inr ⟨h, hc.2 h.symm⟩
        · exact absurd h hc.1
      rcases hlt with hlt | ⟨rfl, rfl⟩
      · obtain ⟨x, h1, h2⟩ := exists_between hlt
        apply h x
        obtain ⟨_ | _, _ | _⟩ := b <;> simp [Lo, Up] <;> constructor <;> order
      · apply h lo; simp [Lo, Up, Bounds.closed]
  exLess i j := rfl
  neLess i j _ _ := continuous_neLess zero i j
  lowerLess i j _ _ := continuous_lowerLess zero i j
  upperLess i j _ _ := continuous_upperLess zero i j
  lowerEqual i j _ _ := continuous_lowerEqual zero i j
  upperEqual i j _ _ := continuous_upperEqual zero i j
  touches i j _ _ _ := continuous_touches zero i j
  touchesC _ _ _ _ _ := rfl

theorem continuous_fully (zero : D) : (continuousOps zero).FullyLawful :=
  ((continuous_base zero).cuts.full (continuous_lowerLess zero) (continuous_upperLess zero)
    (continuous_lowerEqual zero) (continuous_upperEqual zero) (continuous_touches zero)).fullyLawful
end cont

end
end ICL
