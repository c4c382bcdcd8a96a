import Verif.Cuts
import Mathlib.Order.SuccPred.Basic

/-!
# The statically bounded interval classes

`right_open_interval`, `left_open_interval` (over discrete and over continuous domains),
`closed_interval` and `open_interval` (over discrete domains).

Domain: `right_open`/`left_open` — any linear order.  Discrete — any linear order with `++` and `--` (`Steps`),
with or without a largest and a smallest value.
`std::greater` orderings are covered by instantiating the order with its dual.
-/

set_option linter.unusedSimpArgs false
set_option linter.unusedSectionVars false

namespace ICL

/-- An interval with static bounds: lower and upper bound.  right_open_interval.hpp:57-60,
left_open_interval.hpp:59-62, closed_interval.hpp:57-60, open_interval.hpp:59-62.  The
constructors do not normalise: `up < lo` is possible. -/
structure SItv (D : Type) where
  lo : D
  up : D
  deriving DecidableEq, Repr

section
variable {D : Type} [LinearOrder D]

/-- `(std::min)(a, b, domain_compare())` -/
def stdMin (a b : D) : D := if b < a then b else a
/-- `(std::max)(a, b, domain_compare())` -/
def stdMax (a b : D) : D := if a < b then b else a

theorem stdMin_eq (a b : D) : stdMin a b = min a b := by
  unfold stdMin; split <;> rename_i h
  · rw [min_eq_right (le_of_lt h)]
  · rw [min_eq_left (by order)]
theorem stdMax_eq (a b : D) : stdMax a b = max a b := by
  unfold stdMax; split <;> rename_i h
  · rw [max_eq_right (le_of_lt h)]
  · rw [max_eq_left (by order)]

namespace Asym
/-! Functions shared by the two asymmetric classes (`is_asymmetric_interval`). -/

/-- `is_empty`, concept/interval.hpp:550-555 -/
def isEmpty (i : SItv D) : Bool := i.up ≤ i.lo
/-- `non_empty::exclusive_less`, concept/interval.hpp:806-812 -/
def neLess (l r : SItv D) : Bool := l.up ≤ r.lo
/-- `exclusive_less`, concept/interval.hpp:600-606 -/
def exclusiveLess (l r : SItv D) : Bool := isEmpty l || isEmpty r || decide (l.up ≤ r.lo)
/-- `touches`, concept/interval.hpp:961-966 -/
def touches (l r : SItv D) : Bool := l.up = r.lo
/-- `left_subtract`, concept/interval.hpp:1168-1176 -/
def leftSubtract (right leftMinuend : SItv D) : SItv D :=
  if exclusiveLess leftMinuend right then right else ⟨leftMinuend.up, right.up⟩
/-- `right_subtract`, concept/interval.hpp:1221-1228 -/
def rightSubtract (left rightMinuend : SItv D) : SItv D :=
  if exclusiveLess left rightMinuend then left else ⟨left.lo, rightMinuend.lo⟩
/-- `operator &`, concept/interval.hpp:1268-1284 -/
def inter (zero : D) (l r : SItv D) : SItv D :=
  if isEmpty l || isEmpty r then ⟨zero, zero⟩ else ⟨stdMax l.lo r.lo, stdMin l.up r.up⟩
/-- `inner_complement`, concept/interval.hpp:1339-1351 -/
def innerComplement (zero : D) (l r : SItv D) : SItv D :=
  if isEmpty l || isEmpty r then ⟨zero, zero⟩
  else if exclusiveLess l r then ⟨l.up, r.lo⟩
  else if exclusiveLess r l then ⟨r.up, l.lo⟩
  else ⟨zero, zero⟩
end Asym

namespace Static
/-! Functions shared by all classes with static bounds (`has_static_bounds`). -/

/-- `lower_less`, concept/interval.hpp:637-642 -/
def lowerLess (l r : SItv D) : Bool := l.lo < r.lo
/-- `upper_less`, concept/interval.hpp:663-668 -/
def upperLess (l r : SItv D) : Bool := l.up < r.up
/-- `lower_equal` of asymmetric intervals, concept/interval.hpp:725-730 -/
def lowerEqual (l r : SItv D) : Bool := l.lo = r.lo
/-- `upper_equal` of asymmetric intervals, concept/interval.hpp:756-761 -/
def upperEqual (l r : SItv D) : Bool := l.up = r.up
/-- `hull` of two intervals, concept/interval.hpp:1120-1137 -/
def hull (isEmpty : SItv D → Bool) (l r : SItv D) : SItv D :=
  if isEmpty r then l else if isEmpty l then r
  else ⟨stdMin l.lo r.lo, stdMax l.up r.up⟩
end Static

/-- `right_open_interval`.  `contains` is the function for continuous domains; the code for discrete domains goes
through `first` and `last`, it is `containsFL` in `Classes.lean`.  `zero` is `identity_element<DomainT>::value()`. -/
def rightOpenOps (zero : D) : IntervalOps D (SItv D) where
  -- `contains` (is_continuous_right_open), concept/interval.hpp:874-880
  contains i x := decide (i.lo ≤ x) && decide (x < i.up)
  isEmpty := Asym.isEmpty
  exclusiveLess := Asym.exclusiveLess
  neLess := Asym.neLess
  lowerLess := Static.lowerLess
  upperLess := Static.upperLess
  lowerEqual := Static.lowerEqual
  upperEqual := Static.upperEqual
  touches := Asym.touches
  touchesC l r := some (Asym.touches l r)
  hull := Static.hull Asym.isEmpty
  leftSubtract := Asym.leftSubtract
  rightSubtract := Asym.rightSubtract
  inter := Asym.inter zero
  innerComplement := Asym.innerComplement zero
  -- default constructor, right_open_interval.hpp:37-42
  empty := ⟨zero, zero⟩

/-- `left_open_interval`, with `contains` as for `rightOpenOps` -/
def leftOpenOps (zero : D) : IntervalOps D (SItv D) where
  -- `contains` (is_continuous_left_open), concept/interval.hpp:866-872
  contains i x := decide (i.lo < x) && decide (x ≤ i.up)
  isEmpty := Asym.isEmpty
  exclusiveLess := Asym.exclusiveLess
  neLess := Asym.neLess
  lowerLess := Static.lowerLess
  upperLess := Static.upperLess
  lowerEqual := Static.lowerEqual
  upperEqual := Static.upperEqual
  touches := Asym.touches
  touchesC l r := some (Asym.touches l r)
  hull := Static.hull Asym.isEmpty
  leftSubtract := Asym.leftSubtract
  rightSubtract := Asym.rightSubtract
  inter := Asym.inter zero
  innerComplement := Asym.innerComplement zero
  -- default constructor, left_open_interval.hpp:37-42
  empty := ⟨zero, zero⟩

theorem rightOpen_neLess (zero : D) (i j : SItv D) :
    (rightOpenOps zero).neLess i j = true ↔ ∀ x, ¬ (j.lo ≤ x ∧ x < i.up) := by
  simp only [rightOpenOps, Asym.neLess, decide_eq_true_eq]
  constructor
  · rintro h x ⟨h1, h2⟩; order
  · intro h; by_contra hc; exact h j.lo ⟨le_refl _, by order⟩

theorem rightOpen_lowerLess (zero : D) (i j : SItv D) :
    (rightOpenOps zero).lowerLess i j = true ↔ ∃ x, i.lo ≤ x ∧ ¬ j.lo ≤ x := by
  simp only [rightOpenOps, Static.lowerLess, decide_eq_true_eq]
  constructor
  · intro h; exact ⟨i.lo, le_refl _, by order⟩
  · rintro ⟨x, h1, h2⟩; order

theorem rightOpen_upperLess (zero : D) (i j : SItv D) :
    (rightOpenOps zero).upperLess i j = true ↔ ∃ x, x < j.up ∧ ¬ x < i.up := by
  simp only [rightOpenOps, Static.upperLess, decide_eq_true_eq]
  constructor
  · intro h; exact ⟨i.up, h, by order⟩
  · rintro ⟨x, h1, h2⟩; order

theorem rightOpen_lowerEqual (zero : D) (i j : SItv D) :
    (rightOpenOps zero).lowerEqual i j = true ↔ ∀ x, i.lo ≤ x ↔ j.lo ≤ x := by
  simp only [rightOpenOps, Static.lowerEqual, decide_eq_true_eq]
  constructor
  · intro h x; rw [h]
  · intro h
    have h1 := (h i.lo).1 (le_refl _); have h2 := (h j.lo).2 (le_refl _); order

theorem rightOpen_upperEqual (zero : D) (i j : SItv D) :
    (rightOpenOps zero).upperEqual i j = true ↔ ∀ x, x < i.up ↔ x < j.up := by
  simp only [rightOpenOps, Static.upperEqual, decide_eq_true_eq]
  constructor
  · intro h x; rw [h]
  · intro h
    by_contra hc
    rcases lt_or_gt_of_ne hc with h1 | h1
    · have := (h i.up).2 h1; order
    · have := (h j.up).1 h1; order

theorem rightOpen_touches (zero : D) (i j : SItv D) :
    (rightOpenOps zero).touches i j = true ↔ ∀ x, x < i.up ↔ ¬ j.lo ≤ x := by
  simp only [rightOpenOps, Asym.touches, decide_eq_true_eq, not_le]
  constructor
  · intro h x; rw [h]
  · intro h
    by_contra hc
    rcases lt_or_gt_of_ne hc with h1 | h1
    · have := (h i.up).2 h1; order
    · have := (h j.lo).1 h1; order

/-- The cuts of a right-open interval. -/
def rightOpenCuts (zero : D) : (rightOpenOps zero).FullCuts where
  Lo i x := i.lo ≤ x
  Up i x := x < i.up
  lo_mono i x y h1 h2 := by order
  up_mono i x y h1 h2 := by order
  mem i x := by simp [IntervalOps.Mem, rightOpenOps]
  isEmpty i := by
    simp only [rightOpenOps, Asym.isEmpty, decide_eq_true_eq]
    constructor
    · rintro h x ⟨h1, h2⟩; order
    · intro h; by_contra hc; exact h i.lo ⟨le_refl _, by order⟩
  exLess i j := rfl
  neLess i j _ _ := rightOpen_neLess zero i j
  lowerLess i j _ _ := rightOpen_lowerLess zero i j
  lowerLess' := rightOpen_lowerLess zero
  upperLess i j _ _ := rightOpen_upperLess zero i j
  upperLess' := rightOpen_upperLess zero
  lowerEqual i j _ _ := rightOpen_lowerEqual zero i j
  lowerEqual' := rightOpen_lowerEqual zero
  upperEqual i j _ _ := rightOpen_upperEqual zero i j
  upperEqual' := rightOpen_upperEqual zero
  touches i j _ _ _ := rightOpen_touches zero i j
  touchesC _ _ _ _ _ := rfl
  touches' := rightOpen_touches zero
  hull_right i j h := by simp [rightOpenOps, Static.hull] at *; simp [h]
  hull_left i j h1 h2 := by simp [rightOpenOps, Static.hull] at *; simp [h1, h2]
  hull_mem i j x h1 h2 := by
    simp [IntervalOps.Mem, rightOpenOps, Static.hull, stdMin_eq, stdMax_eq] at *; simp [h1, h2]
  leftSub_ex i j h := by simp [rightOpenOps, Asym.leftSubtract] at *; simp [h]
  leftSub_mem i j x h := by
    simp [IntervalOps.Mem, rightOpenOps, Asym.leftSubtract] at *; simp [h]
  rightSub_ex i j h := by simp [rightOpenOps, Asym.rightSubtract] at *; simp [h]
  rightSub_mem i j x h := by
    simp [IntervalOps.Mem, rightOpenOps, Asym.rightSubtract] at *; simp [h]
  inter_empty i j h := by simp only [rightOpenOps, Asym.inter] at *; simp [h]
  inter_mem i j x h := by
    simp [IntervalOps.Mem, rightOpenOps, Asym.inter, stdMin_eq, stdMax_eq] at *; simp [h]
  compl_empty i j h := by
    simp only [rightOpenOps, Asym.innerComplement] at *; simp [h]
  compl_overlap i j h1 h2 := by simp only [rightOpenOps, Asym.innerComplement] at *; simp [h1, h2]
  compl_left i j x h h1 := by
    simp [IntervalOps.Mem, rightOpenOps, Asym.innerComplement] at *; simp [h, h1]
  compl_right i j x h h1 h2 := by
    simp [IntervalOps.Mem, rightOpenOps, Asym.innerComplement] at *; simp [h, h1, h2]
  empty := by simp [rightOpenOps, Asym.isEmpty]

theorem leftOpen_neLess (zero : D) (i j : SItv D) :
    (leftOpenOps zero).neLess i j = true ↔ ∀ x, ¬ (j.lo < x ∧ x ≤ i.up) := by
  simp only [leftOpenOps, Asym.neLess, decide_eq_true_eq]
  constructor
  · rintro h x ⟨h1, h2⟩; order
  · intro h; by_contra hc; exact h i.up ⟨by order, le_refl _⟩

theorem leftOpen_lowerLess (zero : D) (i j : SItv D) :
    (leftOpenOps zero).lowerLess i j = true ↔ ∃ x, i.lo < x ∧ ¬ j.lo < x := by
  simp only [leftOpenOps, Static.lowerLess, decide_eq_true_eq]
  constructor
  · intro h; exact ⟨j.lo, h, by order⟩
  · rintro ⟨x, h1, h2⟩; order

theorem leftOpen_upperLess (zero : D) (i j : SItv D) :
    (leftOpenOps zero).upperLess i j = true ↔ ∃ x, x ≤ j.up ∧ ¬ x ≤ i.up := by
  simp only [leftOpenOps, Static.upperLess, decide_eq_true_eq]
  constructor
  · intro h; exact ⟨j.up, le_refl _, by order⟩
  · rintro ⟨x, h1, h2⟩; order

theorem leftOpen_lowerEqual (zero : D) (i j : SItv D) :
    (leftOpenOps zero).lowerEqual i j = true ↔ ∀ x, i.lo < x ↔ j.lo < x := by
  simp only [leftOpenOps, Static.lowerEqual, decide_eq_true_eq]
  constructor
  · intro h x; rw [h]
  · intro h
    by_contra hc
    rcases lt_or_gt_of_ne hc with h1 | h1
    · have := (h j.lo).1 h1; order
    · have := (h i.lo).2 h1; order

theorem leftOpen_upperEqual (zero : D) (i j : SItv D) :
    (leftOpenOps zero).upperEqual i j = true ↔ ∀ x, x ≤ i.up ↔ x ≤ j.up := by
  simp only [leftOpenOps, Static.upperEqual, decide_eq_true_eq]
  constructor
  · intro h x; rw [h]
  · intro h
    have h1 := (h i.up).1 (le_refl _); have h2 := (h j.up).2 (le_refl _); order

theorem leftOpen_touches (zero : D) (i j : SItv D) :
    (leftOpenOps zero).touches i j = true ↔ ∀ x, x ≤ i.up ↔ ¬ j.lo < x := by
  simp only [leftOpenOps, Asym.touches, decide_eq_true_eq, not_lt]
  constructor
  · intro h x; rw [h]
  · intro h
    have h1 := (h i.up).1 (le_refl _); have h2 := (h j.lo).2 (le_refl _); order

/-- The cuts of a left-open interval. -/
def leftOpenCuts (zero : D) : (leftOpenOps zero).FullCuts where
  Lo i x := i.lo < x
  Up i x := x ≤ i.up
  lo_mono i x y h1 h2 := by order
  up_mono i x y h1 h2 := by order
  mem i x := by simp [IntervalOps.Mem, leftOpenOps]
  isEmpty i := by
    simp only [leftOpenOps, Asym.isEmpty, decide_eq_true_eq]
    constructor
    · rintro h x ⟨h1, h2⟩; order
    · intro h; by_contra hc; exact h i.up ⟨by order, le_refl _⟩
  exLess i j := rfl
  neLess i j _ _ := leftOpen_neLess zero i j
  lowerLess i j _ _ := leftOpen_lowerLess zero i j
  lowerLess' := leftOpen_lowerLess zero
  upperLess i j _ _ := leftOpen_upperLess zero i j
  upperLess' := leftOpen_upperLess zero
  lowerEqual i j _ _ := leftOpen_lowerEqual zero i j
  lowerEqual' := leftOpen_lowerEqual zero
  upperEqual i j _ _ := leftOpen_upperEqual zero i j
  upperEqual' := leftOpen_upperEqual zero
  touches i j _ _ _ := leftOpen_touches zero i j
  touchesC _ _ _ _ _ := rfl
  touches' := leftOpen_touches zero
  hull_right i j h := by simp [leftOpenOps, Static.hull] at *; simp [h]
  hull_left i j h1 h2 := by simp [leftOpenOps, Static.hull] at *; simp [h1, h2]
  hull_mem i j x h1 h2 := by
    simp [IntervalOps.Mem, leftOpenOps, Static.hull, stdMin_eq, stdMax_eq] at *; simp [h1, h2]
  leftSub_ex i j h := by simp [leftOpenOps, Asym.leftSubtract] at *; simp [h]
  leftSub_mem i j x h := by
    simp [IntervalOps.Mem, leftOpenOps, Asym.leftSubtract] at *; simp [h]
  rightSub_ex i j h := by simp [leftOpenOps, Asym.rightSubtract] at *; simp [h]
  rightSub_mem i j x h := by
    simp [IntervalOps.Mem, leftOpenOps, Asym.rightSubtract] at *; simp [h]
  inter_empty i j h := by simp only [leftOpenOps, Asym.inter] at *; simp [h]
  inter_mem i j x h := by
    simp [IntervalOps.Mem, leftOpenOps, Asym.inter, stdMin_eq, stdMax_eq] at *; simp [h]
  compl_empty i j h := by
    simp only [leftOpenOps, Asym.innerComplement] at *; simp [h]
  compl_overlap i j h1 h2 := by simp only [leftOpenOps, Asym.innerComplement] at *; simp [h1, h2]
  compl_left i j x h h1 := by
    simp [IntervalOps.Mem, leftOpenOps, Asym.innerComplement] at *; simp [h, h1]
  compl_right i j x h h1 h2 := by
    simp [IntervalOps.Mem, leftOpenOps, Asym.innerComplement] at *; simp [h, h1, h2]
  empty := by simp [leftOpenOps, Asym.isEmpty]

theorem rightOpen_fully (zero : D) : (rightOpenOps zero).FullyLawful := (rightOpenCuts zero).fullyLawful
theorem leftOpen_fully (zero : D) : (leftOpenOps zero).FullyLawful := (leftOpenCuts zero).fullyLawful
/-! ## Discrete domains -/

/-- The functions `++` and `--` of a discrete domain, in the order of the domain: `domain_next`,
concept/interval.hpp:66-74 and `domain_prior`, concept/interval.hpp:76-84 (`icl::successor<DomainT,Compare>`,
`icl::predecessor<DomainT,Compare>`, type_traits/succ_pred.hpp).
They yield the next and the prior value, if there is one (`hasNx`, `hasPr`).  On the largest (smallest) value
of a machine type they overflow: the model then leaves their result open, so that all theorems
hold whatever the overflow yields. -/
structure Steps (D : Type) [LinearOrder D] where
  nx : D → D
  pr : D → D
  hasNx : D → Bool
  hasPr : D → Bool
  hasNx_iff : ∀ x, hasNx x = true ↔ ∃ y, x < y
  hasPr_iff : ∀ x, hasPr x = true ↔ ∃ y, y < x
  nx_spec : ∀ x y, x < y → x < nx x ∧ nx x ≤ y
  pr_spec : ∀ x y, x < y → x ≤ pr y ∧ pr y < y

namespace Steps
variable (s : Steps D)

/-- `++x`, `none` if that overflows -/
def next (x : D) : Option D := if s.hasNx x then some (s.nx x) else none
/-- `--x`, `none` if that overflows -/
def prior (x : D) : Option D := if s.hasPr x then some (s.pr x) else none

theorem next_eq {x y : D} (h : x < y) : s.next x = some (s.nx x) := if_pos ((s.hasNx_iff x).2 ⟨y, h⟩)
theorem prior_eq {x y : D} (h : x < y) : s.prior y = some (s.pr y) := if_pos ((s.hasPr_iff y).2 ⟨x, h⟩)

theorem le_nx {x y : D} (h : x < y) : s.nx x ≤ y := (s.nx_spec x y h).2
theorem lt_nx {x y : D} (h : x < y) : x < s.nx x := (s.nx_spec x y h).1
theorem pr_le {x y : D} (h : x < y) : x ≤ s.pr y := (s.pr_spec x y h).1
theorem pr_lt {x y : D} (h : x < y) : s.pr y < y := (s.pr_spec x y h).2

theorem lt_nx_iff {x z : D} (h : x < z) (y : D) : y < s.nx x ↔ y ≤ x := by
  constructor
  · intro h1; by_contra hc; have := s.le_nx (not_le.1 hc); order
  · intro h1; have := s.lt_nx h; order
theorem nx_le_iff {x z : D} (h : x < z) (y : D) : s.nx x ≤ y ↔ x < y := by
  rw [← not_lt, s.lt_nx_iff h, not_le]
theorem pr_lt_iff {x z : D} (h : x < z) (y : D) : s.pr z < y ↔ z ≤ y := by
  constructor
  · intro h1; by_contra hc; have := s.pr_le (not_le.1 hc); order
  · intro h1; have := s.pr_lt h; order
theorem le_pr_iff {x z : D} (h : x < z) (y : D) : y ≤ s.pr z ↔ y < z := by
  rw [← not_lt, s.pr_lt_iff h, not_le]
theorem nx_inj {x y z w : D} (h : x < z) (h' : y < w) : s.nx x = s.nx y ↔ x = y := by
  constructor
  · intro e
    have h1 := (s.lt_nx_iff h y).1 (e ▸ s.lt_nx h')
    have h2 := (s.lt_nx_iff h' x).1 (e ▸ s.lt_nx h)
    order
  · intro e; rw [e]
theorem pr_inj {x y z w : D} (h : x < z) (h' : y < w) : s.pr z = s.pr w ↔ z = w := by
  constructor
  · intro e
    have h1 := (s.pr_lt_iff h w).1 (by rw [e]; exact s.pr_lt h')
    have h2 := (s.pr_lt_iff h' z).1 (by rw [← e]; exact s.pr_lt h)
    order
  · intro e; rw [e]
theorem pr_nx {x y : D} (h : x < y) : s.pr (s.nx x) = x := by
  have h1 := s.lt_nx h
  have h2 := (s.lt_nx_iff h (s.pr (s.nx x))).1 (s.pr_lt h1)
  have h3 := s.pr_le h1
  order
theorem nx_pr {x y : D} (h : x < y) : s.nx (s.pr y) = y := by
  have h1 := s.pr_lt h
  have h2 := (s.pr_lt_iff h (s.nx (s.pr y))).1 (s.lt_nx h1)
  have h3 := s.le_nx h1
  order

end Steps

/-- The steps of the descending order (`Compare = std::greater`): `--` and `++`, type_traits/succ_pred.hpp:33-76 -/
def Steps.dual (s : Steps D) : Steps Dᵒᵈ where
  nx x := OrderDual.toDual (s.pr (OrderDual.ofDual x))
  pr x := OrderDual.toDual (s.nx (OrderDual.ofDual x))
  hasNx x := s.hasPr (OrderDual.ofDual x)
  hasPr x := s.hasNx (OrderDual.ofDual x)
  hasNx_iff x := s.hasPr_iff (OrderDual.ofDual x)
  hasPr_iff x := s.hasNx_iff (OrderDual.ofDual x)
  nx_spec x y h := (s.pr_spec (OrderDual.ofDual y) (OrderDual.ofDual x) h).symm
  pr_spec x y h := (s.nx_spec (OrderDual.ofDual y) (OrderDual.ofDual x) h).symm

/-- `++` and `--` on `int`, without its limits -/
def stepsInt : Steps ℤ where
  nx x := x + 1
  pr x := x - 1
  hasNx _ := true
  hasPr _ := true
  hasNx_iff x := ⟨fun _ => ⟨x + 1, by omega⟩, fun _ => rfl⟩
  hasPr_iff x := ⟨fun _ => ⟨x - 1, by omega⟩, fun _ => rfl⟩
  nx_spec x y h := ⟨by omega, by omega⟩
  pr_spec x y h := ⟨by omega, by omega⟩

namespace Closed
/-! `closed_interval` -/

/-- `is_empty`, concept/interval.hpp:557-562 -/
def isEmpty (i : SItv D) : Bool := i.up < i.lo
/-- `first`, concept/interval.hpp:387-393 -/
abbrev first (i : SItv D) : D := i.lo
/-- `last`, concept/interval.hpp:417-423 -/
abbrev last (i : SItv D) : D := i.up
/-- `non_empty::exclusive_less`, concept/interval.hpp:822-829 -/
def neLess (l r : SItv D) : Bool := last l < first r
/-- `exclusive_less`, concept/interval.hpp:616-623 -/
def exclusiveLess (l r : SItv D) : Bool := isEmpty l || isEmpty r || decide (last l < first r)
/-- `lower_equal`, concept/interval.hpp:732-737 -/
def lowerEqual (l r : SItv D) : Bool := first l = first r
/-- `upper_equal`, concept/interval.hpp:763-768 -/
def upperEqual (l r : SItv D) : Bool := last l = last r
/-- `lower_less_equal`, concept/interval.hpp:786-791 -/
def lowerLessEqual (l r : SItv D) : Bool := Static.lowerLess l r || lowerEqual l r
/-- `upper_less_equal`, concept/interval.hpp:793-798 -/
def upperLessEqual (l r : SItv D) : Bool := Static.upperLess l r || upperEqual l r
/-- `operator &`, concept/interval.hpp:1286-1302 -/
def inter (zero unit : D) (l r : SItv D) : SItv D :=
  if isEmpty l || isEmpty r then ⟨unit, zero⟩ else ⟨stdMax l.lo r.lo, stdMin l.up r.up⟩

variable (s : Steps D)
/-- `last_next`, concept/interval.hpp:459-467 -/
abbrev lastNext (i : SItv D) : D := s.nx i.up
/-- `touches`, concept/interval.hpp:968-973 -/
def touches (l r : SItv D) : Bool := lastNext s l = first r
@[inherit_doc touches] def touchesC (l r : SItv D) : Option Bool := (s.next l.up).map fun n => decide (n = first r)
/-- `left_subtract`, concept/interval.hpp:1178-1188 -/
def leftSubtract (zero unit : D) (right leftMinuend : SItv D) : SItv D :=
  if exclusiveLess leftMinuend right then right
  else if upperLessEqual right leftMinuend then ⟨unit, zero⟩
  else ⟨s.nx leftMinuend.up, right.up⟩
/-- `right_subtract`, concept/interval.hpp:1231-1241 -/
def rightSubtract (zero unit : D) (left rightMinuend : SItv D) : SItv D :=
  if exclusiveLess left rightMinuend then left
  else if lowerLessEqual rightMinuend left then ⟨unit, zero⟩
  else ⟨left.lo, s.pr rightMinuend.lo⟩
/-- `inner_complement`, concept/interval.hpp:1353-1365 -/
def innerComplement (zero unit : D) (l r : SItv D) : SItv D :=
  if isEmpty l || isEmpty r then ⟨unit, zero⟩
  else if exclusiveLess l r then ⟨s.nx l.up, s.pr r.lo⟩
  else if exclusiveLess r l then ⟨s.nx r.up, s.pr l.lo⟩
  else ⟨unit, zero⟩
end Closed

/-- `closed_interval` over a discrete domain.  `zero` is `identity_element`, `unit` is `unit_element`
of the domain; the default interval is `[unit,zero]`, closed_interval.hpp:37-43. -/
def closedOps (s : Steps D) (zero unit : D) : IntervalOps D (SItv D) where
  -- concept/interval.hpp:858-864 with `first` = lower (387-393) and `last` = upper (417-424)
  contains i x := decide (i.lo ≤ x) && decide (x ≤ i.up)
  isEmpty := Closed.isEmpty
  exclusiveLess := Closed.exclusiveLess
  neLess := Closed.neLess
  lowerLess := Static.lowerLess
  upperLess := Static.upperLess
  lowerEqual := Closed.lowerEqual
  upperEqual := Closed.upperEqual
  touches := Closed.touches s
  touchesC := Closed.touchesC s
  hull := Static.hull Closed.isEmpty
  leftSubtract := Closed.leftSubtract s zero unit
  rightSubtract := Closed.rightSubtract s zero unit
  inter := Closed.inter zero unit
  innerComplement := Closed.innerComplement s zero unit
  empty := ⟨unit, zero⟩

section
variable (s : Steps D) (zero unit : D)

theorem closed_lowerLess (i j : SItv D) :
    (closedOps s zero unit).lowerLess i j = true ↔ ∃ x, i.lo ≤ x ∧ ¬ j.lo ≤ x := by
  simp only [closedOps, Static.lowerLess, decide_eq_true_eq]
  constructor
  · intro h; exact ⟨i.lo, le_refl _, by order⟩
  · rintro ⟨x, h1, h2⟩; order

theorem closed_upperLess (i j : SItv D) :
    (closedOps s zero unit).upperLess i j = true ↔ ∃ x, x ≤ j.up ∧ ¬ x ≤ i.up := by
  simp only [closedOps, Static.upperLess, decide_eq_true_eq]
  constructor
  · intro h; exact ⟨j.up, le_refl _, by order⟩
  · rintro ⟨x, h1, h2⟩; order

theorem closed_lowerEqual (i j : SItv D) :
    (closedOps s zero unit).lowerEqual i j = true ↔ ∀ x, i.lo ≤ x ↔ j.lo ≤ x := by
  simp only [closedOps, Closed.lowerEqual, decide_eq_true_eq]
  simp only [Closed.first]
  constructor
  · intro h x; rw [h]
  · intro h
    have h1 := (h i.lo).1 (le_refl _); have h2 := (h j.lo).2 (le_refl _); order

theorem closed_upperEqual (i j : SItv D) :
    (closedOps s zero unit).upperEqual i j = true ↔ ∀ x, x ≤ i.up ↔ x ≤ j.up := by
  simp only [closedOps, Closed.upperEqual, decide_eq_true_eq]
  simp only [Closed.last]
  constructor
  · intro h x; rw [h]
  · intro h
    have h1 := (h i.up).1 (le_refl _); have h2 := (h j.up).2 (le_refl _); order

theorem closed_touches (i j : SItv D) {z : D} (hz : i.up < z) :
    (closedOps s zero unit).touches i j = true ↔ ∀ x, x ≤ i.up ↔ ¬ j.lo ≤ x := by
  simp only [closedOps, Closed.touches, decide_eq_true_eq, not_le]
  simp only [Closed.lastNext, Closed.first]
  constructor
  · intro h x; rw [← h, s.lt_nx_iff hz]
  · intro h
    have h0 := (h i.up).1 (le_refl _)
    have h1 := s.le_nx h0
    by_contra hc
    have h2 : s.nx i.up < j.lo := lt_of_le_of_ne h1 hc
    have h3 := (h _).2 h2
    have h4 := s.lt_nx h0
    order

/-- The cuts of a closed interval. -/
def closedCuts (hzu : zero < unit) : (closedOps s zero unit).CutModel where
  Lo i x := i.lo ≤ x
  Up i x := x ≤ i.up
  lo_mono i x y h1 h2 := by order
  up_mono i x y h1 h2 := by order
  mem i x := by simp [IntervalOps.Mem, closedOps]
  isEmpty i := by
    simp only [closedOps, Closed.isEmpty, decide_eq_true_eq]
    constructor
    · rintro h x ⟨h1, h2⟩; order
    · intro h; by_contra hc; exact h i.lo ⟨le_refl _, by order⟩
  exLess i j := rfl
  neLess i j _ _ := by
    simp only [closedOps, Closed.neLess, decide_eq_true_eq]
    simp only [Closed.first, Closed.last]
    constructor
    · rintro h x ⟨h1, h2⟩; order
    · intro h; by_contra hc; exact h j.lo ⟨le_refl _, by order⟩
  lowerLess i j _ _ := closed_lowerLess s zero unit i j
  upperLess i j _ _ := closed_upperLess s zero unit i j
  lowerEqual i j _ _ := closed_lowerEqual s zero unit i j
  upperEqual i j _ _ := closed_upperEqual s zero unit i j
  touches i j _ _ hb := by
    obtain ⟨z, hz⟩ := hb
    exact closed_touches s zero unit i j (not_le.1 hz)
  touchesC i j _ _ hb := by
    obtain ⟨z, hz⟩ := hb
    simp only [closedOps, Closed.touchesC, s.next_eq (not_le.1 hz)]
    rfl
  hull_right i j h := by simp [closedOps, Static.hull] at *; simp [h]
  hull_left i j h1 h2 := by simp [closedOps, Static.hull] at *; simp [h1, h2]
  hull_mem i j x h1 h2 := by
    simp [IntervalOps.Mem, closedOps, Static.hull, stdMin_eq, stdMax_eq] at *
    simp [h1, h2]
  leftSub_ex i j h := by simp [closedOps, Closed.leftSubtract] at *; simp [h]
  leftSub_mem i j x h := by
    simp only [IntervalOps.Mem, closedOps, Closed.leftSubtract] at *
    simp only [h, Bool.false_eq_true, if_false]
    by_cases hu : Closed.upperLessEqual i j = true
    · simp only [hu, if_true, Bool.and_eq_true, decide_eq_true_eq]
      simp only [Closed.upperLessEqual, Static.upperLess, Closed.upperEqual, Closed.last,
        Bool.or_eq_true, decide_eq_true_eq] at hu
      constructor
      · rintro ⟨h1, h2⟩; order
      · rintro ⟨h1, h2⟩; rcases hu with hu | hu <;> order
    · simp only [hu, Bool.false_eq_true, if_false, Bool.and_eq_true, decide_eq_true_eq]
      simp only [Closed.upperLessEqual, Static.upperLess, Closed.upperEqual, Closed.last,
        Bool.or_eq_true, decide_eq_true_eq, not_or] at hu
      have hlt : j.up < i.up := by order
      rw [s.nx_le_iff hlt, not_le]
  rightSub_ex i j h := by simp [closedOps, Closed.rightSubtract] at *; simp [h]
  rightSub_mem i j x h := by
    simp only [IntervalOps.Mem, closedOps, Closed.rightSubtract] at *
    simp only [h, Bool.false_eq_true, if_false]
    by_cases hu : Closed.lowerLessEqual j i = true
    · simp only [hu, if_true, Bool.and_eq_true, decide_eq_true_eq]
      simp only [Closed.lowerLessEqual, Static.lowerLess, Closed.lowerEqual, Closed.first,
        Bool.or_eq_true, decide_eq_true_eq] at hu
      constructor
      · rintro ⟨h1, h2⟩; order
      · rintro ⟨h1, h2⟩; rcases hu with hu | hu <;> order
    · simp only [hu, Bool.false_eq_true, if_false, Bool.and_eq_true, decide_eq_true_eq]
      simp only [Closed.lowerLessEqual, Static.lowerLess, Closed.lowerEqual, Closed.first,
        Bool.or_eq_true, decide_eq_true_eq, not_or] at hu
      have hlt : i.lo < j.lo := by order
      rw [s.le_pr_iff hlt, not_le]
  inter_empty i j h := by simp only [closedOps, Closed.inter] at *; simp [h]
  inter_mem i j x h := by
    simp [IntervalOps.Mem, closedOps, Closed.inter, stdMin_eq, stdMax_eq] at *
    simp [h]
  compl_empty i j h := by
    simp only [closedOps, Closed.innerComplement] at *; simp [h]
  compl_overlap i j h1 h2 := by simp only [closedOps, Closed.innerComplement] at *; simp [h1, h2]
  compl_left i j x h h1 := by
    have hlt : i.up < j.lo := by
      have h' : (Closed.isEmpty i || Closed.isEmpty j) = false := h
      have h1' : Closed.exclusiveLess i j = true := h1
      rw [Closed.exclusiveLess, h', Bool.false_or, decide_eq_true_eq] at h1'
      exact h1'
    simp only [IntervalOps.Mem, closedOps, Closed.innerComplement] at *
    simp only [h, h1, Bool.false_eq_true, if_false, if_true, Bool.and_eq_true, decide_eq_true_eq]
    rw [s.nx_le_iff hlt, s.le_pr_iff hlt, not_le, not_le]
  compl_right i j x h h1 h2 := by
    have hlt : j.up < i.lo := by
      have h' : (Closed.isEmpty j || Closed.isEmpty i) = false := by rw [Bool.or_comm]; exact h
      have h2' : Closed.exclusiveLess j i = true := h2
      rw [Closed.exclusiveLess, h', Bool.false_or, decide_eq_true_eq] at h2'
      exact h2'
    simp only [IntervalOps.Mem, closedOps, Closed.innerComplement] at *
    simp only [h, h1, h2, Bool.false_eq_true, if_false, if_true, Bool.and_eq_true, decide_eq_true_eq]
    rw [s.nx_le_iff hlt, s.le_pr_iff hlt, not_le, not_le]
  empty := by simp [closedOps, Closed.isEmpty, hzu]

theorem closed_lawful (h : zero < unit) : (closedOps s zero unit).Lawful :=
  (closedCuts s zero unit h).lawful

theorem closed_fully [NoMaxOrder D] (h : zero < unit) : (closedOps s zero unit).FullyLawful :=
  ((closedCuts s zero unit h).full (closed_lowerLess s zero unit) (closed_upperLess s zero unit)
    (closed_lowerEqual s zero unit) (closed_upperEqual s zero unit)
    (fun i j => closed_touches s zero unit i j (exists_gt i.up).choose_spec)).fullyLawful

end

namespace Open
/-! `open_interval` -/

variable (s : Steps D)
/-- `is_empty`, concept/interval.hpp:564-570 -/
def isEmpty (i : SItv D) : Bool := decide (i.up ≤ i.lo) || decide (i.up ≤ s.nx i.lo)
/-- `first`, concept/interval.hpp:395-402 -/
abbrev first (i : SItv D) : D := s.nx i.lo
/-- `last`, concept/interval.hpp:425-439 -/
abbrev last (i : SItv D) : D := s.pr i.up
/-- `last_next`, concept/interval.hpp:469-478 -/
abbrev lastNext (i : SItv D) : D := i.up
/-- `non_empty::exclusive_less`, concept/interval.hpp:822-829 -/
def neLess (l r : SItv D) : Bool := last s l < first s r
/-- `exclusive_less`, concept/interval.hpp:616-623 -/
def exclusiveLess (l r : SItv D) : Bool :=
  isEmpty s l || isEmpty s r || decide (last s l < first s r)
/-- `lower_equal`, concept/interval.hpp:732-737 -/
def lowerEqual (l r : SItv D) : Bool := first s l = first s r
/-- `upper_equal`, concept/interval.hpp:763-768 -/
def upperEqual (l r : SItv D) : Bool := last s l = last s r
/-- `touches`, concept/interval.hpp:968-973 -/
def touches (l r : SItv D) : Bool := lastNext l = first s r
@[inherit_doc touches] def touchesC (l r : SItv D) : Option Bool :=
  (s.next r.lo).map fun n => decide (lastNext l = n)
/-- `left_subtract`, concept/interval.hpp:1190-1198 -/
def leftSubtract (right leftMinuend : SItv D) : SItv D :=
  if exclusiveLess s leftMinuend right then right else ⟨s.pr leftMinuend.up, right.up⟩
/-- `right_subtract`, concept/interval.hpp:1243-1251 -/
def rightSubtract (left rightMinuend : SItv D) : SItv D :=
  if exclusiveLess s left rightMinuend then left else ⟨left.lo, s.nx rightMinuend.lo⟩
/-- `operator &`, concept/interval.hpp:1286-1302 -/
def inter (zero : D) (l r : SItv D) : SItv D :=
  if isEmpty s l || isEmpty s r then ⟨zero, zero⟩ else ⟨stdMax l.lo r.lo, stdMin l.up r.up⟩
/-- `inner_complement`, concept/interval.hpp:1367-1379 -/
def innerComplement (zero : D) (l r : SItv D) : SItv D :=
  if isEmpty s l || isEmpty s r then ⟨zero, zero⟩
  else if exclusiveLess s l r then ⟨last s l, first s r⟩
  else if exclusiveLess s r l then ⟨last s r, first s l⟩
  else ⟨zero, zero⟩
end Open

/-- `open_interval` over a discrete domain.  Default interval `(zero,zero)`, open_interval.hpp:37-42.
`contains` is membership between the bounds; the code of `contains(interval, element)`,
concept/interval.hpp:858-864, which goes through `first` and `last`, is `containsFL` in `Classes.lean`. -/
def openOps (s : Steps D) (zero : D) : IntervalOps D (SItv D) where
  contains i x := decide (i.lo < x) && decide (x < i.up)
  isEmpty := Open.isEmpty s
  exclusiveLess := Open.exclusiveLess s
  neLess := Open.neLess s
  lowerLess := Static.lowerLess
  upperLess := Static.upperLess
  lowerEqual := Open.lowerEqual s
  upperEqual := Open.upperEqual s
  touches := Open.touches s
  touchesC := Open.touchesC s
  hull := Static.hull (Open.isEmpty s)
  leftSubtract := Open.leftSubtract s
  rightSubtract := Open.rightSubtract s
  inter := Open.inter s zero
  innerComplement := Open.innerComplement s zero
  empty := ⟨zero, zero⟩

section
variable (s : Steps D) (zero : D)

theorem open_isEmpty_false {i : SItv D} (h : (openOps s zero).isEmpty i = false) :
    i.lo < i.up ∧ s.nx i.lo < i.up ∧ i.lo < s.pr i.up := by
  simp only [openOps, Open.isEmpty, Bool.or_eq_false_iff, decide_eq_false_iff_not, not_le] at h
  have h1 := s.lt_nx h.1
  have h2 := s.pr_le h.2
  exact ⟨h.1, h.2, by order⟩

theorem open_lowerLess (i j : SItv D) :
    (openOps s zero).lowerLess i j = true ↔ ∃ x, i.lo < x ∧ ¬ j.lo < x := by
  simp only [openOps, Static.lowerLess, decide_eq_true_eq]
  constructor
  · intro h; exact ⟨j.lo, h, by order⟩
  · rintro ⟨x, h1, h2⟩; order

theorem open_upperLess (i j : SItv D) :
    (openOps s zero).upperLess i j = true ↔ ∃ x, x < j.up ∧ ¬ x < i.up := by
  simp only [openOps, Static.upperLess, decide_eq_true_eq]
  constructor
  · intro h; exact ⟨i.up, h, by order⟩
  · rintro ⟨x, h1, h2⟩; order

theorem open_lowerEqual (i j : SItv D) {z w : D} (hz : i.lo < z) (hw : j.lo < w) :
    (openOps s zero).lowerEqual i j = true ↔ ∀ x, i.lo < x ↔ j.lo < x := by
  simp only [openOps, Open.lowerEqual, decide_eq_true_eq]
  simp only [Open.first, s.nx_inj hz hw]
  constructor
  · intro h x; rw [h]
  · intro h
    by_contra hc
    rcases lt_or_gt_of_ne hc with h1 | h1
    · have := (h j.lo).1 h1; order
    · have := (h i.lo).2 h1; order

theorem open_upperEqual (i j : SItv D) {z w : D} (hz : z < i.up) (hw : w < j.up) :
    (openOps s zero).upperEqual i j = true ↔ ∀ x, x < i.up ↔ x < j.up := by
  simp only [openOps, Open.upperEqual, decide_eq_true_eq]
  simp only [Open.last, s.pr_inj hz hw]
  constructor
  · intro h x; rw [h]
  · intro h
    by_contra hc
    rcases lt_or_gt_of_ne hc with h1 | h1
    · have := (h i.up).2 h1; order
    · have := (h j.up).1 h1; order

theorem open_touches (i j : SItv D) {w : D} (hw : j.lo < w) :
    (openOps s zero).touches i j = true ↔ ∀ x, x < i.up ↔ ¬ j.lo < x := by
  simp only [openOps, Open.touches, decide_eq_true_eq, not_lt]
  simp only [Open.lastNext, Open.first]
  constructor
  · intro h x; rw [h, s.lt_nx_iff hw]
  · intro h
    have h2 := (h j.lo).2 (le_refl _)
    have h3 := s.le_nx h2
    by_contra hc
    have h4 : s.nx j.lo < i.up := lt_of_le_of_ne h3 (Ne.symm hc)
    have h5 := (h _).1 h4
    have h6 := s.lt_nx hw
    order

/-- The cuts of an open interval. -/
def openCuts : (openOps s zero).CutModel where
  Lo i x := i.lo < x
  Up i x := x < i.up
  lo_mono i x y h1 h2 := by order
  up_mono i x y h1 h2 := by order
  mem i x := by simp [IntervalOps.Mem, openOps]
  isEmpty i := by
    simp only [openOps, Open.isEmpty, Bool.or_eq_true, decide_eq_true_eq]
    constructor
    · rintro (h | h) x ⟨h1, h2⟩
      · order
      · have := s.le_nx h1; order
    · intro h; by_contra hc
      push Not at hc
      exact h (s.nx i.lo) ⟨s.lt_nx hc.1, hc.2⟩
  exLess i j := rfl
  neLess i j hi hj := by
    have hi := open_isEmpty_false s zero hi
    have hj := open_isEmpty_false s zero hj
    simp only [openOps, Open.neLess, decide_eq_true_eq]
    simp only [Open.first, Open.last]
    constructor
    · rintro h x ⟨h1, h2⟩
      have := s.le_nx h1
      have := s.pr_le h2
      order
    · intro h; by_contra hc
      refine h (s.nx j.lo) ⟨s.lt_nx hj.1, ?_⟩
      have := s.pr_lt hi.1
      order
  lowerLess i j _ _ := open_lowerLess s zero i j
  upperLess i j _ _ := open_upperLess s zero i j
  lowerEqual i j hi hj :=
    open_lowerEqual s zero i j (open_isEmpty_false s zero hi).1 (open_isEmpty_false s zero hj).1
  upperEqual i j hi hj :=
    open_upperEqual s zero i j (open_isEmpty_false s zero hi).1 (open_isEmpty_false s zero hj).1
  touches i j _ hj _ := open_touches s zero i j (open_isEmpty_false s zero hj).1
  touchesC i j _ hj _ := by
    simp only [openOps, Open.touchesC, s.next_eq (open_isEmpty_false s zero hj).1]
    rfl
  hull_right i j h := by simp [openOps, Static.hull] at *; simp [h]
  hull_left i j h1 h2 := by simp [openOps, Static.hull] at *; simp [h1, h2]
  hull_mem i j x h1 h2 := by
    simp only [IntervalOps.Mem, openOps, Static.hull, stdMin_eq, stdMax_eq] at *
    simp [h1, h2]
  leftSub_ex i j h := by simp [openOps, Open.leftSubtract] at *; simp [h]
  leftSub_mem i j x h := by
    have hj : (openOps s zero).isEmpty j = false := by
      simp only [openOps, Open.exclusiveLess, Bool.or_eq_false_iff] at h
      exact h.1.1
    have hj := open_isEmpty_false s zero hj
    simp only [IntervalOps.Mem, openOps, Open.leftSubtract] at *
    simp only [h, Bool.false_eq_true, if_false, Bool.and_eq_true, decide_eq_true_eq]
    rw [s.pr_lt_iff hj.1, not_lt]
  rightSub_ex i j h := by simp [openOps, Open.rightSubtract] at *; simp [h]
  rightSub_mem i j x h := by
    have hj : (openOps s zero).isEmpty j = false := by
      simp only [openOps, Open.exclusiveLess, Bool.or_eq_false_iff] at h
      exact h.1.2
    have hj := open_isEmpty_false s zero hj
    simp only [IntervalOps.Mem, openOps, Open.rightSubtract] at *
    simp only [h, Bool.false_eq_true, if_false, Bool.and_eq_true, decide_eq_true_eq]
    rw [s.lt_nx_iff hj.1, not_lt]
  inter_empty i j h := by simp only [openOps, Open.inter] at *; simp [h]
  inter_mem i j x h := by
    simp only [IntervalOps.Mem, openOps, Open.inter, stdMin_eq, stdMax_eq] at *
    simp [h]
  compl_empty i j h := by
    simp only [openOps, Open.innerComplement] at *; simp [h]
  compl_overlap i j h1 h2 := by
    simp only [openOps, Open.innerComplement] at *; simp [h1, h2]
  compl_left i j x h h1 := by
    have hij := h
    rw [Bool.or_eq_false_iff] at hij
    have hi := open_isEmpty_false s zero hij.1
    have hj := open_isEmpty_false s zero hij.2
    simp only [IntervalOps.Mem, openOps, Open.innerComplement, Open.first, Open.last] at *
    simp only [h, h1, Bool.false_eq_true, if_false, if_true, Bool.and_eq_true, decide_eq_true_eq]
    rw [s.pr_lt_iff hi.1, s.lt_nx_iff hj.1, not_lt, not_lt]
  compl_right i j x h h1 h2 := by
    have hij := h
    rw [Bool.or_eq_false_iff] at hij
    have hi := open_isEmpty_false s zero hij.1
    have hj := open_isEmpty_false s zero hij.2
    simp only [IntervalOps.Mem, openOps, Open.innerComplement, Open.first, Open.last] at *
    simp only [h, h1, h2, Bool.false_eq_true, if_false, if_true, Bool.and_eq_true, decide_eq_true_eq]
    rw [s.pr_lt_iff hj.1, s.lt_nx_iff hi.1, not_lt, not_lt]
  empty := by simp [openOps, Open.isEmpty]

theorem open_lawful : (openOps s zero).Lawful := (openCuts s zero).lawful

theorem open_fully [NoMaxOrder D] [NoMinOrder D] : (openOps s zero).FullyLawful :=
  ((openCuts s zero).full (open_lowerLess s zero) (open_upperLess s zero)
    (fun i j => open_lowerEqual s zero i j (exists_gt i.lo).choose_spec (exists_gt j.lo).choose_spec)
    (fun i j => open_upperEqual s zero i j (exists_lt i.up).choose_spec (exists_lt j.up).choose_spec)
    (fun i j => open_touches s zero i j (exists_gt j.lo).choose_spec)).fullyLawful

end
end
end ICL
