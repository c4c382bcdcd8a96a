import Verif.Kinds.Dynamic
import Verif.Kinds.Custom
import Verif.Kinds.Weak
import Verif.Theory.Lookup

/-!
# The interval classes and their element functions

`IntervalClass o` says that `o` is one of the interval classes of the library, with the
requirements on its domain.  The property theorems range over all `o` with `IntervalClass o`.
Further functions that build intervals from elements (`singleton`, `hull`, `first`, ...) are given
for each class that has them.
-/

set_option linter.unusedSectionVars false

namespace ICL

/-- The interval classes of the library:
`right_open_interval` and `left_open_interval` over any totally ordered domain, discrete or continuous;
`closed_interval`, `open_interval` and `discrete_interval` over any discrete domain, with or without a largest
and a smallest value, whatever `++` and `--` do on these (`Steps`);
`continuous_interval` over dense domains; the classes of users with one of the four static bound types, over the same
domains as the classes of the library with these bounds (`Custom.lean`); the classes of the library over domain types with a
strict weak ordering, `D` being the classes of equivalent values (`Weak.lean`).  `zero` and `unit` are `identity_element<DomainT>::value()` and
`unit_element<DomainT>::value()`. -/
inductive IntervalClass : {D I : Type} → [LinearOrder D] → IntervalOps D I → Prop
  /-- `right_open_interval<D>` -/
  | rightOpen {D : Type} [LinearOrder D] (zero : D) : IntervalClass (rightOpenOps zero)
  /-- `left_open_interval<D>` -/
  | leftOpen {D : Type} [LinearOrder D] (zero : D) : IntervalClass (leftOpenOps zero)
  /-- `closed_interval<D>`, `D` discrete -/
  | closed {D : Type} [LinearOrder D] (s : Steps D) (zero unit : D) (h : zero < unit) :
      IntervalClass (closedOps s zero unit)
  /-- `open_interval<D>`, `D` discrete -/
  | opn {D : Type} [LinearOrder D] (s : Steps D) (zero : D) : IntervalClass (openOps s zero)
  /-- `discrete_interval<D>` -/
  | discrete {D : Type} [LinearOrder D] (s : Steps D) (zero : D) : IntervalClass (discreteOps s zero)
  /-- `continuous_interval<D>` -/
  | continuous {D : Type} [LinearOrder D] [DenselyOrdered D] [NoMaxOrder D]
      [NoMinOrder D] (zero : D) : IntervalClass (continuousOps zero)
  /-- A class of a user -/
  | custom {D C : Type} [LinearOrder D] {T : Traits D C} {o : IntervalOps D (SItv D)}
      {oc : IntervalOps D C} (hT : T.Lawful o.isEmpty) (h : CustomClass T o oc) : IntervalClass oc
  /-- A class of the library over a domain type with a strict weak ordering -/
  | weak {E D I J : Type} [LinearOrder D] {key : E → D} {ow : IntervalOps D I} {o : IntervalOps D J} {v : I → J}
      (h : WeakClass key ow o v) : IntervalClass ow

theorem IntervalClass.lawful {D I : Type} [LinearOrder D] {o : IntervalOps D I}
    (h : IntervalClass o) : o.Lawful := by
  cases h with
  | rightOpen zero => exact (rightOpen_fully zero).toLawful
  | leftOpen zero => exact (leftOpen_fully zero).toLawful
  | closed s zero unit h => exact closed_lawful s zero unit h
  | opn s zero => exact open_lawful s zero
  | discrete s zero => exact discrete_lawful s zero
  | continuous zero => exact (continuous_fully zero).toLawful
  | custom hT h => exact h.lawful hT
  | weak h => exact h.lawful

/-- Over domains without a largest and a smallest value all functions are right on all operands. -/
theorem IntervalClass.fully {D I : Type} [LinearOrder D] [NoMaxOrder D] [NoMinOrder D] {o : IntervalOps D I}
    (h : IntervalClass o) : o.FullyLawful := by
  cases h with
  | rightOpen zero => exact rightOpen_fully zero
  | leftOpen zero => exact leftOpen_fully zero
  | closed s zero unit h => exact closed_fully s zero unit h
  | opn s zero => exact open_fully s zero
  | discrete s zero => exact discrete_fully s zero
  | continuous zero => exact continuous_fully zero
  | custom hT h => exact h.fully hT
  | weak h => exact h.fully

/-! ## Element functions -/

section
variable {D : Type} [LinearOrder D]

/-- `unit_trail` of continuous `right_open_interval`, concept/interval.hpp:165-176; `inc` is `++`. -/
def rightOpenTrail (inc : D → D) (x : D) : SItv D := ⟨x, inc x⟩
/-- `unit_trail` of continuous `left_open_interval`, concept/interval.hpp:178-195; `dec` is `--`. -/
def leftOpenTrail (dec : D → D) (x : D) : SItv D := ⟨dec x, x⟩

/-- `singleton` = `unit_trail` for dynamic bounds, concept/interval.hpp:145-150 and 234-239 -/
def dynSingleton (x : D) : DItv D := ⟨x, x, Bounds.closed⟩
/-- `hull(left, right)` of elements for dynamic bounds, concept/interval.hpp:355-366 -/
def dynHullE (a b : D) : DItv D :=
  if a < b then ⟨a, b, Bounds.closed⟩ else ⟨b, a, Bounds.closed⟩

/-- `construct` for static bounds, concept/interval.hpp:246-252 -/
def construct (a b : D) : SItv D := ⟨a, b⟩
/-- `span(left, right)` for static bounds, concept/interval.hpp:272-282 -/
def spanS (a b : D) : SItv D := if a < b then construct a b else construct b a
/-- `construct(low, up, bounds)` for dynamic bounds, concept/interval.hpp:254-261 -/
def constructD (a b : D) (bnd : Bounds := Bounds.rightOpen) : DItv D := ⟨a, b, bnd⟩
/-- `span(left, right)` for dynamic bounds, concept/interval.hpp:272-282 -/
def spanD (a b : D) : DItv D := if a < b then constructD a b else constructD b a

variable (s : Steps D)

/-- `singleton` of discrete `right_open_interval`, concept/interval.hpp:90-101 -/
def rightOpenSingleton (x : D) : SItv D := ⟨x, s.nx x⟩
/-- `singleton` of discrete `left_open_interval`, concept/interval.hpp:103-119 -/
def leftOpenSingleton (x : D) : SItv D := ⟨s.pr x, x⟩
/-- `singleton` of `open_interval`, concept/interval.hpp:121-134 -/
def openSingleton (x : D) : SItv D := ⟨s.pr x, s.nx x⟩
/-- `singleton` of `closed_interval`, concept/interval.hpp:136-142 -/
def closedSingleton (x : D) : SItv D := ⟨x, x⟩

/-- `hull(left, right)` of elements, right-open, concept/interval.hpp:286-296 -/
def rightOpenHullE (a b : D) : SItv D := if a < b then ⟨a, s.nx b⟩ else ⟨b, s.nx a⟩
/-- `hull(left, right)` of elements, left-open, concept/interval.hpp:298-318 -/
def leftOpenHullE (a b : D) : SItv D := if a < b then ⟨s.pr a, b⟩ else ⟨s.pr b, a⟩
/-- `hull(left, right)` of elements, closed, concept/interval.hpp:320-330 -/
def closedHullE (a b : D) : SItv D := if a < b then ⟨a, b⟩ else ⟨b, a⟩
/-- `hull(left, right)` of elements, open, concept/interval.hpp:332-353 -/
def openHullE (a b : D) : SItv D := if a < b then ⟨s.pr a, s.nx b⟩ else ⟨s.pr b, s.nx a⟩

/-- `first` and `last` of a right-open discrete interval, concept/interval.hpp:387-393 and 426-440;
`last_next`, 469-478 -/
def rightOpenFirst (i : SItv D) : D := i.lo
@[inherit_doc rightOpenFirst] def rightOpenLast (i : SItv D) : D := s.pr i.up
@[inherit_doc rightOpenFirst] def rightOpenLastNext (i : SItv D) : D := i.up
/-- `first` and `last` of a left-open discrete interval, concept/interval.hpp:395-403 and 417-424;
`last_next`, 459-467 -/
def leftOpenFirst (i : SItv D) : D := s.nx i.lo
@[inherit_doc leftOpenFirst] def leftOpenLast (i : SItv D) : D := i.up
@[inherit_doc leftOpenFirst] def leftOpenLastNext (i : SItv D) : D := s.nx i.up

/-- `contains(interval, element)` for discrete static bounds, concept/interval.hpp:858-864, with `first` and `last` -/
def containsFL {I : Type} (first last : I → D) (i : I) (x : D) : Bool :=
  decide (first i ≤ x) && decide (x ≤ last i)

end

/-- The functions that relate intervals and elements of a class with a discrete domain. -/
structure ElementOps (D I : Type) where
  /-- `singleton`, concept/interval.hpp:90-150 -/
  singleton : D → I
  /-- `unit_trail`, concept/interval.hpp:165-239; textually the same as `singleton` for discrete domains -/
  unitTrail : D → I
  /-- `hull(left, right)` of two elements, concept/interval.hpp:286-366 -/
  hullE : D → D → I
  /-- `first`, concept/interval.hpp:387-413 -/
  first : I → D
  /-- `last`, concept/interval.hpp:417-456 -/
  last : I → D
  /-- `last_next`, concept/interval.hpp:459-488 -/
  lastNext : I → D
  /-- `contains(interval, element)`, concept/interval.hpp:858-864 (static bounds), 882-894 (dynamic bounds) -/
  contains : I → D → Bool

section
variable {D : Type} [LinearOrder D] (s : Steps D)

/-- The element functions of `right_open_interval` -/
def rightOpenE : ElementOps D (SItv D) :=
  ⟨rightOpenSingleton s, rightOpenSingleton s, rightOpenHullE s, rightOpenFirst, rightOpenLast s, rightOpenLastNext,
    containsFL rightOpenFirst (rightOpenLast s)⟩
/-- The element functions of `left_open_interval` -/
def leftOpenE : ElementOps D (SItv D) :=
  ⟨leftOpenSingleton s, leftOpenSingleton s, leftOpenHullE s, leftOpenFirst s, leftOpenLast, leftOpenLastNext s,
    containsFL (leftOpenFirst s) leftOpenLast⟩
/-- The element functions of `closed_interval` -/
def closedE : ElementOps D (SItv D) :=
  ⟨closedSingleton, closedSingleton, closedHullE, Closed.first, Closed.last, Closed.lastNext s,
    containsFL Closed.first Closed.last⟩
/-- The element functions of `open_interval` -/
def openE : ElementOps D (SItv D) :=
  ⟨openSingleton s, openSingleton s, openHullE s, Open.first s, Open.last s, Open.lastNext,
    containsFL (Open.first s) (Open.last s)⟩
/-- The element functions of `discrete_interval` -/
def discreteE : ElementOps D (DItv D) :=
  ⟨dynSingleton, dynSingleton, dynHullE, Disc.first s, Disc.last s, Disc.lastNext s, Dyn.contains⟩

end

/-- The interval classes of the library with discrete domains and their element functions. -/
inductive BuiltinDiscrete : {D I : Type} → [LinearOrder D] → IntervalOps D I → ElementOps D I → Prop
  | rightOpen {D : Type} [LinearOrder D] (s : Steps D) (zero : D) :
      BuiltinDiscrete (rightOpenOps zero) (rightOpenE s)
  | leftOpen {D : Type} [LinearOrder D] (s : Steps D) (zero : D) :
      BuiltinDiscrete (leftOpenOps zero) (leftOpenE s)
  | closed {D : Type} [LinearOrder D] (s : Steps D) (zero unit : D) (h : zero < unit) :
      BuiltinDiscrete (closedOps s zero unit) (closedE s)
  | opn {D : Type} [LinearOrder D] (s : Steps D) (zero : D) : BuiltinDiscrete (openOps s zero) (openE s)
  | discrete {D : Type} [LinearOrder D] (s : Steps D) (zero : D) :
      BuiltinDiscrete (discreteOps s zero) (discreteE s)

section
variable {D I : Type} [LinearOrder D] {o : IntervalOps D I} {e : ElementOps D I}

theorem BuiltinDiscrete.cls (h : BuiltinDiscrete o e) : IntervalClass o := by
  cases h with
  | rightOpen s zero => exact .rightOpen zero
  | leftOpen s zero => exact .leftOpen zero
  | closed s zero unit h => exact .closed s zero unit h
  | opn s zero => exact .opn s zero
  | discrete s zero => exact .discrete s zero

theorem mem_dynSingleton (x y : D) : Dyn.contains (dynSingleton x) y = true ↔ y = x := by
  rw [show Dyn.contains (dynSingleton x) y = (decide (x ≤ y) && decide (y ≤ x)) from rfl]
  simp only [Bool.and_eq_true, decide_eq_true_eq]
  constructor
  · rintro ⟨h1, h2⟩; order
  · rintro rfl; exact ⟨le_refl _, le_refl _⟩

/-- `open_interval` has a one-element interval for all values but the smallest and the largest one. -/
theorem openSingleton_bounds (s : Steps D) (zero x : D)
    (hx : (openOps s zero).isEmpty (openSingleton s x) = false) : s.pr x < x ∧ x < s.nx x := by
  have h' : (decide (s.nx x ≤ s.pr x) || decide (s.nx x ≤ s.nx (s.pr x))) = false := hx
  simp only [Bool.or_eq_false_iff, decide_eq_false_iff_not, not_le] at h'
  obtain ⟨h1, h2⟩ := h'
  by_cases hl : ∃ z, z < x
  · obtain ⟨z, hz⟩ := hl
    refine ⟨s.pr_lt hz, ?_⟩
    rw [s.nx_pr hz] at h2
    exact h2
  · push Not at hl
    exfalso
    rcases lt_or_eq_of_le (hl (s.pr x)) with h3 | h3
    · have := s.le_nx h3; order
    · rw [← h3] at h2; exact lt_irrefl _ h2

/-- `unit_trail(x)` contains exactly `x`, unless it is empty. -/
theorem BuiltinDiscrete.mem_unitTrail (h : BuiltinDiscrete o e) {x : D} (hx : o.isEmpty (e.unitTrail x) = false) (y : D) :
    o.Mem y (e.unitTrail x) ↔ y = x := by
  unfold IntervalOps.Mem
  cases h with
  | rightOpen s zero =>
    have h1 : x < s.nx x := by simpa [rightOpenOps, Asym.isEmpty, rightOpenE, rightOpenSingleton] using hx
    simp only [rightOpenOps, rightOpenE, rightOpenSingleton, Bool.and_eq_true, decide_eq_true_eq, s.lt_nx_iff h1]
    constructor
    · rintro ⟨h1, h2⟩; order
    · rintro rfl; exact ⟨le_refl _, le_refl _⟩
  | leftOpen s zero =>
    have h1 : s.pr x < x := by simpa [leftOpenOps, Asym.isEmpty, leftOpenE, leftOpenSingleton] using hx
    simp only [leftOpenOps, leftOpenE, leftOpenSingleton, Bool.and_eq_true, decide_eq_true_eq, s.pr_lt_iff h1]
    constructor
    · rintro ⟨h1, h2⟩; order
    · rintro rfl; exact ⟨le_refl _, le_refl _⟩
  | closed s zero unit h =>
    simp only [closedOps, closedE, closedSingleton, Bool.and_eq_true, decide_eq_true_eq]
    constructor
    · rintro ⟨h1, h2⟩; order
    · rintro rfl; exact ⟨le_refl _, le_refl _⟩
  | opn s zero =>
    obtain ⟨h1, h2⟩ := openSingleton_bounds s zero x hx
    simp only [openOps, openE, openSingleton, Bool.and_eq_true, decide_eq_true_eq, s.pr_lt_iff h1, s.lt_nx_iff h2]
    constructor
    · rintro ⟨h1, h2⟩; order
    · rintro rfl; exact ⟨le_refl _, le_refl _⟩
  | discrete s zero => exact mem_dynSingleton x y

theorem BuiltinDiscrete.singleton_eq (h : BuiltinDiscrete o e) : e.singleton = e.unitTrail := by
  cases h <;> rfl

/-- `singleton(x)` is empty only if there is no larger or no smaller value than `x`. -/
theorem BuiltinDiscrete.singleton_nonempty (h : BuiltinDiscrete o e) {x y z : D} (hy : y < x) (hz : x < z) :
    o.isEmpty (e.singleton x) = false := by
  rw [← Bool.not_eq_true, h.cls.lawful.isEmpty_iff]
  intro hc
  refine hc x ?_
  unfold IntervalOps.Mem
  cases h with
  | rightOpen s zero =>
    have := s.lt_nx hz
    simpa [rightOpenOps, rightOpenE, rightOpenSingleton] using this
  | leftOpen s zero =>
    have := s.pr_lt hy
    simpa [leftOpenOps, leftOpenE, leftOpenSingleton] using this
  | closed s zero unit h => simp [closedOps, closedE, closedSingleton]
  | opn s zero =>
    have h1 := s.lt_nx hz
    have h2 := s.pr_lt hy
    simp [openOps, openE, openSingleton, h1, h2]
  | discrete s zero => exact (mem_dynSingleton x x).2 rfl

/-- A non-empty interval of a discrete class holds the values from `first` to `last`. -/
theorem BuiltinDiscrete.mem_iff (h : BuiltinDiscrete o e) {i : I} (hi : o.Nonempty i) (x : D) :
    o.Mem x i ↔ e.first i ≤ x ∧ x ≤ e.last i := by
  unfold IntervalOps.Nonempty IntervalOps.Mem at *
  cases h with
  | rightOpen s zero =>
    obtain ⟨z, hz⟩ := hi
    simp only [rightOpenOps, Bool.and_eq_true, decide_eq_true_eq] at hz
    simp [rightOpenOps, rightOpenE, rightOpenFirst, rightOpenLast, s.le_pr_iff hz.2]
  | leftOpen s zero =>
    obtain ⟨z, hz⟩ := hi
    simp only [leftOpenOps, Bool.and_eq_true, decide_eq_true_eq] at hz
    simp [leftOpenOps, leftOpenE, leftOpenFirst, leftOpenLast, s.nx_le_iff hz.1]
  | closed s zero unit h => simp [closedOps, closedE]
  | opn s zero =>
    obtain ⟨z, hz⟩ := hi
    simp only [openOps, Bool.and_eq_true, decide_eq_true_eq] at hz
    simp [openOps, openE, Open.first, Open.last, s.nx_le_iff hz.1, s.le_pr_iff hz.2]
  | discrete s zero =>
    obtain ⟨z, hz⟩ := hi
    have hz' := (Dyn.contains_iff _ _).1 hz
    rw [show (discreteOps s zero).contains i x = Dyn.contains i x from rfl, Dyn.contains_iff,
      Disc.lo_first s hz'.1, Disc.up_last s hz'.2]
    rfl

/-- `contains(i, x)` on non-empty intervals. -/
theorem BuiltinDiscrete.contains_eq (h : BuiltinDiscrete o e) {i : I} (hi : o.Nonempty i) (x : D) :
    e.contains i x = true ↔ o.Mem x i := by
  have hm := h.mem_iff hi x
  cases h with
  | discrete s zero => rfl
  | _ => rw [hm]; simp [rightOpenE, leftOpenE, closedE, openE, containsFL]

/-- `last_next` is the successor of `last`, if there is one. -/
theorem BuiltinDiscrete.lastNext_eq (h : BuiltinDiscrete o e) {i : I} (hi : o.Nonempty i) {z : D} (hz : e.last i < z) (x : D) :
    x < e.lastNext i ↔ x ≤ e.last i := by
  unfold IntervalOps.Nonempty IntervalOps.Mem at *
  cases h with
  | rightOpen s zero =>
    obtain ⟨w, hw⟩ := hi
    simp only [rightOpenOps, Bool.and_eq_true, decide_eq_true_eq] at hw
    simp [rightOpenE, rightOpenLastNext, rightOpenLast, s.le_pr_iff hw.2]
  | leftOpen s zero => exact s.lt_nx_iff hz x
  | closed s zero unit h => exact s.lt_nx_iff hz x
  | opn s zero =>
    obtain ⟨w, hw⟩ := hi
    simp only [openOps, Bool.and_eq_true, decide_eq_true_eq] at hw
    simp [openE, Open.lastNext, Open.last, s.le_pr_iff hw.2]
  | discrete s zero =>
    obtain ⟨w, hw⟩ := hi
    have hw' := (Dyn.contains_iff _ _).1 hw
    obtain ⟨lo, up, ⟨_ | _, _ | _⟩⟩ := i <;>
      simp [discreteE, Disc.lastNext, Disc.last, Bounds.isRightClosed, Dyn.Up] at *
    · rw [s.le_pr_iff hw'.2]
    · rw [s.lt_nx_iff hz]
    · rw [s.le_pr_iff hw'.2]
    · rw [s.lt_nx_iff hz]

section
variable [NoMaxOrder D] [NoMinOrder D]

/-- Over domains without end points an interval of a discrete class holds the values from `first` to `last`. -/
theorem BuiltinDiscrete.mem_iff_full (h : BuiltinDiscrete o e) (i : I) (x : D) :
    o.Mem x i ↔ e.first i ≤ x ∧ x ≤ e.last i := by
  unfold IntervalOps.Mem
  cases h with
  | rightOpen s zero =>
    simp [rightOpenOps, rightOpenE, rightOpenFirst, rightOpenLast, s.le_pr_iff (exists_lt i.up).choose_spec]
  | leftOpen s zero =>
    simp [leftOpenOps, leftOpenE, leftOpenFirst, leftOpenLast, s.nx_le_iff (exists_gt i.lo).choose_spec]
  | closed s zero unit h => simp [closedOps, closedE]
  | opn s zero =>
    simp [openOps, openE, Open.first, Open.last, s.nx_le_iff (exists_gt i.lo).choose_spec,
      s.le_pr_iff (exists_lt i.up).choose_spec]
  | discrete s zero =>
    rw [show (discreteOps s zero).contains i x = Dyn.contains i x from rfl, Dyn.contains_iff,
      Disc.lo_first s (Dyn.exists_lo i).choose_spec, Disc.up_last s (Dyn.exists_up i).choose_spec]
    rfl

/-- `contains(i, x)` over domains without end points. -/
theorem BuiltinDiscrete.contains_full (h : BuiltinDiscrete o e) (i : I) (x : D) :
    e.contains i x = true ↔ o.Mem x i := by
  have hm := h.mem_iff_full i x
  cases h with
  | discrete s zero => rfl
  | _ => rw [hm]; simp [rightOpenE, leftOpenE, closedE, openE, containsFL]

/-- Over domains without end points `last_next` is the successor of `last`. -/
theorem BuiltinDiscrete.lastNext_full (h : BuiltinDiscrete o e) (i : I) (x : D) :
    x < e.lastNext i ↔ x ≤ e.last i := by
  cases h with
  | rightOpen s zero =>
    simp [rightOpenE, rightOpenLastNext, rightOpenLast, s.le_pr_iff (exists_lt i.up).choose_spec]
  | leftOpen s zero => exact s.lt_nx_iff (exists_gt _).choose_spec x
  | closed s zero unit h => exact s.lt_nx_iff (exists_gt _).choose_spec x
  | opn s zero => simp [openE, Open.lastNext, Open.last, s.le_pr_iff (exists_lt i.up).choose_spec]
  | discrete s zero =>
    obtain ⟨lo, up, ⟨_ | _, _ | _⟩⟩ := i <;>
      simp [discreteE, Disc.lastNext, Disc.last, Bounds.isRightClosed]
    · rw [s.le_pr_iff (exists_lt _).choose_spec]
    · rw [s.lt_nx_iff (exists_gt _).choose_spec]
    · rw [s.le_pr_iff (exists_lt _).choose_spec]
    · rw [s.lt_nx_iff (exists_gt _).choose_spec]

end

/-- `hull(a, b)` of two elements holds exactly the values between them, if both have one-element intervals. -/
theorem BuiltinDiscrete.mem_hullE (h : BuiltinDiscrete o e) {a b : D} (ha : o.isEmpty (e.singleton a) = false)
    (hb : o.isEmpty (e.singleton b) = false) (x : D) :
    o.Mem x (e.hullE a b) ↔ min a b ≤ x ∧ x ≤ max a b := by
  have hmm : ∀ {P : D → D → Prop}, (a < b → P a b) → (¬ a < b → P b a) → P (min a b) (max a b) := by
    intro P h1 h2
    by_cases hab : a < b
    · rw [min_eq_left (le_of_lt hab), max_eq_right (le_of_lt hab)]; exact h1 hab
    · rw [min_eq_right (not_lt.1 hab), max_eq_left (not_lt.1 hab)]; exact h2 hab
  unfold IntervalOps.Mem
  cases h with
  | rightOpen s zero =>
    have h1 : a < s.nx a := by simpa [rightOpenOps, Asym.isEmpty, rightOpenE, rightOpenSingleton] using ha
    have h2 : b < s.nx b := by simpa [rightOpenOps, Asym.isEmpty, rightOpenE, rightOpenSingleton] using hb
    refine hmm (P := fun c d => _ ↔ c ≤ x ∧ x ≤ d) ?_ ?_ <;> intro hab <;>
      simp [rightOpenOps, rightOpenE, rightOpenHullE, hab, s.lt_nx_iff h1, s.lt_nx_iff h2]
  | leftOpen s zero =>
    have h1 : s.pr a < a := by simpa [leftOpenOps, Asym.isEmpty, leftOpenE, leftOpenSingleton] using ha
    have h2 : s.pr b < b := by simpa [leftOpenOps, Asym.isEmpty, leftOpenE, leftOpenSingleton] using hb
    refine hmm (P := fun c d => _ ↔ c ≤ x ∧ x ≤ d) ?_ ?_ <;> intro hab <;>
      simp [leftOpenOps, leftOpenE, leftOpenHullE, hab, s.pr_lt_iff h1, s.pr_lt_iff h2]
  | closed s zero unit h =>
    refine hmm (P := fun c d => _ ↔ c ≤ x ∧ x ≤ d) ?_ ?_ <;> intro hab <;>
      simp [closedOps, closedE, closedHullE, hab]
  | opn s zero =>
    have h1 := openSingleton_bounds s zero a ha
    have h2 := openSingleton_bounds s zero b hb
    refine hmm (P := fun c d => _ ↔ c ≤ x ∧ x ≤ d) ?_ ?_ <;> intro hab <;>
      simp [openOps, openE, openHullE, hab, s.pr_lt_iff h1.1, s.pr_lt_iff h2.1, s.lt_nx_iff h1.2, s.lt_nx_iff h2.2]
  | discrete s zero =>
    refine hmm (P := fun c d => _ ↔ c ≤ x ∧ x ≤ d) ?_ ?_ <;> intro hab <;>
      simp [discreteOps, discreteE, dynHullE, hab, Dyn.contains, Bounds.closed, Bounds.isLeftClosed, Bounds.isRightClosed]

end

/-- The element functions of a class of a user, made from those of the class of the library with the same bound type:
they call `construct`, `lower` and `upper`, concept/interval.hpp:90-366 and 387-478 -/
def Traits.elementOps {D C : Type} (T : Traits D C) (e : ElementOps D (SItv D)) : ElementOps D C where
  singleton x := T.make (e.singleton x)
  unitTrail x := T.make (e.unitTrail x)
  hullE a b := T.make (e.hullE a b)
  first i := e.first (T.view i)
  last i := e.last (T.view i)
  lastNext i := e.lastNext (T.view i)
  contains i x := e.contains (T.view i) x

/-! ### Element functions over domain types with a strict weak ordering

Elements are given to these functions as values; `rep x` is the value of the class `x` that the caller has.  `first`, `last`
and `last_next` are observed up to equivalence. -/

namespace Weak
section
variable {E D : Type} [LinearOrder D] {key : E → D} {s : Steps D} (w : WeakSteps key s) (rep : D → E)

/-- The element functions of `right_open_interval<E>` -/
def rightOpenE : ElementOps D (SItv E) where
  singleton x := ⟨rep x, w.inc (rep x)⟩
  unitTrail x := ⟨rep x, w.inc (rep x)⟩
  hullE a b := if key (rep a) < key (rep b) then ⟨rep a, w.inc (rep b)⟩ else ⟨rep b, w.inc (rep a)⟩
  first i := key i.lo
  last i := key (w.dec i.up)
  lastNext i := key i.up
  contains := containsFL (fun i => key i.lo) fun i => key (w.dec i.up)
/-- The element functions of `left_open_interval<E>` -/
def leftOpenE : ElementOps D (SItv E) where
  singleton x := ⟨w.dec (rep x), rep x⟩
  unitTrail x := ⟨w.dec (rep x), rep x⟩
  hullE a b := if key (rep a) < key (rep b) then ⟨w.dec (rep a), rep b⟩ else ⟨w.dec (rep b), rep a⟩
  first i := key (w.inc i.lo)
  last i := key i.up
  lastNext i := key (w.inc i.up)
  contains := containsFL (fun i => key (w.inc i.lo)) fun i => key i.up
/-- The element functions of `closed_interval<E>` -/
def closedE : ElementOps D (SItv E) where
  singleton x := ⟨rep x, rep x⟩
  unitTrail x := ⟨rep x, rep x⟩
  hullE a b := if key (rep a) < key (rep b) then ⟨rep a, rep b⟩ else ⟨rep b, rep a⟩
  first i := key i.lo
  last i := key i.up
  lastNext i := key (w.inc i.up)
  contains := containsFL (fun i => key i.lo) fun i => key i.up
/-- The element functions of `open_interval<E>` -/
def openE : ElementOps D (SItv E) where
  singleton x := ⟨w.dec (rep x), w.inc (rep x)⟩
  unitTrail x := ⟨w.dec (rep x), w.inc (rep x)⟩
  hullE a b := if key (rep a) < key (rep b) then ⟨w.dec (rep a), w.inc (rep b)⟩ else ⟨w.dec (rep b), w.inc (rep a)⟩
  first i := key (w.inc i.lo)
  last i := key (w.dec i.up)
  lastNext i := key i.up
  contains := containsFL (fun i => key (w.inc i.lo)) fun i => key (w.dec i.up)
/-- The element functions of `discrete_interval<E>` -/
def discreteE : ElementOps D (DItv E) where
  singleton x := ⟨rep x, rep x, Bounds.closed⟩
  unitTrail x := ⟨rep x, rep x, Bounds.closed⟩
  hullE a b :=
    if key (rep a) < key (rep b) then ⟨rep a, rep b, Bounds.closed⟩ else ⟨rep b, rep a, Bounds.closed⟩
  first i := key (if i.bnd.isLeftClosed then i.lo else w.inc i.lo)
  last i := key (if i.bnd.isRightClosed then i.up else w.dec i.up)
  lastNext i := key (if i.bnd.isRightClosed then w.inc i.up else i.up)
  contains := containsD key

end
end Weak

/-- The interval classes with discrete domain types with a strict weak ordering, their element functions, the same classes
over the classes of equivalent values, and the intervals of the one as intervals of the other. -/
inductive WeakDiscrete {E D : Type} [LinearOrder D] (key : E → D) (rep : D → E) :
    {I J : Type} → IntervalOps D I → ElementOps D I → IntervalOps D J → ElementOps D J → (I → J) → Prop
  | rightOpen {s : Steps D} (w : WeakSteps key s) (zero : E) :
      WeakDiscrete key rep (Weak.rightOpenOps key zero) (Weak.rightOpenE w rep) (rightOpenOps (key zero)) (rightOpenE s)
        (Weak.view key)
  | leftOpen {s : Steps D} (w : WeakSteps key s) (zero : E) :
      WeakDiscrete key rep (Weak.leftOpenOps key zero) (Weak.leftOpenE w rep) (leftOpenOps (key zero)) (leftOpenE s)
        (Weak.view key)
  | closed {s : Steps D} (w : WeakSteps key s) (zero unit : E) (h : key zero < key unit) :
      WeakDiscrete key rep (Weak.closedOps w zero unit) (Weak.closedE w rep) (closedOps s (key zero) (key unit)) (closedE s)
        (Weak.view key)
  | opn {s : Steps D} (w : WeakSteps key s) (zero : E) :
      WeakDiscrete key rep (Weak.openOps w zero) (Weak.openE w rep) (openOps s (key zero)) (openE s) (Weak.view key)
  | discrete {s : Steps D} (w : WeakSteps key s) (zero : E) :
      WeakDiscrete key rep (Weak.discreteOps key s zero) (Weak.discreteE w rep) (discreteOps s (key zero)) (discreteE s)
        (Weak.viewD key)

/-- `v` takes the results of the element functions of one class to those of the other. -/
structure ElemIso {D I J : Type} (ew : ElementOps D I) (e : ElementOps D J) (v : I → J) : Prop where
  singleton : ∀ x, v (ew.singleton x) = e.singleton x
  unitTrail : ∀ x, v (ew.unitTrail x) = e.unitTrail x
  hullE : ∀ a b, v (ew.hullE a b) = e.hullE a b
  first : ∀ i, ew.first i = e.first (v i)
  last : ∀ i, ew.last i = e.last (v i)
  lastNext : ∀ i, ew.lastNext i = e.lastNext (v i)
  contains : ∀ i x, ew.contains i x = e.contains (v i) x

section
variable {E D I J : Type} [LinearOrder D] {key : E → D} {rep : D → E} {ow : IntervalOps D I} {ew : ElementOps D I}
  {o : IntervalOps D J} {e : ElementOps D J} {v : I → J}

theorem WeakDiscrete.cls (h : WeakDiscrete key rep ow ew o e v) : WeakClass key ow o v := by
  cases h with
  | rightOpen w zero => exact .rightOpen zero
  | leftOpen w zero => exact .leftOpen zero
  | closed w zero unit hu => exact .closed w zero unit hu
  | opn w zero => exact .opn w zero
  | discrete w zero => exact .discrete _ zero

theorem WeakDiscrete.base (h : WeakDiscrete key rep ow ew o e v) : BuiltinDiscrete o e := by
  cases h with
  | rightOpen w zero => exact .rightOpen _ _
  | leftOpen w zero => exact .leftOpen _ _
  | closed w zero unit hu => exact .closed _ _ _ hu
  | opn w zero => exact .opn _ _
  | discrete w zero => exact .discrete _ _

theorem WeakDiscrete.iso (h : WeakDiscrete key rep ow ew o e v) (hr : ∀ x, key (rep x) = x) : ElemIso ew e v := by
  cases h with
  | @rightOpen s w zero =>
    refine ⟨fun x => ?_, fun x => ?_, fun a b => ?_, fun i => rfl, fun i => ?_, fun i => rfl, fun i x => ?_⟩
    · simp [Weak.view, Weak.rightOpenE, rightOpenE, rightOpenSingleton, hr, w.key_inc]
    · simp [Weak.view, Weak.rightOpenE, rightOpenE, rightOpenSingleton, hr, w.key_inc]
    · simp only [Weak.rightOpenE, rightOpenE, rightOpenHullE, hr]
      split_ifs <;> simp [Weak.view, hr, w.key_inc]
    · exact w.key_dec _
    · change (decide (key i.lo ≤ x) && decide (x ≤ key (w.dec i.up))) = (decide (key i.lo ≤ x) && decide (x ≤ s.pr (key i.up)))
      rw [w.key_dec]
  | @leftOpen s w zero =>
    refine ⟨fun x => ?_, fun x => ?_, fun a b => ?_, fun i => ?_, fun i => rfl, fun i => ?_, fun i x => ?_⟩
    · simp [Weak.view, Weak.leftOpenE, leftOpenE, leftOpenSingleton, hr, w.key_dec]
    · simp [Weak.view, Weak.leftOpenE, leftOpenE, leftOpenSingleton, hr, w.key_dec]
    · simp only [Weak.leftOpenE, leftOpenE, leftOpenHullE, hr]
      split_ifs <;> simp [Weak.view, hr, w.key_dec]
    · exact w.key_inc _
    · exact w.key_inc _
    · change (decide (key (w.inc i.lo) ≤ x) && decide (x ≤ key i.up)) = (decide (s.nx (key i.lo) ≤ x) && decide (x ≤ key i.up))
      rw [w.key_inc]
  | closed w zero unit hu =>
    refine ⟨fun x => ?_, fun x => ?_, fun a b => ?_, fun i => rfl, fun i => rfl, fun i => ?_, fun i x => rfl⟩
    · simp [Weak.view, Weak.closedE, closedE, closedSingleton, hr]
    · simp [Weak.view, Weak.closedE, closedE, closedSingleton, hr]
    · simp only [Weak.closedE, closedE, closedHullE, hr]
      split_ifs <;> simp [Weak.view, hr]
    · exact w.key_inc _
  | opn w zero =>
    refine ⟨fun x => ?_, fun x => ?_, fun a b => ?_, fun i => ?_, fun i => ?_, fun i => rfl, fun i x => ?_⟩
    · simp [Weak.view, Weak.openE, openE, openSingleton, hr, w.key_dec, w.key_inc]
    · simp [Weak.view, Weak.openE, openE, openSingleton, hr, w.key_dec, w.key_inc]
    · simp only [Weak.openE, openE, openHullE, hr]
      split_ifs <;> simp [Weak.view, hr, w.key_dec, w.key_inc]
    · exact w.key_inc _
    · exact w.key_dec _
    · simp [Weak.view, Weak.openE, openE, containsFL, Open.first, Open.last, w.key_inc, w.key_dec]
  | discrete w zero =>
    refine ⟨fun x => ?_, fun x => ?_, fun a b => ?_, fun i => ?_, fun i => ?_, fun i => ?_, fun i x => rfl⟩
    · simp [Weak.viewD, Weak.discreteE, discreteE, dynSingleton, hr]
    · simp [Weak.viewD, Weak.discreteE, discreteE, dynSingleton, hr]
    · simp only [Weak.discreteE, discreteE, dynHullE, hr]
      split_ifs <;> simp [Weak.viewD, hr]
    · simp only [Weak.discreteE, discreteE, Disc.first, Weak.viewD]
      split_ifs <;> simp [w.key_inc]
    · simp only [Weak.discreteE, discreteE, Disc.last, Weak.viewD]
      split_ifs <;> simp [w.key_dec]
    · simp only [Weak.discreteE, discreteE, Disc.lastNext, Weak.viewD]
      split_ifs <;> simp [w.key_inc]

end

/-- The interval classes with discrete domains and their element functions. -/
inductive DiscreteClass : {D I : Type} → [LinearOrder D] → IntervalOps D I → ElementOps D I → Prop
  | builtin {D I : Type} [LinearOrder D] {o : IntervalOps D I} {e : ElementOps D I} (h : BuiltinDiscrete o e) :
      DiscreteClass o e
  /-- A class of a user -/
  | custom {D C : Type} [LinearOrder D] {T : Traits D C} {o : IntervalOps D (SItv D)}
      {oc : IntervalOps D C} (hT : T.Lawful o.isEmpty) (h : CustomClass T o oc) {e : ElementOps D (SItv D)} (hb : BuiltinDiscrete o e) :
      DiscreteClass oc (T.elementOps e)
  /-- A class of the library over a domain type with a strict weak ordering -/
  | weak {E D I J : Type} [LinearOrder D] {key : E → D} {rep : D → E} {ow : IntervalOps D I} {ew : ElementOps D I}
      {o : IntervalOps D J} {e : ElementOps D J} {v : I → J} (hr : ∀ x, key (rep x) = x)
      (h : WeakDiscrete key rep ow ew o e v) : DiscreteClass ow ew

section
variable {D : Type} [LinearOrder D]

theorem DiscreteClass.rightOpen (s : Steps D) (zero : D) : DiscreteClass (rightOpenOps zero) (rightOpenE s) :=
  .builtin (.rightOpen s zero)
theorem DiscreteClass.leftOpen (s : Steps D) (zero : D) : DiscreteClass (leftOpenOps zero) (leftOpenE s) :=
  .builtin (.leftOpen s zero)
theorem DiscreteClass.closed (s : Steps D) (zero unit : D) (h : zero < unit) :
    DiscreteClass (closedOps s zero unit) (closedE s) := .builtin (.closed s zero unit h)
theorem DiscreteClass.opn (s : Steps D) (zero : D) : DiscreteClass (openOps s zero) (openE s) :=
  .builtin (.opn s zero)
theorem DiscreteClass.discrete (s : Steps D) (zero : D) : DiscreteClass (discreteOps s zero) (discreteE s) :=
  .builtin (.discrete s zero)

end

section
variable {D I : Type} [LinearOrder D] {o : IntervalOps D I} {e : ElementOps D I}

theorem DiscreteClass.cls (h : DiscreteClass o e) : IntervalClass o := by
  cases h with
  | builtin h => exact h.cls
  | custom hT h hb => exact .custom hT h
  | weak hr h => exact .weak h.cls

/-- `singleton(e)` of `continuous_interval<E>`, concept/interval.hpp:145-150, where `rep x` is the value of
the class `x` that is given to it.  Over a domain type that is not dense some `x` are the class of no value (`none`); no call
has them as argument, and the model takes the empty interval for them. -/
def Weak.dynSingleton {E D : Type} (rep : D → Option E) (zero : E) (x : D) : DItv E :=
  match rep x with
  | some e => ICL.dynSingleton e
  | none => ⟨zero, zero, Bounds.rightOpen⟩

/-- The classes that have one-element intervals, with `singleton`. -/
inductive SingletonClass : {D I : Type} → [LinearOrder D] → IntervalOps D I → (D → I) → Prop
  | discrete {D I : Type} [LinearOrder D] {o : IntervalOps D I} {e : ElementOps D I}
      (h : DiscreteClass o e) : SingletonClass o e.singleton
  | continuous {D : Type} [LinearOrder D] [DenselyOrdered D] [NoMaxOrder D] [NoMinOrder D]
      (zero : D) : SingletonClass (continuousOps zero) dynSingleton
  | weakContinuous {E D : Type} [LinearOrder D] [DenselyOrdered D] [NoMaxOrder D] [NoMinOrder D] {key : E → D}
      {rep : D → Option E} (hr : ∀ x e, rep x = some e → key e = x) (zero : E) :
      SingletonClass (Weak.continuousOps key zero) (Weak.dynSingleton rep zero)

theorem SingletonClass.cls {sing : D → I} (h : SingletonClass o sing) : IntervalClass o := by
  cases h with
  | discrete h => exact h.cls
  | continuous zero => exact .continuous zero
  | weakContinuous hr zero => exact .weak (.continuous zero)

/-- The classes with `find(element)`, concept/interval_associator_base.hpp:24-89:
discrete domains use `unit_trail`; `continuous_interval` uses `singleton`; continuous half open classes
use `unit_trail`, made with `++` (`--`). -/
inductive LookupClass : {D I : Type} → [LinearOrder D] → IntervalOps D I → Lookup D I → Prop
  | discrete {D I : Type} [LinearOrder D] {o : IntervalOps D I} {e : ElementOps D I}
      (h : DiscreteClass o e) : LookupClass o (.exact e.unitTrail)
  | continuous {D : Type} [LinearOrder D] [DenselyOrdered D] [NoMaxOrder D] [NoMinOrder D]
      (zero : D) : LookupClass (continuousOps zero) (.exact dynSingleton)
  | rightOpen {D : Type} [LinearOrder D] (zero : D) (inc : D → D) :
      LookupClass (rightOpenOps zero) (.lower (rightOpenTrail inc))
  | leftOpen {D : Type} [LinearOrder D] (zero : D) (dec : D → D) :
      LookupClass (leftOpenOps zero) (.upper (leftOpenTrail dec))
  | customRightOpen {D C : Type} [LinearOrder D] (T : Traits D C) (hT : T.Lawful Asym.isEmpty)
      (inc : D → D) :
      LookupClass T.rightOpenOps (.lower fun x => T.make (rightOpenTrail inc x))
  | customLeftOpen {D C : Type} [LinearOrder D] (T : Traits D C) (hT : T.Lawful Asym.isEmpty)
      (dec : D → D) :
      LookupClass T.leftOpenOps (.upper fun x => T.make (leftOpenTrail dec x))
  | weakContinuous {E D : Type} [LinearOrder D] [DenselyOrdered D] [NoMaxOrder D] [NoMinOrder D] {key : E → D}
      {rep : D → Option E} (hr : ∀ x e, rep x = some e → key e = x) (zero : E) :
      LookupClass (Weak.continuousOps key zero) (.exact (Weak.dynSingleton rep zero))
  | weakRightOpen {E D : Type} [LinearOrder D] {key : E → D} {rep : D → E} (hr : ∀ x, key (rep x) = x) (zero : E)
      (inc : E → E) : LookupClass (Weak.rightOpenOps key zero) (.lower fun x => rightOpenTrail inc (rep x))
  | weakLeftOpen {E D : Type} [LinearOrder D] {key : E → D} {rep : D → E} (hr : ∀ x, key (rep x) = x) (zero : E)
      (dec : E → E) : LookupClass (Weak.leftOpenOps key zero) (.upper fun x => leftOpenTrail dec (rep x))

theorem LookupClass.cls {lk : Lookup D I} (h : LookupClass o lk) : IntervalClass o := by
  cases h with
  | discrete h => exact h.cls
  | continuous zero => exact .continuous zero
  | rightOpen zero inc => exact .rightOpen zero
  | leftOpen zero dec => exact .leftOpen zero
  | customRightOpen T hT inc =>
    exact .custom (o := rightOpenOps (T.lower T.default)) hT (.rightOpen (T.lower T.default))
  | customLeftOpen T hT dec =>
    exact .custom (o := leftOpenOps (T.lower T.default)) hT (.leftOpen (T.lower T.default))
  | weakContinuous hr zero => exact .weak (.continuous zero)
  | weakRightOpen hr zero inc => exact .weak (.rightOpen zero)
  | weakLeftOpen hr zero dec => exact .weak (.leftOpen zero)

/-- `unit_trail(x)` contains exactly `x`, unless it is empty. -/
theorem DiscreteClass.mem_unitTrail (h : DiscreteClass o e) {x : D} (hx : o.isEmpty (e.unitTrail x) = false) (y : D) :
    o.Mem y (e.unitTrail x) ↔ y = x := by
  cases h with
  | builtin h => exact h.mem_unitTrail hx y
  | custom hT h hb =>
    rw [Traits.elementOps, h.isEmpty_make hT] at hx
    exact (h.mem_make hT _ y).trans (hb.mem_unitTrail hx y)
  | weak hr h =>
    rw [h.cls.iso.isEmpty, (h.iso hr).unitTrail] at hx
    rw [h.cls.sim.mem, (h.iso hr).unitTrail]
    exact h.base.mem_unitTrail hx y

theorem DiscreteClass.singleton_eq (h : DiscreteClass o e) : e.singleton = e.unitTrail := by
  cases h with
  | builtin h => exact h.singleton_eq
  | custom hT h hb => simp only [Traits.elementOps, hb.singleton_eq]
  | weak hr h => cases h <;> rfl

/-- `singleton(x)` contains exactly `x`, unless it is empty. -/
theorem DiscreteClass.mem_singleton (h : DiscreteClass o e) {x : D} (hx : o.isEmpty (e.singleton x) = false) (y : D) :
    o.Mem y (e.singleton x) ↔ y = x := by
  rw [h.singleton_eq] at *
  exact h.mem_unitTrail hx y

/-- `singleton(x)` is empty only if there is no larger or no smaller value than `x`. -/
theorem DiscreteClass.singleton_nonempty (h : DiscreteClass o e) {x y z : D} (hy : y < x) (hz : x < z) :
    o.isEmpty (e.singleton x) = false := by
  cases h with
  | builtin h => exact h.singleton_nonempty hy hz
  | custom hT h hb =>
    exact (h.isEmpty_make hT _).trans (hb.singleton_nonempty hy hz)
  | weak hr h =>
    rw [h.cls.iso.isEmpty, (h.iso hr).singleton]
    exact h.base.singleton_nonempty hy hz

theorem Weak.mem_dynSingleton {E : Type} {key : E → D} {rep : D → Option E} (hr : ∀ x e, rep x = some e → key e = x)
    {zero : E} {x : D} (hx : Cont.isEmpty (Weak.viewD key (Weak.dynSingleton rep zero x)) = false) (y : D) :
    Weak.containsD key (Weak.dynSingleton rep zero x) y = true ↔ y = x := by
  unfold Weak.dynSingleton at hx ⊢
  cases h : rep x with
  | none => simp [h, Weak.viewD, Cont.isEmpty, Bounds.rightOpen, Bounds.closed] at hx
  | some e =>
    rw [show Weak.containsD key (ICL.dynSingleton e) y = Dyn.contains (ICL.dynSingleton (key e)) y from rfl, hr x e h]
    exact ICL.mem_dynSingleton x y

theorem SingletonClass.mem {sing : D → I} (h : SingletonClass o sing) {x : D} (hx : o.isEmpty (sing x) = false)
    (y : D) : o.Mem y (sing x) ↔ y = x := by
  cases h with
  | discrete h => exact h.mem_singleton hx y
  | continuous zero => exact mem_dynSingleton x y
  | weakContinuous hr zero => exact Weak.mem_dynSingleton hr hx y

theorem LookupClass.lawfulAt {lk : Lookup D I} (h : LookupClass o lk) {x : D} (hx : o.isEmpty (lk.key x) = false) :
    lk.LawfulAt o x := by
  cases h with
  | discrete h => exact h.mem_unitTrail hx
  | continuous zero => exact mem_dynSingleton x
  | rightOpen zero inc =>
    have h1 : x < inc x := by simpa [Lookup.key, rightOpenOps, Asym.isEmpty, rightOpenTrail] using hx
    simp only [Lookup.LawfulAt, IntervalOps.Mem, rightOpenOps, rightOpenTrail, Bool.and_eq_true, decide_eq_true_eq]
    exact ⟨⟨le_refl _, h1⟩, fun y hy => hy.1⟩
  | leftOpen zero dec =>
    have h1 : dec x < x := by simpa [Lookup.key, leftOpenOps, Asym.isEmpty, leftOpenTrail] using hx
    simp only [Lookup.LawfulAt, IntervalOps.Mem, leftOpenOps, leftOpenTrail, Bool.and_eq_true, decide_eq_true_eq]
    exact ⟨⟨h1, le_refl _⟩, fun y hy => hy.2⟩
  | customRightOpen T hT inc =>
    have he : Asym.isEmpty (rightOpenTrail inc x) = false :=
      ((CustomClass.rightOpen (T := T) x).isEmpty_make hT _).symm.trans hx
    have h1 : x < inc x := not_le.1 (of_decide_eq_false he)
    have hm : ∀ y, T.rightOpenOps.Mem y (T.make (rightOpenTrail inc x)) ↔ x ≤ y ∧ y < inc x := by
      intro y
      rw [(CustomClass.rightOpen (T := T) x).mem_make hT]
      simp [IntervalOps.Mem, rightOpenOps, rightOpenTrail]
    exact ⟨(hm x).2 ⟨le_refl _, h1⟩, fun y hy => ((hm y).1 hy).1⟩
  | customLeftOpen T hT dec =>
    have he : Asym.isEmpty (leftOpenTrail dec x) = false :=
      ((CustomClass.leftOpen (T := T) x).isEmpty_make hT _).symm.trans hx
    have h1 : dec x < x := not_le.1 (of_decide_eq_false he)
    have hm : ∀ y, T.leftOpenOps.Mem y (T.make (leftOpenTrail dec x)) ↔ dec x < y ∧ y ≤ x := by
      intro y
      rw [(CustomClass.leftOpen (T := T) x).mem_make hT]
      simp [IntervalOps.Mem, leftOpenOps, leftOpenTrail]
    exact ⟨(hm x).2 ⟨h1, le_refl _⟩, fun y hy => ((hm y).1 hy).2⟩
  | weakContinuous hr zero => exact Weak.mem_dynSingleton hr hx
  | @weakRightOpen E _ _ key rep hr zero inc =>
    have h1 : x < key (inc (rep x)) := by
      simpa [Lookup.key, Weak.rightOpenOps, Weak.view, Asym.isEmpty, rightOpenTrail, hr] using hx
    simp only [Lookup.LawfulAt, IntervalOps.Mem, Weak.rightOpenOps, rightOpenTrail, Bool.and_eq_true, decide_eq_true_eq, hr]
    exact ⟨⟨le_refl _, h1⟩, fun y hy => hy.1⟩
  | @weakLeftOpen E _ _ key rep hr zero dec =>
    have h1 : key (dec (rep x)) < x := by
      simpa [Lookup.key, Weak.leftOpenOps, Weak.view, Asym.isEmpty, leftOpenTrail, hr] using hx
    simp only [Lookup.LawfulAt, IntervalOps.Mem, Weak.leftOpenOps, leftOpenTrail, Bool.and_eq_true, decide_eq_true_eq, hr]
    exact ⟨⟨h1, le_refl _⟩, fun y hy => hy.2⟩

/-- A non-empty interval of a discrete class holds the values from `first` to `last`. -/
theorem DiscreteClass.mem_iff (h : DiscreteClass o e) {i : I} (hi : o.Nonempty i) (x : D) :
    o.Mem x i ↔ e.first i ≤ x ∧ x ≤ e.last i := by
  cases h with
  | builtin h => exact h.mem_iff hi x
  | custom hT h hb =>
    exact ((h.sim hT).mem i x).trans (hb.mem_iff (((h.sim hT).nonempty i).1 hi) x)
  | weak hr h =>
    rw [(h.iso hr).first, (h.iso hr).last]
    exact (h.cls.sim.mem i x).trans (h.base.mem_iff ((h.cls.sim.nonempty i).1 hi) x)

/-- `contains(i, x)` on non-empty intervals. -/
theorem DiscreteClass.contains_eq (h : DiscreteClass o e) {i : I} (hi : o.Nonempty i) (x : D) :
    e.contains i x = true ↔ o.Mem x i := by
  cases h with
  | builtin h => exact h.contains_eq hi x
  | custom hT h hb =>
    exact (hb.contains_eq (((h.sim hT).nonempty i).1 hi) x).trans ((h.sim hT).mem i x).symm
  | weak hr h =>
    rw [(h.iso hr).contains]
    exact (h.base.contains_eq ((h.cls.sim.nonempty i).1 hi) x).trans (h.cls.sim.mem i x).symm

/-- `last_next` is the successor of `last`, if there is one. -/
theorem DiscreteClass.lastNext_eq (h : DiscreteClass o e) {i : I} (hi : o.Nonempty i) {z : D} (hz : e.last i < z) (x : D) :
    x < e.lastNext i ↔ x ≤ e.last i := by
  cases h with
  | builtin h => exact h.lastNext_eq hi hz x
  | custom hT h hb =>
    exact hb.lastNext_eq (((h.sim hT).nonempty i).1 hi) hz x
  | weak hr h =>
    rw [(h.iso hr).last] at hz
    rw [(h.iso hr).lastNext, (h.iso hr).last]
    exact h.base.lastNext_eq ((h.cls.sim.nonempty i).1 hi) hz x

section
variable [NoMaxOrder D] [NoMinOrder D]

/-- Over domains without end points an interval of a discrete class holds the values from `first` to `last`. -/
theorem DiscreteClass.mem_iff_full (h : DiscreteClass o e) (i : I) (x : D) :
    o.Mem x i ↔ e.first i ≤ x ∧ x ≤ e.last i := by
  cases h with
  | builtin h => exact h.mem_iff_full i x
  | custom hT h hb =>
    exact ((h.sim hT).mem i x).trans (hb.mem_iff_full _ x)
  | weak hr h =>
    rw [(h.iso hr).first, (h.iso hr).last]
    exact (h.cls.sim.mem i x).trans (h.base.mem_iff_full _ x)

/-- `contains(i, x)` over domains without end points. -/
theorem DiscreteClass.contains_full (h : DiscreteClass o e) (i : I) (x : D) :
    e.contains i x = true ↔ o.Mem x i := by
  cases h with
  | builtin h => exact h.contains_full i x
  | custom hT h hb =>
    exact (hb.contains_full _ x).trans ((h.sim hT).mem i x).symm
  | weak hr h =>
    rw [(h.iso hr).contains]
    exact (h.base.contains_full _ x).trans (h.cls.sim.mem i x).symm

/-- Over domains without end points `last_next` is the successor of `last`. -/
theorem DiscreteClass.lastNext_full (h : DiscreteClass o e) (i : I) (x : D) :
    x < e.lastNext i ↔ x ≤ e.last i := by
  cases h with
  | builtin h => exact h.lastNext_full i x
  | custom hT h hb =>
    exact hb.lastNext_full _ x
  | weak hr h =>
    rw [(h.iso hr).lastNext, (h.iso hr).last]
    exact h.base.lastNext_full _ x

/-- Over domains without end points all values have one-element intervals. -/
theorem DiscreteClass.singleton_full (h : DiscreteClass o e) (x : D) : o.isEmpty (e.singleton x) = false :=
  h.singleton_nonempty (exists_lt x).choose_spec (exists_gt x).choose_spec

end

/-- `hull(a, b)` of two elements holds exactly the values between them, if both have one-element intervals. -/
theorem DiscreteClass.mem_hullE (h : DiscreteClass o e) {a b : D} (ha : o.isEmpty (e.singleton a) = false)
    (hb : o.isEmpty (e.singleton b) = false) (x : D) :
    o.Mem x (e.hullE a b) ↔ min a b ≤ x ∧ x ≤ max a b := by
  cases h with
  | builtin h => exact h.mem_hullE ha hb x
  | custom hT h he =>
    rw [Traits.elementOps, h.isEmpty_make hT] at ha hb
    exact (h.mem_make hT _ x).trans (he.mem_hullE ha hb x)
  | weak hr h =>
    rw [h.cls.iso.isEmpty, (h.iso hr).singleton] at ha hb
    rw [h.cls.sim.mem, (h.iso hr).hullE]
    exact h.base.mem_hullE ha hb x

end

/-! ## `interval<D>::open/left_open/right_open/closed` with static bounds -/

section
variable {D : Type}

/-- `shift_lower`, concept/interval_bounds.hpp:83-92; `succ`, `pred` are `++` and `--`,
type_traits/succ_pred.hpp:16-19. -/
def shiftLower (succ pred : D → D) (decl repr : Bounds) (low : D) : D :=
  if decl.isLeftClosed && !repr.isLeftClosed then pred low
  else if !decl.isLeftClosed && repr.isLeftClosed then succ low
  else low
/-- `shift_upper`, concept/interval_bounds.hpp:95-104 -/
def shiftUpper (succ pred : D → D) (decl repr : Bounds) (up : D) : D :=
  if !decl.isRightClosed && repr.isRightClosed then pred up
  else if decl.isRightClosed && !repr.isRightClosed then succ up
  else up
/-- `static_interval<IntervalT, true, Pretended, Represented>::construct`, interval.hpp:96-110 (the
file interval.hpp, not concept/interval.hpp), with `succ`/`pred` standing for `++`/`--` -/
def staticConstruct (succ pred : D → D) (decl repr : Bounds) (low up : D) : SItv D :=
  ⟨shiftLower succ pred decl repr low, shiftUpper succ pred decl repr up⟩

end
end ICL
