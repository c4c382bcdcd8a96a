import Verif.Spec
import Verif.Kinds.Classes
import Verif.Props.Examples
import Mathlib.Tactic.Order

/-!
# Properties of intervals: C01-C05, C36

`IntervalClass o` ranges over all interval classes of the library with all their domains
(`Verif/Kinds/Classes.lean`).
-/

set_option linter.unusedSectionVars false

namespace ICL.Props
open Spec

variable {D I : Type} [LinearOrder D] {o : IntervalOps D I}

/-! ## C01: predicates and membership -/

/-- `contains([a,b), x)` on `right_open_interval`, continuous domain. -/
theorem C01_contains_right_open (zero : D) (a b x : D) :
    In (rightOpenOps zero) x ⟨a, b⟩ ↔ a ≤ x ∧ x < b := by
  simp [In, rightOpenOps]

/-- `contains((a,b], x)` on `left_open_interval`, continuous domain. -/
theorem C01_contains_left_open (zero : D) (a b x : D) :
    In (leftOpenOps zero) x ⟨a, b⟩ ↔ a < x ∧ x ≤ b := by
  simp [In, leftOpenOps]

section
variable (s : Steps D)

/-- `contains([a,b), x)` on `right_open_interval`, discrete domain; `b` is not the smallest value. -/
theorem C01_contains_right_open_discrete (a b x : D) (hb : ∃ z, z < b) :
    (rightOpenE s).contains ⟨a, b⟩ x = true ↔ a ≤ x ∧ x < b := by
  obtain ⟨z, hz⟩ := hb
  rw [show (rightOpenE s).contains ⟨a, b⟩ x = (decide (a ≤ x) && decide (x ≤ s.pr b)) from rfl,
    Bool.and_eq_true, decide_eq_true_eq, decide_eq_true_eq, s.le_pr_iff hz]

/-- `contains((a,b], x)` on `left_open_interval`, discrete domain; `a` is not the largest value. -/
theorem C01_contains_left_open_discrete (a b x : D) (ha : ∃ z, a < z) :
    (leftOpenE s).contains ⟨a, b⟩ x = true ↔ a < x ∧ x ≤ b := by
  obtain ⟨z, hz⟩ := ha
  rw [show (leftOpenE s).contains ⟨a, b⟩ x = (decide (s.nx a ≤ x) && decide (x ≤ b)) from rfl,
    Bool.and_eq_true, decide_eq_true_eq, decide_eq_true_eq, s.nx_le_iff hz]

/-- `contains([a,b], x)` on `closed_interval`. -/
theorem C01_contains_closed (a b x : D) :
    (closedE s).contains ⟨a, b⟩ x = true ↔ a ≤ x ∧ x ≤ b := by
  simp [closedE, containsFL]

/-- `contains((a,b), x)` on `open_interval`; `a` is not the largest and `b` not the smallest value. -/
theorem C01_contains_open (a b x : D) (ha : ∃ z, a < z) (hb : ∃ z, z < b) :
    (openE s).contains ⟨a, b⟩ x = true ↔ a < x ∧ x < b := by
  obtain ⟨z, hz⟩ := ha
  obtain ⟨w, hw⟩ := hb
  simp [openE, containsFL, Open.first, Open.last, s.nx_le_iff hz, s.le_pr_iff hw]

/-- `contains(i, x)` on `discrete_interval`, for all four bounds. -/
theorem C01_contains_discrete (a b x : D) :
    ((discreteE s).contains ⟨a, b, Bounds.closed⟩ x = true ↔ a ≤ x ∧ x ≤ b) ∧
    ((discreteE s).contains ⟨a, b, Bounds.rightOpen⟩ x = true ↔ a ≤ x ∧ x < b) ∧
    ((discreteE s).contains ⟨a, b, Bounds.leftOpen⟩ x = true ↔ a < x ∧ x ≤ b) ∧
    ((discreteE s).contains ⟨a, b, Bounds.opn⟩ x = true ↔ a < x ∧ x < b) := by
  simp [discreteE, Dyn.contains, Bounds.isLeftClosed, Bounds.isRightClosed, Bounds.closed,
    Bounds.rightOpen, Bounds.leftOpen, Bounds.opn]

/-- What `In` means for the classes with discrete domains: the values that the name of the class says. -/
theorem C01_in_discrete (zero unit a b x : D) :
    (In (closedOps s zero unit) x ⟨a, b⟩ ↔ a ≤ x ∧ x ≤ b) ∧
    (In (openOps s zero) x ⟨a, b⟩ ↔ a < x ∧ x < b) ∧
    (In (discreteOps s zero) x ⟨a, b, Bounds.closed⟩ ↔ a ≤ x ∧ x ≤ b) ∧
    (In (discreteOps s zero) x ⟨a, b, Bounds.rightOpen⟩ ↔ a ≤ x ∧ x < b) ∧
    (In (discreteOps s zero) x ⟨a, b, Bounds.leftOpen⟩ ↔ a < x ∧ x ≤ b) ∧
    (In (discreteOps s zero) x ⟨a, b, Bounds.opn⟩ ↔ a < x ∧ x < b) := by
  simp [In, closedOps, openOps, discreteOps, Dyn.contains, Bounds.isLeftClosed, Bounds.isRightClosed, Bounds.closed,
    Bounds.rightOpen, Bounds.leftOpen, Bounds.opn]
end

/-- `contains(i, x)` on all classes with discrete domains: non-empty intervals. -/
theorem C01_contains_element {e : ElementOps D I} (h : DiscreteClass o e) (i : I) (hi : o.isEmpty i = false) (x : D) :
    e.contains i x = true ↔ In o x i :=
  h.contains_eq ((nonempty_iff h.cls.lawful).2 hi) x

/-- `contains(i, x)` on all classes with discrete domains, if there is no largest and no smallest value. -/
theorem C01_contains_element_unbounded [NoMaxOrder D] [NoMinOrder D] {e : ElementOps D I} (h : DiscreteClass o e)
    (i : I) (x : D) : e.contains i x = true ↔ In o x i :=
  h.contains_full i x

/-- `contains(i, x)` on `continuous_interval`, for all four bounds. -/
theorem C01_contains_continuous (zero : D) (a b x : D) :
    (In (continuousOps zero) x ⟨a, b, Bounds.closed⟩ ↔ a ≤ x ∧ x ≤ b) ∧
    (In (continuousOps zero) x ⟨a, b, Bounds.rightOpen⟩ ↔ a ≤ x ∧ x < b) ∧
    (In (continuousOps zero) x ⟨a, b, Bounds.leftOpen⟩ ↔ a < x ∧ x ≤ b) ∧
    (In (continuousOps zero) x ⟨a, b, Bounds.opn⟩ ↔ a < x ∧ x < b) := by
  simp [In, continuousOps, Dyn.contains, Bounds.isLeftClosed, Bounds.isRightClosed, Bounds.closed,
    Bounds.rightOpen, Bounds.leftOpen, Bounds.opn]

/-- `is_empty(i)`: no value is in `i`. -/
theorem C01_isEmpty (h : IntervalClass o) (i : I) : o.isEmpty i = true ↔ ∀ x, ¬ In o x i :=
  h.lawful.isEmpty_iff i

/-- `contains(i, j)`, `i` non-empty: every element of `j` is an element of `i`. -/
theorem C01_contains_interval (h : IntervalClass o) (i j : I) (hi : o.isEmpty i = false) :
    o.containsI i j = true ↔ ∀ x, In o x j → In o x i :=
  h.lawful.containsI_iff i j ((nonempty_iff h.lawful).2 hi)

/-- `within(j, i)`, `i` non-empty: every element of `j` is an element of `i`. -/
theorem C01_within (h : IntervalClass o) (i j : I) (hi : o.isEmpty i = false) :
    o.withinI j i = true ↔ ∀ x, In o x j → In o x i :=
  h.lawful.containsI_iff i j ((nonempty_iff h.lawful).2 hi)

/-- `i == j`, both non-empty: the same elements. -/
theorem C01_eq (h : IntervalClass o) (i j : I) (hi : o.isEmpty i = false) (hj : o.isEmpty j = false) :
    o.eq i j = true ↔ SameElems o i j :=
  h.lawful.eq_iff i j ((nonempty_iff h.lawful).2 hi) ((nonempty_iff h.lawful).2 hj)

/-- Two empty intervals are equal, and an empty one is contained in all. -/
theorem C01_empty (_ : IntervalClass o) (i j : I) (hj : o.isEmpty j = true) :
    o.containsI i j = true ∧ (o.isEmpty i = true → o.eq i j = true) := by
  simp +contextual [IntervalOps.containsI, IntervalOps.eq, hj]

section
variable [NoMaxOrder D] [NoMinOrder D]

/-- `contains(i, j)` for all intervals, if there is no largest and no smallest value. -/
theorem C01_contains_interval_unbounded (h : IntervalClass o) (i j : I) :
    o.containsI i j = true ↔ ∀ x, In o x j → In o x i :=
  h.fully.containsI_full i j

/-- `within(j, i)` for all intervals, if there is no largest and no smallest value. -/
theorem C01_within_unbounded (h : IntervalClass o) (i j : I) :
    o.withinI j i = true ↔ ∀ x, In o x j → In o x i :=
  h.fully.containsI_full i j

/-- `i == j` for all intervals, if there is no largest and no smallest value. -/
theorem C01_eq_unbounded (h : IntervalClass o) (i j : I) : o.eq i j = true ↔ SameElems o i j :=
  h.fully.eq_full i j

end

/-- Intervals have no holes. -/
theorem C01_convex (h : IntervalClass o) (i : I) (x y z : D) (hx : In o x i) (hz : In o z i)
    (hy : Between x z y) : In o y i := by
  rcases hy with ⟨h1, h2⟩ | ⟨h1, h2⟩
  · exact h.lawful.convex i x y z hx hz h1 h2
  · exact h.lawful.convex i z y x hz hx h1 h2

-- All classes exist, and the predicates have both answers.
example : IntervalClass Ex.ro ∧ Ex.ro.isEmpty (Ex.r 3 1) = true ∧ Ex.ro.isEmpty (Ex.r 1 3) = false ∧
    Ex.ro.containsI (Ex.r 1 5) (Ex.r 2 3) = true ∧ Ex.ro.containsI (Ex.r 2 3) (Ex.r 1 5) = false :=
  ⟨Ex.ro_cls, by decide⟩
-- `[1,3]`, `(0,4)` and `(0,3]` are equal as `discrete_interval<int>`.
example : Ex.di.eq ⟨1, 3, Bounds.closed⟩ ⟨0, 4, Bounds.opn⟩ = true ∧
    Ex.di.eq ⟨1, 3, Bounds.closed⟩ ⟨0, 3, Bounds.leftOpen⟩ = true := by decide

/-! ## C02: intersection and differences -/

/-- `i & j` holds the common elements. -/
theorem C02_intersection (h : IntervalClass o) (i j : I) (x : D) :
    In o x (o.inter i j) ↔ In o x i ∧ In o x j :=
  h.lawful.mem_inter i j x

/-- `right_subtract(i, j)` holds the elements of `i` below all of `j`. -/
theorem C02_right_subtract (h : IntervalClass o) (i j : I) (x : D) :
    In o x (o.rightSubtract i j) ↔ In o x i ∧ ∀ y, In o y j → x < y :=
  h.lawful.mem_rightSubtract i j x

/-- `left_subtract(i, j)` holds the elements of `i` above all of `j`. -/
theorem C02_left_subtract (h : IntervalClass o) (i j : I) (x : D) :
    In o x (o.leftSubtract i j) ↔ In o x i ∧ ∀ y, In o y j → y < x :=
  h.lawful.mem_leftSubtract i j x

/-- An interval falls into the part below, the common part and the part above. -/
theorem C02_partition (h : IntervalClass o) (i j : I) (hj : ∃ y, In o y j) (x : D) :
    In o x i ↔ In o x (o.rightSubtract i j) ∨ In o x (o.inter i j) ∨ In o x (o.leftSubtract i j) := by
  rw [C02_intersection h, C02_right_subtract h, C02_left_subtract h]
  constructor
  · intro hx
    by_cases h1 : In o x j
    · exact Or.inr (Or.inl ⟨hx, h1⟩)
    · obtain ⟨y, hy⟩ := hj
      rcases lt_trichotomy x y with h2 | h2 | h2
      · refine Or.inl ⟨hx, fun z hz => ?_⟩
        by_contra hc
        exact h1 (C01_convex h j z x y hz hy (Or.inl ⟨not_lt.1 hc, le_of_lt h2⟩))
      · exact absurd (h2 ▸ hy) h1
      · refine Or.inr (Or.inr ⟨hx, fun z hz => ?_⟩)
        by_contra hc
        exact h1 (C01_convex h j y x z hy hz (Or.inl ⟨le_of_lt h2, not_lt.1 hc⟩))
  · rintro (h1 | h1 | h1) <;> exact h1.1

/-- With an empty operand both differences return their first argument. -/
theorem C02_subtract_empty (h : IntervalClass o) (i j : I)
    (he : o.isEmpty i = true ∨ o.isEmpty j = true) :
    o.leftSubtract i j = i ∧ o.rightSubtract i j = i := by
  cases h with
  | rightOpen zero =>
    simp only [rightOpenOps] at he
    rcases he with he | he <;> simp [rightOpenOps, Asym.leftSubtract, Asym.rightSubtract,
      Asym.exclusiveLess, he]
  | leftOpen zero =>
    simp only [leftOpenOps] at he
    rcases he with he | he <;> simp [leftOpenOps, Asym.leftSubtract, Asym.rightSubtract,
      Asym.exclusiveLess, he]
  | closed s zero unit h =>
    simp only [closedOps] at he
    rcases he with he | he <;> simp [closedOps, Closed.leftSubtract, Closed.rightSubtract,
      Closed.exclusiveLess, he]
  | opn s zero =>
    simp only [openOps] at he
    rcases he with he | he <;> simp [openOps, Open.leftSubtract, Open.rightSubtract,
      Open.exclusiveLess, he]
  | discrete s zero =>
    simp only [discreteOps] at he
    rcases he with he | he <;> simp [discreteOps, Dyn.leftSubtract, Dyn.rightSubtract,
      Disc.exclusiveLess, he]
  | continuous zero =>
    simp only [continuousOps] at he
    rcases he with he | he <;> simp [continuousOps, Dyn.leftSubtract, Dyn.rightSubtract,
      Cont.exclusiveLess, he]
  | custom hT h =>
    cases h with
    | rightOpen zero =>
      simp only [Traits.rightOpenOps] at he
      rcases he with he | he <;> simp [Traits.rightOpenOps, Traits.asymLeftSubtract, Traits.asymRightSubtract,
        Asym.exclusiveLess, he]
    | leftOpen zero =>
      simp only [Traits.leftOpenOps] at he
      rcases he with he | he <;> simp [Traits.leftOpenOps, Traits.asymLeftSubtract, Traits.asymRightSubtract,
        Asym.exclusiveLess, he]
    | closed s zero unit hu =>
      simp only [Traits.closedOps] at he
      rcases he with he | he <;> simp [Traits.closedOps, Traits.closedLeftSubtract, Traits.closedRightSubtract,
        Closed.exclusiveLess, he]
    | opn s zero =>
      simp only [Traits.openOps] at he
      rcases he with he | he <;> simp [Traits.openOps, Traits.openLeftSubtract, Traits.openRightSubtract,
        Open.exclusiveLess, he]
  | weak h =>
    cases h with
    | rightOpen zero =>
      simp only [Weak.rightOpenOps] at he
      rcases he with he | he <;> simp [Weak.rightOpenOps, Weak.asymLeftSubtract, Weak.asymRightSubtract,
        Asym.exclusiveLess, he]
    | leftOpen zero =>
      simp only [Weak.leftOpenOps] at he
      rcases he with he | he <;> simp [Weak.leftOpenOps, Weak.asymLeftSubtract, Weak.asymRightSubtract,
        Asym.exclusiveLess, he]
    | closed w zero unit hu =>
      simp only [Weak.closedOps] at he
      rcases he with he | he <;> simp [Weak.closedOps, Weak.closedLeftSubtract, Weak.closedRightSubtract,
        Closed.exclusiveLess, he]
    | opn w zero =>
      simp only [Weak.openOps] at he
      rcases he with he | he <;> simp [Weak.openOps, Weak.openLeftSubtract, Weak.openRightSubtract,
        Open.exclusiveLess, he]
    | discrete s zero =>
      simp only [Weak.discreteOps] at he
      rcases he with he | he <;> simp [Weak.discreteOps, Dyn.leftSubtract, Dyn.rightSubtract,
        Disc.exclusiveLess, he]
    | continuous zero =>
      simp only [Weak.continuousOps] at he
      rcases he with he | he <;> simp [Weak.continuousOps, Dyn.leftSubtract, Dyn.rightSubtract,
        Cont.exclusiveLess, he]

example : Ex.ro.inter (Ex.r 1 5) (Ex.r 3 8) = Ex.r 3 5 ∧
    Ex.ro.rightSubtract (Ex.r 1 5) (Ex.r 3 8) = Ex.r 1 3 ∧
    Ex.ro.leftSubtract (Ex.r 3 8) (Ex.r 1 5) = Ex.r 5 8 := by decide
example : Ex.ro.isEmpty (Ex.r 3 2) = true := by decide

/-! ## C03: hull -/

/-- `hull(i, j)` holds the values that lie between two elements of the union of `i` and `j`. -/
theorem C03_hull (h : IntervalClass o) (i j : I) (x : D) :
    In o x (o.hull i j) ↔
      ∃ a b, (In o a i ∨ In o a j) ∧ (In o b i ∨ In o b j) ∧ Between a b x := by
  rw [In, show (o.contains (o.hull i j) x = true) ↔ _ from h.lawful.mem_hull i j x]
  constructor
  · rintro ⟨a, b, ha, hb, h1⟩; exact ⟨a, b, ha, hb, Or.inl h1⟩
  · rintro ⟨a, b, ha, hb, h1 | h1⟩
    · exact ⟨a, b, ha, hb, h1⟩
    · exact ⟨b, a, hb, ha, h1⟩

/-- `hull(i, j)` is the least non-empty interval that contains both. -/
theorem C03_hull_least (h : IntervalClass o) (i j k : I) (hk : o.isEmpty k = false) :
    o.containsI (o.hull i j) i = true ∧ o.containsI (o.hull i j) j = true ∧
    (o.containsI k i = true → o.containsI k j = true → o.containsI k (o.hull i j) = true) := by
  have key : ∀ m, (∀ x, In o x m → In o x (o.hull i j)) → o.containsI (o.hull i j) m = true := by
    intro m hm
    cases he : o.isEmpty m with
    | true => exact (C01_empty h _ m he).1
    | false =>
      have hne : o.isEmpty (o.hull i j) = false := by
        obtain ⟨x, hx⟩ := (nonempty_iff h.lawful).2 he
        exact (nonempty_iff h.lawful).1 ⟨x, hm x hx⟩
      exact (C01_contains_interval h _ _ hne).2 hm
  refine ⟨key i fun x hx => (C03_hull h i j x).2 ⟨x, x, Or.inl hx, Or.inl hx, Or.inl ⟨le_refl _, le_refl _⟩⟩,
    key j fun x hx => (C03_hull h i j x).2 ⟨x, x, Or.inr hx, Or.inr hx, Or.inl ⟨le_refl _, le_refl _⟩⟩, ?_⟩
  simp only [C01_contains_interval h _ _ hk, C03_hull h]
  rintro h1 h2 x ⟨a, b, ha, hb, hx⟩
  have hka : In o a k := ha.elim (h1 a) (h2 a)
  have hkb : In o b k := hb.elim (h1 b) (h2 b)
  exact C01_convex h k a x b hka hkb hx

/-- `hull(i, j)` is the least interval that contains both, if there is no largest and no smallest value. -/
theorem C03_hull_least_unbounded [NoMaxOrder D] [NoMinOrder D] (h : IntervalClass o) (i j k : I) :
    o.containsI k (o.hull i j) = true ↔ o.containsI k i = true ∧ o.containsI k j = true := by
  simp only [C01_contains_interval_unbounded h, C03_hull h]
  constructor
  · intro h1
    exact ⟨fun x hx => h1 x ⟨x, x, Or.inl hx, Or.inl hx, Or.inl ⟨le_refl _, le_refl _⟩⟩,
      fun x hx => h1 x ⟨x, x, Or.inr hx, Or.inr hx, Or.inl ⟨le_refl _, le_refl _⟩⟩⟩
  · rintro ⟨h1, h2⟩ x ⟨a, b, ha, hb, hx⟩
    have hka : In o a k := ha.elim (h1 a) (h2 a)
    have hkb : In o b k := hb.elim (h1 b) (h2 b)
    exact C01_convex h k a x b hka hkb hx

/-- An empty operand is neutral. -/
theorem C03_hull_empty (h : IntervalClass o) (i j : I) (he : o.isEmpty j = true) :
    o.eq (o.hull i j) i = true ∧ o.eq (o.hull j i) i = true := by
  have hn := (C01_isEmpty h j).1 he
  have key : ∀ x, (∃ a b, (In o a i ∧ In o b i) ∧ Between a b x) ↔ In o x i := by
    intro x
    constructor
    · rintro ⟨a, b, ⟨ha, hb⟩, hx⟩; exact C01_convex h i a x b ha hb hx
    · intro hx; exact ⟨x, x, ⟨hx, hx⟩, Or.inl ⟨le_refl _, le_refl _⟩⟩
  simp only [and_assoc] at key
  have same : SameElems o (o.hull i j) i ∧ SameElems o (o.hull j i) i := by
    simp only [SameElems, C03_hull h, hn, or_false, false_or]
    exact ⟨key, key⟩
  have fin : ∀ k, SameElems o k i → o.eq k i = true := by
    intro k hk
    cases hi : o.isEmpty i with
    | true =>
      have hk' : o.isEmpty k = true :=
        (C01_isEmpty h k).2 fun x hx => (C01_isEmpty h i).1 hi x ((hk x).1 hx)
      exact (C01_empty h k i hi).2 hk'
    | false =>
      obtain ⟨x, hx⟩ := (nonempty_iff h.lawful).2 hi
      exact (C01_eq h k i ((nonempty_iff h.lawful).1 ⟨x, (hk x).2 hx⟩) hi).2 hk
  exact ⟨fin _ same.1, fin _ same.2⟩

example : Ex.ro.hull (Ex.r 1 2) (Ex.r 7 8) = Ex.r 1 8 ∧ Ex.ro.hull (Ex.r 1 2) (Ex.r 9 9) = Ex.r 1 2 := by
  decide

/-! ## C04: relative position -/

/-- `exclusive_less(i, j)`: every element of `i` is less than every element of `j`. -/
theorem C04_exclusive_less (h : IntervalClass o) (i j : I) :
    o.exclusiveLess i j = true ↔ ∀ x y, In o x i → In o y j → x < y :=
  h.lawful.exclusiveLess_iff i j

/-- The comparator of the containers does the same on non-empty intervals. -/
theorem C04_comparator (h : IntervalClass o) (i j : I) (hi : ∃ x, In o x i) (hj : ∃ y, In o y j) :
    o.neLess i j = true ↔ ∀ x y, In o x i → In o y j → x < y :=
  h.lawful.neLess_iff i j hi hj

/-- `touches(i, j)`: additionally no value lies between them; there is a value above `i`. -/
theorem C04_touches (h : IntervalClass o) (i j : I) (hi : ∃ x, In o x i) (hj : ∃ y, In o y j)
    (hz : ∃ z, ∀ x, In o x i → x < z) :
    o.touches i j = true ↔ (∀ x y, In o x i → In o y j → x < y) ∧
      ¬ ∃ z, (∀ x, In o x i → x < z) ∧ ∀ y, In o y j → z < y :=
  h.lawful.touches_below i j hi hj hz

/-- `touches(i, j)`, if there is no largest and no smallest value. -/
theorem C04_touches_unbounded [NoMaxOrder D] [NoMinOrder D] (h : IntervalClass o) (i j : I)
    (hi : ∃ x, In o x i) (hj : ∃ y, In o y j) :
    o.touches i j = true ↔ (∀ x y, In o x i → In o y j → x < y) ∧
      ¬ ∃ z, (∀ x, In o x i → x < z) ∧ ∀ y, In o y j → z < y :=
  h.fully.touches_full i j hi hj

/-- `disjoint(i, j)`: no common element. -/
theorem C04_disjoint (h : IntervalClass o) (i j : I) :
    o.disjointI i j = true ↔ ¬ ∃ x, In o x i ∧ In o x j := by
  simp only [IntervalOps.disjointI, Bool.or_eq_true, C01_isEmpty h, C04_exclusive_less h]
  constructor
  · rintro (((h1 | h1) | h1) | h1) ⟨x, hx, hy⟩
    · exact h1 x hx
    · exact h1 x hy
    · exact lt_irrefl x (h1 x x hx hy)
    · exact lt_irrefl x (h1 x x hy hx)
  · intro hn
    by_cases hi : ∃ a, In o a i
    swap
    · push Not at hi; exact Or.inl (Or.inl (Or.inl hi))
    by_cases hj : ∃ b, In o b j
    swap
    · push Not at hj; exact Or.inl (Or.inl (Or.inr hj))
    obtain ⟨a, ha⟩ := hi
    obtain ⟨b, hb⟩ := hj
    rcases lt_trichotomy a b with hab | hab | hab
    · refine Or.inl (Or.inr fun x y hx hy => ?_)
      by_contra hc
      rw [not_lt] at hc
      rcases le_total x b with h1 | h1
      · exact hn ⟨x, hx, C01_convex h j y x b hy hb (Or.inl ⟨hc, h1⟩)⟩
      · exact hn ⟨b, C01_convex h i a b x ha hx (Or.inl ⟨le_of_lt hab, h1⟩), hb⟩
    · exact absurd ⟨a, ha, hab ▸ hb⟩ hn
    · refine Or.inr fun y x hy hx => ?_
      by_contra hc
      rw [not_lt] at hc
      rcases le_total y a with h1 | h1
      · exact hn ⟨y, C01_convex h i x y a hx ha (Or.inl ⟨hc, h1⟩), hy⟩
      · exact hn ⟨a, ha, C01_convex h j b a y hb hy (Or.inl ⟨le_of_lt hab, h1⟩)⟩

/-- `intersects(i, j)`: a common element. -/
theorem C04_intersects (h : IntervalClass o) (i j : I) :
    o.intersectsI i j = true ↔ ∃ x, In o x i ∧ In o x j := by
  have := C04_disjoint h i j
  rw [show o.intersectsI i j = !o.disjointI i j from rfl, Bool.not_eq_true', ← Bool.not_eq_true, this,
    not_not]

/-- `inner_complement(i, j)` = `between(i, j)`: the values between the two intervals. -/
theorem C04_inner_complement (h : IntervalClass o) (i j : I) (hi : ∃ x, In o x i) (hj : ∃ y, In o y j)
    (z : D) : In o z (o.innerComplement i j) ↔
      ((∀ a, In o a i → a < z) ∧ ∀ b, In o b j → z < b) ∨
      ((∀ b, In o b j → b < z) ∧ ∀ a, In o a i → z < a) := by
  have := h.lawful.mem_innerComplement i j z
  rw [In, show (o.contains (o.innerComplement i j) z = true) ↔ _ from this]
  constructor
  · rintro ⟨_, _, h1⟩; exact h1
  · exact fun h1 => ⟨hi, hj, h1⟩

/-- With an empty operand nothing is between. -/
theorem C04_inner_complement_empty (h : IntervalClass o) (i j : I)
    (he : o.isEmpty i = true ∨ o.isEmpty j = true) (z : D) : ¬ In o z (o.innerComplement i j) := by
  rw [C01_isEmpty h, C01_isEmpty h] at he
  intro hz
  obtain ⟨⟨x, hx⟩, ⟨y, hy⟩, _⟩ := (h.lawful.mem_innerComplement i j z).1 hz
  rcases he with he | he
  · exact he x hx
  · exact he y hy

example : Ex.ro.touches (Ex.r 1 3) (Ex.r 3 5) = true ∧ Ex.ro.touches (Ex.r 1 3) (Ex.r 4 5) = false ∧
    Ex.ro.innerComplement (Ex.r 1 3) (Ex.r 5 6) = Ex.r 3 5 := by decide
-- `[1,2)` and `[2,3]` touch, `[1,2)` and `(2,3]` do not: 2 is between them.
example : Ex.co.touches ⟨1, 2, Bounds.rightOpen⟩ ⟨2, 3, Bounds.closed⟩ = true ∧
    Ex.co.touches ⟨1, 2, Bounds.rightOpen⟩ ⟨2, 3, Bounds.leftOpen⟩ = false := by decide

/-! ## C05: order of intervals -/

/-- The meaning of `i < j`: both are non-empty, and `i` starts before `j`, or both start alike and `i` ends
before `j`. -/
theorem C05_less (h : IntervalClass o) (i j : I) : o.less i j = true ↔
    (∃ x, In o x i) ∧ (∃ y, In o y j) ∧
    ((∃ x, In o x i ∧ ∀ y, In o y j → x < y) ∨
      ((¬ ∃ y, In o y j ∧ ∀ x, In o x i → y < x) ∧ ∃ y, In o y j ∧ ∀ x, In o x i → x < y)) := by
  have hne : ∀ k, o.isEmpty k = false ↔ ∃ x, In o x k := by
    intro k
    rw [← Bool.not_eq_true, C01_isEmpty h]; push Not; rfl
  unfold IntervalOps.less
  simp only [Bool.and_eq_true, Bool.or_eq_true, Bool.not_eq_true', hne]
  constructor
  · rintro ⟨⟨hi, hj⟩, h1⟩
    refine ⟨hi, hj, ?_⟩
    rw [h.lawful.lowerLess_iff i j hi hj, h.lawful.upperLess_iff i j hi hj,
      h.lawful.lowerEqual_iff i j hi hj, ← Bool.not_eq_true, ← Bool.not_eq_true,
      h.lawful.lowerLess_iff j i hj hi] at h1
    rcases h1 with h1 | ⟨⟨_, h1⟩, h2⟩
    · exact Or.inl h1
    · exact Or.inr ⟨h1, h2⟩
  · rintro ⟨hi, hj, h1⟩
    refine ⟨⟨hi, hj⟩, ?_⟩
    rw [h.lawful.lowerLess_iff i j hi hj, h.lawful.upperLess_iff i j hi hj,
      h.lawful.lowerEqual_iff i j hi hj, ← Bool.not_eq_true, ← Bool.not_eq_true,
      h.lawful.lowerLess_iff j i hj hi]
    by_cases h2 : o.lowerLess i j = true
    · exact Or.inl ((h.lawful.lowerLess_iff i j hi hj).1 h2)
    · rcases h1 with h1 | ⟨h1, h3⟩
      · exact Or.inl h1
      · exact Or.inr ⟨⟨h2, h1⟩, h3⟩

/-- `operator <` is irreflexive. -/
theorem C05_irrefl (h : IntervalClass o) (i : I) : o.less i i = false := by
  rw [← Bool.not_eq_true, C05_less h]
  rintro ⟨_, _, ⟨x, hx, h1⟩ | ⟨_, y, hy, h1⟩⟩
  · exact lt_irrefl _ (h1 x hx)
  · exact lt_irrefl _ (h1 y hy)

/-- `operator <` is transitive. -/
theorem C05_trans (h : IntervalClass o) (i j k : I) (h1 : o.less i j = true) (h2 : o.less j k = true) :
    o.less i k = true := by
  rw [C05_less h] at *
  obtain ⟨hi, ⟨b, hb⟩, h1⟩ := h1
  obtain ⟨_, hk, h2⟩ := h2
  refine ⟨hi, hk, ?_⟩
  -- `starts before` as a comparison of lower ends
  rcases h1 with ⟨x, hx, h1⟩ | ⟨h1, y, hy, h1'⟩
  · left
    refine ⟨x, hx, fun z hz => ?_⟩
    rcases h2 with ⟨y, hy, h2⟩ | ⟨h2, _⟩
    · exact lt_trans (h1 y hy) (h2 z hz)
    · push Not at h2
      obtain ⟨y, hy, hyz⟩ := h2 z hz
      exact lt_of_lt_of_le (h1 y hy) hyz
  · rcases h2 with ⟨u, hu, h2⟩ | ⟨h2, z, hz, h2'⟩
    · left
      push Not at h1
      obtain ⟨x, hx, hxu⟩ := h1 u hu
      exact ⟨x, hx, fun z hz => lt_of_le_of_lt hxu (h2 z hz)⟩
    · right
      refine ⟨?_, z, hz, fun x hx => lt_trans (h1' x hx) (h2' y hy)⟩
      rintro ⟨w, hw, hc⟩
      push Not at h2 h1
      obtain ⟨u, hu, huw⟩ := h2 w hw
      obtain ⟨x, hx, hxu⟩ := h1 u hu
      have := hc x hx
      order

/-- Non-empty intervals: neither `i < j` nor `j < i` holds exactly if `i == j`.
Missing for C05: empty intervals, for which it is false, see `C05_empty_counterexample`. -/
theorem C05_incomparable_partial (h : IntervalClass o) (i j : I) (hi : o.isEmpty i = false)
    (hj : o.isEmpty j = false) : (o.less i j = false ∧ o.less j i = false) ↔ o.eq i j = true := by
  have hne : ∀ k, o.isEmpty k = false ↔ ∃ x, In o x k := by
    intro k
    rw [← Bool.not_eq_true, C01_isEmpty h]; push Not; rfl
  have hi' := (hne i).1 hi
  have hj' := (hne j).1 hj
  rw [C01_eq h i j hi hj, ← Bool.not_eq_true, ← Bool.not_eq_true, C05_less h, C05_less h]
  constructor
  · rintro ⟨h1, h2⟩
    simp only [hi', hj', true_and, not_or, not_and] at h1 h2
    obtain ⟨h1, h1'⟩ := h1
    obtain ⟨h2, h2'⟩ := h2
    have h3 := h1' h2
    have h4 := h2' h1
    push Not at h1 h2 h3 h4
    intro x
    constructor
    · intro hx
      obtain ⟨y, hy, hyx⟩ := h1 x hx
      obtain ⟨z, hz, hzx⟩ := h4 x hx
      exact C01_convex h j y x z hy hz (Or.inl ⟨hyx, hzx⟩)
    · intro hx
      obtain ⟨y, hy, hyx⟩ := h2 x hx
      obtain ⟨z, hz, hzx⟩ := h3 x hx
      exact C01_convex h i y x z hy hz (Or.inl ⟨hyx, hzx⟩)
  · intro heq
    constructor
    · rintro ⟨_, _, ⟨x, hx, h1⟩ | ⟨_, y, hy, h1⟩⟩
      · exact lt_irrefl _ (h1 x ((heq x).1 hx))
      · exact lt_irrefl _ (h1 y ((heq y).2 hy))
    · rintro ⟨_, _, ⟨x, hx, h1⟩ | ⟨_, y, hy, h1⟩⟩
      · exact lt_irrefl _ (h1 x ((heq x).2 hx))
      · exact lt_irrefl _ (h1 y ((heq y).1 hy))

/-- With an empty interval incomparability is not `==`, and is not even transitive: an empty interval is
incomparable with every interval. -/
theorem C05_empty_counterexample : ∃ i j k : SItv ℤ,
    (Ex.ro.less i k = false ∧ Ex.ro.less k i = false) ∧ (Ex.ro.less k j = false ∧ Ex.ro.less j k = false) ∧
    Ex.ro.less i j = true ∧ Ex.ro.eq i k = false :=
  ⟨Ex.r 1 2, Ex.r 3 4, Ex.r 0 0, by decide⟩

/-- For all classes: an empty interval is incomparable with every interval. -/
theorem C05_empty_incomparable (_ : IntervalClass o) (i j : I) (hi : o.isEmpty i = true) :
    o.less i j = false ∧ o.less j i = false := by
  simp [IntervalOps.less, hi]

/-- For all intervals: neither `i < j` nor `j < i` holds exactly if `i == j` or one of them is empty. -/
theorem C05_incomparable_all (h : IntervalClass o) (i j : I) :
    (o.less i j = false ∧ o.less j i = false) ↔ o.eq i j = true ∨ o.isEmpty i = true ∨ o.isEmpty j = true := by
  cases hi : o.isEmpty i with
  | true => exact iff_of_true (C05_empty_incomparable h i j hi) (.inr (.inl rfl))
  | false =>
    cases hj : o.isEmpty j with
    | true => exact iff_of_true (C05_empty_incomparable h j i hj).symm (.inr (.inr rfl))
    | false => simpa using C05_incomparable_partial h i j hi hj

/-- So, over domains without a largest and a smallest value, the claim of C05 holds for two intervals exactly if both
of them are empty or neither is. -/
theorem C05_incomparable_exact [NoMaxOrder D] [NoMinOrder D] (h : IntervalClass o) (i j : I) :
    ((o.less i j = false ∧ o.less j i = false) ↔ o.eq i j = true) ↔ (o.isEmpty i = true ↔ o.isEmpty j = true) := by
  rw [C05_incomparable_all h]
  have key : o.eq i j = true → (o.isEmpty i = true ↔ o.isEmpty j = true) := by
    intro he
    have hs := (C01_eq_unbounded h i j).1 he
    rw [C01_isEmpty h, C01_isEmpty h]
    exact forall_congr' fun x => not_congr (hs x)
  have both : o.isEmpty i = true → o.isEmpty j = true → o.eq i j = true := fun a b => by simp [IntervalOps.eq, a, b]
  constructor
  · intro hh
    exact ⟨fun a => (key (hh.1 (.inr (.inl a)))).1 a, fun a => (key (hh.1 (.inr (.inr a)))).2 a⟩
  · intro hh
    refine ⟨?_, Or.inl⟩
    rintro (a | a | a)
    · exact a
    · exact both a (hh.1 a)
    · exact both (hh.2 a) a

example : (Ex.ro.less (Ex.r 1 2) (Ex.r 0 0) = false ∧ Ex.ro.less (Ex.r 0 0) (Ex.r 1 2) = false) ∧
    Ex.ro.eq (Ex.r 1 2) (Ex.r 0 0) = false ∧ Ex.ro.eq (Ex.r 3 1) (Ex.r 0 0) = true := by decide

/-- `operator <=` on non-empty intervals is `<` or `==`. -/
theorem C05_lessEq (h : IntervalClass o) (i j : I) (hi : o.isEmpty i = false)
    (hj : o.isEmpty j = false) : o.lessEq i j = true ↔ o.less i j = true ∨ o.eq i j = true := by
  have h1 := C05_incomparable_partial h i j hi hj
  have h2 : ¬ (o.less i j = true ∧ o.less j i = true) := by
    rintro ⟨a, b⟩
    have := C05_trans h i j i a b
    rw [C05_irrefl h] at this; cases this
  unfold IntervalOps.lessEq IntervalOps.greater
  rw [hi, hj, ← h1]
  revert h2
  cases o.less i j <;> cases o.less j i <;> simp

/-- `operator >=` is `<=` with the operands exchanged, on all intervals; on non-empty ones it is `>` or `==`. -/
theorem C05_greaterEq (h : IntervalClass o) (i j : I) : o.greaterEq i j = o.lessEq j i ∧
    (o.isEmpty i = false → o.isEmpty j = false →
      (o.greaterEq i j = true ↔ o.greater i j = true ∨ o.eq i j = true)) := by
  have e : o.greaterEq i j = o.lessEq j i := by
    unfold IntervalOps.greaterEq IntervalOps.lessEq IntervalOps.greater
    rw [Bool.or_comm]
  refine ⟨e, fun hi hj => ?_⟩
  have hs : o.eq j i = true ↔ o.eq i j = true := by
    rw [C01_eq h i j hi hj, C01_eq h j i hj hi]
    exact forall_congr' fun x => Iff.comm
  rw [e, C05_lessEq h j i hj hi, hs]; rfl

/-- `<=` and `>=` are false as soon as one of the intervals is empty, also between an interval and itself. -/
theorem C05_lessEq_empty (_ : IntervalClass o) (i j : I) (hi : o.isEmpty i = true ∨ o.isEmpty j = true) :
    o.lessEq i j = false ∧ o.greaterEq i j = false := by
  rcases hi with hi | hi <;> simp [IntervalOps.lessEq, IntervalOps.greaterEq, hi]

example : Ex.ro.less (Ex.r 1 2) (Ex.r 1 3) = true ∧ Ex.ro.less (Ex.r 1 3) (Ex.r 2 3) = true ∧
    Ex.ro.isEmpty (Ex.r 1 2) = false := by decide

/-! ## Descending domains

With `Compare = std::greater` the domain is the dual order.  All theorems above apply to it, except for
`closed_interval`, whose default constructor then makes a non-empty interval. -/

/-- `closed_interval<int, std::greater>()` is `[1, 0]` (closed_interval.hpp:37-43), which is not empty. -/
theorem C01_closed_greater_counterexample :
    let o := closedOps (D := ℤᵒᵈ) stepsInt.dual (OrderDual.toDual 0) (OrderDual.toDual 1)
    o.isEmpty o.empty = false ∧ In o (OrderDual.toDual 0) o.empty :=
  ⟨by decide, (C01_in_discrete stepsInt.dual (OrderDual.toDual (0 : ℤ)) (OrderDual.toDual 1) _ _ _).1.2 (by decide)⟩

/-- Consequently the intersection of the empty interval `[2, 3]` with `[9, 5]` is `[1, 0]`. -/
theorem C02_closed_greater_counterexample :
    let o := closedOps (D := ℤᵒᵈ) stepsInt.dual (OrderDual.toDual 0) (OrderDual.toDual 1)
    ∃ i j, o.isEmpty i = true ∧ o.isEmpty (o.inter i j) = false :=
  ⟨⟨OrderDual.toDual 2, OrderDual.toDual 3⟩, ⟨OrderDual.toDual 9, OrderDual.toDual 5⟩, by decide⟩

example : IntervalClass (openOps (D := ℤᵒᵈ) stepsInt.dual (OrderDual.toDual 0)) := .opn _ _

/-! ## C36: intervals of elements -/

variable {e : ElementOps D I}

/-- `singleton(x)` contains `x` only, unless it is empty. -/
theorem C36_singleton (h : DiscreteClass o e) (x y : D) (hx : o.isEmpty (e.singleton x) = false) :
    In o y (e.singleton x) ↔ y = x :=
  h.mem_singleton hx y

/-- `singleton(x)` is not empty if `x` is neither the largest nor the smallest value. -/
theorem C36_singleton_exists (h : DiscreteClass o e) (x : D) (h1 : ∃ y, y < x) (h2 : ∃ z, x < z) :
    o.isEmpty (e.singleton x) = false := by
  obtain ⟨y, hy⟩ := h1
  obtain ⟨z, hz⟩ := h2
  exact h.singleton_nonempty hy hz

/-- `singleton(x)` of `continuous_interval` contains `x` only. -/
theorem C36_singleton_continuous [DenselyOrdered D] [NoMaxOrder D] [NoMinOrder D] (zero x y : D) :
    In (continuousOps zero) y (dynSingleton x) ↔ y = x :=
  mem_dynSingleton x y

/-- `unit_trail(x)` contains `x` only, unless it is empty. -/
theorem C36_unit_trail (h : DiscreteClass o e) (x y : D) (hx : o.isEmpty (e.unitTrail x) = false) :
    In o y (e.unitTrail x) ↔ y = x :=
  h.mem_unitTrail hx y

/-- `hull(a, b)` of two elements contains exactly the values between them, if both have one-element
intervals. -/
theorem C36_hull_elements (h : DiscreteClass o e) (a b x : D) (ha : o.isEmpty (e.singleton a) = false)
    (hb : o.isEmpty (e.singleton b) = false) :
    In o x (e.hullE a b) ↔ Between a b x := by
  rw [In, show (o.contains (e.hullE a b) x = true) ↔ _ from h.mem_hullE ha hb x]
  unfold Between
  rcases le_total a b with hab | hab
  · rw [min_eq_left hab, max_eq_right hab]
    constructor
    · exact Or.inl
    · rintro (h1 | ⟨h1, h2⟩)
      · exact h1
      · exact ⟨le_trans hab h1, le_trans h2 hab⟩
  · rw [min_eq_right hab, max_eq_left hab]
    constructor
    · exact Or.inr
    · rintro (⟨h1, h2⟩ | h1)
      · exact ⟨le_trans hab h1, le_trans h2 hab⟩
      · exact h1

/-- `first(i)` is the least and `last(i)` the greatest element of a non-empty interval. -/
theorem C36_first_last (h : DiscreteClass o e) (i : I) (hi : o.isEmpty i = false) :
    (In o (e.first i) i ∧ ∀ x, In o x i → e.first i ≤ x) ∧
    (In o (e.last i) i ∧ ∀ x, In o x i → x ≤ e.last i) := by
  have hm : ∀ x, In o x i ↔ e.first i ≤ x ∧ x ≤ e.last i := fun x =>
    h.mem_iff ((nonempty_iff h.cls.lawful).2 hi) x
  have hne : ∃ x, In o x i := by
    by_contra hc
    push Not at hc
    rw [(C01_isEmpty h.cls i).2 hc] at hi; cases hi
  obtain ⟨x, hx⟩ := hne
  have := (hm x).1 hx
  refine ⟨⟨(hm _).2 ⟨le_refl _, le_trans this.1 this.2⟩, fun y hy => ((hm y).1 hy).1⟩,
    ⟨(hm _).2 ⟨le_trans this.1 this.2, le_refl _⟩, fun y hy => ((hm y).1 hy).2⟩⟩

/-- `last_next(i)` is the least value above `last(i)`, if there is one. -/
theorem C36_last_next (h : DiscreteClass o e) (i : I) (hi : o.isEmpty i = false) (hz : ∃ z, e.last i < z) :
    e.last i < e.lastNext i ∧ ∀ x, e.last i < x → e.lastNext i ≤ x := by
  obtain ⟨z, hz⟩ := hz
  have := h.lastNext_eq ((nonempty_iff h.cls.lawful).2 hi) hz
  refine ⟨(this _).2 (le_refl _), fun x hx => ?_⟩
  by_contra hc
  exact absurd ((this x).1 (not_le.1 hc)) (not_le.2 hx)

/-- `construct<IntervalT>(a, b)` contains the values from `a` to `b` with the bounds of the interval class. -/
theorem C36_construct (s : Steps D) (zero unit : D) (a b x : D) :
    (In (rightOpenOps zero) x (construct a b) ↔ a ≤ x ∧ x < b) ∧
    (In (leftOpenOps zero) x (construct a b) ↔ a < x ∧ x ≤ b) ∧
    (In (closedOps s zero unit) x (construct a b) ↔ a ≤ x ∧ x ≤ b) ∧
    (In (openOps s zero) x (construct a b) ↔ a < x ∧ x < b) := by
  simp [In, construct, rightOpenOps, leftOpenOps, closedOps, openOps]

/-- `construct<IntervalT>(a, b, bounds)` for dynamic bounds, which are right-open if not given. -/
theorem C36_construct_dynamic (s : Steps D) (zero a b x : D) (bnd : Bounds) :
    let P := (if bnd.isLeftClosed then a ≤ x else a < x) ∧ (if bnd.isRightClosed then x ≤ b else x < b)
    (In (discreteOps s zero) x (constructD a b bnd) ↔ P) ∧ (In (continuousOps zero) x (constructD a b bnd) ↔ P) ∧
    (constructD a b : DItv D) = constructD a b Bounds.rightOpen := by
  obtain ⟨_ | _, _ | _⟩ := bnd <;>
    simp [In, constructD, discreteOps, continuousOps, Dyn.contains, Bounds.isLeftClosed, Bounds.isRightClosed]

/-- `span<IntervalT>(a, b)` is what `construct` makes of the smaller and the larger of both: in particular it does not depend
on the order of its arguments, and unlike `hull(a, b)` it contains the bounds only as far as the interval class does. -/
theorem C36_span (s : Steps D) (zero unit : D) (a b x : D) :
    (In (rightOpenOps zero) x (spanS a b) ↔ min a b ≤ x ∧ x < max a b) ∧
    (In (leftOpenOps zero) x (spanS a b) ↔ min a b < x ∧ x ≤ max a b) ∧
    (In (closedOps s zero unit) x (spanS a b) ↔ min a b ≤ x ∧ x ≤ max a b) ∧
    (In (openOps s zero) x (spanS a b) ↔ min a b < x ∧ x < max a b) ∧
    (In (discreteOps s zero) x (spanD a b) ↔ min a b ≤ x ∧ x < max a b) ∧
    (In (continuousOps zero) x (spanD a b) ↔ min a b ≤ x ∧ x < max a b) := by
  have hs : spanS a b = construct (min a b) (max a b) := by
    unfold spanS
    split_ifs with hab
    · rw [min_eq_left hab.le, max_eq_right hab.le]
    · rw [min_eq_right (not_lt.1 hab), max_eq_left (not_lt.1 hab)]
  have hd : spanD a b = constructD (min a b) (max a b) Bounds.rightOpen := by
    unfold spanD
    split_ifs with hab
    · rw [min_eq_left hab.le, max_eq_right hab.le]
    · rw [min_eq_right (not_lt.1 hab), max_eq_left (not_lt.1 hab)]
  obtain ⟨h1, h2, h3, h4⟩ := C36_construct s zero unit (min a b) (max a b) x
  obtain ⟨h5, h6, -⟩ := C36_construct_dynamic s zero (min a b) (max a b) x Bounds.rightOpen
  rw [hs, hd]
  refine ⟨h1, h2, h3, h4, ?_, ?_⟩
  · simpa [Bounds.isLeftClosed, Bounds.isRightClosed, Bounds.rightOpen] using h5
  · simpa [Bounds.isLeftClosed, Bounds.isRightClosed, Bounds.rightOpen] using h6

/-- `span(7, 3)` of right-open intervals is `[3, 7)`, their `hull(7, 3)` is `[3, 8)`. -/
example : spanS (7 : ℤ) 3 = Ex.r 3 7 ∧ Ex.roE.hullE 7 3 = Ex.r 3 8 := by decide

/-- `interval<D>::right_open(a,b)`, `closed(a,b)`, `left_open(a,b)` and `open(a,b)`, represented with
static right-open, closed, left-open or open bounds, contain what their name says, if `a` and `b` are
neither the largest nor the smallest value. -/
theorem C36_static_construct (s : Steps D) (zero unit : D) (decl : Bounds) (a b x : D)
    (ha : (∃ y, y < a) ∧ ∃ z, a < z) (hb : (∃ y, y < b) ∧ ∃ z, b < z) :
    let P := (if decl.isLeftClosed then a ≤ x else a < x) ∧ (if decl.isRightClosed then x ≤ b else x < b)
    let C := fun repr => staticConstruct s.nx s.pr decl repr a b
    (In (rightOpenOps zero) x (C Bounds.rightOpen) ↔ P) ∧
    (In (leftOpenOps zero) x (C Bounds.leftOpen) ↔ P) ∧
    (In (closedOps s zero unit) x (C Bounds.closed) ↔ P) ∧
    (In (openOps s zero) x (C Bounds.opn) ↔ P) := by
  intro P C
  obtain ⟨⟨_, ha1⟩, _, ha2⟩ := ha
  obtain ⟨⟨_, hb1⟩, _, hb2⟩ := hb
  obtain ⟨_ | _, _ | _⟩ := decl <;>
    simp [P, C, In, staticConstruct, shiftLower, shiftUpper, rightOpenOps, leftOpenOps, closedOps,
      openOps, Bounds.isLeftClosed, Bounds.isRightClosed, Bounds.rightOpen, Bounds.leftOpen,
      Bounds.closed, Bounds.opn, s.nx_le_iff ha2, s.pr_lt_iff ha1, s.lt_nx_iff hb2, s.le_pr_iff hb1]

/-- With `Compare = std::greater`, `++` and `--` are not the successor and predecessor of the order:
`interval<int, std::greater>::closed(3, 1)` represented as right-open is `[3, 2)`, which lacks 1. -/
theorem C36_static_construct_greater_counterexample :
    let i := staticConstruct (fun x : ℤ => x + 1) (fun x => x - 1) Bounds.closed Bounds.rightOpen 3 1
    i = ⟨3, 2⟩ ∧ ¬ In (rightOpenOps (D := ℤᵒᵈ) (OrderDual.toDual 0)) (OrderDual.toDual 1)
      ⟨OrderDual.toDual i.lo, OrderDual.toDual i.up⟩ := by
  refine ⟨by decide, ?_⟩
  rw [C01_contains_right_open]
  rintro ⟨_, h⟩
  exact absurd (OrderDual.toDual_lt_toDual.1 h) (by decide)

example : DiscreteClass Ex.ro Ex.roE ∧ Ex.ro.isEmpty (Ex.r 2 5) = false ∧ Ex.roE.last (Ex.r 2 5) = 4 ∧
    Ex.roE.hullE 7 3 = Ex.r 3 8 := ⟨Ex.ro_disc, by decide⟩

end ICL.Props
