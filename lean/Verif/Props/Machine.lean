import Verif.Theory.Machine
import Verif.Theory.SetHistory
import Verif.Spec
import Verif.Props.Sets
import Verif.Props.Examples

/-!
# C32: integers with a least and a greatest value

`CheckedClass o e c ec` ranges over the interval classes with discrete domains, with any linearly ordered domain, any
`++` and any `--` (`Steps`): of these only their values on domain values that are not the greatest or the least one are
known.  `c` and `ec` are the interval functions with the outcome `none` if `++` is applied to the greatest value,
`--` to the least value, or if an assertion about the least value fails.  `In o x i` is membership between the bounds.

The theorems on containers range over the same classes; their functions call `touches` with checks, so the theorems that
say that no operation fails (C06, C11, C15, ...) say also that no operation overflows.
-/

set_option linter.unusedSectionVars false

namespace ICL.Props
open Spec

section
variable {D I : Type} [LinearOrder D] {o : IntervalOps D I} {e : ElementOps D I} {c : CheckedOps I}
  {ec : CheckedElementOps D I}

/-- The greatest value of the domain is in `i`. -/
def HasGreatest (o : IntervalOps D I) (i : I) : Prop := ∃ x, In o x i ∧ ∀ y, y ≤ x

/-! ## Intervals -/

/-- `is_empty`, `exclusive_less`, `hull`, `left_subtract`, `right_subtract`, `&`, `inner_complement`, `intersects` and `disjoint`
never overflow, and their results are the mathematical ones, for all operands. -/
theorem C32_interval (h : CheckedClass o e c ec) (i j : I) :
    (∃ b, c.isEmpty i = some b ∧ (b = true ↔ ∀ x, ¬ In o x i)) ∧
    (∃ b, c.exclusiveLess i j = some b ∧ (b = true ↔ ∀ x y, In o x i → In o y j → x < y)) ∧
    (∃ r, c.hull i j = some r ∧
      ∀ x, In o x r ↔ ∃ a b, (In o a i ∨ In o a j) ∧ (In o b i ∨ In o b j) ∧ a ≤ x ∧ x ≤ b) ∧
    (∃ r, c.leftSubtract i j = some r ∧ ∀ x, In o x r ↔ In o x i ∧ ∀ y, In o y j → y < x) ∧
    (∃ r, c.rightSubtract i j = some r ∧ ∀ x, In o x r ↔ In o x i ∧ ∀ y, In o y j → x < y) ∧
    (∃ r, c.inter i j = some r ∧ ∀ x, In o x r ↔ In o x i ∧ In o x j) ∧
    (∃ r, c.innerComplement i j = some r ∧ ∀ x, In o x r ↔ (∃ a, In o a i) ∧ (∃ b, In o b j) ∧
      (((∀ a, In o a i → a < x) ∧ ∀ b, In o b j → x < b) ∨ ((∀ b, In o b j → b < x) ∧ ∀ a, In o a i → x < a))) ∧
    (∃ b, c.intersectsI i j = some b ∧ (b = true ↔ ∃ x, In o x i ∧ In o x j)) ∧
    (∃ b, c.disjointI i j = some b ∧ (b = true ↔ ¬ ∃ x, In o x i ∧ In o x j)) := by
  have r := h.refines
  have l := h.disc.cls.lawful
  have hd : o.disjointI i j = true ↔ ¬ ∃ x, In o x i ∧ In o x j := by
    simp only [IntervalOps.disjointI, Bool.or_eq_true, l.isEmpty_iff, l.exclusiveLess_iff]
    constructor
    · rintro (((h1 | h1) | h1) | h1) ⟨x, hx, hy⟩
      · exact h1 x hx
      · exact h1 x hy
      · exact lt_irrefl _ (h1 x x hx hy)
      · exact lt_irrefl _ (h1 x x hy hx)
    · intro hn
      by_contra hc
      push Not at hc
      obtain ⟨⟨⟨⟨a, ha⟩, ⟨b, hb⟩⟩, h3⟩, h4⟩ := hc
      unfold IntervalOps.Before at h3 h4
      push Not at h3 h4
      obtain ⟨x, y, hx, hy, hxy⟩ := h3
      obtain ⟨z, w, hz, hw, hzw⟩ := h4
      rcases le_total y w with hyw | hyw
      · rcases le_total w x with hwx | hwx
        · exact hn ⟨w, hw, l.convex j y w z hy hz hyw hzw⟩
        · exact hn ⟨x, hx, l.convex j y x z hy hz hxy (le_trans hwx hzw)⟩
      · exact hn ⟨y, l.convex i w y x hw hx hyw hxy, hy⟩
  refine ⟨⟨_, r.isEmpty i, l.isEmpty_iff i⟩, ⟨_, r.exclusiveLess i j, l.exclusiveLess_iff i j⟩, ⟨_, r.hull i j, l.mem_hull i j⟩,
    ⟨_, r.leftSubtract i j, l.mem_leftSubtract i j⟩, ⟨_, r.rightSubtract i j, l.mem_rightSubtract i j⟩,
    ⟨_, r.inter i j, l.mem_inter i j⟩, ⟨_, r.innerComplement i j, l.mem_innerComplement i j⟩,
    ⟨_, r.intersectsI_eq i j, ?_⟩, ⟨_, r.disjointI_eq i j, hd⟩⟩
  rw [show o.intersectsI i j = !(o.disjointI i j) from rfl, Bool.not_eq_true', ← Bool.not_eq_true, hd, not_not]

/-- `<` and `<=` of intervals never overflow: neither of them looks at the ends of empty intervals.
(For what they compute see C05.) -/
theorem C32_order (h : CheckedClass o e c ec) (i j : I) :
    c.less i j = some (o.less i j) ∧ c.lessEq i j = some (o.lessEq i j) :=
  ⟨h.refines.less_eq i j, h.refines.lessEq_eq i j⟩

/-- `contains(interval, interval)`, `==`, the comparator of the containers (`non_empty::exclusive_less`), `first`, `last` and
`contains(interval, element)` do not overflow if their operands are non-empty, and their results are the mathematical ones. -/
theorem C32_nonempty (h : CheckedClass o e c ec) {i : I} (hi : ∃ x, In o x i) :
    (∀ j, ∃ b, c.containsI i j = some b ∧ (b = true ↔ ∀ x, In o x j → In o x i)) ∧
    (∀ j, (∃ x, In o x j) → ∃ b, c.eq i j = some b ∧ (b = true ↔ ∀ x, In o x i ↔ In o x j)) ∧
    (∀ j, (∃ x, In o x j) → ∃ b, c.neLess i j = some b ∧ (b = true ↔ ∀ x y, In o x i → In o y j → x < y)) ∧
    (∃ f l, ec.first i = some f ∧ ec.last i = some l ∧ ∀ x, In o x i ↔ f ≤ x ∧ x ≤ l) ∧
    (∀ x, ∃ b, ec.contains i x = some b ∧ (b = true ↔ In o x i)) := by
  have r := h.refines
  have l := h.disc.cls.lawful
  have ne : ∀ {j : I}, (∃ x, In o x j) → o.isEmpty j = false := by
    rintro j ⟨x, hx⟩
    rw [← Bool.not_eq_true, l.isEmpty_iff]
    exact fun hc => hc x hx
  refine ⟨fun j => ⟨_, r.containsI_eq (ne hi) j, l.containsI_iff i j hi⟩,
    fun j hj => ⟨_, r.eq_eq (by rw [ne hi, ne hj]), l.eq_iff i j hi hj⟩,
    fun j hj => ⟨_, r.neLess i j (ne hi) (ne hj), l.neLess_iff i j hi hj⟩,
    ⟨_, _, (h.ends hi).1, (h.ends hi).2, h.disc.mem_iff hi⟩, fun x => ⟨_, h.contains_eq hi x, h.disc.contains_eq hi x⟩⟩

/-- `touches(i, j)` of non-empty intervals does not overflow if the greatest value is not in `i`, and then is true exactly if
`i` is before `j` and no value is between them. -/
theorem C32_touches (h : CheckedClass o e c ec) {i j : I} (hi : ∃ x, In o x i) (hj : ∃ x, In o x j)
    (hg : ¬ HasGreatest o i) :
    ∃ b, c.touches i j = some b ∧ (b = true ↔ (∀ x y, In o x i → In o y j → x < y) ∧
      ¬ ∃ z, (∀ x, In o x i → x < z) ∧ ∀ y, In o y j → z < y) := by
  have l := h.disc.cls.lawful
  have hm := h.disc.mem_iff hi
  have hz : ∃ z, ∀ x, o.Mem x i → x < z := by
    have hle : e.first i ≤ e.last i := by
      obtain ⟨x, hx⟩ := hi
      exact le_trans ((hm x).1 hx).1 ((hm x).1 hx).2
    by_contra hc
    push Not at hc
    refine hg ⟨e.last i, (hm _).2 ⟨hle, le_refl _⟩, fun y => ?_⟩
    obtain ⟨x, hx, hy⟩ := hc y
    exact le_trans hy ((hm x).1 hx).2
  exact ⟨_, (h.refines.touches i j).trans (l.touchesC_eq i j hi hj hz), l.touches_below i j hi hj hz⟩

/-- `touches(i, j)` of closed intervals overflows if the greatest value is in `i`. -/
theorem C32_touches_overflow_closed (s : Steps D) (zero unit : D) (i j : SItv D)
    (hg : HasGreatest (closedOps s zero unit) i) : (closedChecked s zero unit).touches i j = none := by
  obtain ⟨x, hx, hm⟩ := hg
  have hx' : i.lo ≤ x ∧ x ≤ i.up := by simpa [In, closedOps] using hx
  show Closed.touchesC s i j = none
  rw [Closed.touchesC, s.next_none.2 fun y => le_trans (hm y) hx'.2]
  rfl

/-- `touches(i, j)` of discrete intervals overflows if the greatest value is in `i`. -/
theorem C32_touches_overflow_discrete (s : Steps D) (zero : D) (i j : DItv D)
    (hg : HasGreatest (discreteOps s zero) i) : (discreteChecked s zero).touches i j = none := by
  obtain ⟨x, hx, hm⟩ := hg
  have hx' := (Dyn.contains_iff _ _).1 hx
  show Disc.touchesC s i j = none
  rw [Disc.touchesC, Disc.lastC_eq s hx'.2]
  have h1 := (Disc.up_last s hx'.2 x).1 hx'.2
  rw [show (do
      let a ← some (Disc.last s i)
      let n ← s.next a
      let b ← Disc.firstC s j
      return decide (n = b)) = ((s.next (Disc.last s i)).bind fun n => (Disc.firstC s j).bind fun b =>
        some (decide (n = b))) from rfl, s.next_none.2 fun y => le_trans (hm y) h1]
  rfl

/-- `touches(i, j)` of right open and of left open intervals never overflows. -/
theorem C32_touches_half_open (zero : D) (i j : SItv D) :
    (∃ b, (asymChecked (rightOpenOps zero)).touches i j = some b) ∧
    (∃ b, (asymChecked (leftOpenOps zero)).touches i j = some b) := ⟨⟨_, rfl⟩, ⟨_, rfl⟩⟩

/-- `last_next(i)` of a non-empty interval overflows exactly if the greatest value is in `i`; otherwise it is the value
after the last element. -/
theorem C32_last_next (h : CheckedClass o e c ec) {i : I} (hi : ∃ x, In o x i) :
    (HasGreatest o i → ec.lastNext i = none) ∧
    (¬ HasGreatest o i → ∃ n, ec.lastNext i = some n ∧ ¬ In o n i ∧
      ∀ x, x < n ↔ ∃ y, In o y i ∧ x ≤ y) := by
  have hm := h.disc.mem_iff hi
  have hle : e.first i ≤ e.last i := by
    obtain ⟨x, hx⟩ := hi
    exact le_trans ((hm x).1 hx).1 ((hm x).1 hx).2
  have hl : In o (e.last i) i := (hm _).2 ⟨hle, le_refl _⟩
  constructor
  · rintro ⟨x, hx, hg⟩
    exact h.lastNext_none hi fun y => le_trans (hg y) ((hm x).1 hx).2
  · intro hg
    have hz : ∃ z, e.last i < z := by
      by_contra hc
      push Not at hc
      exact hg ⟨_, hl, hc⟩
    obtain ⟨z, hz⟩ := hz
    have hn := h.disc.lastNext_eq hi hz
    refine ⟨_, h.lastNext_some hi hz, fun hc => ?_, fun x => ?_⟩
    · exact lt_irrefl _ ((hn _).2 ((hm _).1 hc).2)
    · rw [hn]
      constructor
      · exact fun hx => ⟨_, hl, hx⟩
      · rintro ⟨y, hy, hxy⟩
        exact le_trans hxy ((hm y).1 hy).2

/-! ## Intervals from elements -/

/-- If `singleton(x)` does not overflow then its only element is `x`; the same for `unit_trail(x)`. -/
theorem C32_singleton (h : CheckedClass o e c ec) {x : D} {i : I}
    (hi : ec.singleton x = some i ∨ ec.unitTrail x = some i) (y : D) : In o y i ↔ y = x := by
  have hu : ec.unitTrail = ec.singleton := by cases h <;> rfl
  rw [hu, or_self] at hi
  exact (h.singleton_mem hi).2 y

/-- Where `singleton(x)` overflows or asserts: for the greatest value (right open), the least value (left open), both (open),
never (closed intervals and discrete intervals). -/
theorem C32_singleton_overflow (s : Steps D) (x : D) :
    ((rightOpenEC s).singleton x = none ↔ ∀ y, y ≤ x) ∧
    ((leftOpenEC s).singleton x = none ↔ ∀ y, x ≤ y) ∧
    ((openEC s).singleton x = none ↔ (∀ y, y ≤ x) ∨ (∀ y, x ≤ y)) ∧
    (closedEC s).singleton x ≠ none ∧ (discreteEC s).singleton x ≠ none := by
  refine ⟨?_, ?_, ?_, fun h => (by cases h), fun h => (by cases h)⟩
  · rw [← s.next_none]; exact Option.map_eq_none_iff
  · rw [← s.prior_none]; exact Option.map_eq_none_iff
  · rw [← s.next_none, ← s.prior_none]
    show callC SItv.mk (s.prior x) (s.next x) = none ↔ _
    cases s.prior x <;> cases s.next x <;> simp [callC]

/-- If `hull(a, b)` of two elements does not overflow then it has the elements between them. -/
theorem C32_hull_elements (h : CheckedClass o e c ec) {a b : D} {r : I} (hr : ec.hullE a b = some r) (x : D) :
    In o x r ↔ Between a b x := by
  have hB : Between a b x ↔ if a < b then a ≤ x ∧ x ≤ b else b ≤ x ∧ x ≤ a := by
    unfold Between
    by_cases hab : a < b
    · rw [if_pos hab]
      constructor
      · rintro (h1 | ⟨h1, h2⟩)
        · exact h1
        · exact absurd (le_trans h1 h2) (not_le.2 hab)
      · exact Or.inl
    · rw [if_neg hab]
      constructor
      · rintro (⟨h1, h2⟩ | h1)
        · have := not_lt.1 hab
          exact ⟨le_trans this h1, le_trans h2 this⟩
        · exact h1
      · exact Or.inr
  rw [hB]
  cases h with
  | rightOpen s zero =>
    have hr' : (if a < b then (s.next b).map fun n => (⟨a, n⟩ : SItv D) else (s.next a).map fun n => ⟨b, n⟩) = some r := hr
    by_cases hab : a < b
    · rw [if_pos hab] at hr' ⊢
      obtain ⟨n, hn, rfl⟩ := Option.map_eq_some_iff.1 hr'
      obtain ⟨rfl, hlt⟩ := s.next_some hn
      simp [In, rightOpenOps, s.lt_nx_iff hlt]
    · rw [if_neg hab] at hr' ⊢
      obtain ⟨n, hn, rfl⟩ := Option.map_eq_some_iff.1 hr'
      obtain ⟨rfl, hlt⟩ := s.next_some hn
      simp [In, rightOpenOps, s.lt_nx_iff hlt]
  | leftOpen s zero =>
    have hr' : (if a < b then (s.prior a).map fun p => (⟨p, b⟩ : SItv D) else (s.prior b).map fun p => ⟨p, a⟩) = some r := hr
    by_cases hab : a < b
    · rw [if_pos hab] at hr' ⊢
      obtain ⟨n, hn, rfl⟩ := Option.map_eq_some_iff.1 hr'
      obtain ⟨rfl, hlt⟩ := s.prior_some hn
      simp [In, leftOpenOps, s.pr_lt_iff hlt]
    · rw [if_neg hab] at hr' ⊢
      obtain ⟨n, hn, rfl⟩ := Option.map_eq_some_iff.1 hr'
      obtain ⟨rfl, hlt⟩ := s.prior_some hn
      simp [In, leftOpenOps, s.pr_lt_iff hlt]
  | closed s zero unit h =>
    obtain rfl : (if a < b then (⟨a, b⟩ : SItv D) else ⟨b, a⟩) = r := Option.some.inj hr
    by_cases hab : a < b <;> simp [In, closedOps, hab]
  | opn s zero =>
    have hr' : (if a < b then callC SItv.mk (s.prior a) (s.next b) else callC SItv.mk (s.prior b) (s.next a)) = some r := hr
    by_cases hab : a < b
    · rw [if_pos hab] at hr' ⊢
      obtain ⟨p, n, hp, hn, rfl⟩ := callC_eq_some hr'
      obtain ⟨rfl, hlt⟩ := s.next_some hn
      obtain ⟨rfl, hlt'⟩ := s.prior_some hp
      simp [In, openOps, s.pr_lt_iff hlt', s.lt_nx_iff hlt]
    · rw [if_neg hab] at hr' ⊢
      obtain ⟨p, n, hp, hn, rfl⟩ := callC_eq_some hr'
      obtain ⟨rfl, hlt⟩ := s.next_some hn
      obtain ⟨rfl, hlt'⟩ := s.prior_some hp
      simp [In, openOps, s.pr_lt_iff hlt', s.lt_nx_iff hlt]
  | discrete s zero =>
    obtain rfl : (if a < b then (⟨a, b, Bounds.closed⟩ : DItv D) else ⟨b, a, Bounds.closed⟩) = r := Option.some.inj hr
    by_cases hab : a < b <;>
      simp [In, discreteOps, hab, Dyn.contains, Bounds.closed, Bounds.isLeftClosed, Bounds.isRightClosed]

/-- Where `hull(a, b)` of two elements overflows or asserts. -/
theorem C32_hull_elements_overflow (s : Steps D) (a b : D) :
    ((rightOpenEC s).hullE a b = none ↔ ∀ y, y ≤ max a b) ∧
    ((leftOpenEC s).hullE a b = none ↔ ∀ y, min a b ≤ y) ∧
    ((openEC s).hullE a b = none ↔ (∀ y, y ≤ max a b) ∨ (∀ y, min a b ≤ y)) ∧
    (closedEC s).hullE a b ≠ none ∧ (discreteEC s).hullE a b ≠ none := by
  refine ⟨?_, ?_, ?_, fun h => (by cases h), fun h => (by cases h)⟩
  · rw [← s.next_none]
    show (if a < b then (s.next b).map fun n => (⟨a, n⟩ : SItv D) else (s.next a).map fun n => ⟨b, n⟩) = none ↔ _
    by_cases hab : a < b
    · rw [if_pos hab, max_eq_right (le_of_lt hab)]; exact Option.map_eq_none_iff
    · rw [if_neg hab, max_eq_left (not_lt.1 hab)]; exact Option.map_eq_none_iff
  · rw [← s.prior_none]
    show (if a < b then (s.prior a).map fun p => (⟨p, b⟩ : SItv D) else (s.prior b).map fun p => ⟨p, a⟩) = none ↔ _
    by_cases hab : a < b
    · rw [if_pos hab, min_eq_left (le_of_lt hab)]; exact Option.map_eq_none_iff
    · rw [if_neg hab, min_eq_right (not_lt.1 hab)]; exact Option.map_eq_none_iff
  · rw [← s.next_none, ← s.prior_none]
    show (if a < b then callC SItv.mk (s.prior a) (s.next b) else callC SItv.mk (s.prior b) (s.next a)) = none ↔ _
    by_cases hab : a < b
    · rw [if_pos hab, max_eq_right (le_of_lt hab), min_eq_left (le_of_lt hab)]
      cases s.prior a <;> cases s.next b <;> simp [callC]
    · rw [if_neg hab, max_eq_left (not_lt.1 hab), min_eq_right (not_lt.1 hab)]
      cases s.prior b <;> cases s.next a <;> simp [callC]

end

/-! ## Sizes and distances of machine integers -/

section
variable {lo hi : ℤ} {I : Type} {o : IntervalOps (MInt lo hi) I} {e : ElementOps (MInt lo hi) I} {c : CheckedOps I}
  {ec : CheckedElementOps (MInt lo hi) I}

/-- On the integers `lo .. hi` the assumptions on `++` and `--` leave nothing open but their values at the ends. -/
theorem C32_steps (s : Steps (MInt lo hi)) (x : MInt lo hi) :
    (x.1 < hi → (s.nx x).1 = x.1 + 1) ∧ (lo < x.1 → (s.pr x).1 = x.1 - 1) :=
  ⟨MInt.nx_val s, MInt.pr_val s⟩

/-- Signed types: `cardinality(i)` is the number of elements of `i`; it overflows exactly if that number is no value of
the type, or if the greatest value is in `i`. -/
theorem C32_cardinality_signed (hlo : lo ≤ 0) (h : CheckedClass o e c ec) (i : I) {F : Finset (MInt lo hi)}
    (hF : ∀ x, x ∈ F ↔ In o x i) :
    ((F.card : ℤ) ≤ hi ∧ ¬ HasGreatest o i → cardinalitySigned c ec i = some (F.card : ℤ)) ∧
    ((∃ x, In o x i) → ¬ ((F.card : ℤ) ≤ hi ∧ ¬ HasGreatest o i) → cardinalitySigned c ec i = none) := by
  have r := h.refines
  have l := h.disc.cls.lawful
  rw [cardinalitySigned, r.isEmpty, iteC_some]
  by_cases hne : ∃ x, In o x i
  · have hem : ¬ o.isEmpty i = true := by
      rw [l.isEmpty_iff]
      intro hc
      obtain ⟨x, hx⟩ := hne
      exact hc x hx
    rw [if_neg hem]
    obtain ⟨hc, hle⟩ := h.disc.card hne hF
    have hgr : HasGreatest o i ↔ (e.last i).1 = hi := by
      constructor
      · rintro ⟨x, hx, hg⟩
        have h1 : x.1 ≤ (e.last i).1 := ((h.disc.mem_iff hne x).1 hx).2
        have h2 := MInt.isMax.1 hg
        have := (e.last i).2
        omega
      · intro hm
        exact ⟨e.last i, (h.disc.mem_iff hne _).2 ⟨hle, le_refl _⟩, MInt.isMax.2 hm⟩
    rw [hgr, (h.ends hne).1]
    have h0 := (e.last i).2
    by_cases hl : (e.last i).1 < hi
    · obtain ⟨h1, h2⟩ := h.lastNext_val hne hl
      rw [h1, Option.bind_some, Option.bind_some, subSigned, h2]
      constructor
      · rintro ⟨h3, h4⟩
        rw [if_pos ⟨by omega, by omega⟩, hc]
      · intro _ h3
        rw [if_neg]
        intro h4
        exact h3 ⟨by omega, by omega⟩
    · have hm : (e.last i).1 = hi := by omega
      constructor
      · rintro ⟨_, h4⟩; exact absurd hm h4
      · intro _ _
        rw [h.lastNext_none hne (MInt.isMax.2 hm)]
        rfl
  · have hem : o.isEmpty i = true := (l.isEmpty_iff i).2 fun x hx => hne ⟨x, hx⟩
    have hFe : F.card = 0 := by
      rw [Finset.card_eq_zero, Finset.eq_empty_iff_forall_notMem]
      exact fun x hx => hne ⟨x, (hF x).1 hx⟩
    rw [if_pos hem, hFe]
    exact ⟨fun _ => rfl, fun h => absurd h hne⟩

theorem gap_card (h : DiscreteClass o e) {i j : I} (hi' : ∃ x, In o x i) (hj : ∃ x, In o x j)
    (hb : ∀ x y, In o x i → In o y j → x < y) {F : Finset (MInt lo hi)}
    (hF : ∀ z, z ∈ F ↔ (∀ x, In o x i → x < z) ∧ ∀ y, In o y j → z < y) :
    e.last i < e.first j ∧ ¬ e.last j < e.first i ∧ (F.card : ℤ) = (e.first j).1 - (e.last i).1 - 1 := by
  have mi := h.mem_iff hi'
  have mj := h.mem_iff hj
  have hli : In o (e.last i) i := by
    obtain ⟨x, hx⟩ := hi'
    exact (mi _).2 ⟨le_trans ((mi x).1 hx).1 ((mi x).1 hx).2, le_refl _⟩
  have hfi : In o (e.first i) i := by
    obtain ⟨x, hx⟩ := hi'
    exact (mi _).2 ⟨le_refl _, le_trans ((mi x).1 hx).1 ((mi x).1 hx).2⟩
  have hfj : In o (e.first j) j := by
    obtain ⟨x, hx⟩ := hj
    exact (mj _).2 ⟨le_refl _, le_trans ((mj x).1 hx).1 ((mj x).1 hx).2⟩
  have hlj : In o (e.last j) j := by
    obtain ⟨x, hx⟩ := hj
    exact (mj _).2 ⟨le_trans ((mj x).1 hx).1 ((mj x).1 hx).2, le_refl _⟩
  have hlt : e.last i < e.first j := hb _ _ hli hfj
  have hnlt : ¬ e.last j < e.first i := not_lt.2 (le_of_lt (hb _ _ hfi hlj))
  have hlt' : (e.last i).1 < (e.first j).1 := hlt
  refine ⟨hlt, hnlt, ?_⟩
  have hm : F.map (Function.Embedding.subtype _) = Finset.Ioo (e.last i).1 (e.first j).1 := by
    ext x
    rw [Finset.mem_map, Finset.mem_Ioo]
    constructor
    · rintro ⟨y, hy, rfl⟩
      exact ⟨((hF y).1 hy).1 _ hli, ((hF y).1 hy).2 _ hfj⟩
    · rintro ⟨h1, h2⟩
      have h3 := (e.last i).2
      have h4 := (e.first j).2
      refine ⟨⟨x, by omega, by omega⟩, (hF _).2 ⟨fun y hy => ?_, fun y hy => ?_⟩, rfl⟩
      · exact lt_of_le_of_lt ((mi y).1 hy).2 h1
      · exact lt_of_lt_of_le h2 ((mj y).1 hy).1
  have hc : F.card = ((e.first j).1 - (e.last i).1 - 1).toNat := by
    rw [← Finset.card_map (Function.Embedding.subtype _), hm, Int.card_Ioo]
  rw [hc, Int.toNat_of_nonneg (by omega)]

/-- Signed types: `distance(i, j)` of an interval and a later one is the number of values between them; it overflows exactly if that
number plus one is no value of the type. -/
theorem C32_distance_signed (hlo : lo ≤ 0) (h : CheckedClass o e c ec) {i j : I} (hi' : ∃ x, In o x i) (hj : ∃ x, In o x j)
    (hb : ∀ x y, In o x i → In o y j → x < y) {F : Finset (MInt lo hi)}
    (hF : ∀ z, z ∈ F ↔ (∀ x, In o x i → x < z) ∧ ∀ y, In o y j → z < y) :
    distanceSigned c ec i j = (if (F.card : ℤ) + 1 ≤ hi then some (F.card : ℤ) else none) ∧
    distanceSigned c ec j i = (if (F.card : ℤ) + 1 ≤ hi then some (F.card : ℤ) else none) := by
  have r := h.refines
  have l := h.disc.cls.lawful
  have hei : o.isEmpty i = false := by
    rw [← Bool.not_eq_true, l.isEmpty_iff]
    intro hc; obtain ⟨x, hx⟩ := hi'; exact hc x hx
  have hej : o.isEmpty j = false := by
    rw [← Bool.not_eq_true, l.isEmpty_iff]
    intro hc; obtain ⟨x, hx⟩ := hj; exact hc x hx
  obtain ⟨hlt, hnlt, hcard⟩ := gap_card h.disc hi' hj hb hF
  have hlt' : (e.last i).1 < (e.first j).1 := hlt
  have hval : (subSigned (e.first j) (e.last i)).bind (predSigned lo) =
      if (F.card : ℤ) + 1 ≤ hi then some (F.card : ℤ) else none := by
    rw [hcard, subSigned]
    by_cases hle : (e.first j).1 - (e.last i).1 ≤ hi
    · rw [if_pos ⟨by omega, hle⟩, if_pos (by omega), Option.bind_some, predSigned, if_pos (by omega)]
    · rw [if_neg (fun hc => hle hc.2), if_neg (by omega)]
      rfl
  constructor
  · rw [distanceSigned, r.isEmpty, r.isEmpty, hei, hej, orC_some, iteC_some, (h.ends hi').2, (h.ends hj).1, callC_some, iteC_some,
      decide_eq_true hlt]
    exact hval
  · rw [distanceSigned, r.isEmpty, r.isEmpty, hei, hej, orC_some, iteC_some, (h.ends hi').2, (h.ends hj).1, (h.ends hi').1,
      (h.ends hj).2, callC_some, callC_some, iteC_some, iteC_some, decide_eq_false hnlt, decide_eq_true hlt]
    exact hval

end

section
variable {hi : ℤ} {I : Type} {o : IntervalOps (MInt 0 hi) I} {e : ElementOps (MInt 0 hi) I}

/-- Unsigned types, with the greatest value `hi`: `cardinality(i)` is the number of elements of `i`, unless these are all
values of the type: then it is 0. -/
theorem C32_cardinality_unsigned (hhi : 0 ≤ hi) (h : UnsignedClass hi o e) (i : I) {F : Finset (MInt 0 hi)}
    (hF : ∀ x, x ∈ F ↔ In o x i) :
    ((∃ x, ¬ In o x i) → cardinalityUnsigned o e i = F.card) ∧
    ((∀ x, In o x i) → cardinalityUnsigned o e i = 0 ∧ (F.card : ℤ) = hi + 1) := by
  have l := h.disc.cls.lawful
  rw [cardinalityUnsigned]
  by_cases hne : ∃ x, In o x i
  · have hem : ¬ o.isEmpty i = true := by
      rw [l.isEmpty_iff]
      intro hc
      obtain ⟨x, hx⟩ := hne
      exact hc x hx
    rw [if_neg hem]
    obtain ⟨hc, hle⟩ := h.disc.card hne hF
    have hmod : subUnsigned (e.lastNext i) (e.first i) = (F.card : ℤ) % (hi + 1) := by
      rw [subUnsigned, hc, Int.sub_emod, h.lastNext_mod, ← Int.sub_emod]
    have h0 := (e.last i).2
    have h1 := (e.first i).2
    rw [hmod]
    constructor
    · rintro ⟨x, hx⟩
      apply Int.emod_eq_of_lt (by omega)
      have h3 : ¬ ((e.first i).1 ≤ x.1 ∧ x.1 ≤ (e.last i).1) := fun hc => hx ((h.disc.mem_iff hne x).2 hc)
      have h4 := x.2
      omega
    · intro hall
      have h3 : (e.first i).1 ≤ 0 := ((h.disc.mem_iff hne ⟨0, le_refl _, hhi⟩).1 (hall _)).1
      have h4 : hi ≤ (e.last i).1 := ((h.disc.mem_iff hne ⟨hi, hhi, le_refl _⟩).1 (hall _)).2
      have h5 : (F.card : ℤ) = hi + 1 := by omega
      rw [h5, Int.emod_self]
      exact ⟨rfl, rfl⟩
  · have hem : o.isEmpty i = true := (l.isEmpty_iff i).2 fun x hx => hne ⟨x, hx⟩
    have hFe : F.card = 0 := by
      rw [Finset.card_eq_zero, Finset.eq_empty_iff_forall_notMem]
      exact fun x hx => hne ⟨x, (hF x).1 hx⟩
    rw [if_pos hem, hFe]
    exact ⟨fun _ => rfl, fun hall => absurd ⟨⟨0, le_refl _, hhi⟩, hall _⟩ hne⟩

/-- Unsigned types: `distance(i, j)` of an interval and a later one is the number of values between them. -/
theorem C32_distance_unsigned (h : UnsignedClass hi o e) {i j : I} (hi' : ∃ x, In o x i) (hj : ∃ x, In o x j)
    (hb : ∀ x y, In o x i → In o y j → x < y) {F : Finset (MInt 0 hi)}
    (hF : ∀ z, z ∈ F ↔ (∀ x, In o x i → x < z) ∧ ∀ y, In o y j → z < y) :
    distanceUnsigned o e i j = F.card ∧ distanceUnsigned o e j i = F.card := by
  have l := h.disc.cls.lawful
  have hei : o.isEmpty i = false := by
    rw [← Bool.not_eq_true, l.isEmpty_iff]
    intro hc; obtain ⟨x, hx⟩ := hi'; exact hc x hx
  have hej : o.isEmpty j = false := by
    rw [← Bool.not_eq_true, l.isEmpty_iff]
    intro hc; obtain ⟨x, hx⟩ := hj; exact hc x hx
  obtain ⟨h1, h2, hcard⟩ := gap_card h.disc hi' hj hb hF
  have h1' : (e.last i).1 < (e.first j).1 := h1
  have h3 := (e.first j).2
  have h4 := (e.last i).2
  have hval : (subUnsigned (e.first j) (e.last i) - 1) % (hi + 1) = (F.card : ℤ) := by
    have h5 : subUnsigned (e.first j) (e.last i) = (e.first j).1 - (e.last i).1 :=
      Int.emod_eq_of_lt (by omega) (by omega)
    rw [h5, Int.emod_eq_of_lt (by omega) (by omega), hcard]
  constructor
  · rw [distanceUnsigned, hei, hej, Bool.or_self, if_neg Bool.false_ne_true, if_pos h1, hval]
  · rw [distanceUnsigned, hei, hej, Bool.or_self, if_neg Bool.false_ne_true, if_neg h2, if_pos h1, hval]

end

/-! ## Examples and counterexamples: `signed char` and `unsigned char` -/

/-- `signed char` -/
abbrev I8 : Type := MInt (-128) 127
/-- `unsigned char` -/
abbrev U8 : Type := MInt 0 255
/-- a value of `signed char` -/
abbrev i8 (x : ℤ) (h : -128 ≤ x ∧ x ≤ 127 := by decide) : I8 := ⟨x, h⟩
/-- a value of `unsigned char` -/
abbrev u8 (x : ℤ) (h : 0 ≤ x ∧ x ≤ 255 := by decide) : U8 := ⟨x, h⟩
/-- `closed_interval<signed char>` -/
abbrev clI8 : IntervalOps I8 (SItv I8) := closedOps (wrapSteps _ _) (i8 0) (i8 1)
/-- `discrete_interval<signed char>` -/
abbrev diI8 : IntervalOps I8 (DItv I8) := discreteOps (wrapSteps _ _) (i8 0)

theorem clI8_checked : CheckedClass clI8 (closedE (wrapSteps _ _)) (closedChecked (wrapSteps _ _) (i8 0) (i8 1))
    (closedEC (wrapSteps _ _)) := .closed _ _ _ (by decide)
theorem diI8_checked : CheckedClass diI8 (discreteE (wrapSteps _ _)) (discreteChecked (wrapSteps _ _) (i8 0))
    (discreteEC (wrapSteps _ _)) := .discrete _ _

/-- `[-128,127] \ [0,127]` from the left is `[-128,-1]`, and from the right it is empty: no overflow, although
`127` is an upper bound. -/
example : (closedChecked (wrapSteps _ _) (i8 0) (i8 1)).rightSubtract ⟨i8 (-128), i8 127⟩ ⟨i8 0, i8 127⟩ =
      some ⟨i8 (-128), i8 (-1)⟩ ∧
    (closedChecked (wrapSteps _ _) (i8 0) (i8 1)).leftSubtract ⟨i8 (-128), i8 127⟩ ⟨i8 0, i8 127⟩ =
      some ⟨i8 1, i8 0⟩ := by decide

/-- The hypotheses of `C32_touches` and of `C32_touches_overflow_closed` are met. -/
example : (∃ x, In clI8 x ⟨i8 3, i8 126⟩) ∧ (∃ x, In clI8 x ⟨i8 127, i8 127⟩) ∧ ¬ HasGreatest clI8 ⟨i8 3, i8 126⟩ ∧
    HasGreatest clI8 ⟨i8 3, i8 127⟩ ∧
    (closedChecked (wrapSteps _ _) (i8 0) (i8 1)).touches ⟨i8 3, i8 126⟩ ⟨i8 127, i8 127⟩ = some true := by
  refine ⟨⟨i8 3, by simp only [In]; decide⟩, ⟨i8 127, by simp only [In]; decide⟩, ?_,
    ⟨i8 127, by simp only [In]; decide, fun y => y.2.2⟩, by decide⟩
  rintro ⟨x, hx, hm⟩
  have h1 : x.1 ≤ 126 := by
    simp only [In, closedOps, Bool.and_eq_true, decide_eq_true_eq] at hx
    exact hx.2
  have h2 : (127 : ℤ) ≤ x.1 := hm (i8 127)
  omega

/-- The hypotheses of the theorems on sizes and distances are met. -/
example : ∃ F : Finset I8, (∀ x, x ∈ F ↔ In clI8 x ⟨i8 (-3), i8 2⟩) ∧ (F.card : ℤ) = 6 ∧
    cardinalitySigned (closedChecked (wrapSteps _ _) (i8 0) (i8 1)) (closedEC (wrapSteps _ _)) ⟨i8 (-3), i8 2⟩ = some 6 ∧
    cardinalitySigned (closedChecked (wrapSteps _ _) (i8 0) (i8 1)) (closedEC (wrapSteps _ _)) ⟨i8 (-100), i8 100⟩ = none ∧
    distanceSigned (closedChecked (wrapSteps _ _) (i8 0) (i8 1)) (closedEC (wrapSteps _ _)) ⟨i8 (-100), i8 (-50)⟩
      ⟨i8 60, i8 70⟩ = some 109 ∧
    distanceSigned (closedChecked (wrapSteps _ _) (i8 0) (i8 1)) (closedEC (wrapSteps _ _)) ⟨i8 (-100), i8 (-100)⟩
      ⟨i8 100, i8 100⟩ = none := by
  refine ⟨{i8 (-3), i8 (-2), i8 (-1), i8 0, i8 1, i8 2}, fun x => ?_, by decide, by decide, by decide, by decide, by decide⟩
  obtain ⟨x, hx1, hx2⟩ := x
  simp only [Finset.mem_insert, Finset.mem_singleton, In, closedOps, Bool.and_eq_true, decide_eq_true_eq, Subtype.mk.injEq,
    Subtype.mk_le_mk]
  omega

/-- `interval_set` over `closed_interval<signed char>`: a history that ends in a set with the least and the greatest value.
So `C06_no_failure` applies: no further operation on it overflows. -/
theorem ex_machine_reachable : Reachable clI8 (some ⟨(closedE (wrapSteps _ _)).singleton, .exact (closedE (wrapSteps _ _)).unitTrail⟩)
    .joining [⟨i8 (-128), i8 (-1)⟩, ⟨i8 1, i8 127⟩] :=
  .op (.subE (i8 0)) (.op (.add ⟨i8 100, i8 127⟩) (.op (.add ⟨i8 (-128), i8 99⟩) (.empty _)
    (l' := [⟨i8 (-128), i8 99⟩]) (by decide)) (l' := [⟨i8 (-128), i8 127⟩]) (by decide)) (by decide)

example (c : SetOp I8 (SItv I8)) (hc : c.Pre clI8 (some ⟨(closedE (wrapSteps _ _)).singleton,
      .exact (closedE (wrapSteps _ _)).unitTrail⟩) [⟨i8 (-128), i8 (-1)⟩, ⟨i8 1, i8 127⟩]) :
    ∃ s', c.run clI8 (some ⟨(closedE (wrapSteps _ _)).singleton, .exact (closedE (wrapSteps _ _)).unitTrail⟩) .joining
      [⟨i8 (-128), i8 (-1)⟩, ⟨i8 1, i8 127⟩] = some s' :=
  (C06_no_failure ⟨clI8_checked.disc.cls, fun _ h => by
    cases h; exact ⟨.discrete clI8_checked.disc, .discrete clI8_checked.disc⟩⟩ ex_machine_reachable c hc).imp fun _ h => h.1

/-- `touches` with wrap-around: `[127,127]` "touches" `[-128,0]`. -/
theorem C32_counterexample_touches : clI8.touches ⟨i8 127, i8 127⟩ ⟨i8 (-128), i8 0⟩ = true ∧
    ¬ ∀ x y, In clI8 x ⟨i8 127, i8 127⟩ → In clI8 y ⟨i8 (-128), i8 0⟩ → x < y :=
  ⟨by decide, fun h => absurd (h (i8 127) (i8 0) (by simp only [In]; decide) (by simp only [In]; decide)) (by decide)⟩

/-- The greatest value cannot be added to a set of right open intervals: with wrap-around `s += 255` does nothing. -/
theorem C32_counterexample_add :
    SetOp.run (rightOpenOps (u8 0)) (some ⟨(rightOpenE (wrapSteps 0 255)).singleton,
      .exact (rightOpenE (wrapSteps 0 255)).unitTrail⟩) .joining [⟨u8 1, u8 4⟩] (.addE (u8 255)) = some [⟨u8 1, u8 4⟩] := by
  decide

/-- With wrap-around the empty interval `[3,0)` of an unsigned type contains `5`. (With assertions enabled `last` fails.) -/
theorem C32_counterexample_contains :
    (rightOpenOps (u8 0)).isEmpty ⟨u8 3, u8 0⟩ = true ∧ (rightOpenE (wrapSteps 0 255)).contains ⟨u8 3, u8 0⟩ (u8 5) = true ∧
    (rightOpenEC (wrapSteps 0 255)).contains ⟨u8 3, u8 0⟩ (u8 5) = none := by decide

/-- With wrap-around the empty interval `(127,127)` equals the interval `[-128,126]`: `==` looks at the ends of an
empty interval. -/
theorem C32_counterexample_equal :
    diI8.isEmpty ⟨i8 127, i8 127, Bounds.opn⟩ = true ∧
    diI8.eq ⟨i8 127, i8 127, Bounds.opn⟩ ⟨i8 (-128), i8 126, Bounds.closed⟩ = true ∧
    (discreteChecked (wrapSteps _ _) (i8 0)).eq ⟨i8 127, i8 127, Bounds.opn⟩ ⟨i8 (-128), i8 126, Bounds.closed⟩ = none := by
  decide

/-- The cardinality of `[0,255]` is 0. -/
theorem C32_counterexample_cardinality :
    cardinalityUnsigned (closedOps (wrapSteps 0 255) (u8 0) (u8 1)) (closedE (wrapSteps 0 255)) ⟨u8 0, u8 255⟩ = 0 ∧
    (closedOps (wrapSteps 0 255) (u8 0) (u8 1)).isEmpty ⟨u8 0, u8 255⟩ = false := by decide

end ICL.Props
