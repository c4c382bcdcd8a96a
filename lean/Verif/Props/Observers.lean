import Verif.Theory.Elements
import Verif.Theory.Extent
import Verif.Theory.MapOps
import Verif.Props.Compare
import Verif.Props.MapOps
import Mathlib.Data.Finset.Card
import Mathlib.Data.Fintype.Card
import Mathlib.Tactic.NormNum

/-!
# C28: sizes and element iteration; C29: distance

`DiscreteClass o e` ranges over the interval classes with discrete domains, here the integers, and
`ContinuousClass o card lo up` over those with continuous domains, `card` being the cardinality of intervals, `lo` and
`up` their end points.
-/

set_option linter.unusedSectionVars false
set_option linter.unusedVariables false

namespace ICL.Props
open Spec

/-! ## C28: discrete domains -/

section
variable {I V : Type} [DecidableEq I] {o : IntervalOps ℤ I} {e : ElementOps ℤ I}

/-- Interval sets.  There is one list of elements, that lists them in increasing order and that

* the loop over `elements_begin(s) .. elements_end(s)` visits in order,
* the loop from `elements_end(s)` back to `elements_begin(s)` visits in reverse order,
* the loop over `elements_rbegin(s) .. elements_rend(s)` visits in reverse order;

`cardinality(s)`, `size(s)` and `length(s)` are its length. -/
theorem C28_set (h : DiscreteClass o e) {s : List I} (hs : WellFormed o s) :
    ∃ xs : List ℤ, Enumerates xs (Elem o s) ∧
      Forward (ElemIt.deref (ElemIt.fwd e setSeg) s) (ElemIt.incr o e setSeg s) (ElemIt.end_ s) ElemIt.begin
        (xs.map fun x => (x, ())) ∧
      Backward (ElemIt.deref (ElemIt.fwd e setSeg) s) (ElemIt.decr o e setSeg s) ElemIt.begin (ElemIt.end_ s)
        (xs.reverse.map fun x => (x, ())) ∧
      Forward (ElemIt.deref (ElemIt.bwd e setSeg) s.reverse) (ElemIt.incr o e setSeg s.reverse)
        (ElemIt.end_ s.reverse) ElemIt.begin (xs.reverse.map fun x => (x, ())) ∧
      cardinality o e setSeg s = xs.length ∧ size o e setSeg s = xs.length ∧ length o e setSeg s = xs.length := by
  have hw := wellFormed_iff.1 hs
  have hu : ∀ ys : List (ℤ × Unit), (ys.map Prod.fst).map (fun x => (x, ())) = ys := by
    intro ys
    rw [List.map_map]
    exact List.map_id' ys
  have hl : ∀ ys : List (ℤ × Unit), ((ys.map Prod.fst).length : ℤ) = (ys.length : ℤ) := by intro ys; rw [List.length_map]
  refine ⟨(allE o e setSeg (ElemIt.fwd e setSeg) s).map Prod.fst, ⟨sorted_allE h hw, fun x => ?_⟩, ?_, ?_, ?_, ?_, ?_, ?_⟩
  · rw [List.mem_map]
    constructor
    · rintro ⟨⟨y, u⟩, hy, rfl⟩
      obtain ⟨i, hi, hx, _⟩ := (mem_allE_fwd h _ _ _).1 hy
      exact ⟨i, hi, hx⟩
    · rintro ⟨i, hi, hx⟩
      exact ⟨(x, ()), (mem_allE_fwd h _ _ _).2 ⟨i, hi, hx, rfl⟩, rfl⟩
  · rw [hu]; exact forward_all h _ [] s hw.nonempty
  · rw [← List.map_reverse, hu]
    have := backward_all h (ElemIt.fwd e setSeg) s hw.nonempty s.length (le_refl _)
    rwa [List.take_length] at this
  · rw [← List.map_reverse, hu, ← allE_bwd h hw.nonempty]
    exact forward_all h _ [] s.reverse fun t ht => hw.nonempty t (by simpa using ht)
  · rw [hl]; exact cardinality_eq h _ s
  · rw [hl]; exact cardinality_eq h _ s
  · rw [hl]; exact length_eq h _ s

/-- Interval maps: as `C28_set`, with the associated values. -/
theorem C28_map (h : DiscreteClass o e) {m : List (I × V)} (hm : MapWellFormed o m) :
    ∃ xs : List (ℤ × V), (xs.map Prod.fst).Pairwise (· < ·) ∧ (∀ x v, (x, v) ∈ xs ↔ Assoc o m x v) ∧
      Forward (ElemIt.deref (ElemIt.fwd e mapSeg) m) (ElemIt.incr o e mapSeg m) (ElemIt.end_ m) ElemIt.begin xs ∧
      Backward (ElemIt.deref (ElemIt.fwd e mapSeg) m) (ElemIt.decr o e mapSeg m) ElemIt.begin (ElemIt.end_ m)
        xs.reverse ∧
      Forward (ElemIt.deref (ElemIt.bwd e mapSeg) m.reverse) (ElemIt.incr o e mapSeg m.reverse)
        (ElemIt.end_ m.reverse) ElemIt.begin xs.reverse ∧
      cardinality o e mapSeg m = xs.length ∧ size o e mapSeg m = xs.length ∧ length o e mapSeg m = xs.length := by
  have hw := mapWellFormed_iff.1 hm
  refine ⟨allE o e mapSeg (ElemIt.fwd e mapSeg) m, sorted_allE h hw, fun x v => mem_allE_fwd h _ _ _, ?_, ?_, ?_,
    cardinality_eq h _ m, cardinality_eq h _ m, length_eq h _ m⟩
  · exact forward_all h _ [] m hw.nonempty
  · have := backward_all h (ElemIt.fwd e mapSeg) m hw.nonempty m.length (le_refl _)
    rwa [List.take_length] at this
  · rw [← allE_bwd h hw.nonempty]
    exact forward_all h _ [] m.reverse fun t ht => hw.nonempty t (by simpa using ht)

/-- `cardinality(i)`, `size(i)` and `length(i)` of an interval are the number of its elements. -/
theorem C28_interval (h : DiscreteClass o e) (i : I) : ∃ xs : List ℤ, Enumerates xs (fun x => In o x i) ∧
    cardinalityI o e i = xs.length ∧ sizeI o e i = xs.length ∧ lengthI o e i = xs.length := by
  have hc : ∃ xs : List ℤ, Enumerates xs (fun x => In o x i) ∧ lengthI o e i = xs.length := by
    refine ⟨(segE o e setSeg (ElemIt.fwd e setSeg) i).map Prod.fst, ⟨sorted_segE i, fun x => ?_⟩, ?_⟩
    · rw [List.mem_map]
      constructor
      · rintro ⟨⟨y, u⟩, hy, rfl⟩
        exact ((mem_segE_fwd h _ _ _).1 hy).1
      · intro hx
        exact ⟨(x, ()), (mem_segE_fwd h _ _ _).2 ⟨hx, rfl⟩, rfl⟩
    · rw [List.length_map, length_segE h]; rfl
  obtain ⟨xs, h1, h2⟩ := hc
  exact ⟨xs, h1, h2, h2, h2⟩

theorem enumerates_card {xs : List ℤ} {P : ℤ → Prop} (hx : Enumerates xs P) : xs.toFinset.card = xs.length :=
  List.toFinset_card_of_nodup (hx.1.imp fun h => ne_of_lt h)

theorem card_of_elems (h : DiscreteClass o e) {s : List I} (hs : WellFormed o s) :
    ∃ F : Finset ℤ, (∀ x, x ∈ F ↔ Elem o s x) ∧ cardinality o e setSeg s = F.card := by
  obtain ⟨xs, h1, _, _, _, h2, _⟩ := C28_set h hs
  refine ⟨xs.toFinset, fun x => ?_, ?_⟩
  · rw [List.mem_toFinset]; exact h1.2 x
  · rw [h2, enumerates_card h1]

/-- `cardinality(s + t) + cardinality(s & t) = cardinality(s) + cardinality(t)` and
`cardinality(s - t) + cardinality(s & t) = cardinality(s)`. -/
theorem C28_inclusion_exclusion (h : DiscreteClass o e) (st : Style) (oracle : List I → I → Nat) {s t : List I}
    (hs : WellFormed o s) (ht : WellFormed o t) :
    ∃ u i d, ISet.addSet o st oracle s t = some u ∧ ISet.interSet o st oracle s t = some i ∧
      ISet.subSet o s t = some d ∧
      cardinality o e setSeg u + cardinality o e setSeg i = cardinality o e setSeg s + cardinality o e setSeg t ∧
      cardinality o e setSeg d + cardinality o e setSeg i = cardinality o e setSeg s := by
  obtain ⟨u, hu, hu1, hu2⟩ := C08_union h.cls st oracle hs ht
  obtain ⟨i, hi, hi1, hi2⟩ := C10_intersection h.cls st oracle hs ht
  obtain ⟨d, hd, hd1, hd2⟩ := C09_difference h.cls hs ht
  refine ⟨u, i, d, hu, hi, hd, ?_⟩
  obtain ⟨Fs, a1, a2⟩ := card_of_elems h hs
  obtain ⟨Ft, b1, b2⟩ := card_of_elems h ht
  obtain ⟨Fu, c1, c2⟩ := card_of_elems h hu1
  obtain ⟨Fi, d1, d2⟩ := card_of_elems h hi1
  obtain ⟨Fd, e1, e2⟩ := card_of_elems h hd1
  have q1 : Fu = Fs ∪ Ft := by ext x; rw [c1, hu2, Finset.mem_union, a1, b1]
  have q2 : Fi = Fs ∩ Ft := by ext x; rw [d1, hi2, Finset.mem_inter, a1, b1]
  have q3 : Fd = Fs \ Ft := by ext x; rw [e1, hd2, Finset.mem_sdiff, a1, b1]
  rw [a2, b2, c2, d2, e2, q1, q2, q3]
  have w1 := Finset.card_union_add_card_inter Fs Ft
  have w2 := Finset.card_sdiff_add_card_inter Fs Ft
  omega

/-- The cardinality of a container depends on its elements only, not on how they are cut into segments. -/
theorem C28_cardinality_elements (h : DiscreteClass o e) {s t : List I} (hs : WellFormed o s) (ht : WellFormed o t)
    (hst : ∀ x, Elem o s x ↔ Elem o t x) : cardinality o e setSeg s = cardinality o e setSeg t := by
  obtain ⟨Fs, a1, a2⟩ := card_of_elems h hs
  obtain ⟨Ft, b1, b2⟩ := card_of_elems h ht
  rw [a2, b2, show Fs = Ft by ext x; rw [a1, b1, hst]]

end

/-- With `std::greater` (the order reversed) the cardinality of `[3,1)` = `{3, 2}` is `-2`; the type of sizes being
unsigned, the program returns a huge number. -/
theorem C28_greater_counterexample :
    cardinalityI (D := ℤᵒᵈ) (rightOpenOps (OrderDual.toDual 0)) (rightOpenE stepsInt.dual)
        ⟨OrderDual.toDual 3, OrderDual.toDual 1⟩ = OrderDual.toDual (-2) ∧
      (∀ x : ℤᵒᵈ, In (rightOpenOps (OrderDual.toDual 0)) x ⟨OrderDual.toDual 3, OrderDual.toDual 1⟩ ↔
        x = OrderDual.toDual 3 ∨ x = OrderDual.toDual 2) := by
  refine ⟨by decide, fun x => ?_⟩
  simp only [In, rightOpenOps, Bool.and_eq_true, decide_eq_true_eq]
  constructor
  · rintro ⟨h1, h2⟩
    have h1' : OrderDual.ofDual x ≤ 3 := h1
    have h2' : 1 < OrderDual.ofDual x := h2
    have : OrderDual.ofDual x = 3 ∨ OrderDual.ofDual x = 2 := by omega
    exact this
  · rintro (rfl | rfl) <;> exact ⟨by decide, by decide⟩

/-! ## C28: continuous domains -/

section
variable {D I V : Type} [LinearOrder D] [DecidableEq I] {o : IntervalOps D I} {card : I → ℕ∞} {lo up : I → D}

/-- `cardinality(i)` of an interval: its number of elements, `infinity` if there are infinitely many. -/
theorem C28_continuous_cardinality_interval (h : ContinuousClass o card lo up) (i : I) :
    card i = {x | In o x i}.encard := h.card_eq i

/-- `cardinality(s)`, `size(s)` of interval sets: the number of elements. -/
theorem C28_continuous_cardinality (h : ContinuousClass o card lo up) {s : List I} (hs : WellFormed o s) :
    cardinalityC card setSeg s = {x | Elem o s x}.encard := h.cardinality_eq (wellFormed_iff.1 hs)

/-- `cardinality(m)`, `size(m)` of interval maps: the number of keys. -/
theorem C28_continuous_cardinality_map (h : ContinuousClass o card lo up) {m : List (I × V)} (hm : MapWellFormed o m) :
    cardinalityC card mapSeg m = {x | Key o m x}.encard := h.cardinality_eq (mapWellFormed_iff.1 hm)

variable [AddCommGroup D]

/-- `length(i)` of a non-empty interval is its supremum minus its infimum; the empty interval has length `0`. -/
theorem C28_continuous_length_interval (h : ContinuousClass o card lo up) (i : I) :
    ((¬ ∃ x, In o x i) → lengthCI o lo up i = 0) ∧
    ((∃ x, In o x i) → ∃ a b, IsGLB {x | In o x i} a ∧ IsLUB {x | In o x i} b ∧ lengthCI o lo up i = b - a) := by
  constructor
  · intro he
    have : o.isEmpty i = true := (h.cls.lawful.isEmpty_iff i).2 fun x hx => he ⟨x, hx⟩
    simp [lengthCI, this]
  · intro hi
    refine ⟨lo i, up i, h.isGLB hi, h.isLUB hi, ?_⟩
    simp [lengthCI, (nonempty_iff h.cls.lawful).1 hi]

/-- The length of an interval set depends on its elements only, not on how they are cut into intervals. -/
theorem C28_continuous_length_elements (h : ContinuousClass o card lo up) {s t : List I} (hs : WellFormed o s)
    (ht : WellFormed o t) (hst : ∀ x, Elem o s x ↔ Elem o t x) :
    lengthC o lo up setSeg s = lengthC o lo up setSeg t :=
  lengthC_congr h (wellFormed_iff.1 hs) (wellFormed_iff.1 ht) hst

/-- The same for maps: the length depends on the keys only. -/
theorem C28_continuous_length_keys (h : ContinuousClass o card lo up) {m : List (I × V)} {s : List I}
    (hm : MapWellFormed o m) (hs : WellFormed o s) (hst : ∀ x, Key o m x ↔ Elem o s x) :
    lengthC o lo up mapSeg m = lengthC o lo up setSeg s := by
  rw [lengthC_keys]
  refine lengthC_congr h (wf_fst.2 (mapWellFormed_iff.1 hm)) (wellFormed_iff.1 hs) fun x => ?_
  rw [dom_fst, ← key_iff, hst, elem_iff]

/-- `length(s + t) + length(s & t) = length(s) + length(t)` and `length(s - t) + length(s & t) = length(s)`. -/
theorem C28_continuous_inclusion_exclusion (h : ContinuousClass o card lo up) (st : Style)
    (oracle : List I → I → Nat) {s t : List I} (hs : WellFormed o s) (ht : WellFormed o t) :
    ∃ u i d, ISet.addSet o st oracle s t = some u ∧ ISet.interSet o st oracle s t = some i ∧
      ISet.subSet o s t = some d ∧
      lengthC o lo up setSeg u + lengthC o lo up setSeg i = lengthC o lo up setSeg s + lengthC o lo up setSeg t ∧
      lengthC o lo up setSeg d + lengthC o lo up setSeg i = lengthC o lo up setSeg s := by
  obtain ⟨u, hu, hu1, hu2⟩ := C08_union h.cls st oracle hs ht
  obtain ⟨i, hi, hi1, hi2⟩ := C10_intersection h.cls st oracle hs ht
  obtain ⟨d, hd, hd1, hd2⟩ := C09_difference h.cls hs ht
  refine ⟨u, i, d, hu, hi, hd, ?_⟩
  have q1 : lengthC o lo up setSeg s = lengthC o lo up setSeg d + lengthC o lo up setSeg i := by
    refine lengthC_disjoint h (wellFormed_iff.1 hd1) (wellFormed_iff.1 hi1) (wellFormed_iff.1 hs) ?_ ?_
    · intro x; rw [← elem_iff, ← elem_iff, hd2, hi2]; tauto
    · intro x; rw [← elem_iff, ← elem_iff, ← elem_iff, hd2, hi2]; tauto
  have q2 : lengthC o lo up setSeg u = lengthC o lo up setSeg d + lengthC o lo up setSeg t := by
    refine lengthC_disjoint h (wellFormed_iff.1 hd1) (wellFormed_iff.1 ht) (wellFormed_iff.1 hu1) ?_ ?_
    · intro x; rw [← elem_iff, ← elem_iff, hd2]; tauto
    · intro x; rw [← elem_iff, ← elem_iff, ← elem_iff, hd2, hu2]; tauto
  refine ⟨?_, q1.symm⟩
  rw [q1, q2]
  abel

end

/-! ## C28: the number of segments -/

section
variable {D I V S : Type} [LinearOrder D] [DecidableEq I] {o : IntervalOps D I}

theorem fewest_segments [DecidableEq V] {g : SegOps I V S} (h : o.Lawful) {l r : List S} (hl : WF o g l)
    (hr : WF o g r) (hj : Joined o g l) (hd : ∀ x v, Maps o g l x v ↔ Maps o g r x v) : l.length ≤ r.length := by
  have hx : ∀ n : Fin l.length, ∃ x, o.Mem x (g.key l[n]) := fun n => hl.nonempty _ (by simp)
  choose f hf using hx
  have hq : ∀ n : Fin l.length, ∃ q : Fin r.length, o.Mem (f n) (g.key r[q]) ∧ g.val r[q] = g.val l[n] := by
    intro n
    obtain ⟨t, ht, h1, h2⟩ := (hd (f n) (g.val l[n])).1 ⟨l[n], by simp, hf n, rfl⟩
    obtain ⟨k, hk, rfl⟩ := List.mem_iff_getElem.1 ht
    exact ⟨⟨k, hk⟩, h1, h2⟩
  choose q hq using hq
  have key : ∀ n m : Fin l.length, f n ≤ f m → q n = q m → n = m := by
    intro n m hnm hqe
    obtain ⟨s, hs, h1, h2⟩ := joined_same h hl hj (v := g.val r[q n]) hnm fun z h1 h2 =>
      (hd z _).2 ⟨r[q n], by simp, h.convex _ (f n) z (f m) (hq n).1 (hqe ▸ (hq m).1) h1 h2, rfl⟩
    have e1 := hl.unique hs (by simp) h1 (hf n)
    have e2 := hl.unique hs (by simp) h2 (hf m)
    by_contra hne
    have hs2 := hl.sorted
    rcases lt_or_gt_of_ne hne with hlt | hlt
    · have := List.pairwise_iff_getElem.1 hs2 n m n.2 m.2 hlt (f n) (f n) (hf n) (by
        show o.Mem _ (g.key l[m]); rw [← e2]; exact h1)
      exact lt_irrefl _ this
    · have := List.pairwise_iff_getElem.1 hs2 m n m.2 n.2 hlt (f n) (f n) (by
        show o.Mem _ (g.key l[m]); rw [← e2]; exact h1) (hf n)
      exact lt_irrefl _ this
  have hinj : Function.Injective q := by
    intro n m hnm
    rcases le_total (f n) (f m) with h1 | h1
    · exact key n m h1 hnm
    · exact (key m n h1 hnm.symm).symm
  simpa using Fintype.card_le_of_injective q hinj

/-- An `interval_set` has the least `iterative_size` (`interval_count`) of all interval sets with the same elements. -/
theorem C28_iterative_size (h : IntervalClass o) {s t : List I} (hs : WellFormed o s) (hj : FullyJoined o s)
    (ht : WellFormed o t) (hst : ∀ x, Elem o s x ↔ Elem o t x) : iterativeSize s ≤ iterativeSize t := by
  have hw := wellFormed_iff.1 hs
  refine fewest_segments h.lawful hw (wellFormed_iff.1 ht) ((fullyJoined_iff h.lawful hw).1 hj) fun x v => ?_
  rw [maps_unit, maps_unit]
  exact hst x

/-- An `interval_map` has the least `iterative_size` of all interval maps with the same associations. -/
theorem C28_iterative_size_map [DecidableEq V] (h : IntervalClass o) {m n : List (I × V)} (hm : MapWellFormed o m)
    (hj : MapFullyJoined o m) (hn : MapWellFormed o n) (hmn : ∀ x v, Assoc o m x v ↔ Assoc o n x v) :
    iterativeSize m ≤ iterativeSize n := by
  have hw := mapWellFormed_iff.1 hm
  exact fewest_segments h.lawful hw (mapWellFormed_iff.1 hn) ((mapFullyJoined_iff h.lawful hw).1 hj) hmn

/-- `{[0,2) [5,9)}` and `{[0,1) [1,2) [5,9)}` -/
example : iterativeSize exS = 2 ∧ iterativeSize [Ex.r 0 1, Ex.r 1 2, Ex.r 5 9] = 3 ∧ FullyJoined Ex.ro exS := by
  refine ⟨rfl, rfl, ?_⟩
  rw [fullyJoined_iff Ex.ro_cls.lawful (wellFormed_iff.1 ex_wf.1)]
  exact joined_of (by decide)

end

/-! ## C29: distance -/

section
variable {I V : Type} [DecidableEq I] {o : IntervalOps ℤ I} {e : ElementOps ℤ I}

/-- `distance(i, j)` of intervals: the number of values between them, `0` if they overlap or one is empty. -/
theorem C29_distance_interval (h : DiscreteClass o e) (i j : I) : ∃ xs : List ℤ,
    Enumerates xs (fun x => (∃ y, In o y i) ∧ (∃ z, In o z j) ∧
      (((∀ y, In o y i → y < x) ∧ ∀ z, In o z j → x < z) ∨ ((∀ z, In o z j → z < x) ∧ ∀ y, In o y i → x < y))) ∧
    distanceI o e i j = xs.length := by
  have hl := h.cls.lawful
  obtain ⟨xs, h1, h2, _⟩ := C28_interval h (o.innerComplement i j)
  refine ⟨xs, ⟨h1.1, fun x => ?_⟩, ?_⟩
  · rw [h1.2]; exact hl.mem_innerComplement i j x
  · rw [← h2]
    show _ = lengthI o e (o.innerComplement i j)
    by_cases hi : o.Nonempty i
    · by_cases hj : o.Nonempty j
      · have li := h.nonempty_le hi
        have lj := h.nonempty_le hj
        by_cases h3 : e.last i < e.first j
        · refine h.distanceI_before hi hj fun x y hx hy => ?_
          rw [h.mem_iff_full] at hx hy
          omega
        · by_cases h4 : e.last j < e.first i
          · have hb : o.Before j i := by
              intro x y hx hy
              rw [h.mem_iff_full] at hx hy
              omega
            have hd := h.distanceI_before hj hi hb
            have hm : ∀ x, o.Mem x (o.innerComplement i j) ↔ o.Mem x (o.innerComplement j i) := by
              intro x
              rw [hl.mem_innerComplement, hl.mem_innerComplement]
              tauto
            have hlen : lengthI o e (o.innerComplement i j) = lengthI o e (o.innerComplement j i) := by
              rw [h.lengthI_eq, h.lengthI_eq]
              simp only [h.mem_iff_full] at hm
              have a1 := hm (e.first (o.innerComplement i j))
              have a2 := hm (e.last (o.innerComplement i j))
              have a3 := hm (e.first (o.innerComplement j i))
              have a4 := hm (e.last (o.innerComplement j i))
              omega
            rw [hlen, ← hd]
            simp only [distanceI, (nonempty_iff hl).1 hi, (nonempty_iff hl).1 hj, Bool.or_self, Bool.false_eq_true,
              if_false, h3, h4, if_true]
          · have hemp : o.isEmpty (o.innerComplement i j) = true := by
              rw [hl.isEmpty_iff]
              intro x hx
              rw [hl.mem_innerComplement] at hx
              simp only [h.mem_iff_full] at hx
              obtain ⟨_, _, ⟨h5, h6⟩ | ⟨h5, h6⟩⟩ := hx
              · have := h5 (e.last i) (by omega)
                have := h6 (e.first j) (by omega)
                omega
              · have := h5 (e.last j) (by omega)
                have := h6 (e.first i) (by omega)
                omega
            simp [distanceI, lengthI, hemp, h3, h4]
      · have hemp : o.isEmpty (o.innerComplement i j) = true := by
          rw [hl.isEmpty_iff]
          intro x hx
          rw [hl.mem_innerComplement] at hx
          exact hj hx.2.1
        have : o.isEmpty j = true := (hl.isEmpty_iff j).2 fun x hx => hj ⟨x, hx⟩
        simp [distanceI, lengthI, hemp, this]
    · have hemp : o.isEmpty (o.innerComplement i j) = true := by
        rw [hl.isEmpty_iff]
        intro x hx
        rw [hl.mem_innerComplement] at hx
        exact hi hx.1
      have : o.isEmpty i = true := (hl.isEmpty_iff i).2 fun x hx => hi ⟨x, hx⟩
      simp [distanceI, lengthI, hemp, this]

/-- `distance(s)`: the number of values between elements of `s` that are not in `s`. -/
theorem C29_distance (h : DiscreteClass o e) {s : List I} (hs : WellFormed o s) : ∃ xs : List ℤ,
    Enumerates xs (fun x => ¬ Elem o s x ∧ ∃ y z, Elem o s y ∧ Elem o s z ∧ y < x ∧ x < z) ∧
    distance o e setSeg s = xs.length := by
  have hw := wellFormed_iff.1 hs
  refine ⟨(allE o e setSeg (ElemIt.fwd e setSeg) (ISet.gaps o s)).map Prod.fst, ⟨sorted_gaps h hw, fun x => ?_⟩, ?_⟩
  · rw [List.mem_map]
    refine Iff.trans ?_ (dom_gaps h.cls.lawful hw x)
    constructor
    · rintro ⟨⟨y, u⟩, hy, rfl⟩
      obtain ⟨i, hi, hx, _⟩ := (mem_allE_fwd h _ _ _).1 hy
      exact ⟨i, hi, hx⟩
    · rintro ⟨i, hi, hx⟩
      exact ⟨(x, ()), (mem_allE_fwd h _ _ _).2 ⟨i, hi, hx, rfl⟩, rfl⟩
  · rw [distance_gaps h hw, List.length_map]; exact cardinality_eq h _ _

theorem distance_keys (m : List (I × V)) : distance o e mapSeg m = distance o e setSeg (m.map Prod.fst) := by
  unfold distance
  generalize (0 : ℤ) = d
  induction m generalizing d with
  | nil => rfl
  | cons s m ih =>
    cases m with
    | nil => rfl
    | cons t m =>
      simp only [distanceLoop, List.map_cons] at ih ⊢
      exact ih _

/-- `distance(m)`: the number of values between keys of `m` that are not keys of `m`. -/
theorem C29_distance_map (h : DiscreteClass o e) {m : List (I × V)} (hm : MapWellFormed o m) : ∃ xs : List ℤ,
    Enumerates xs (fun x => ¬ Key o m x ∧ ∃ y z, Key o m y ∧ Key o m z ∧ y < x ∧ x < z) ∧
    distance o e mapSeg m = xs.length := by
  obtain ⟨xs, h1, h2⟩ := C29_distance h (wellFormed_iff.2 (wf_fst.2 (mapWellFormed_iff.1 hm)))
  refine ⟨xs, ?_, by rw [distance_keys]; exact h2⟩
  simpa only [elem_iff, dom_fst, ← key_iff] using h1

end

section
variable {D I V : Type} [LinearOrder D] [DecidableEq I] [AddCommGroup D] {o : IntervalOps D I} {card : I → ℕ∞} {lo up : I → D}

/-- `distance(s)` over continuous domains: the length of the set that `between(gaps, s)` yields. -/
theorem C29_distance_continuous (h : ContinuousClass o card lo up) (st : Style) (oracle : List I → I → Nat)
    {s : List I} (hs : WellFormed o s) :
    ∃ b, ISet.between o st oracle s = some b ∧ distanceC o lo up setSeg s = lengthC o lo up setSeg b := by
  obtain ⟨b, h1, h2, h3⟩ := C29_between h.cls st oracle hs
  exact ⟨b, h1, distanceC_spec h (wellFormed_iff.1 hs) (wellFormed_iff.1 h2) h3⟩

/-- `distance(i, j)` over continuous domains: the length of `between(i, j)`. -/
theorem C29_distance_interval_continuous (h : ContinuousClass o card lo up) {i j : I}
    (hb : ∀ x y, In o x i → In o y j → x < y) :
    distanceCI o lo up i j = lengthCI o lo up (o.innerComplement i j) := by
  have hl := h.cls.lawful
  by_cases hi : o.Nonempty i
  · by_cases hj : o.Nonempty j
    · exact h.distanceCI_before hi hj hb
    · have hemp : o.isEmpty (o.innerComplement i j) = true := by
        rw [hl.isEmpty_iff]
        intro x hx
        rw [hl.mem_innerComplement] at hx
        exact hj hx.2.1
      have : o.isEmpty j = true := (hl.isEmpty_iff j).2 fun x hx => hj ⟨x, hx⟩
      simp [distanceCI, lengthCI, hemp, this]
  · have hemp : o.isEmpty (o.innerComplement i j) = true := by
      rw [hl.isEmpty_iff]
      intro x hx
      rw [hl.mem_innerComplement] at hx
      exact hi hx.1
    have : o.isEmpty i = true := (hl.isEmpty_iff i).2 fun x hx => hi ⟨x, hx⟩
    simp [distanceCI, lengthCI, hemp, this]

end

/-! ## Examples -/

/-- `{[0,2) [5,9)}`: 6 elements, 3 values in between. -/
example : cardinality Ex.ro Ex.roE setSeg exS = 6 ∧ length Ex.ro Ex.roE setSeg exS = 6 ∧
    distance Ex.ro Ex.roE setSeg exS = 3 ∧ WellFormed Ex.ro exS ∧ DiscreteClass Ex.ro Ex.roE :=
  ⟨by decide, by decide, by decide, ex_wf.1, Ex.ro_disc⟩

/-- The third increment jumps to the second segment, and the decrement from there back. -/
example : ElemIt.incr Ex.ro Ex.roE setSeg exS ⟨0, 1⟩ = some ⟨1, 0⟩ ∧
    ElemIt.decr Ex.ro Ex.roE setSeg exS ⟨1, 0⟩ = some ⟨0, 1⟩ ∧
    ElemIt.deref (ElemIt.fwd Ex.roE setSeg) exS ⟨1, 2⟩ = some (7, ()) ∧
    ElemIt.deref (ElemIt.bwd Ex.roE setSeg) exS.reverse ⟨0, 2⟩ = some (6, ()) := by decide

theorem ex_continuous : ContinuousClass Ex.co (cardinalityDyn Ex.co) DItv.lo DItv.up := .continuous 0

/-- `{[1,1] (2,5]}` over the rational numbers -/
abbrev exCo : List (DItv ℚ) := [⟨1, 1, Bounds.closed⟩, ⟨2, 5, Bounds.leftOpen⟩]
theorem ex_co_wf : WellFormed Ex.co exCo := by
  refine ⟨?_, ?_⟩
  · intro i hi
    simp only [List.mem_cons, List.not_mem_nil, or_false] at hi
    rcases hi with rfl | rfl
    · exact ⟨1, by unfold In; decide⟩
    · exact ⟨3, by unfold In; decide⟩
  · simp only [List.pairwise_cons, List.mem_cons, List.not_mem_nil, or_false, forall_eq,
      false_implies, implies_true, List.Pairwise.nil, and_true]
    intro x y hx hy
    simp [In, continuousOps, Dyn.contains, Bounds.isLeftClosed, Bounds.isRightClosed, Bounds.closed, Bounds.leftOpen] at hx hy
    have : (1 : ℚ) < 2 := by decide
    order

example : lengthC Ex.co DItv.lo DItv.up setSeg exCo = 3 ∧ distanceC Ex.co DItv.lo DItv.up setSeg exCo = 1 ∧
    cardinalityDyn Ex.co ⟨1, 1, Bounds.closed⟩ = 1 ∧ cardinalityC (cardinalityDyn Ex.co) setSeg exCo = ⊤ := by
  have e1 : Ex.co.isEmpty ⟨1, 1, Bounds.closed⟩ = false := by decide
  have e2 : Ex.co.isEmpty ⟨2, 5, Bounds.leftOpen⟩ = false := by decide
  refine ⟨?_, ?_, by decide, ?_⟩
  · simp [lengthC, lengthCI, setSeg, e1, e2]; norm_num
  · simp [distanceC, distanceLoop, distanceCI, setSeg, e1, e2]; norm_num
  · have b : (Bounds.leftOpen = Bounds.closed) = False := by simp [Bounds.leftOpen, Bounds.closed]
    simp [cardinalityC, cardinalityLoop, cardinalityDyn, setSeg, e1, e2, b]

end ICL.Props
