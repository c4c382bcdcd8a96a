import Mathlib.Algebra.Order.Ring.Rat
import Mathlib.Algebra.Order.Field.Basic
import Mathlib.Data.Prod.Lex
import Verif.DenseSpec
import Verif.Props.Weak
import Verif.Props.MapOps

/-!
# `continuous_interval` over domain types that are not dense: C64

`float` and `double` (without NaN), `std::string` and others have a smallest value, a largest value or neighbours.
-/

set_option linter.unusedSectionVars false

namespace ICL.Props
open Spec

/-! ## Every strict weak ordering is part of a dense order without ends -/

/-- Between any two values, and before and after all, there is room for more. -/
theorem dense_lex {D : Type} [LinearOrder D] : DenselyOrdered (D ×ₗ ℚ) ∧ NoMaxOrder (D ×ₗ ℚ) ∧ NoMinOrder (D ×ₗ ℚ) := by
  refine ⟨⟨fun a b hab => ?_⟩, ⟨fun a => ⟨toLex ((ofLex a).1, (ofLex a).2 + 1), ?_⟩⟩,
    ⟨fun a => ⟨toLex ((ofLex a).1, (ofLex a).2 - 1), ?_⟩⟩⟩
  · rcases Prod.Lex.lt_iff.1 hab with h | ⟨h1, h2⟩
    · refine ⟨toLex ((ofLex a).1, (ofLex a).2 + 1), Prod.Lex.lt_iff.2 (Or.inr ⟨rfl, ?_⟩), Prod.Lex.lt_iff.2 (Or.inl h)⟩
      exact lt_add_one _
    · obtain ⟨c, h3, h4⟩ := exists_between h2
      exact ⟨toLex ((ofLex a).1, c), Prod.Lex.lt_iff.2 (Or.inr ⟨rfl, h3⟩), Prod.Lex.lt_iff.2 (Or.inr ⟨h1, h4⟩)⟩
  · exact Prod.Lex.lt_iff.2 (Or.inr ⟨rfl, lt_add_one _⟩)
  · exact Prod.Lex.lt_iff.2 (Or.inr ⟨rfl, sub_one_lt _⟩)

/-- Every domain type is part of a dense linear order without a largest and a smallest value: `key` takes its values there,
and `rep` takes back those that are the key of a value. -/
theorem C64_keys {E : Type} {lt : E → E → Prop} (h : WeakOrder lt) : ∃ (D : Type) (_ : LinearOrder D)
    (_ : DenselyOrdered D) (_ : NoMaxOrder D) (_ : NoMinOrder D) (key : E → D) (rep : D → Option E),
    (∀ a b, lt a b ↔ key a < key b) ∧ (∀ x e, rep x = some e → key e = x) ∧ ∀ e, rep (key e) ≠ none := by
  classical
  obtain ⟨D, _, key, rep, hr, hlt, -⟩ := C63_keys h
  obtain ⟨h1, h2, h3⟩ := dense_lex (D := D)
  refine ⟨D ×ₗ ℚ, inferInstance, h1, h2, h3, fun e => toLex (key e, 0),
    fun x => if (ofLex x).2 = 0 then some (rep (ofLex x).1) else none, fun a b => ?_, fun x e hx => ?_, fun e => ?_⟩
  · rw [hlt, Prod.Lex.lt_iff]; simp
  · dsimp only at hx
    split at hx
    case isTrue h0 =>
      cases hx
      change toLex (key (rep (ofLex x).1), (0 : ℚ)) = x
      rw [hr, ← h0]; rfl
    case isFalse => cases hx
  · simp

theorem dyn_contains_iff {D : Type} [LinearOrder D] (i : DItv D) (x : D) : Dyn.contains i x = true ↔
    (i.lo < x ∨ (i.bnd = Bounds.closed ∨ i.bnd = Bounds.rightOpen) ∧ i.lo = x) ∧
      (x < i.up ∨ (i.bnd = Bounds.closed ∨ i.bnd = Bounds.leftOpen) ∧ x = i.up) := by
  obtain ⟨lo, up, ⟨_ | _, _ | _⟩⟩ := i <;>
    simp [Dyn.contains, Bounds.isLeftClosed, Bounds.isRightClosed, Bounds.closed, Bounds.rightOpen, Bounds.leftOpen,
      le_iff_lt_or_eq]

section
variable {E D V : Type} [DecidableEq V] [LinearOrder D] [DenselyOrdered D] [NoMaxOrder D] [NoMinOrder D] {key : E → D} {lt : E → E → Prop}
  {zero : E}

local notation "ow" => Weak.continuousOps key zero

/-- `continuous_interval` over any domain type is an interval class, over the dense order. -/
theorem C64_class : IntervalClass ow := .weak (.continuous zero)

/-- It has one-element intervals for the values of the domain type. -/
theorem C64_set_class {rep : D → Option E} (hr : ∀ x e, rep x = some e → key e = x) :
    SetClass ow (some ⟨Weak.dynSingleton rep zero, .exact (Weak.dynSingleton rep zero)⟩) :=
  ⟨.weak (.continuous zero), fun _ he => by cases he; exact ⟨.weakContinuous hr zero, .weakContinuous hr zero⟩⟩

theorem C64_has_element {rep : D → Option E} {e : E} (hr : ∀ x e, rep x = some e → key e = x)
    (he : rep (key e) ≠ none) :
    HasElem ow (some ⟨Weak.dynSingleton rep zero, .exact (Weak.dynSingleton rep zero)⟩) (key e) := by
  obtain ⟨e', h⟩ := Option.ne_none_iff_exists'.1 he
  refine ⟨_, rfl, ?_, ?_⟩ <;>
    simp [Weak.continuousOps, Lookup.key, Weak.dynSingleton, h, Weak.viewD, dynSingleton, Cont.isEmpty, hr _ _ h]

variable (hk : ∀ a b, lt a b ↔ key a < key b)
include hk

/-! ## Intervals -/

/-- `contains(i, e)`: the values that lie between the bounds. -/
theorem C64_contains (i : DItv E) (e : E) : In ow (key e) i ↔ Lies lt i e := by
  have ht : ∀ a b, Tied lt a b ↔ key a = key b := fun a b => by
    rw [Tied, hk, hk, not_lt, not_lt, and_comm, ← le_antisymm_iff]
  unfold Lies In
  rw [ht, ht, hk, hk]
  exact dyn_contains_iff (Weak.viewD key i) (key e)

/-- A set holds the values that lie in its intervals. -/
theorem C64_elements (s : List (DItv E)) (e : E) : Elem ow s (key e) ↔ LiesIn lt s e := by
  simp only [Elem, LiesIn, C64_contains hk]

/-- The value that a map associates to `e`. -/
theorem C64_value {m : List (DItv E × V)} (hm : MapWellFormed ow m) (e : E) (v : V) :
    valueAt ow m (key e) = some v ↔ HasValue lt m e v := by
  have h := (C14_value_at hm (key e)).1 v
  rw [h]
  simp only [Assoc, HasValue, C64_contains hk]

/-- `is_empty(i)`: no value lies in it.  The converse does not hold, see `C64_counterexample_is_empty`. -/
theorem C64_is_empty (i : DItv E) (hi : (ow).isEmpty i = true) (e : E) : ¬ Lies lt i e := fun h =>
  (C01_isEmpty C64_class i).1 hi _ ((C64_contains hk i e).2 h)

/-- It compares the bounds. -/
theorem C64_is_empty_bounds (i : DItv E) :
    (ow).isEmpty i = true ↔ lt i.up i.lo ∨ Tied lt i.up i.lo ∧ i.bnd ≠ Bounds.closed := by
  have ht : ∀ a b, Tied lt a b ↔ key a = key b := fun a b => by
    rw [Tied, hk, hk, not_lt, not_lt, and_comm, ← le_antisymm_iff]
  rw [ht, hk]
  change (decide (key i.up < key i.lo) || (decide (key i.up = key i.lo) && i.bnd != Bounds.closed)) = true ↔ _
  simp only [Bool.or_eq_true, Bool.and_eq_true, decide_eq_true_eq, bne_iff_ne]

/-- `i & j` -/
theorem C64_intersection (i j : DItv E) (e : E) : Lies lt ((ow).inter i j) e ↔ Lies lt i e ∧ Lies lt j e := by
  rw [← C64_contains hk (zero := zero), C02_intersection C64_class, C64_contains hk, C64_contains hk]

/-- `right_subtract(i, j)` and `left_subtract(i, j)`: for intervals that are not empty, what is left of `i` without `j`
and what is before `j` and after it. -/
theorem C64_subtract (i j : DItv E) (hj : (ow).isEmpty j = false) (e : E) :
    (Lies lt i e ∧ ¬ Lies lt j e ↔ Lies lt ((ow).rightSubtract i j) e ∨ Lies lt ((ow).leftSubtract i j) e) ∧
    (Lies lt ((ow).rightSubtract i j) e → ∀ b, Lies lt j b → lt e b) ∧
    (Lies lt ((ow).leftSubtract i j) e → ∀ b, Lies lt j b → lt b e) := by
  have hc : IntervalClass ow := C64_class
  have hn : ∃ y, In ow y j := (nonempty_iff hc.lawful).2 hj
  have hp := C02_partition hc i j hn (key e)
  have hr := C02_right_subtract hc i j (key e)
  have hl := C02_left_subtract hc i j (key e)
  have hi := C02_intersection hc i j (key e)
  simp only [← C64_contains hk (zero := zero), hk]
  refine ⟨⟨fun h => ?_, fun h => ?_⟩, fun h b hb => ?_, fun h b hb => ?_⟩
  · rcases hp.1 h.1 with h1 | h1 | h1
    · exact Or.inl h1
    · exact absurd (hi.1 h1).2 h.2
    · exact Or.inr h1
  · rcases h with h | h
    · exact ⟨(hr.1 h).1, fun h1 => lt_irrefl _ ((hr.1 h).2 _ h1)⟩
    · exact ⟨(hl.1 h).1, fun h1 => lt_irrefl _ ((hl.1 h).2 _ h1)⟩
  · exact (hr.1 h).2 _ hb
  · exact (hl.1 h).2 _ hb

/-- `hull(i, j)` holds the values of both. -/
theorem C64_hull (i j : DItv E) (e : E) (he : Lies lt i e ∨ Lies lt j e) : Lies lt ((ow).hull i j) e := by
  rw [← C64_contains hk (zero := zero), ← C64_contains hk (zero := zero)] at he
  rw [← C64_contains hk (zero := zero)]
  exact (C03_hull C64_class i j _).2 ⟨key e, key e, he, he, Or.inl ⟨le_refl _, le_refl _⟩⟩

/-! ## Sets -/

variable [DecidableEq E]

/-- Sets that are computed by any operations have disjoint intervals: no value lies in two of them. -/
theorem C64_disjoint {s : List (DItv E)} (hs : WellFormed ow s) {i j : DItv E} (hi : i ∈ s) (hj : j ∈ s) {e : E}
    (h1 : Lies lt i e) (h2 : Lies lt j e) : i = j := by
  rw [← C64_contains hk (zero := zero)] at h1 h2
  have hp := hs.2
  clear hs
  induction s with
  | nil => cases hi
  | cons a s ih =>
    obtain ⟨h3, h4⟩ := List.pairwise_cons.1 hp
    rcases List.mem_cons.1 hi with rfl | hi <;> rcases List.mem_cons.1 hj with rfl | hj
    · rfl
    · exact absurd (h3 _ (by assumption) _ _ h1 h2) (lt_irrefl _)
    · exact absurd (h3 _ (by assumption) _ _ h2 h1) (lt_irrefl _)
    · exact ih (by assumption) (by assumption) h4

/-- Operations with an interval. -/
theorem C64_sets_interval (st : Style) (oracle : List (DItv E) → DItv E → Nat) {s : List (DItv E)} (hs : WellFormed ow s)
    (k : DItv E) :
    (∃ r, ISet.add ow st s k = some r ∧ WellFormed ow r ∧ ∀ e, LiesIn lt r e ↔ LiesIn lt s e ∨ Lies lt k e) ∧
    (∃ r, ISet.subtract ow s k = some r ∧ WellFormed ow r ∧ ∀ e, LiesIn lt r e ↔ LiesIn lt s e ∧ ¬ Lies lt k e) ∧
    (∃ r, ISet.interSeg ow st oracle s k = some r ∧ WellFormed ow r ∧ ∀ e, LiesIn lt r e ↔ LiesIn lt s e ∧ Lies lt k e) ∧
    ((ow).isEmpty k = false → ∃ r, ISet.flipSeg ow st s k = some r ∧ WellFormed ow r ∧
      ∀ e, LiesIn lt r e ↔ (LiesIn lt s e ∧ ¬ Lies lt k e) ∨ (Lies lt k e ∧ ¬ LiesIn lt s e)) := by
  have hc : IntervalClass ow := C64_class
  simp only [← C64_contains hk (zero := zero), ← C64_elements hk (zero := zero)]
  obtain ⟨r1, e1, w1, a1⟩ := C08_add hc st hs k
  obtain ⟨r2, e2, w2, a2⟩ := C09_subtract hc hs k
  obtain ⟨r3, e3, w3, a3⟩ := C10_intersection_interval hc st oracle hs k
  refine ⟨⟨r1, e1, w1, fun e => a1 _⟩, ⟨r2, e2, w2, fun e => a2 _⟩, ⟨r3, e3, w3, fun e => a3 _⟩, fun h => ?_⟩
  obtain ⟨r4, e4, w4, a4⟩ := C11_flip hc st hs k h
  exact ⟨r4, e4, w4, fun e => a4 _⟩

/-- Operations with a set. -/
theorem C64_sets (st : Style) (oracle : List (DItv E) → DItv E → Nat) {s t : List (DItv E)} (hs : WellFormed ow s)
    (ht : WellFormed ow t) :
    (∃ r, ISet.addSet ow st oracle s t = some r ∧ WellFormed ow r ∧ ∀ e, LiesIn lt r e ↔ LiesIn lt s e ∨ LiesIn lt t e) ∧
    (∃ r, ISet.subSet ow s t = some r ∧ WellFormed ow r ∧ ∀ e, LiesIn lt r e ↔ LiesIn lt s e ∧ ¬ LiesIn lt t e) ∧
    (∃ r, ISet.interSet ow st oracle s t = some r ∧ WellFormed ow r ∧
      ∀ e, LiesIn lt r e ↔ LiesIn lt s e ∧ LiesIn lt t e) ∧
    (∃ r, ISet.flipSet ow st oracle s t = some r ∧ WellFormed ow r ∧
      ∀ e, LiesIn lt r e ↔ (LiesIn lt s e ∧ ¬ LiesIn lt t e) ∨ (LiesIn lt t e ∧ ¬ LiesIn lt s e)) := by
  have hc : IntervalClass ow := C64_class
  simp only [← C64_elements hk (zero := zero)]
  obtain ⟨r1, e1, w1, a1⟩ := C08_union hc st oracle hs ht
  obtain ⟨r2, e2, w2, a2⟩ := C09_difference hc hs ht
  obtain ⟨r3, e3, w3, a3⟩ := C10_intersection hc st oracle hs ht
  obtain ⟨r4, e4, w4, a4⟩ := C11_symmetric_difference hc st oracle hs ht
  exact ⟨⟨r1, e1, w1, fun e => a1 _⟩, ⟨r2, e2, w2, fun e => a2 _⟩, ⟨r3, e3, w3, fun e => a3 _⟩,
    ⟨r4, e4, w4, fun e => a4 _⟩⟩

/-- The element functions for the values that `rep` gives. -/
abbrev denseFns (rep : D → Option E) (zero : E) : ElemFns D (DItv E) :=
  ⟨Weak.dynSingleton rep zero, .exact (Weak.dynSingleton rep zero)⟩

/-- Operations with a value `a`, on sets that are computed by any operations. -/
theorem C64_sets_element {rep : D → Option E} (hr : ∀ x e, rep x = some e → key e = x) (st : Style) {s : List (DItv E)}
    (hs : Reachable ow (some (denseFns rep zero)) st s) (a : E) (ha : rep (key a) ≠ none) :
    (∃ r, ISet.addE ow st (Weak.dynSingleton rep zero) s (key a) = some r ∧
      ∀ e, LiesIn lt r e ↔ LiesIn lt s e ∨ Tied lt e a) ∧
    (∃ r, ISet.subE ow (Weak.dynSingleton rep zero) s (key a) = some r ∧
      ∀ e, LiesIn lt r e ↔ LiesIn lt s e ∧ ¬ Tied lt e a) ∧
    (∃ r, ISet.addInterE ow st (Weak.dynSingleton rep zero) (.exact (Weak.dynSingleton rep zero)) [] s (key a) = some r ∧
      ∀ e, LiesIn lt r e ↔ LiesIn lt s e ∧ Tied lt e a) ∧
    (∃ r, ISet.flipE ow st (Weak.dynSingleton rep zero) (.exact (Weak.dynSingleton rep zero)) s (key a) = some r ∧
      ∀ e, LiesIn lt r e ↔ (LiesIn lt s e ∧ ¬ Tied lt e a) ∨ (Tied lt e a ∧ ¬ LiesIn lt s e)) ∧
    (∃ b, containsE ow setSeg (.exact (Weak.dynSingleton rep zero)) s (key a) = some b ∧ (b = true ↔ LiesIn lt s a)) ∧
    ∃ r, findE ow setSeg (.exact (Weak.dynSingleton rep zero)) s (key a) = some r ∧
      ∀ i, r = some i ↔ i ∈ s ∧ Lies lt i a := by
  have ht : ∀ a b, Tied lt a b ↔ key a = key b := fun a b => by
    rw [Tied, hk, hk, not_lt, not_lt, and_comm, ← le_antisymm_iff]
  have hc : SetClass ow (some (denseFns rep zero)) := C64_set_class hr
  have he : HasElem ow (some (denseFns rep zero)) (key a) := C64_has_element hr ha
  have hw := C06_well_formed hc hs
  have hj : st = .joining → FullyJoined ow s := fun e => by subst e; exact C07_fully_joined hc hs
  have hs1 : SingletonClass ow (Weak.dynSingleton rep zero) := .weakContinuous hr zero
  have hs2 : LookupClass ow (.exact (Weak.dynSingleton rep zero)) := .weakContinuous hr zero
  have hn : (ow).isEmpty (Weak.dynSingleton rep zero (key a)) = false := by
    obtain ⟨_, e1, e2, _⟩ := he; cases e1; exact e2
  simp only [← C64_contains hk (zero := zero), ← C64_elements hk (zero := zero), ht]
  obtain ⟨r1, e1, -, a1⟩ := C08_add_element hs1 st hw (key a) hn
  obtain ⟨r2, e2, -, a2⟩ := C09_subtract_element hs1 hw (key a) hn
  obtain ⟨r3, e3, -, a3⟩ := C10_intersection_element hc st hw hj (key a) he
  obtain ⟨r4, e4, -, a4⟩ := C11_flip_element hc st hw hj (key a) he
  exact ⟨⟨r1, e1, fun e => a1 _⟩, ⟨r2, e2, fun e => a2 _⟩, ⟨r3, e3, fun e => a3 _⟩, ⟨r4, e4, fun e => a4 _⟩,
    C14_contains_element hs2 hw (key a) hn, C14_find hs2 hw (key a) hn⟩

/-- Comparisons: what they assert holds of the values.  The converses do not hold, see the counterexamples. -/
theorem C64_comparisons (st : Style) (oracle : List (DItv E) → DItv E → Nat) {s t : List (DItv E)} (hs : WellFormed ow s)
    (ht : WellFormed ow t) (k : DItv E) :
    (eqC ow setSeg s t = true → ∀ e, LiesIn lt s e ↔ LiesIn lt t e) ∧
    (ISet.containsSeg ow s k = some true → ∀ e, Lies lt k e → LiesIn lt s e) ∧
    (ISet.intersects ow st oracle s t = some false → ∀ e, ¬ (LiesIn lt s e ∧ LiesIn lt t e)) := by
  have hc : IntervalClass ow := C64_class
  simp only [← C64_contains hk (zero := zero), ← C64_elements hk (zero := zero)]
  refine ⟨fun h e => ?_, fun h e => ?_, fun h e => ?_⟩
  · have h2 := (eqC_forall2 hc.lawful (wellFormed_iff.1 hs) (wellFormed_iff.1 ht)).1 h
    clear h hs ht
    induction h2 with
    | nil => rfl
    | cons h3 _ ih =>
      simp only [Elem, List.mem_cons, or_and_right, exists_or, exists_eq_left] at ih ⊢
      exact or_congr (h3.1 _) ih
  · obtain ⟨b, e1, h1⟩ := C14_contains_interval hc hs k
    rw [h] at e1; cases e1
    exact h1.1 rfl _
  · obtain ⟨b, e1, h1⟩ := C10_intersects hc st oracle hs ht
    rw [h] at e1; cases e1
    exact fun h2 => absurd (h1.2 ⟨_, h2⟩) (by simp)

/-! ## Maps -/

variable [DecidableEq V]

/-- Operations with a segment: the values that lie in `k` get what the operation says, the others keep theirs. -/
theorem C64_maps_segment (t : MapType V) {m : List (DItv E × V)} (hm : MapWellFormed ow m) (k : DItv E) (v : V) :
    (∃ r, IMap.addSeg ow t m k v = some r ∧ MapWellFormed ow r ∧
      (∀ e, Lies lt k e → valueAt ow r (key e) = added t v (valueAt ow m (key e))) ∧
      ∀ e, ¬ Lies lt k e → valueAt ow r (key e) = valueAt ow m (key e)) ∧
    (∃ r, IMap.subSeg ow t m k v = some r ∧ MapWellFormed ow r ∧
      (∀ e, Lies lt k e → valueAt ow r (key e) = subtracted t v (valueAt ow m (key e))) ∧
      ∀ e, ¬ Lies lt k e → valueAt ow r (key e) = valueAt ow m (key e)) ∧
    (∃ r, IMap.setAt ow t.cfg m k v = some r ∧ MapWellFormed ow r ∧
      (∀ e, Lies lt k e → valueAt ow r (key e) = stored t v) ∧
      ∀ e, ¬ Lies lt k e → valueAt ow r (key e) = valueAt ow m (key e)) ∧
    (∃ r, IMap.insert ow t.cfg m k v = some r ∧ MapWellFormed ow r ∧
      (∀ e u, valueAt ow m (key e) = some u → valueAt ow r (key e) = some u) ∧
      (∀ e, Lies lt k e → valueAt ow m (key e) = none → valueAt ow r (key e) = stored t v) ∧
      ∀ e, ¬ Lies lt k e → valueAt ow r (key e) = valueAt ow m (key e)) ∧
    ∃ r, IMap.eraseItv ow m k = some r ∧ MapWellFormed ow r ∧
      ∀ e u, HasValue lt r e u ↔ HasValue lt m e u ∧ ¬ Lies lt k e := by
  have hc : IntervalClass ow := C64_class
  obtain ⟨r1, e1, w1, a1, b1⟩ := C18_add hc t hm k v
  obtain ⟨r2, e2, w2, a2, b2⟩ := C19_subtract hc t hm k v
  obtain ⟨r3, e3, w3, a3, b3⟩ := C20_set hc t hm k v
  obtain ⟨r4, e4, w4, a4, b4, c4⟩ := C20_insert hc t hm k v
  obtain ⟨r5, e5, w5, a5⟩ := C21_erase_interval hc hm k
  refine ⟨⟨r1, e1, w1, ?_⟩, ⟨r2, e2, w2, ?_⟩, ⟨r3, e3, w3, ?_⟩, ⟨r4, e4, w4, ?_⟩, ⟨r5, e5, w5, ?_⟩⟩
  · simp only [← C64_contains hk (zero := zero)]; exact ⟨fun e => a1 _, fun e => b1 _⟩
  · simp only [← C64_contains hk (zero := zero)]; exact ⟨fun e => a2 _, fun e => b2 _⟩
  · simp only [← C64_contains hk (zero := zero)]; exact ⟨fun e => a3 _, fun e => b3 _⟩
  · simp only [← C64_contains hk (zero := zero)]; exact ⟨fun e => a4 _, fun e => b4 _, fun e => c4 _⟩
  · intro e u
    rw [← C64_value hk w5, ← C64_value hk hm, ← C64_contains hk (zero := zero), valueAt_assoc w5, valueAt_assoc hm]
    exact a5 _ _

/-- Addition and subtraction of maps. -/
theorem C64_maps {t : MapType V} (hN : Neutral t) (oracle : List (DItv E × V) → DItv E → Nat) {m n : List (DItv E × V)}
    (hm : MapWellFormed ow m) (hn : MapWellFormed ow n) (hi : NoIdentity t m) :
    (∃ r, IMap.addMap ow t oracle m n = some r ∧ MapWellFormed ow r ∧
      (∀ e v, HasValue lt n e v → valueAt ow r (key e) = added t v (valueAt ow m (key e))) ∧
      ∀ e, (∀ v, ¬ HasValue lt n e v) → valueAt ow r (key e) = valueAt ow m (key e)) ∧
    ∃ r, IMap.subMap ow t m n = some r ∧ MapWellFormed ow r ∧
      (∀ e v, HasValue lt n e v → valueAt ow r (key e) = subtracted t v (valueAt ow m (key e))) ∧
      ∀ e, (∀ v, ¬ HasValue lt n e v) → valueAt ow r (key e) = valueAt ow m (key e) := by
  have hc : IntervalClass ow := C64_class
  have h0 : ∀ e, (∀ v, ¬ HasValue lt n e v) → valueAt ow n (key e) = none := fun e h =>
    Option.eq_none_iff_forall_ne_some.2 fun v hv => h v ((C64_value hk hn e v).1 hv)
  obtain ⟨r1, e1, w1, a1, b1⟩ := C23_add hc hN oracle hm hn hi
  obtain ⟨r2, e2, w2, a2, b2⟩ := C23_subtract hc t hm hn
  exact ⟨⟨r1, e1, w1, fun e v h => a1 _ _ ((C64_value hk hn e v).2 h), fun e h => b1 _ (h0 e h)⟩,
    ⟨r2, e2, w2, fun e v h => a2 _ _ ((C64_value hk hn e v).2 h), fun e h => b2 _ (h0 e h)⟩⟩

end

/-! ## A domain type with neighbours

The whole numbers, with `continuous_interval`: between neighbours there is a gap that the library takes for more values. -/

abbrev gapOps : IntervalOps ℚ (DItv ℤ) := Weak.continuousOps (fun n : ℤ => (n : ℚ)) 0

theorem gap_key (a b : ℤ) : a < b ↔ (a : ℚ) < (b : ℚ) := Int.cast_lt.symm

/-- `[a,b]` -/
abbrev gc (a b : ℤ) : DItv ℤ := ⟨a, b, Bounds.closed⟩

abbrev gapRep (x : ℚ) : Option ℤ := if x.den = 1 then some x.num else none

theorem gap_rep (x : ℚ) (n : ℤ) (h : gapRep x = some n) : (n : ℚ) = x := by
  unfold gapRep at h
  split at h
  case isTrue h1 => cases h; exact (Rat.den_eq_one_iff x).1 h1
  case isFalse => cases h

/-- `{} += [0,3]`, `-= 1`: the values 0, 2 and 3 -/
example : Reachable gapOps (some (denseFns gapRep 0)) .joining [⟨0, 1, Bounds.rightOpen⟩, ⟨1, 3, Bounds.leftOpen⟩] ∧
    (∀ e : ℤ, LiesIn (· < ·) [⟨0, 1, Bounds.rightOpen⟩, ⟨1, 3, Bounds.leftOpen⟩] e ↔ e = 0 ∨ e = 2 ∨ e = 3) := by
  refine ⟨.op (.subE 1) (.op (.add (gc 0 3)) (.empty _) (l' := [gc 0 3]) (by decide +kernel)) (by decide +kernel),
    fun e => ?_⟩
  simp [LiesIn, Lies, Tied, Bounds.closed, Bounds.rightOpen, Bounds.leftOpen]; omega

example : ∀ e : ℤ, gapRep (e : ℚ) ≠ none := fun e => by simp

example (k : DItv ℤ) : ∃ r, ISet.add gapOps .joining [gc 0 3] k = some r ∧ WellFormed gapOps r ∧
    ∀ e : ℤ, LiesIn (· < ·) r e ↔ LiesIn (· < ·) [gc 0 3] e ∨ Lies (· < ·) k e :=
  (C64_sets_interval gap_key .joining (fun _ _ => 0) (zero := 0)
    (C06_well_formed (E := none) ⟨C64_class, nofun⟩ (.op (.add (gc 0 3)) (.empty .joining) (by decide +kernel))) k).1

/-- `{([0,3],1)} += ((1,5),2)` -/
example : IMap.addSeg gapOps (exMap true true false) [(gc 0 3, 1)] ⟨1, 5, Bounds.opn⟩ 2 =
    some [(gc 0 1, 1), (⟨1, 3, Bounds.leftOpen⟩, 3), (⟨3, 5, Bounds.opn⟩, 2)] := by decide +kernel

/-- The open interval between neighbours is not empty for `is_empty`, though no value lies in it; so a set that has it is not
empty, and `intersects` holds with itself. -/
theorem C64_counterexample_is_empty : ∃ i : DItv ℤ, gapOps.isEmpty i = false ∧ (∀ e, ¬ Lies (· < ·) i e) ∧
    ISet.add gapOps .joining [] i = some [i] ∧ ISet.intersects gapOps .joining (fun _ _ => 0) [i] [i] = some true := by
  refine ⟨⟨0, 1, Bounds.opn⟩, by decide +kernel, fun e he => ?_, by decide +kernel, by decide +kernel⟩
  simp only [Lies, Tied, Bounds.opn, Bounds.closed, Bounds.rightOpen, Bounds.leftOpen] at he
  have h1 := he.1
  have h2 := he.2
  simp at h1 h2
  omega

/-- Sets with the same values need not be equal, and `contains` may deny what holds of the values: `{[0,0], [1,1]}` and
`{[0,1]}`. -/
theorem C64_counterexample_equal : ∃ (s t : List (DItv ℤ)) (k : DItv ℤ), Reachable gapOps none .joining s ∧
    Reachable gapOps none .joining t ∧ (∀ e, LiesIn (· < ·) s e ↔ LiesIn (· < ·) t e) ∧ eqC gapOps setSeg s t = false ∧
    (∀ e, Lies (· < ·) k e → LiesIn (· < ·) s e) ∧ ISet.containsSeg gapOps s k = some false := by
  have h : ∀ e : ℤ, LiesIn (· < ·) [gc 0 0, gc 1 1] e ↔ LiesIn (· < ·) [gc 0 1] e := fun e => by
    simp [LiesIn, Lies, Tied]; omega
  refine ⟨[gc 0 0, gc 1 1], [gc 0 1], gc 0 1, ?_, ?_, h, by decide +kernel, fun e he => (h e).2 ⟨_, by simp, he⟩,
    by decide +kernel⟩
  · exact .op (.add (gc 1 1)) (.op (.add (gc 0 0)) (.empty _) (l' := [gc 0 0]) (by decide +kernel)) (by decide +kernel)
  · exact .op (.add (gc 0 1)) (.empty _) (by decide +kernel)

end ICL.Props
