import Verif.Theory.Compare
import Verif.Theory.MapQuery
import Verif.Theory.SpecBridge
import Verif.Props.Sets
import Verif.Props.Intervals

/-!
# Comparison of containers: C25, C31, and queries on maps (C14)
-/

set_option linter.unusedSectionVars false
set_option linter.unusedVariables false

namespace ICL.Props
open Spec

variable {D I V W : Type} [LinearOrder D] {o : IntervalOps D I}

/-- Maps for the examples: `{[0,2)->1 [2,4)->1 [5,9)->2}` and `{[0,4)->1 [5,9)->2}`. -/
abbrev exM : List (SItv ℤ × ℤ) := [(Ex.r 0 2, 1), (Ex.r 2 4, 1), (Ex.r 5 9, 2)]
@[inherit_doc exM] abbrev exN : List (SItv ℤ × ℤ) := [(Ex.r 0 4, 1), (Ex.r 5 9, 2)]

/-- For the examples: increasing bounds make a well-formed sequence of right open intervals. -/
theorem wellFormed_ro (l : List (SItv ℤ)) (h1 : ∀ i ∈ l, i.lo < i.up)
    (h2 : l.Pairwise fun i j => i.up ≤ j.lo) : WellFormed Ex.ro l := by
  refine ⟨fun i hi => ⟨i.lo, by have := h1 i hi; simp [In, rightOpenOps]; omega⟩, ?_⟩
  refine h2.imp ?_
  intro i j hij x y hx hy
  simp [In, rightOpenOps] at hx hy
  omega

theorem exM_wf : MapWellFormed Ex.ro exM ∧ MapWellFormed Ex.ro exN :=
  ⟨wellFormed_ro _ (by decide) (by decide), wellFormed_ro _ (by decide) (by decide)⟩

theorem elem_maps (s : List I) (x : D) (u : Unit) : Maps o setSeg s x u ↔ Elem o s x := by
  constructor
  · rintro ⟨i, hi, hx, _⟩; exact ⟨i, hi, hx⟩
  · rintro ⟨i, hi, hx⟩; exact ⟨i, hi, hx, rfl⟩

/-! ## C25: inclusion comparison -/

/-- `inclusion_compare` of two sets: bit `sub` (left is contained in right) and bit `sup` (left contains
right) are exact. -/
theorem C25_inclusion_compare_sets (h : IntervalClass o) {s t : List I} (hs : WellFormed o s)
    (ht : WellFormed o t) :
    ∃ c, inclusionCompare o setSeg setSeg (fun _ _ => .equal) s t = some c ∧
      (c.sub = true ↔ ∀ x, Elem o s x → Elem o t x) ∧ (c.sup = true ↔ ∀ x, Elem o t x → Elem o s x) := by
  obtain ⟨c, e, h1, h2⟩ := inclusionCompare_spec h.lawful (g := setSeg) (k := setSeg) (fun _ _ => .equal)
    (wellFormed_iff.1 hs) (wellFormed_iff.1 ht)
  refine ⟨c, e, h1.trans ?_, h2.trans ?_⟩ <;>
    simp only [elem_maps, Incl.equal, and_true, exists_const] <;>
    exact ⟨fun hh x hx => hh x () hx, fun hh x _ hx => hh x hx⟩

/-- `is_element_equal(s, t)` -/
theorem C25_is_element_equal_sets (h : IntervalClass o) {s t : List I} (hs : WellFormed o s)
    (ht : WellFormed o t) :
    ∃ b, isElementEqual o setSeg setSeg (fun _ _ => .equal) s t = some b ∧
      (b = true ↔ ∀ x, Elem o s x ↔ Elem o t x) := by
  obtain ⟨c, e, h1, h2⟩ := C25_inclusion_compare_sets h hs ht
  refine ⟨decide (c = .equal), by simp [isElementEqual, e], ?_⟩
  rw [decide_eq_true_eq, show (∀ x, Elem o s x ↔ Elem o t x) ↔ (∀ x, Elem o s x → Elem o t x) ∧
    (∀ x, Elem o t x → Elem o s x) from ⟨fun hh => ⟨fun x => (hh x).1, fun x => (hh x).2⟩,
      fun hh x => ⟨hh.1 x, hh.2 x⟩⟩, ← h1, ← h2]
  cases c; simp [Incl.equal]

/-- `contains(s, t)` for sets -/
theorem C25_contains_sets (h : IntervalClass o) {s t : List I} (hs : WellFormed o s)
    (ht : WellFormed o t) :
    ∃ b, containsC o setSeg setSeg (fun _ _ => .equal) s t = some b ∧
      (b = true ↔ ∀ x, Elem o t x → Elem o s x) := by
  obtain ⟨c, e, h1, h2⟩ := C25_inclusion_compare_sets h hs ht
  refine ⟨decide (c = .superset) || decide (c = .equal), by simp [containsC, e], ?_⟩
  rw [← h2]
  obtain ⟨a, b⟩ := c
  cases a <;> cases b <;> decide

/-- `within(s, t)` for sets -/
theorem C25_within_sets (h : IntervalClass o) {s t : List I} (hs : WellFormed o s)
    (ht : WellFormed o t) :
    ∃ b, withinC o setSeg setSeg (fun _ _ => .equal) s t = some b ∧
      (b = true ↔ ∀ x, Elem o s x → Elem o t x) := by
  obtain ⟨c, e, h1, h2⟩ := C25_inclusion_compare_sets h hs ht
  refine ⟨decide (c = .subset) || decide (c = .equal), by simp [withinC, e], ?_⟩
  rw [← h1]
  obtain ⟨a, b⟩ := c
  cases a <;> cases b <;> decide

example : WellFormed Ex.ro exS ∧ WellFormed Ex.ro exT ∧
    isElementEqual Ex.ro setSeg setSeg (fun _ _ => .equal) [Ex.r 0 1, Ex.r 1 2, Ex.r 5 9] exS = some true ∧
    isElementEqual Ex.ro setSeg setSeg (fun _ _ => .equal) exS exT = some false ∧
    containsC Ex.ro setSeg setSeg (fun _ _ => .equal) exS [Ex.r 6 7, Ex.r 8 9] = some true ∧
    withinC Ex.ro setSeg setSeg (fun _ _ => .equal) exT [Ex.r 0 10] = some true :=
  ⟨ex_wf.1, ex_wf.2, by decide⟩

/-- `inclusion_compare` of two maps whose values are compared by equality. -/
theorem C25_inclusion_compare_maps [DecidableEq V] (h : IntervalClass o) {m n : List (I × V)}
    (hm : MapWellFormed o m) (hn : MapWellFormed o n) :
    ∃ c, inclusionCompare o mapSeg mapSeg atomicCompare m n = some c ∧
      (c.sub = true ↔ ∀ x v, Assoc o m x v → Assoc o n x v) ∧
      (c.sup = true ↔ ∀ x v, Assoc o n x v → Assoc o m x v) := by
  obtain ⟨c, e, h1, h2⟩ := inclusionCompare_spec h.lawful (g := mapSeg) (k := mapSeg) (atomicCompare (V := V))
    (mapWellFormed_iff.1 hm) (mapWellFormed_iff.1 hn)
  refine ⟨c, e, h1.trans ?_, h2.trans ?_⟩ <;> simp only [assoc_iff] <;>
    refine forall_congr' fun x => forall_congr' fun v => imp_congr_right fun _ => ?_
  · constructor
    · rintro ⟨w, hw, hc⟩
      by_cases hv : v = w
      · rw [hv]; exact hw
      · simp [atomicCompare, hv, Incl.unrelated] at hc
    · exact fun hv => ⟨v, hv, by simp [atomicCompare, Incl.equal]⟩
  · constructor
    · rintro ⟨w, hw, hc⟩
      by_cases hv : w = v
      · rw [← hv]; exact hw
      · simp [atomicCompare, hv, Incl.unrelated] at hc
    · exact fun hv => ⟨v, hv, by simp [atomicCompare, Incl.equal]⟩

/-- `is_element_equal(m, n)` for maps -/
theorem C25_is_element_equal_maps [DecidableEq V] (h : IntervalClass o) {m n : List (I × V)}
    (hm : MapWellFormed o m) (hn : MapWellFormed o n) :
    ∃ b, isElementEqual o mapSeg mapSeg atomicCompare m n = some b ∧
      (b = true ↔ ∀ x v, Assoc o m x v ↔ Assoc o n x v) := by
  obtain ⟨c, e, h1, h2⟩ := C25_inclusion_compare_maps h hm hn
  refine ⟨decide (c = .equal), by simp [isElementEqual, e], ?_⟩
  rw [decide_eq_true_eq, show (∀ x v, Assoc o m x v ↔ Assoc o n x v) ↔ (∀ x v, Assoc o m x v → Assoc o n x v) ∧
    (∀ x v, Assoc o n x v → Assoc o m x v) from ⟨fun hh => ⟨fun x v => (hh x v).1, fun x v => (hh x v).2⟩,
      fun hh x v => ⟨hh.1 x v, hh.2 x v⟩⟩, ← h1, ← h2]
  cases c; simp [Incl.equal]

/-- `contains(m, n)` and `within(n, m)` for maps -/
theorem C25_contains_maps [DecidableEq V] (h : IntervalClass o) {m n : List (I × V)}
    (hm : MapWellFormed o m) (hn : MapWellFormed o n) :
    ∃ b, withinC o mapSeg mapSeg atomicCompare n m = some b ∧
      (b = true ↔ ∀ x v, Assoc o n x v → Assoc o m x v) := by
  obtain ⟨c, e, h1, h2⟩ := C25_inclusion_compare_maps h hn hm
  refine ⟨decide (c = .subset) || decide (c = .equal), by simp [withinC, e], ?_⟩
  rw [← h1]
  obtain ⟨a, b⟩ := c
  cases a <;> cases b <;> decide

/-- `inclusion_compare` of two maps whose values are sets, compared by `co` (the `inclusion_compare` of the
value type), where `co` decides the inclusion `Sub` of values. -/
theorem C25_inclusion_compare_set_valued (h : IntervalClass o) (co : CoCompare V V) (Sub : V → V → Prop)
    (hsub : ∀ v w, (co v w).sub = true ↔ Sub v w) (hsup : ∀ v w, (co v w).sup = true ↔ Sub w v)
    {m n : List (I × V)} (hm : MapWellFormed o m) (hn : MapWellFormed o n) :
    ∃ c, inclusionCompare o mapSeg mapSeg co m n = some c ∧
      (c.sub = true ↔ ∀ x v, Assoc o m x v → ∃ w, Assoc o n x w ∧ Sub v w) ∧
      (c.sup = true ↔ ∀ x v, Assoc o n x v → ∃ w, Assoc o m x w ∧ Sub v w) := by
  obtain ⟨c, e, h1, h2⟩ := inclusionCompare_spec h.lawful (g := mapSeg) (k := mapSeg) co
    (mapWellFormed_iff.1 hm) (mapWellFormed_iff.1 hn)
  simp only [hsub, hsup] at h1 h2
  exact ⟨c, e, h1, h2⟩

/-- `contains(m, s)`, `within(s, m)` for a partial map `m` and a set `s` of keys; the same run compares
the key sets. -/
theorem C25_map_contains_set (h : IntervalClass o) {m : List (I × V)} {s : List I}
    (hm : MapWellFormed o m) (hs : WellFormed o s) :
    ∃ b, withinC o setSeg mapSeg (fun _ _ => .equal) s m = some b ∧
      (b = true ↔ ∀ x, Elem o s x → Key o m x) := by
  obtain ⟨c, e, h1, h2⟩ := inclusionCompare_spec h.lawful (g := setSeg) (k := mapSeg) (fun _ _ => .equal)
    (wellFormed_iff.1 hs) (mapWellFormed_iff.1 hm)
  refine ⟨decide (c = .subset) || decide (c = .equal), by simp [withinC, e], ?_⟩
  have h3 : (∀ x, Elem o s x → Key o m x) ↔ c.sub = true := by
    rw [h1]
    simp only [elem_maps, Incl.equal, and_true]
    constructor
    · intro hh x _ hx
      obtain ⟨t, ht, hx⟩ := hh x hx
      exact ⟨t.2, t, ht, hx, rfl⟩
    · intro hh x hx
      obtain ⟨w, t, ht, hx, _⟩ := hh x () hx
      exact ⟨t, ht, hx⟩
  rw [h3]
  obtain ⟨a, b⟩ := c
  cases a <;> cases b <;> decide

example : MapWellFormed Ex.ro exM ∧ MapWellFormed Ex.ro exN ∧
    isElementEqual Ex.ro mapSeg mapSeg atomicCompare exM exN = some true ∧
    isElementEqual Ex.ro mapSeg mapSeg atomicCompare exM [(Ex.r 0 4, 1), (Ex.r 5 9, 1)] = some false ∧
    withinC Ex.ro mapSeg mapSeg atomicCompare [(Ex.r 1 3, (1 : ℤ))] exM = some true ∧
    withinC Ex.ro setSeg mapSeg (fun _ _ => .equal) [Ex.r 1 3, Ex.r 6 8] exM = some true ∧
    inclusionCompare Ex.ro mapSeg mapSeg (fun v w : ℤ => ⟨decide (v ≤ w), decide (w ≤ v)⟩) exM
      [(Ex.r 0 9, (2 : ℤ))] = some .subset :=
  ⟨exM_wf.1, exM_wf.2, by decide⟩

/-! ## C14: queries on maps -/

/-- `find(m, x)`: the segment that contains `x`, or `end()` if there is none. `lk.key x` is the interval that is
searched for. -/
theorem C14_map_find {lk : Lookup D I} (h : LookupClass o lk) {m : List (I × V)} (hm : MapWellFormed o m)
    (x : D) (hx : o.isEmpty (lk.key x) = false) :
    ∃ r, findE o mapSeg lk m x = some r ∧ ∀ s, r = some s ↔ s ∈ m ∧ In o x s.1 :=
  findE_spec h.cls.lawful (h.lawfulAt hx) (mapWellFormed_iff.1 hm)

/-- `m(x)`: the value associated to `x`, or the identity element if `x` is not a key. -/
theorem C14_select {lk : Lookup D I} (h : LookupClass o lk) {m : List (I × V)} (hm : MapWellFormed o m)
    (ident : V) (x : D) (hx : o.isEmpty (lk.key x) = false) : ∃ v, IMap.select o lk ident m x = some v ∧
      (Assoc o m x v ∨ (¬ Key o m x ∧ v = ident)) := by
  obtain ⟨r, e, h1⟩ := C14_map_find h hm x hx
  unfold IMap.select
  rw [e]
  cases r with
  | none =>
    refine ⟨ident, rfl, Or.inr ⟨?_, rfl⟩⟩
    rintro ⟨s, hs, hx⟩
    have := (h1 s).2 ⟨hs, hx⟩
    cases this
  | some s =>
    obtain ⟨hs, hx⟩ := (h1 s).1 rfl
    exact ⟨s.2, rfl, Or.inl ⟨s, hs, hx, rfl⟩⟩

/-- `contains(m, x)` for a key `x` of a partial map. -/
theorem C14_map_contains_key {lk : Lookup D I} (h : LookupClass o lk) {m : List (I × V)}
    (hm : MapWellFormed o m) (x : D) (hx : o.isEmpty (lk.key x) = false) :
    ∃ b, IMap.containsKey o false lk m x = some b ∧ (b = true ↔ Key o m x) :=
  containsE_spec h.cls.lawful (h.lawfulAt hx) (mapWellFormed_iff.1 hm)

/-- `contains(m, (x, v))` -/
theorem C14_map_contains_pair [DecidableEq V] {lk : Lookup D I} (h : LookupClass o lk) {m : List (I × V)}
    (hm : MapWellFormed o m) (x : D) (hx : o.isEmpty (lk.key x) = false) (v : V) :
    ∃ b, IMap.containsPair o lk m x v = some b ∧ (b = true ↔ Assoc o m x v) := by
  obtain ⟨r, e, h1⟩ := C14_map_find h hm x hx
  unfold IMap.containsPair
  rw [e]
  cases r with
  | none =>
    refine ⟨false, rfl, ?_⟩
    simp only [Bool.false_eq_true, false_iff]
    rintro ⟨s, hs, hx, _⟩
    have := (h1 s).2 ⟨hs, hx⟩
    cases this
  | some s =>
    obtain ⟨hs, hx⟩ := (h1 s).1 rfl
    refine ⟨decide (s.2 = v), rfl, ?_⟩
    rw [decide_eq_true_eq]
    constructor
    · exact fun hv => ⟨s, hs, hx, hv⟩
    · rintro ⟨t, ht, htx, hv⟩
      have := (h1 t).2 ⟨ht, htx⟩
      cases this
      exact hv

/-- `contains(m, (k, v))` for a segment -/
theorem C14_map_contains_segment [DecidableEq V] (h : IntervalClass o) {m : List (I × V)}
    (hm : MapWellFormed o m) (k : I) (v : V) :
    ∃ b, IMap.containsSeg o m k v = some b ∧ (b = true ↔ ∀ x, In o x k → Assoc o m x v) :=
  IMap.containsSeg_spec h.lawful (mapWellFormed_iff.1 hm) k v

/-- `contains(m, k)` for an interval of keys of a partial map -/
theorem C14_map_contains_interval (h : IntervalClass o) {m : List (I × V)}
    (hm : MapWellFormed o m) (k : I) :
    ∃ b, IMap.containsKeys o false m k = some b ∧ (b = true ↔ ∀ x, In o x k → Key o m x) :=
  IMap.containsKeys_spec h.lawful (mapWellFormed_iff.1 hm) k

example : MapWellFormed Ex.ro exM ∧
    IMap.select Ex.ro exE.lookup 0 exM 6 = some 2 ∧ IMap.select Ex.ro exE.lookup 0 exM 4 = some 0 ∧
    IMap.containsPair Ex.ro exE.lookup exM 3 1 = some true ∧
    IMap.containsPair Ex.ro exE.lookup exM 3 2 = some false ∧
    IMap.containsSeg Ex.ro exM (Ex.r 1 4) 1 = some true ∧
    IMap.containsSeg Ex.ro exM (Ex.r 1 5) 1 = some false ∧
    IMap.containsKeys Ex.ro false exM (Ex.r 1 4) = some true ∧
    IMap.containsKeys Ex.ro false exM (Ex.r 4 6) = some false :=
  ⟨exM_wf.1, by decide⟩

/-! ## C31: equality and order of containers -/

/-- `operator ==` of interval sets: they consist of the same intervals. -/
theorem C31_set_eq (h : IntervalClass o) {s t : List I} (hs : WellFormed o s) (ht : WellFormed o t) :
    eqC o setSeg s t = true ↔ SameIntervals o s t :=
  eqC_set_iff h.lawful (wellFormed_iff.1 hs) (wellFormed_iff.1 ht)

/-- `operator ==` of interval maps: they consist of the same segments. -/
theorem C31_map_eq [DecidableEq V] (h : IntervalClass o) {m n : List (I × V)} (hm : MapWellFormed o m)
    (hn : MapWellFormed o n) : eqC o mapSeg m n = true ↔ SameSegments o m n :=
  eqC_map_iff h.lawful (mapWellFormed_iff.1 hm) (mapWellFormed_iff.1 hn)

/-- `operator ==` of interval sets is an equivalence relation. -/
theorem C31_set_eq_equivalence (h : IntervalClass o) :
    Equivalence fun s t : {s : List I // WellFormed o s} => eqC o setSeg s.1 t.1 = true where
  refl s := (C31_set_eq h s.2 s.2).2 (List.forall₂_same.2 fun _ _ _ => Iff.rfl)
  symm {s t} hst := (C31_set_eq h t.2 s.2).2 (((C31_set_eq h s.2 t.2).1 hst).flip.imp
    fun i j (hij : SameElems o j i) x => (hij x).symm)
  trans {s t u} h1 h2 := by
    rw [C31_set_eq h s.2 t.2] at h1
    rw [C31_set_eq h t.2 u.2] at h2
    rw [C31_set_eq h s.2 u.2]
    obtain ⟨s, _⟩ := s
    obtain ⟨t, _⟩ := t
    obtain ⟨u, _⟩ := u
    dsimp only [SameIntervals] at *
    clear * - h1 h2
    induction h1 generalizing u with
    | nil => exact h2
    | cons hab _ ih =>
      cases h2 with
      | cons hbc h2 => exact .cons (fun x => (hab x).trans (hbc x)) (ih _ h2)

/-- `operator ==` of interval maps is an equivalence relation. -/
theorem C31_map_eq_equivalence [DecidableEq V] (h : IntervalClass o) :
    Equivalence fun m n : {m : List (I × V) // MapWellFormed o m} => eqC o mapSeg m.1 n.1 = true where
  refl s := (C31_map_eq h s.2 s.2).2 (List.forall₂_same.2 fun _ _ => ⟨fun _ => Iff.rfl, rfl⟩)
  symm {s t} hst := (C31_map_eq h t.2 s.2).2 (((C31_map_eq h s.2 t.2).1 hst).flip.imp
    fun i j hij => ⟨fun x => (hij.1 x).symm, hij.2.symm⟩)
  trans {s t u} h1 h2 := by
    rw [C31_map_eq h s.2 t.2] at h1
    rw [C31_map_eq h t.2 u.2] at h2
    rw [C31_map_eq h s.2 u.2]
    obtain ⟨s, _⟩ := s
    obtain ⟨t, _⟩ := t
    obtain ⟨u, _⟩ := u
    dsimp only [SameSegments] at *
    clear * - h1 h2
    induction h1 generalizing u with
    | nil => exact h2
    | cons hab _ ih =>
      cases h2 with
      | cons hbc h2 => exact .cons ⟨fun x => (hab.1 x).trans (hbc.1 x), hab.2.trans hbc.2⟩ (ih _ h2)

/-- Two maps of one type with `==` have the same associations, the converse holds for `interval_map`s. -/
theorem C31_map_eq_joined [DecidableEq V] (h : IntervalClass o) {m n : List (I × V)}
    (hm : MapWellFormed o m) (hn : MapWellFormed o n) (jm : MapFullyJoined o m) (jn : MapFullyJoined o n) :
    eqC o mapSeg m n = true ↔ ∀ x v, Assoc o m x v ↔ Assoc o n x v :=
  eqC_joined h.lawful (mapWellFormed_iff.1 hm) (mapWellFormed_iff.1 hn)
    ((mapFullyJoined_iff h.lawful (mapWellFormed_iff.1 hm)).1 jm)
    ((mapFullyJoined_iff h.lawful (mapWellFormed_iff.1 hn)).1 jn)

theorem isEmpty_false (h : IntervalClass o) {i : I} (hi : ∃ x, In o x i) : o.isEmpty i = false := by
  rw [← Bool.not_eq_true, C01_isEmpty h]
  push Not
  exact hi

theorem less_weak (h : IntervalClass o) :
    WeakOrderOn o.less (fun i j => o.eq i j = true) (fun i => ∃ x, In o x i) where
  irrefl a _ := C05_irrefl h a
  trans a b c _ _ _ := C05_trans h a b c
  incomp a b ha hb := (C05_incomparable_partial h a b (isEmpty_false h ha) (isEmpty_false h hb)).symm
  etrans a b c ha hb hc h1 h2 := by
    have ha := isEmpty_false h ha
    have hb := isEmpty_false h hb
    have hc := isEmpty_false h hc
    rw [C01_eq h a b ha hb] at h1
    rw [C01_eq h b c hb hc] at h2
    rw [C01_eq h a c ha hc]
    exact fun x => (h1 x).trans (h2 x)

theorem setSegLess_weak (h : IntervalClass o) (rev : Bool) :
    WeakOrderOn (setSegLess o rev) (fun i j => o.eq i j = true) (fun i => ∃ x, In o x i) := by
  cases rev
  · exact less_weak h
  · exact (less_weak h).swap

theorem mapSegLess_weak [LinearOrder V] (h : IntervalClass o) (rev : Bool) :
    WeakOrderOn (mapSegLess o (fun v w : V => decide (v < w)) rev)
      (fun s t => o.eq s.1 t.1 = true ∧ s.2 = t.2) (fun s => ∃ x, In o x s.1) := by
  cases rev
  · exact (less_weak h).pair .linear
  · exact ((less_weak h).pair .linear).swap

/-- `operator <` of interval sets is irreflexive and transitive, and two sets neither of which is less than the
other are equal (`operator ==`). `rev` is set for `Compare = std::greater`. -/
theorem C31_set_less (h : IntervalClass o) (rev : Bool) {s t u : List I} (hs : WellFormed o s)
    (ht : WellFormed o t) (hu : WellFormed o u) :
    let lt := lexLess (setSegLess o rev)
    lt s s = false ∧ (lt s t = true → lt t u = true → lt s u = true) ∧
    ((lt s t = false ∧ lt t s = false) ↔ eqC o setSeg s t = true) := by
  have w := setSegLess_weak h rev
  refine ⟨w.lex_irrefl hs.1, w.lex_trans hs.1 ht.1 hu.1, ?_⟩
  rw [w.lex_incomp hs.1 ht.1]
  exact eqC_set_forall₂.symm

/-- `operator <` of interval maps is irreflexive and transitive, and two maps neither of which is less than the
other are equal (`operator ==`). The values are linearly ordered. `rev` is set for `Compare = std::greater`. -/
theorem C31_map_less [LinearOrder V] (h : IntervalClass o) (rev : Bool) {m n p : List (I × V)}
    (hm : MapWellFormed o m) (hn : MapWellFormed o n) (hp : MapWellFormed o p) :
    let lt := lexLess (mapSegLess o (fun v w : V => decide (v < w)) rev)
    lt m m = false ∧ (lt m n = true → lt n p = true → lt m p = true) ∧
    ((lt m n = false ∧ lt n m = false) ↔ eqC o mapSeg m n = true) := by
  have w := mapSegLess_weak (V := V) h rev
  have key : ∀ {m : List (I × V)}, MapWellFormed o m → ∀ s ∈ m, ∃ x, In o x s.1 :=
    fun hm s hs => hm.1 s.1 (List.mem_map_of_mem hs)
  refine ⟨w.lex_irrefl (key hm), w.lex_trans (key hm) (key hn) (key hp), ?_⟩
  rw [w.lex_incomp (key hm) (key hn)]
  exact eqC_map_forall₂.symm

example : WellFormed Ex.ro exS ∧ WellFormed Ex.ro exT ∧ lexLess (setSegLess Ex.ro false) exS exT = true ∧
    lexLess (setSegLess Ex.ro false) exT exS = false ∧ MapWellFormed Ex.ro exM ∧
    lexLess (mapSegLess Ex.ro (fun v w : ℤ => decide (v < w)) false) exM exN = true ∧
    lexLess (mapSegLess Ex.ro (fun v w : ℤ => decide (v < w)) false) exN
      [(Ex.r 0 4, 1), (Ex.r 5 9, 3)] = true :=
  ⟨ex_wf.1, ex_wf.2, by decide, by decide, exM_wf.1, by decide⟩

/-- `is_distinct_equal` of `interval_map`s: equality of all associations except those to the identity
element. -/
theorem C31_distinct_equal [DecidableEq V] (h : IntervalClass o) (ident : V) {m n : List (I × V)}
    (hm : MapWellFormed o m) (hn : MapWellFormed o n) (jm : MapFullyJoined o m) (jn : MapFullyJoined o n) :
    distinctEqual o mapSeg ident m n = true ↔
      ∀ x v, v ≠ ident → (Assoc o m x v ↔ Assoc o n x v) := by
  have jm := (mapFullyJoined_iff h.lawful (mapWellFormed_iff.1 hm)).1 jm
  have jn := (mapFullyJoined_iff h.lawful (mapWellFormed_iff.1 hn)).1 jn
  rw [distinctEqual_eq, eqC_joined h.lawful (wf_filter _ (mapWellFormed_iff.1 hm))
    (wf_filter _ (mapWellFormed_iff.1 hn)) (jm.mono fun s hs => (List.mem_filter.1 hs).1)
    (jn.mono fun s hs => (List.mem_filter.1 hs).1)]
  refine forall_congr' fun x => forall_congr' fun v => ?_
  rw [maps_filter, maps_filter]
  simp only [assoc_iff]
  tauto

/-- `is_distinct_equal` of any interval maps: the segments with another value than the identity element are the
same. -/
theorem C31_distinct_equal_segments [DecidableEq V] (h : IntervalClass o) (ident : V) {m n : List (I × V)}
    (hm : MapWellFormed o m) (hn : MapWellFormed o n) :
    distinctEqual o mapSeg ident m n = true ↔
      SameSegments o (m.filter fun s => s.2 ≠ ident) (n.filter fun s => s.2 ≠ ident) := by
  rw [distinctEqual_eq, eqC_map_iff h.lawful (wf_filter _ (mapWellFormed_iff.1 hm))
    (wf_filter _ (mapWellFormed_iff.1 hn))]
  simp only [mapSeg, ne_eq, decide_not]
  exact Iff.rfl

example : MapWellFormed Ex.ro exN ∧ MapFullyJoined Ex.ro exN ∧
    distinctEqual Ex.ro mapSeg 0 exN [(Ex.r (-3) 0, 0), (Ex.r 0 4, 1), (Ex.r 4 5, 0), (Ex.r 5 9, 2)] = true ∧
    distinctEqual Ex.ro mapSeg 0 exN exM = false := by
  refine ⟨exM_wf.2, ?_, by decide, by decide⟩
  rw [mapFullyJoined_iff Ex.ro_cls.lawful (mapWellFormed_iff.1 exM_wf.2)]
  exact joined_of (by decide)

end ICL.Props
