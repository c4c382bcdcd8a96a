import Verif.Props.Compare
import Verif.Props.SetLaws
import Verif.Props.Collectors
import Verif.Props.ElementLaws

/-!
# C57: `within` and `contains` order the containers, as `+`, `&` and `-` require

doc/semantics.qbk, "Subset Ordering and Element Equality": `within` is a partial order with respect to element equality
`=e=`. For sets and collectors the order is that of a lattice whose join is `+` and whose meet is `&`; `-` is the
relative complement.
-/

set_option linter.unusedSectionVars false
set_option linter.unusedVariables false

namespace ICL.Props
open Spec

variable {D I V α : Type} [LinearOrder D] [DecidableEq I] {o : IntervalOps D I}

/-! ## What the calls answer -/

/-- `within(s, t)` answers `true`. -/
def SWithin (o : IntervalOps D I) (s t : List I) : Prop := withinC o setSeg setSeg (fun _ _ => .equal) s t = some true
/-- `contains(s, t)` answers `true`. -/
def SContains (o : IntervalOps D I) (s t : List I) : Prop := containsC o setSeg setSeg (fun _ _ => .equal) s t = some true
/-- `is_element_equal(s, t)` answers `true`. -/
def SElemEqual (o : IntervalOps D I) (s t : List I) : Prop :=
  isElementEqual o setSeg setSeg (fun _ _ => .equal) s t = some true
/-- `within(m, n)` for maps answers `true`; values are compared by `co`. -/
def MWithin (o : IntervalOps D I) (co : CoCompare V V) (m n : List (I × V)) : Prop :=
  withinC o mapSeg mapSeg co m n = some true
/-- `contains(m, n)` for maps answers `true`. -/
def MContains (o : IntervalOps D I) (co : CoCompare V V) (m n : List (I × V)) : Prop :=
  containsC o mapSeg mapSeg co m n = some true
/-- `is_element_equal(m, n)` for maps answers `true`. -/
def MElemEqual (o : IntervalOps D I) (co : CoCompare V V) (m n : List (I × V)) : Prop :=
  isElementEqual o mapSeg mapSeg co m n = some true

/-- What it means for values that `co` compares them: its bits are a partial order. -/
structure ComparesBy (co : CoCompare V V) (Sub : V → V → Prop) : Prop where
  sub : ∀ v w, (co v w).sub = true ↔ Sub v w
  sup : ∀ v w, (co v w).sup = true ↔ Sub w v
  refl : ∀ v, Sub v v
  trans : ∀ u v w, Sub u v → Sub v w → Sub u w

section
variable (h : IntervalClass o)
include h

theorem swithin_iff {s t : List I} (hs : WellFormed o s) (ht : WellFormed o t) :
    SWithin o s t ↔ ∀ x, Elem o s x → Elem o t x := by
  obtain ⟨b, e, hb⟩ := C25_within_sets h hs ht
  simp only [SWithin, e, Option.some.injEq, hb]

theorem scontains_iff {s t : List I} (hs : WellFormed o s) (ht : WellFormed o t) :
    SContains o s t ↔ ∀ x, Elem o t x → Elem o s x := by
  obtain ⟨b, e, hb⟩ := C25_contains_sets h hs ht
  simp only [SContains, e, Option.some.injEq, hb]

theorem selem_iff {s t : List I} (hs : WellFormed o s) (ht : WellFormed o t) :
    SElemEqual o s t ↔ ∀ x, Elem o s x ↔ Elem o t x := by
  obtain ⟨b, e, hb⟩ := C25_is_element_equal_sets h hs ht
  simp only [SElemEqual, e, Option.some.injEq, hb]

/-! ## Sets: a partial order -/

/-- `within(a, a)`; if `within(a, b)` and `within(b, c)` then `within(a, c)`; `within(a, b)` and `within(b, a)` both hold
iff `a =e= b`; `contains(b, a)` is `within(a, b)`. The sets may be of different styles. -/
theorem C57_set_order {a b c : List I} (ha : WellFormed o a) (hb : WellFormed o b) (hc : WellFormed o c) :
    SWithin o a a ∧ (SWithin o a b → SWithin o b c → SWithin o a c) ∧
    (SWithin o a b ∧ SWithin o b a ↔ SElemEqual o a b) ∧ (SContains o b a ↔ SWithin o a b) := by
  rw [swithin_iff h ha ha, swithin_iff h ha hb, swithin_iff h hb hc, swithin_iff h ha hc, swithin_iff h hb ha,
    selem_iff h ha hb, scontains_iff h hb ha]
  refine ⟨fun _ h => h, fun h1 h2 x hx => h2 x (h1 x hx), ⟨fun ⟨h1, h2⟩ x => ⟨h1 x, h2 x⟩, fun h1 => ?_⟩, Iff.rfl⟩
  exact ⟨fun x => (h1 x).1, fun x => (h1 x).2⟩

/-- `is_element_equal` is an equivalence relation. -/
theorem C57_set_element_equal :
    Equivalence fun s t : {s : List I // WellFormed o s} => SElemEqual o s.1 t.1 where
  refl s := (selem_iff h s.2 s.2).2 fun _ => Iff.rfl
  symm {s t} e := (selem_iff h t.2 s.2).2 fun x => ((selem_iff h s.2 t.2).1 e x).symm
  trans {s t u} e f := (selem_iff h s.2 u.2).2 fun x =>
    ((selem_iff h s.2 t.2).1 e x).trans ((selem_iff h t.2 u.2).1 f x)

/-- `==` implies `is_element_equal`; for sets that join the converse holds. -/
theorem C57_set_equal {a b : List I} (ha : WellFormed o a) (hb : WellFormed o b) :
    (eqC o setSeg a b = true → SElemEqual o a b) ∧
    (FullyJoined o a → FullyJoined o b → SElemEqual o a b → eqC o setSeg a b = true) := by
  rw [selem_iff h ha hb]
  constructor
  · intro he
    rw [C31_set_eq h ha hb] at he
    intro x
    have key : ∀ {s t : List I}, SameIntervals o s t → ∀ x, Elem o s x → Elem o t x := by
      intro s t he x hx
      dsimp only [SameIntervals] at he
      induction he with
      | nil => exact hx
      | cons h1 _ ih =>
        obtain ⟨i, hi, hx⟩ := hx
        rcases List.mem_cons.1 hi with rfl | hi
        · exact ⟨_, List.mem_cons_self, (h1 x).1 hx⟩
        · obtain ⟨j, hj, hx⟩ := ih ⟨i, hi, hx⟩
          exact ⟨j, List.mem_cons_of_mem _ hj, hx⟩
    refine ⟨key he x, key ?_ x⟩
    exact (he.flip.imp fun i j (hij : SameElems o j i) x => (hij x).symm)
  · intro ja jb he
    have ja := (fullyJoined_iff h.lawful (wellFormed_iff.1 ha)).1 ja
    have jb := (fullyJoined_iff h.lawful (wellFormed_iff.1 hb)).1 jb
    rw [eqC_joined h.lawful (wellFormed_iff.1 ha) (wellFormed_iff.1 hb) ja jb]
    simp only [maps_unit]
    exact fun x _ => he x

/-! ## Sets: a lattice -/

/-- `a + b` is the least set that contains `a` and `b`: `within(a + b, c)` iff `within(a, c)` and `within(b, c)`. -/
theorem C57_set_join (st : Style) (oracle : List I → I → Nat) {a b c : List I} (ha : WellFormed o a)
    (hb : WellFormed o b) (hc : WellFormed o c) :
    ∃ r, ISet.addSet o st oracle a b = some r ∧ (SWithin o r c ↔ SWithin o a c ∧ SWithin o b c) := by
  obtain ⟨r, e, hr, hx⟩ := C08_union h st oracle ha hb
  refine ⟨r, e, ?_⟩
  rw [swithin_iff h hr hc, swithin_iff h ha hc, swithin_iff h hb hc]
  simp only [hx]
  exact ⟨fun hh => ⟨fun x h1 => hh x (.inl h1), fun x h1 => hh x (.inr h1)⟩,
    fun hh x h1 => h1.elim (hh.1 x) (hh.2 x)⟩

/-- `a & b` is the greatest set within `a` and `b`: `within(c, a & b)` iff `within(c, a)` and `within(c, b)`. -/
theorem C57_set_meet (st : Style) (oracle : List I → I → Nat) {a b c : List I} (ha : WellFormed o a)
    (hb : WellFormed o b) (hc : WellFormed o c) :
    ∃ r, ISet.interSet o st oracle a b = some r ∧ (SWithin o c r ↔ SWithin o c a ∧ SWithin o c b) := by
  obtain ⟨r, e, hr, hx⟩ := C10_intersection h st oracle ha hb
  refine ⟨r, e, ?_⟩
  rw [swithin_iff h hc hr, swithin_iff h hc ha, swithin_iff h hc hb]
  simp only [hx]
  exact ⟨fun hh => ⟨fun x h1 => (hh x h1).1, fun x h1 => (hh x h1).2⟩, fun hh x h1 => ⟨hh.1 x h1, hh.2 x h1⟩⟩

/-- `a - b` is the relative complement: `within(a - b, c)` iff `within(a, b + c)`. -/
theorem C57_set_difference (st : Style) (oracle : List I → I → Nat) {a b c : List I} (ha : WellFormed o a)
    (hb : WellFormed o b) (hc : WellFormed o c) :
    ∃ r u, ISet.subSet o a b = some r ∧ ISet.addSet o st oracle b c = some u ∧ (SWithin o r c ↔ SWithin o a u) := by
  obtain ⟨r, e, hr, hx⟩ := C09_difference h ha hb
  obtain ⟨u, f, hu, hy⟩ := C08_union h st oracle hb hc
  refine ⟨r, u, e, f, ?_⟩
  rw [swithin_iff h hr hc, swithin_iff h ha hu]
  simp only [hx, hy]
  refine forall_congr' fun x => ?_
  tauto

theorem empty_iff {s : List I} (hs : WellFormed o s) : s.isEmpty = true ↔ ∀ x, ¬ Elem o s x := by
  cases s with
  | nil => simp [Elem]
  | cons i s =>
    obtain ⟨x, hx⟩ := hs.1 i List.mem_cons_self
    simp only [List.isEmpty_cons, Bool.false_eq_true, false_iff, not_forall, not_not]
    exact ⟨x, i, List.mem_cons_self, hx⟩

/-- Four ways to ask for containment: `within(a, b)`, `is_empty(a - b)`, `a + b =e= b`, `a & b =e= a`. -/
theorem C57_set_within (st : Style) (oracle : List I → I → Nat) {a b : List I} (ha : WellFormed o a)
    (hb : WellFormed o b) :
    ∃ d s i, ISet.subSet o a b = some d ∧ ISet.addSet o st oracle a b = some s ∧ ISet.interSet o st oracle a b = some i ∧
      (SWithin o a b ↔ d.isEmpty = true) ∧ (SWithin o a b ↔ SElemEqual o s b) ∧ (SWithin o a b ↔ SElemEqual o i a) := by
  obtain ⟨d, e1, hd, h1⟩ := C09_difference h ha hb
  obtain ⟨s, e2, hs, h2⟩ := C08_union h st oracle ha hb
  obtain ⟨i, e3, hi, h3⟩ := C10_intersection h st oracle ha hb
  refine ⟨d, s, i, e1, e2, e3, ?_, ?_, ?_⟩
  · rw [empty_iff h hd, swithin_iff h ha hb]; simp only [h1]; refine forall_congr' fun x => ?_; tauto
  · rw [selem_iff h hs hb, swithin_iff h ha hb]; simp only [h2]; refine forall_congr' fun x => ?_; tauto
  · rw [selem_iff h hi ha, swithin_iff h ha hb]; simp only [h3]; refine forall_congr' fun x => ?_; tauto

/-- Three ways to ask for disjointness: `intersects(a, b)`, `is_empty(a & b)`, `a - b =e= a`; and
`is_empty(a ^ b)` asks for element equality. -/
theorem C57_set_disjoint (st : Style) (oracle : List I → I → Nat) {a b : List I} (ha : WellFormed o a)
    (hb : WellFormed o b) :
    ∃ t i d f, ISet.intersects o st oracle a b = some t ∧ ISet.interSet o st oracle a b = some i ∧
      ISet.subSet o a b = some d ∧ ISet.flipSet o st oracle a b = some f ∧
      (t = false ↔ i.isEmpty = true) ∧ (t = false ↔ SElemEqual o d a) ∧ (f.isEmpty = true ↔ SElemEqual o a b) := by
  obtain ⟨t, e1, h1⟩ := C10_intersects h st oracle ha hb
  obtain ⟨i, e2, hi, h2⟩ := C10_intersection h st oracle ha hb
  obtain ⟨d, e3, hd, h3⟩ := C09_difference h ha hb
  obtain ⟨f, e4, hf, h4⟩ := C11_symmetric_difference h st oracle ha hb
  refine ⟨t, i, d, f, e1, e2, e3, e4, ?_, ?_, ?_⟩
  · rw [empty_iff h hi, ← Bool.not_eq_true, h1]; simp only [h2, not_exists]
  · rw [selem_iff h hd ha, ← Bool.not_eq_true, h1]; simp only [h3, not_exists]; refine forall_congr' fun x => ?_; tauto
  · rw [empty_iff h hf, selem_iff h ha hb]; simp only [h4]; refine forall_congr' fun x => ?_; tauto

/-- The operators are monotone: if `within(a, c)` and `within(b, d)` then `within(a + b, c + d)`,
`within(a & b, c & d)`, and `within(a - d, c - b)`. -/
theorem C57_set_monotone (st : Style) (oracle : List I → I → Nat) {a b c d : List I} (ha : WellFormed o a)
    (hb : WellFormed o b) (hc : WellFormed o c) (hd : WellFormed o d) (hac : SWithin o a c) (hbd : SWithin o b d) :
    ∃ s s' i i' m m', ISet.addSet o st oracle a b = some s ∧ ISet.addSet o st oracle c d = some s' ∧
      ISet.interSet o st oracle a b = some i ∧ ISet.interSet o st oracle c d = some i' ∧
      ISet.subSet o a d = some m ∧ ISet.subSet o c b = some m' ∧ SWithin o s s' ∧ SWithin o i i' ∧ SWithin o m m' := by
  obtain ⟨s, e1, hs, h1⟩ := C08_union h st oracle ha hb
  obtain ⟨s', e2, hs', h2⟩ := C08_union h st oracle hc hd
  obtain ⟨i, e3, hi, h3⟩ := C10_intersection h st oracle ha hb
  obtain ⟨i', e4, hi', h4⟩ := C10_intersection h st oracle hc hd
  obtain ⟨m, e5, hm, h5⟩ := C09_difference h ha hd
  obtain ⟨m', e6, hm', h6⟩ := C09_difference h hc hb
  rw [swithin_iff h ha hc] at hac
  rw [swithin_iff h hb hd] at hbd
  refine ⟨s, s', i, i', m, m', e1, e2, e3, e4, e5, e6, ?_, ?_, ?_⟩
  · rw [swithin_iff h hs hs']; intro x; rw [h1, h2]; exact Or.imp (hac x) (hbd x)
  · rw [swithin_iff h hi hi']; intro x; rw [h3, h4]; exact And.imp (hac x) (hbd x)
  · rw [swithin_iff h hm hm']; intro x; rw [h5, h6]; exact And.imp (hac x) (mt (hbd x))

end

example : WellFormed Ex.ro exS ∧ WellFormed Ex.ro exT ∧ SWithin Ex.ro exT [Ex.r 0 10] ∧ ¬ SWithin Ex.ro exT exS ∧
    SWithin Ex.ro [Ex.r 0 1] exS ∧ SElemEqual Ex.ro [Ex.r 0 1, Ex.r 1 2, Ex.r 5 9] exS ∧
    eqC Ex.ro setSeg [Ex.r 0 1, Ex.r 1 2, Ex.r 5 9] exS = false := by
  refine ⟨ex_wf.1, ex_wf.2, ?_⟩
  simp only [SWithin, SElemEqual]
  decide

/-! ## Maps: a partial order -/

section
variable (h : IntervalClass o)
include h

theorem mcompare {co : CoCompare V V} {Sub : V → V → Prop} (hc : ComparesBy co Sub) {m n : List (I × V)}
    (hm : MapWellFormed o m) (hn : MapWellFormed o n) :
    (MWithin o co m n ↔ ∀ x v, Assoc o m x v → ∃ w, Assoc o n x w ∧ Sub v w) ∧
    (MContains o co n m ↔ ∀ x v, Assoc o m x v → ∃ w, Assoc o n x w ∧ Sub v w) ∧
    (MElemEqual o co m n ↔ (∀ x v, Assoc o m x v → ∃ w, Assoc o n x w ∧ Sub v w) ∧
      ∀ x v, Assoc o n x v → ∃ w, Assoc o m x w ∧ Sub v w) := by
  obtain ⟨c, e, h1, h2⟩ := C25_inclusion_compare_set_valued h co Sub hc.sub hc.sup hm hn
  obtain ⟨c', e', h1', h2'⟩ := C25_inclusion_compare_set_valued h co Sub hc.sub hc.sup hn hm
  rw [← h1, ← h2]
  refine ⟨?_, ?_, ?_⟩
  · simp only [MWithin, withinC, e]
    obtain ⟨a, b⟩ := c
    cases a <;> cases b <;> simp [Incl.subset, Incl.equal]
  · rw [h1, ← h2']
    simp only [MContains, containsC, e']
    obtain ⟨a, b⟩ := c'
    cases a <;> cases b <;> simp [Incl.superset, Incl.equal]
  · simp only [MElemEqual, isElementEqual, e]
    obtain ⟨a, b⟩ := c
    cases a <;> cases b <;> simp [Incl.equal]

/-- `within` on maps is reflexive and transitive, `within(a, b)` and `within(b, a)` both hold iff
`is_element_equal(a, b)`, and `contains(b, a)` is `within(a, b)`; whether the values are compared for equality or, for
maps of sets, for inclusion. -/
theorem C57_map_order {co : CoCompare V V} {Sub : V → V → Prop} (hco : ComparesBy co Sub) {a b c : List (I × V)}
    (ha : MapWellFormed o a) (hb : MapWellFormed o b) (hc : MapWellFormed o c) :
    MWithin o co a a ∧ (MWithin o co a b → MWithin o co b c → MWithin o co a c) ∧
    (MWithin o co a b ∧ MWithin o co b a ↔ MElemEqual o co a b) ∧ (MContains o co b a ↔ MWithin o co a b) := by
  rw [(mcompare h hco ha ha).1, (mcompare h hco ha hb).1, (mcompare h hco hb hc).1, (mcompare h hco ha hc).1,
    (mcompare h hco hb ha).1, (mcompare h hco ha hb).2.1, (mcompare h hco ha hb).2.2]
  refine ⟨fun x v hv => ⟨v, hv, hco.refl v⟩, fun h1 h2 x v hv => ?_, Iff.rfl, Iff.rfl⟩
  obtain ⟨w, hw, e⟩ := h1 x v hv
  obtain ⟨u, hu, f⟩ := h2 x w hw
  exact ⟨u, hu, hco.trans _ _ _ e f⟩

/-- `is_element_equal` on maps is an equivalence relation. -/
theorem C57_map_element_equal {co : CoCompare V V} {Sub : V → V → Prop} (hco : ComparesBy co Sub) :
    Equivalence fun m n : {m : List (I × V) // MapWellFormed o m} => MElemEqual o co m.1 n.1 where
  refl m := (C57_map_order h hco m.2 m.2 m.2).2.2.1.1
    ⟨(C57_map_order h hco m.2 m.2 m.2).1, (C57_map_order h hco m.2 m.2 m.2).1⟩
  symm {m n} e := (C57_map_order h hco n.2 m.2 m.2).2.2.1.1 ((C57_map_order h hco m.2 n.2 m.2).2.2.1.2 e).symm
  trans {m n k} e f := by
    have e := (C57_map_order h hco m.2 n.2 k.2).2.2.1.2 e
    have f := (C57_map_order h hco n.2 k.2 m.2).2.2.1.2 f
    exact (C57_map_order h hco m.2 k.2 k.2).2.2.1.1 ⟨(C57_map_order h hco m.2 n.2 k.2).2.1 e.1 f.1,
      (C57_map_order h hco k.2 n.2 m.2).2.1 f.2 e.2⟩

/-- Values whose inclusion is antisymmetric: `is_element_equal(a, b)` iff the maps have the same associations. -/
theorem C57_map_antisymmetric [DecidableEq V] {co : CoCompare V V} {Sub : V → V → Prop} (hco : ComparesBy co Sub)
    (anti : ∀ v w, Sub v w → Sub w v → v = w) {a b : List (I × V)} (ha : MapWellFormed o a) (hb : MapWellFormed o b) :
    MElemEqual o co a b ↔ ∀ x v, Assoc o a x v ↔ Assoc o b x v := by
  rw [(mcompare h hco ha hb).2.2]
  have key : ∀ {a b : List (I × V)}, MapWellFormed o a → MapWellFormed o b →
      (∀ x v, Assoc o a x v → ∃ w, Assoc o b x w ∧ Sub v w) → (∀ x v, Assoc o b x v → ∃ w, Assoc o a x w ∧ Sub v w) →
      ∀ x v, Assoc o a x v → Assoc o b x v := by
    intro a b ha hb h1 h2 x v hv
    obtain ⟨w, hw, e⟩ := h1 x v hv
    obtain ⟨u, hu, f⟩ := h2 x w hw
    rw [← valueAt_assoc ha] at hv hu
    rw [hv, Option.some.injEq] at hu
    subst hu
    rwa [anti v w e f]
  constructor
  · exact fun ⟨h1, h2⟩ x v => ⟨key ha hb h1 h2 x v, key hb ha h2 h1 x v⟩
  · intro hh
    exact ⟨fun x v hv => ⟨v, (hh x v).1 hv, hco.refl v⟩, fun x v hv => ⟨v, (hh x v).2 hv, hco.refl v⟩⟩

end

/-- Values that are no sets are compared by equality. -/
theorem comparesBy_atomic [DecidableEq V] : ComparesBy (atomicCompare (V := V)) (fun v w => v = w) where
  sub v w := by by_cases e : v = w <;> simp [atomicCompare, e, Incl.equal, Incl.unrelated]
  sup v w := by by_cases e : v = w <;> simp [atomicCompare, e, Incl.equal, Incl.unrelated, eq_comm (a := w)]
  refl _ := rfl
  trans _ _ _ e f := e.trans f

/-- `inclusion_compare` of sets as values -/
def setCompare [DecidableEq α] : CoCompare (Finset α) (Finset α) := fun v w => ⟨decide (v ⊆ w), decide (w ⊆ v)⟩

theorem comparesBy_sets [DecidableEq α] : ComparesBy (setCompare (α := α)) (fun v w => v ⊆ w) where
  sub v w := by simp [setCompare]
  sup v w := by simp [setCompare]
  refl v := Finset.Subset.refl v
  trans _ _ _ e f := e.trans f

/-! ## Collectors: a lattice -/

section
variable [DecidableEq α] {joining : Bool} (h : IntervalClass o)
include h

/-- On absorbing collectors `within` is the inclusion of the sets of pairs. -/
theorem C57_collector_within {a b : List (I × Finset α)} (ha : MapValue o (Coll α joining true) a)
    (hb : MapValue o (Coll α joining true) b) :
    MWithin o setCompare a b ↔ ∀ x e, HasPair o a x e → HasPair o b x e := by
  rw [(mcompare h comparesBy_sets ha.1 hb.1).1]
  constructor
  · rintro hh x e ⟨u, hu, he⟩
    obtain ⟨w, hw, hs⟩ := hh x u hu
    exact ⟨w, hw, hs he⟩
  · intro hh x u hu
    have hne : u ≠ ∅ := by
      have := ((mapValue_iff h).1 ha).norm x u ((valueAt_assoc ha.1 _ _).2 hu)
      rintro rfl
      simp [IMap.absorbable, Coll, MapType.collector] at this
    obtain ⟨e, he⟩ := Finset.nonempty_iff_ne_empty.2 hne
    obtain ⟨w, hw, -⟩ := hh x e ⟨u, hu, he⟩
    refine ⟨w, hw, fun e he => ?_⟩
    obtain ⟨w', hw', he'⟩ := hh x e ⟨u, hu, he⟩
    rw [← valueAt_assoc hb.1] at hw hw'
    rw [hw, Option.some.injEq] at hw'
    rwa [hw']

variable {oracle : List (I × Finset α) → I → Nat} {A B C : MapExpr I (Finset α)}

/-- For expressions over absorbing collectors: `within(a + b, c)` iff `within(a, c)` and `within(b, c)`;
`within(c, a & b)` iff `within(c, a)` and `within(c, b)`; `within(a - b, c)` iff `within(a, b + c)`. -/
theorem C57_collector_lattice (hA : A.Leaves (MapValue o (Coll α joining true)))
    (hB : B.Leaves (MapValue o (Coll α joining true))) (hC : C.Leaves (MapValue o (Coll α joining true))) :
    ∃ a b c s i d u, A.eval o (Coll α joining true) oracle = some a ∧ B.eval o (Coll α joining true) oracle = some b ∧
      C.eval o (Coll α joining true) oracle = some c ∧ (A + B).eval o (Coll α joining true) oracle = some s ∧
      (A &&& B).eval o (Coll α joining true) oracle = some i ∧ (A - B).eval o (Coll α joining true) oracle = some d ∧
      (B + C).eval o (Coll α joining true) oracle = some u ∧
      (MWithin o setCompare s c ↔ MWithin o setCompare a c ∧ MWithin o setCompare b c) ∧
      (MWithin o setCompare c i ↔ MWithin o setCompare c a ∧ MWithin o setCompare c b) ∧
      (MWithin o setCompare d c ↔ MWithin o setCompare a u) := by
  obtain ⟨a, e1, ha⟩ := C27_value (oracle := oracle) h collN hA
  obtain ⟨b, e2, hb⟩ := C27_value (oracle := oracle) h collN hB
  obtain ⟨c, e3, hc⟩ := C27_value (oracle := oracle) h collN hC
  obtain ⟨s, f1, hs⟩ := C27_value (A := A + B) (oracle := oracle) h collN ⟨hA, hB⟩
  obtain ⟨i, f2, hi⟩ := C27_value (A := A &&& B) (oracle := oracle) h collN ⟨hA, hB⟩
  obtain ⟨d, f3, hd⟩ := C27_value (A := A - B) (oracle := oracle) h collN ⟨hA, hB⟩
  obtain ⟨u, f4, hu⟩ := C27_value (A := B + C) (oracle := oracle) h collN ⟨hB, hC⟩
  obtain ⟨⟨s', g1, h1⟩, ⟨d', g3, h3⟩, ⟨i', g2, h2⟩, -⟩ := C37_pairs h hA hB e1 e2
  obtain ⟨⟨u', g4, h4⟩, -⟩ := C37_pairs h hB hC e2 e3
  rw [f1] at g1; rw [f2] at g2; rw [f3] at g3; rw [f4] at g4
  cases g1; cases g2; cases g3; cases g4
  refine ⟨a, b, c, s, i, d, u, e1, e2, e3, f1, f2, f3, f4, ?_, ?_, ?_⟩
  · rw [C57_collector_within h hs hc, C57_collector_within h ha hc, C57_collector_within h hb hc]
    simp only [h1]
    exact ⟨fun hh => ⟨fun x e h => hh x e (.inl h), fun x e h => hh x e (.inr h)⟩,
      fun hh x e h => h.elim (hh.1 x e) (hh.2 x e)⟩
  · rw [C57_collector_within h hc hi, C57_collector_within h hc ha, C57_collector_within h hc hb]
    simp only [h2]
    exact ⟨fun hh => ⟨fun x e h => (hh x e h).1, fun x e h => (hh x e h).2⟩,
      fun hh x e h => ⟨hh.1 x e h, hh.2 x e h⟩⟩
  · rw [C57_collector_within h hd hc, C57_collector_within h ha hu]
    simp only [h3, h4]
    refine forall₂_congr fun x e => ?_
    tauto

/-- Containment in absorbing collectors, asked for by `within(a, b)`, `is_empty(a - b)`, `a + b =e= b`, `a & b =e= a`. -/
theorem C57_collector_ways (hA : A.Leaves (MapValue o (Coll α joining true)))
    (hB : B.Leaves (MapValue o (Coll α joining true))) :
    ∃ a b s i d, A.eval o (Coll α joining true) oracle = some a ∧ B.eval o (Coll α joining true) oracle = some b ∧
      (A + B).eval o (Coll α joining true) oracle = some s ∧ (A &&& B).eval o (Coll α joining true) oracle = some i ∧
      (A - B).eval o (Coll α joining true) oracle = some d ∧
      (MWithin o setCompare a b ↔ d.isEmpty = true) ∧ (MWithin o setCompare a b ↔ MElemEqual o setCompare s b) ∧
      (MWithin o setCompare a b ↔ MElemEqual o setCompare i a) := by
  obtain ⟨a, e1, ha⟩ := C27_value (oracle := oracle) h collN hA
  obtain ⟨b, e2, hb⟩ := C27_value (oracle := oracle) h collN hB
  obtain ⟨s, f1, hs⟩ := C27_value (A := A + B) (oracle := oracle) h collN ⟨hA, hB⟩
  obtain ⟨i, f2, hi⟩ := C27_value (A := A &&& B) (oracle := oracle) h collN ⟨hA, hB⟩
  obtain ⟨d, f3, hd⟩ := C27_value (A := A - B) (oracle := oracle) h collN ⟨hA, hB⟩
  obtain ⟨⟨s', g1, h1⟩, ⟨d', g3, h3⟩, ⟨i', g2, h2⟩, -⟩ := C37_pairs h hA hB e1 e2
  rw [f1] at g1; rw [f2] at g2; rw [f3] at g3
  cases g1; cases g2; cases g3
  refine ⟨a, b, s, i, d, e1, e2, f1, f2, f3, ?_, ?_, ?_⟩
  · have hn : MapValue o (Coll α joining true) ([] : List (I × Finset α)) := (mapValue_iff h).2 (mv_nil _)
    have he : d.isEmpty = true ↔ MWithin o setCompare d [] := by
      rw [C57_collector_within h hd hn]
      constructor
      · intro e; rw [List.isEmpty_iff.1 e]; exact fun _ _ h => h
      · intro hh
        cases d with
        | nil => rfl
        | cons k d =>
          obtain ⟨x, hx⟩ := hd.1.1 k.1 List.mem_cons_self
          have hk : Assoc o (k :: d) x k.2 := ⟨k, List.mem_cons_self, hx, rfl⟩
          have hne : k.2 ≠ ∅ := by
            have := ((mapValue_iff h).1 hd).norm x k.2 ((valueAt_assoc hd.1 _ _).2 hk)
            intro hc
            rw [hc] at this
            simp [IMap.absorbable, Coll, MapType.collector] at this
          obtain ⟨e, he⟩ := Finset.nonempty_iff_ne_empty.2 hne
          obtain ⟨u, ⟨k', hk', -⟩, -⟩ := hh x e ⟨k.2, hk, he⟩
          cases hk'
    rw [he, C57_collector_within h ha hb, C57_collector_within h hd hn]
    simp only [h3]
    have : ∀ x e, ¬ HasPair o ([] : List (I × Finset α)) x e := by rintro x e ⟨u, ⟨k, hk, -⟩, -⟩; cases hk
    refine forall₂_congr fun x e => ?_
    have := this x e
    tauto
  · rw [← (C57_map_order h comparesBy_sets hs.1 hb.1 hb.1).2.2.1, C57_collector_within h hs hb,
      C57_collector_within h hb hs, C57_collector_within h ha hb]
    simp only [h1]
    exact ⟨fun hh => ⟨fun x e h => h.elim (hh x e) id, fun x e h => .inr h⟩, fun hh x e h => hh.1 x e (.inl h)⟩
  · rw [← (C57_map_order h comparesBy_sets hi.1 ha.1 ha.1).2.2.1, C57_collector_within h hi ha,
      C57_collector_within h ha hi, C57_collector_within h ha hb]
    simp only [h2]
    exact ⟨fun hh => ⟨fun x e h => h.1, fun x e h' => ⟨h', hh x e h'⟩⟩, fun hh x e h' => (hh.2 x e h').2⟩

end

/-- In maps of numbers `+` is no least upper bound: `a` is not within `a + a`. -/
theorem C57_counterexample_numbers :
    MapValue Ex.ro (.numeric true true false true) [(Ex.r 0 4, (1 : ℤ))] ∧
    IMap.addMap Ex.ro (.numeric true true false true) (fun _ _ => 0) [(Ex.r 0 4, (1 : ℤ))] [(Ex.r 0 4, 1)] =
      some [(Ex.r 0 4, 2)] ∧
    ¬ MWithin Ex.ro atomicCompare [(Ex.r 0 4, (1 : ℤ))] [(Ex.r 0 4, 2)] := by
  refine ⟨?_, by decide, by simp only [MWithin]; decide⟩
  exact (mapValue_iff Ex.ro_cls).2 ⟨mapWellFormed_iff.1 (wellFormed_ro _ (by decide) (by decide)),
    fun _ => joined_of (by decide), by intro s hs; rw [List.mem_singleton.1 hs]; decide⟩

/-- In enrichers `within` asks for the keys as well: the pairs of `{[0,4)->{}}` are those of the empty map, but it is
not within it. -/
theorem C57_counterexample_enricher :
    (∀ x e, HasPair Ex.ro [(Ex.r 0 4, (∅ : Finset ℤ))] x e ↔ HasPair Ex.ro ([] : List (SItv ℤ × Finset ℤ)) x e) ∧
    ¬ MWithin Ex.ro setCompare [(Ex.r 0 4, (∅ : Finset ℤ))] [] := by
  refine ⟨fun x e => ⟨?_, ?_⟩, by simp only [MWithin]; decide⟩
  · rintro ⟨u, ⟨k, hk, -, rfl⟩, he⟩
    rw [List.mem_singleton.1 hk] at he
    cases he
  · rintro ⟨u, ⟨k, hk, -⟩, -⟩
    cases hk

/-! ## Containers of elements -/

section
variable {a b c : List D} (ha : Ascending (fun x => x) a) (hb : Ascending (fun x => x) b)
  (hc : Ascending (fun x => x) c)
include ha hb hc

/-- The same for `icl::set`: `within` is a partial order with respect to `==`, and `+`, `&`, `-` belong to it. -/
theorem C57_element_set :
    ESet.within a a = true ∧ (ESet.within a b = true → ESet.within b c = true → ESet.within a c = true) ∧
    (ESet.within a b = true ∧ ESet.within b a = true ↔ ESet.eq a b = true) ∧
    (ESet.within (ESet.addSet a b) c = true ↔ ESet.within a c = true ∧ ESet.within b c = true) ∧
    (ESet.within c (ESet.andSet a b) = true ↔ ESet.within c a = true ∧ ESet.within c b = true) ∧
    (ESet.within (ESet.subSet a b) c = true ↔ ESet.within a (ESet.addSet b c) = true) ∧
    (ESet.within a b = true ↔ (ESet.subSet a b).isEmpty = true) ∧
    (ESet.intersects a b = true ↔ (ESet.andSet a b).isEmpty = false) := by
  rw [C38_within ha ha, C38_within ha hb, C38_within hb hc, C38_within ha hc, C38_within hb ha, C38_eq ha hb,
    C38_within (addSet_asc ha) hc, C38_within hc (andSet_asc ha hb), C38_within hc ha, C38_within hc hb,
    C38_within (subSet_asc ha) hc, C38_within ha (addSet_asc hb), C38_intersects ha hb, ← Bool.not_eq_true,
    List.isEmpty_iff, List.isEmpty_iff, List.eq_nil_iff_forall_not_mem, List.eq_nil_iff_forall_not_mem]
  simp only [mem_addSet ha, mem_addSet hb, mem_andSet ha hb, mem_subSet ha]
  refine ⟨fun _ h => h, fun h1 h2 x h => h2 x (h1 x h), ?_, ?_, ?_, ?_, ?_, ?_⟩
  · exact ⟨fun ⟨h1, h2⟩ x => ⟨h1 x, h2 x⟩, fun h1 => ⟨fun x => (h1 x).1, fun x => (h1 x).2⟩⟩
  · exact ⟨fun hh => ⟨fun x h => hh x (.inl h), fun x h => hh x (.inr h)⟩, fun hh x h => h.elim (hh.1 x) (hh.2 x)⟩
  · exact ⟨fun hh => ⟨fun x h => (hh x h).1, fun x h => (hh x h).2⟩, fun hh x h => ⟨hh.1 x h, hh.2 x h⟩⟩
  · refine forall_congr' fun x => ?_; tauto
  · refine forall_congr' fun x => ?_; tauto
  · push Not; rfl

end

/-- For `icl::map`, `within` compares values by equality; it is a partial order with respect to `==`. -/
theorem C57_element_map [DecidableEq V] {a b c : List (D × V)} (ha : Ascending Prod.fst a) (hb : Ascending Prod.fst b)
    (hc : Ascending Prod.fst c) :
    EMap.within a a = true ∧ (EMap.within a b = true → EMap.within b c = true → EMap.within a c = true) ∧
    (EMap.within a b = true ∧ EMap.within b a = true ↔ EMap.eq a b = true) := by
  rw [C38_within_map ha ha, C38_within_map ha hb, C38_within_map hb hc, C38_within_map ha hc, C38_within_map hb ha]
  refine ⟨fun _ h => h, fun h1 h2 s h => h2 s (h1 s h), ?_⟩
  rw [C38_eq_map ha hb]
  constructor
  · intro ⟨h1, h2⟩ x
    refine Option.ext fun v => ?_
    rw [valueOf_eq_some ha, valueOf_eq_some hb]
    exact ⟨h1 _, h2 _⟩
  · refine fun h1 => ⟨fun s hs => ?_, fun s hs => ?_⟩
    · rw [← valueOf_eq_some ha, h1] at hs; exact (valueOf_eq_some hb).1 hs
    · rw [← valueOf_eq_some hb, ← h1] at hs; exact (valueOf_eq_some ha).1 hs

/-- `within` of `icl::map` compares sets as values by equality, `inclusion_compare` of the same maps and `within` of
interval maps compare them by inclusion: `{(1,{1})}` is within `{(1,{1,2})}` as an interval map only. -/
theorem C57_counterexample_element_map :
    EMap.within [((1 : ℤ), ({1} : Finset ℤ))] [(1, {1, 2})] = false ∧
    EMap.inclusionCompare setCompare [((1 : ℤ), ({1} : Finset ℤ))] [(1, {1, 2})] = some .subset ∧
    MWithin Ex.ro setCompare [(Ex.r 1 2, ({1} : Finset ℤ))] [(Ex.r 1 2, {1, 2})] := by
  simp only [MWithin]
  decide

section
variable (oracle : List (SItv ℤ × Finset ℤ) → SItv ℤ → Nat)

example (j : Bool) := C57_collector_lattice Ex.ro_cls (oracle := oracle) (ex_kleaves j true).1 (ex_kleaves j true).2.1
  (ex_kleaves j true).2.2

example (j : Bool) := C57_collector_ways Ex.ro_cls (oracle := oracle) (ex_kleaves j true).1 (ex_kleaves j true).2.1

example : MapWellFormed Ex.ro exM ∧ MapWellFormed Ex.ro exN ∧ MElemEqual Ex.ro atomicCompare exM exN ∧
    MWithin Ex.ro atomicCompare [(Ex.r 1 3, (1 : ℤ))] exM ∧ ¬ MWithin Ex.ro atomicCompare exM [(Ex.r 1 3, (1 : ℤ))] ∧
    MWithin Ex.ro setCompare [(Ex.r 1 3, ({1} : Finset ℤ))] [(Ex.r 0 2, {1, 2}), (Ex.r 2 5, {1})] ∧
    ESet.within [(1 : ℤ), 3] [1, 2, 3] = true ∧ ESet.within [(1 : ℤ), 4] [1, 2, 3] = false ∧
    EMap.within [((1 : ℤ), (3 : ℤ))] [(1, 3), (2, 4)] = true := by
  refine ⟨exM_wf.1, exM_wf.2, ?_⟩
  simp only [MWithin, MElemEqual]
  decide

end

end ICL.Props
