import Verif.Theory.SetHistory
import Verif.Props.Examples

/-!
# Properties of interval sets: C06-C14, and the parts of C24, C29, C30 that concern sets

`IntervalClass o` ranges over the interval classes, `st` over `interval_set` (`joining`),
`separate_interval_set` (`separating`) and `split_interval_set` (`splitting`).
A result `some s'` says that no assertion fails on the way and that the function yields `s'`.
-/

set_option linter.unusedSectionVars false
set_option linter.unusedVariables false

namespace ICL.Props
open Spec

variable {D I : Type} [LinearOrder D] {o : IntervalOps D I} [DecidableEq I]

/-- Sets for the examples: `{[0,2) [5,9)}` and `{[1,6) [8,10)}`. -/
abbrev exS : List (SItv ℤ) := [Ex.r 0 2, Ex.r 5 9]
@[inherit_doc exS] abbrev exT : List (SItv ℤ) := [Ex.r 1 6, Ex.r 8 10]

theorem ex_wf : WellFormed Ex.ro exS ∧ WellFormed Ex.ro exT := by
  have key : ∀ a b c d : ℤ, a < b → b ≤ c → c < d → WellFormed Ex.ro [Ex.r a b, Ex.r c d] := by
    intro a b c d h1 h2 h3
    refine ⟨?_, ?_⟩
    · intro i hi
      simp only [List.mem_cons, List.not_mem_nil, or_false] at hi
      rcases hi with rfl | rfl
      · exact ⟨a, by simp [In, rightOpenOps]; omega⟩
      · exact ⟨c, by simp [In, rightOpenOps]; omega⟩
    · simp only [List.pairwise_cons, List.mem_cons, List.not_mem_nil, or_false, forall_eq,
        false_implies, implies_true, List.Pairwise.nil, and_true]
      intro x y hx hy
      simp [In, rightOpenOps] at hx hy
      omega
  exact ⟨key 0 2 5 9 (by decide) (by decide) (by decide), key 1 6 8 10 (by decide) (by decide) (by decide)⟩

/-- The element functions of `right_open_interval<int>`. -/
abbrev exE : ElemFns ℤ (SItv ℤ) := ⟨Ex.roE.singleton, .exact Ex.roE.unitTrail⟩
theorem ex_cls : SetClass Ex.ro (some exE) :=
  ⟨Ex.ro_cls, fun e he => by cases he; exact ⟨.discrete Ex.ro_disc, .discrete Ex.ro_disc⟩⟩

/-! ## C06: well-formed under every history -/

/-- Every interval set that any history of operations produces is well-formed. -/
theorem C06_well_formed {E : Option (ElemFns D I)} (h : SetClass o E) {st : Style} {s : List I}
    (hr : Reachable o E st s) : WellFormed o s :=
  wellFormed_iff.2 (hr.good h).1

/-- On a reachable set every operation whose precondition is met yields a result (no assertion fails). -/
theorem C06_no_failure {E : Option (ElemFns D I)} (h : SetClass o E) {st : Style} {s : List I}
    (hr : Reachable o E st s) (c : SetOp D I) (hc : c.Pre o E s) :
    ∃ s', c.run o E st s = some s' ∧ Reachable o E st s' := by
  obtain ⟨s', h1, _⟩ := SetOp.run_spec h (hr.good h) c hc
  exact ⟨s', h1, .op c hr h1⟩

/-- On reachable sets every operation with a set operand yields a result (no assertion fails). -/
theorem C06_no_failure2 {E : Option (ElemFns D I)} (h : SetClass o E) {st st' : Style} {s t : List I}
    (hs : Reachable o E st s) (ht : Reachable o E st' t) (c : SetOp2 I) (hc : c.Pre st st') :
    ∃ s', c.run o st st' s t = some s' ∧ Reachable o E st s' := by
  obtain ⟨s', h1, _⟩ := SetOp2.run_spec h.cls (hs.good h) (ht.good h) c hc
  exact ⟨s', h1, .op2 c hs ht h1⟩

/-- A reachable set: `{} += [0,5)`, `-= [2,3)`, `+= 7`, `^= [1,8)`. -/
theorem ex_reachable : Reachable Ex.ro (some exE) .joining [Ex.r 0 1, Ex.r 2 3, Ex.r 5 7] :=
  .op (.flip (Ex.r 1 8)) (.op (.addE 7) (.op (.subtract (Ex.r 2 3)) (.op (.add (Ex.r 0 5)) (.empty _)
    (l' := [Ex.r 0 5]) (by decide)) (l' := [Ex.r 0 2, Ex.r 3 5]) (by decide))
    (l' := [Ex.r 0 2, Ex.r 3 5, Ex.r 7 8]) (by decide)) (by decide)

example : ∃ s, Reachable Ex.ro (some exE) .splitting s ∧ s.length = 3 :=
  ⟨[Ex.r 0 2, Ex.r 2 5, Ex.r 5 7], .op (.add (Ex.r 2 7)) (.op (.add (Ex.r 0 5)) (.empty _)
    (l' := [Ex.r 0 5]) (by decide)) (by decide), rfl⟩

/-! ## C07: interval_set is joined -/

/-- Every `interval_set` that any history of operations produces is fully joined. -/
theorem C07_fully_joined {E : Option (ElemFns D I)} (h : SetClass o E) {s : List I}
    (hr : Reachable o E .joining s) : FullyJoined o s :=
  (fullyJoined_iff h.cls.lawful (hr.good h).1).2 ((hr.good h).2 rfl)

example : FullyJoined Ex.ro [Ex.r 0 1, Ex.r 2 3, Ex.r 5 7] := C07_fully_joined ex_cls ex_reachable

/-! ## C08: addition -/

/-- `s.add(k)`, `s.insert(k)`, `s += k` -/
theorem C08_add (h : IntervalClass o) (st : Style) {s : List I} (hs : WellFormed o s) (k : I) :
    ∃ s', ISet.add o st s k = some s' ∧ WellFormed o s' ∧ ∀ x, Elem o s' x ↔ Elem o s x ∨ In o x k := by
  obtain ⟨s', h1, h2⟩ := ISet.add_spec h.lawful st (wellFormed_iff.1 hs) k
  exact ⟨s', h1, wellFormed_iff.2 h2.wf, h2.dom⟩

/-- `s.add(prior, k)`, `s.insert(prior, k)` -/
theorem C08_add_hint (h : IntervalClass o) (st : Style) (n : Nat) {s : List I} (hs : WellFormed o s) (k : I) :
    ∃ s', ISet.addHint o st n s k = some s' ∧ WellFormed o s' ∧
      ∀ x, Elem o s' x ↔ Elem o s x ∨ In o x k := by
  obtain ⟨s', h1, h2⟩ := ISet.addHint_spec h.lawful st n (wellFormed_iff.1 hs) k
  exact ⟨s', h1, wellFormed_iff.2 h2.wf, h2.dom⟩

/-- `s.add(a)`, `s.insert(a)`, `s += a` for an element `a` that has a one-element interval -/
theorem C08_add_element {sing : D → I} (h : SingletonClass o sing) (st : Style) {s : List I}
    (hs : WellFormed o s) (a : D) (ha : o.isEmpty (sing a) = false) :
    ∃ s', ISet.addE o st sing s a = some s' ∧ WellFormed o s' ∧ ∀ x, Elem o s' x ↔ Elem o s x ∨ x = a := by
  obtain ⟨s', h1, h2⟩ := ISet.add_spec h.cls.lawful st (wellFormed_iff.1 hs) (sing a)
  refine ⟨s', h1, wellFormed_iff.2 h2.wf, fun x => ?_⟩
  rw [elem_iff, h2.dom, h.mem ha]; rfl

/-- `s += t`, `s |= t` -/
theorem C08_union (h : IntervalClass o) (st : Style) (oracle : List I → I → Nat) {s t : List I}
    (hs : WellFormed o s) (ht : WellFormed o t) :
    ∃ s', ISet.addSet o st oracle s t = some s' ∧ WellFormed o s' ∧
      ∀ x, Elem o s' x ↔ Elem o s x ∨ Elem o t x := by
  obtain ⟨s', h1, h2⟩ := ISet.addSet_spec h.lawful st oracle (wellFormed_iff.1 hs) t
  exact ⟨s', h1, wellFormed_iff.2 h2.wf, h2.dom⟩

example : ISet.add Ex.ro .joining exS (Ex.r 1 6) = some [Ex.r 0 9] ∧
    ISet.add Ex.ro .splitting exS (Ex.r 1 6) = some [Ex.r 0 1, Ex.r 1 2, Ex.r 2 5, Ex.r 5 6, Ex.r 6 9] := by
  decide
example : WellFormed Ex.ro exS ∧ WellFormed Ex.ro exT := ex_wf

/-! ## C09: subtraction -/

/-- `s.subtract(k)`, `s.erase(k)`, `s -= k` -/
theorem C09_subtract (h : IntervalClass o) {s : List I} (hs : WellFormed o s) (k : I) :
    ∃ s', ISet.subtract o s k = some s' ∧ WellFormed o s' ∧ ∀ x, Elem o s' x ↔ Elem o s x ∧ ¬ In o x k := by
  obtain ⟨s', h1, h2⟩ := ISet.subtract_spec h.lawful (wellFormed_iff.1 hs) k
  exact ⟨s', h1, wellFormed_iff.2 h2.wf, h2.dom⟩

/-- `s.subtract(a)`, `s.erase(a)`, `s -= a` for an element `a` that has a one-element interval -/
theorem C09_subtract_element {sing : D → I} (h : SingletonClass o sing) {s : List I}
    (hs : WellFormed o s) (a : D) (ha : o.isEmpty (sing a) = false) :
    ∃ s', ISet.subE o sing s a = some s' ∧ WellFormed o s' ∧ ∀ x, Elem o s' x ↔ Elem o s x ∧ x ≠ a := by
  obtain ⟨s', h1, h2⟩ := ISet.subtract_spec h.cls.lawful (wellFormed_iff.1 hs) (sing a)
  refine ⟨s', h1, wellFormed_iff.2 h2.wf, fun x => ?_⟩
  rw [elem_iff, h2.dom, h.mem ha]; rfl

/-- `s -= t` -/
theorem C09_difference (h : IntervalClass o) {s t : List I}
    (hs : WellFormed o s) (ht : WellFormed o t) :
    ∃ s', ISet.subSet o s t = some s' ∧ WellFormed o s' ∧ ∀ x, Elem o s' x ↔ Elem o s x ∧ ¬ Elem o t x := by
  obtain ⟨s', h1, h2⟩ := ISet.subSet_spec h.lawful (wellFormed_iff.1 hs) (wellFormed_iff.1 ht)
  exact ⟨s', h1, wellFormed_iff.2 h2.wf, h2.dom⟩

example : ISet.subSet Ex.ro exS exT = some [Ex.r 0 1, Ex.r 6 8] := by decide

/-! ## C10: intersection -/

/-- `s &= k` -/
theorem C10_intersection_interval (h : IntervalClass o) (st : Style) (oracle : List I → I → Nat)
    {s : List I} (hs : WellFormed o s) (k : I) :
    ∃ s', ISet.interSeg o st oracle s k = some s' ∧ WellFormed o s' ∧
      ∀ x, Elem o s' x ↔ Elem o s x ∧ In o x k := by
  obtain ⟨s', h1, h2, h3, _⟩ := ISet.interSeg_spec h.lawful st oracle (wellFormed_iff.1 hs) k
  exact ⟨s', h1, wellFormed_iff.2 h2, h3⟩

/-- `s &= a` for an element `a` that has a one-element interval -/
theorem C10_intersection_element {e : ElemFns D I} (h : SetClass o (some e))
    (st : Style) {s : List I} (hs : WellFormed o s) (hj : st = .joining → FullyJoined o s) (a : D)
    (ha : HasElem o (some e) a) :
    ∃ s', ISet.addInterE o st e.sing e.lookup [] s a = some s' ∧ WellFormed o s' ∧
      ∀ x, Elem o s' x ↔ Elem o s x ∧ x = a := by
  have hw := wellFormed_iff.1 hs
  obtain ⟨s', h1, h2, h3⟩ := SetOp.run_spec h
    (st := st) ⟨hw, fun e => (fullyJoined_iff h.cls.lawful hw).1 (hj e)⟩ (.interE a) ha
  exact ⟨s', h1, wellFormed_iff.2 h2.1, h3⟩

/-- `s &= t` -/
theorem C10_intersection (h : IntervalClass o) (st : Style) (oracle : List I → I → Nat) {s t : List I}
    (hs : WellFormed o s) (ht : WellFormed o t) :
    ∃ s', ISet.interSet o st oracle s t = some s' ∧ WellFormed o s' ∧
      ∀ x, Elem o s' x ↔ Elem o s x ∧ Elem o t x := by
  obtain ⟨s', h1, h2⟩ := ISet.interSet_spec h.lawful st oracle (wellFormed_iff.1 hs) (wellFormed_iff.1 ht)
  exact ⟨s', h1, wellFormed_iff.2 h2.wf, h2.dom⟩

/-- `intersects(s, t)`; `disjoint(s, t)` is its negation. -/
theorem C10_intersects (h : IntervalClass o) (st : Style) (oracle : List I → I → Nat) {s t : List I}
    (hs : WellFormed o s) (ht : WellFormed o t) :
    ∃ b, ISet.intersects o st oracle s t = some b ∧ (b = true ↔ ∃ x, Elem o s x ∧ Elem o t x) :=
  ISet.intersects_spec h.lawful st oracle (wellFormed_iff.1 hs) (wellFormed_iff.1 ht)

/-- `intersects(s, k)`; `disjoint(s, k)` is its negation. -/
theorem C10_intersects_interval (h : IntervalClass o) {s : List I} (hs : WellFormed o s) (k : I) :
    ∃ b, intersectsSeg o setSeg s k = some b ∧ (b = true ↔ ∃ x, Elem o s x ∧ In o x k) :=
  intersectsSeg_spec h.lawful (wellFormed_iff.1 hs) k

example : ISet.interSet Ex.ro .joining (fun _ _ => 0) exS exT = some [Ex.r 1 2, Ex.r 5 6, Ex.r 8 9] ∧
    ISet.intersects Ex.ro .joining (fun _ _ => 0) exS exT = some true ∧
    ISet.intersects Ex.ro .joining (fun _ _ => 0) exS [Ex.r 2 5, Ex.r 9 10] = some false := by decide

/-! ## C11: symmetric difference -/

/-- `s.flip(k)`, `s ^= k`.  The precondition is needed: see `C11_flip_empty`. -/
theorem C11_flip (h : IntervalClass o) (st : Style) {s : List I} (hs : WellFormed o s) (k : I)
    (hk : o.isEmpty k = false) :
    ∃ s', ISet.flipSeg o st s k = some s' ∧ WellFormed o s' ∧
      ∀ x, Elem o s' x ↔ (Elem o s x ∧ ¬ In o x k) ∨ (In o x k ∧ ¬ Elem o s x) := by
  have hk : o.Nonempty k := by
    by_contra hn
    have : o.isEmpty k = true := (h.lawful.isEmpty_iff k).2 fun x hx => hn ⟨x, hx⟩
    rw [this] at hk; cases hk
  obtain ⟨s', h1, h2⟩ := ISet.flipSeg_spec h.lawful st (wellFormed_iff.1 hs) hk
  exact ⟨s', h1, wellFormed_iff.2 h2.wf, h2.dom⟩

/-- `s.flip(k)` with an empty interval `k` trips an assertion, unless the set is empty. -/
theorem C11_flip_empty (h : IntervalClass o) (st : Style) (s : List I) (k : I)
    (hk : o.isEmpty k = true) :
    ISet.flipSeg o st s k = if s = [] then some [] else none := by
  rw [ISet.flipSeg_empty h.lawful st s hk]
  cases s <;> simp

/-- `s.flip(a)`, `s ^= a` for an element `a` that has a one-element interval -/
theorem C11_flip_element {e : ElemFns D I} (h : SetClass o (some e))
    (st : Style) {s : List I} (hs : WellFormed o s) (hj : st = .joining → FullyJoined o s) (a : D)
    (ha : HasElem o (some e) a) :
    ∃ s', ISet.flipE o st e.sing e.lookup s a = some s' ∧ WellFormed o s' ∧
      ∀ x, Elem o s' x ↔ (Elem o s x ∧ x ≠ a) ∨ (x = a ∧ ¬ Elem o s x) := by
  have hw := wellFormed_iff.1 hs
  obtain ⟨s', h1, h2, h3⟩ := SetOp.run_spec h
    (st := st) ⟨hw, fun e => (fullyJoined_iff h.cls.lawful hw).1 (hj e)⟩ (.flipE a) ha
  exact ⟨s', h1, wellFormed_iff.2 h2.1, h3⟩

/-- `s ^= t` -/
theorem C11_symmetric_difference (h : IntervalClass o) (st : Style) (oracle : List I → I → Nat)
    {s t : List I} (hs : WellFormed o s) (ht : WellFormed o t) :
    ∃ s', ISet.flipSet o st oracle s t = some s' ∧ WellFormed o s' ∧
      ∀ x, Elem o s' x ↔ (Elem o s x ∧ ¬ Elem o t x) ∨ (Elem o t x ∧ ¬ Elem o s x) := by
  obtain ⟨s', h1, h2⟩ := ISet.flipSet_spec h.lawful st oracle (wellFormed_iff.1 hs) (wellFormed_iff.1 ht)
  exact ⟨s', h1, wellFormed_iff.2 h2.wf, h2.dom⟩

example : ISet.flipSet Ex.ro .joining (fun _ _ => 0) exS exT =
    some [Ex.r 0 1, Ex.r 2 5, Ex.r 6 8, Ex.r 9 10] := by decide

/-! ## C12: canonical form -/

/-- Two reachable `interval_set`s with the same elements are equal (`operator ==`), and conversely. -/
theorem C12_canonical {E : Option (ElemFns D I)} (h : SetClass o E) {s t : List I}
    (hs : Reachable o E .joining s) (ht : Reachable o E .joining t) :
    eqC o setSeg s t = true ↔ ∀ x, Elem o s x ↔ Elem o t x := by
  have hs := hs.good h
  have ht := ht.good h
  rw [eqC_joined h.cls.lawful hs.1 ht.1 (hs.2 rfl) (ht.2 rfl)]
  simp only [maps_unit]
  exact ⟨fun hh x => hh x (), fun hh x _ => hh x⟩

/-- Adding the same intervals in any order gives equal `interval_set`s. -/
theorem C12_order_irrelevant {E : Option (ElemFns D I)} (h : SetClass o E) {ks ks' : List I}
    (hp : ks.Perm ks') : ∃ s t, ISet.fold (fun s k => ISet.add o .joining s k) [] ks = some s ∧
      ISet.fold (fun s k => ISet.add o .joining s k) [] ks' = some t ∧ eqC o setSeg s t = true := by
  obtain ⟨s, h1, h2⟩ := fold_add h.cls.lawful .joining _
    (fun l hl k => ISet.add_spec h.cls.lawful .joining hl k) ks (wf_nil (o := o) (g := setSeg))
  obtain ⟨t, h3, h4⟩ := fold_add h.cls.lawful .joining _
    (fun l hl k => ISet.add_spec h.cls.lawful .joining hl k) ks' (wf_nil (o := o) (g := setSeg))
  refine ⟨s, t, h1, h3, ?_⟩
  rw [eqC_joined h.cls.lawful h2.wf h4.wf (h2.joined rfl joined_nil) (h4.joined rfl joined_nil)]
  intro x v
  rw [maps_unit, maps_unit, h2.dom, h4.dom]
  unfold Dom
  simp only [hp.mem_iff]

example : ISet.fold (fun s k => ISet.add Ex.ro .joining s k) [] [Ex.r 4 6, Ex.r 0 2, Ex.r 2 4] =
    some [Ex.r 0 6] := by decide

/-! ## C13: segmentation -/

/-- `x` is in `k` or in an interval of `s` that shares an element with `k`. -/
def Absorbed (o : IntervalOps D I) (s : List I) (k : I) (x : D) : Prop :=
  In o x k ∨ ∃ i ∈ s, In o x i ∧ ∃ z, In o z i ∧ In o z k

/-- `separate_interval_set`: after `add(k)` two values are in one interval if they were before, or if both
are in `k` or in an interval that overlaps with `k`.  Touching intervals stay apart. -/
theorem C13_separate_add (h : IntervalClass o) {s : List I} (hs : WellFormed o s) (k : I) :
    ∃ s', ISet.add o .separating s k = some s' ∧ ∀ x y, SameSegment o s' x y ↔
      SameSegment o s x y ∨ (Absorbed o s k x ∧ Absorbed o s k y) := by
  obtain ⟨s', h1, h2⟩ := ISet.add_spec h.lawful .separating (wellFormed_iff.1 hs) k
  exact ⟨s', h1, h2.separating rfl⟩

/-- `split_interval_set`: after `add(k)` two values are in one interval if they were before and no end
of `k` separates them, or if both are in `k` and nothing between them was in the set. -/
theorem C13_split_add (h : IntervalClass o) {s : List I} (hs : WellFormed o s) (k : I) :
    ∃ s', ISet.add o .splitting s k = some s' ∧ ∀ x y, SameSegment o s' x y ↔
      (SameSegment o s x y ∧ ∀ z, Between x y z → (In o z k ↔ In o x k)) ∨
      (In o x k ∧ In o y k ∧ ∀ z, Between x y z → ¬ Elem o s z) := by
  obtain ⟨s', h1, h2⟩ := ISet.add_spec h.lawful .splitting (wellFormed_iff.1 hs) k
  refine ⟨s', h1, fun x y => ?_⟩
  rw [sameSegment_iff, h2.splitting rfl, splitSpec_iff_aux]
  simp only [between_iff]
  rfl

/-- `interval_set`: two values are in one interval exactly if all values between them are in the set. -/
theorem C13_joining {E : Option (ElemFns D I)} (h : SetClass o E) {s : List I}
    (hs : Reachable o E .joining s) (x y : D) :
    SameSegment o s x y ↔ ∀ z, Between x y z → Elem o s z := by
  have hg := hs.good h
  have key : ∀ x y, x ≤ y → (SameSegment o s x y ↔ ∀ z, Between x y z → Elem o s z) := by
    intro x y hxy
    rw [sameSegment_iff, joined_same_iff h.cls.lawful hg.1 (hg.2 rfl) hxy]
    simp only [maps_unit, between_iff, btw_iff_of_le hxy, and_imp]
    exact ⟨fun ⟨_, hh⟩ => hh, fun hh => ⟨(), hh⟩⟩
  rcases le_total x y with hxy | hxy
  · exact key x y hxy
  · have := key y x hxy
    rw [show SameSegment o s x y ↔ SameSegment o s y x from
      ⟨fun ⟨i, a, b, c⟩ => ⟨i, a, c, b⟩, fun ⟨i, a, b, c⟩ => ⟨i, a, c, b⟩⟩, this]
    exact forall_congr' fun z => by unfold Between; rw [or_comm]

/-- After `subtract(k)`, in all classes, two values are in one interval if they were before and nothing
between them is in `k`. -/
theorem C13_subtract (h : IntervalClass o) {s : List I} (hs : WellFormed o s) (k : I) :
    ∃ s', ISet.subtract o s k = some s' ∧ ∀ x y, SameSegment o s' x y ↔
      SameSegment o s x y ∧ ∀ z, Between x y z → ¬ In o z k := by
  obtain ⟨s', h1, h2⟩ := ISet.subtract_spec h.lawful (wellFormed_iff.1 hs) k
  refine ⟨s', h1, fun x y => ?_⟩
  rw [sameSegment_iff, h2.same]
  simp only [between_iff, Btw, and_imp]
  rfl

/-- After `s &= t` on `separate_interval_set` and `split_interval_set` two values are in one interval if
they are in one interval of `s` and in one interval of `t`. -/
theorem C13_intersection (h : IntervalClass o) (st : Style) (hst : st ≠ .joining)
    (oracle : List I → I → Nat) {s t : List I} (hs : WellFormed o s) (ht : WellFormed o t) :
    ∃ s', ISet.interSet o st oracle s t = some s' ∧ ∀ x y, SameSegment o s' x y ↔
      SameSegment o s x y ∧ SameSegment o t x y := by
  obtain ⟨s', h1, h2⟩ := ISet.interSet_spec h.lawful st oracle (wellFormed_iff.1 hs) (wellFormed_iff.1 ht)
  exact ⟨s', h1, h2.same hst⟩

/-- After `s.flip(k)` on `separate_interval_set` and `split_interval_set` two values are in one interval if
they were before and nothing between them is in `k`, or if both are in `k` and nothing between them was in
the set. -/
theorem C13_flip (h : IntervalClass o) (st : Style) (hst : st ≠ .joining) {s : List I}
    (hs : WellFormed o s) (k : I) (hk : o.isEmpty k = false) :
    ∃ s', ISet.flipSeg o st s k = some s' ∧ ∀ x y, SameSegment o s' x y ↔
      (SameSegment o s x y ∧ ∀ z, Between x y z → ¬ In o z k) ∨
      (In o x k ∧ In o y k ∧ ∀ z, Between x y z → ¬ Elem o s z) := by
  have hk : o.Nonempty k := by
    by_contra hn
    have : o.isEmpty k = true := (h.lawful.isEmpty_iff k).2 fun x hx => hn ⟨x, hx⟩
    rw [this] at hk; cases hk
  obtain ⟨s', h1, h2⟩ := ISet.flipSeg_spec h.lawful st (wellFormed_iff.1 hs) hk
  refine ⟨s', h1, fun x y => ?_⟩
  rw [sameSegment_iff, h2.same hst]
  simp only [between_iff]
  rfl

-- `{[0,2) [5,9)} + [2,6)`: separated and split.
example : ISet.add Ex.ro .separating exS (Ex.r 2 6) = some [Ex.r 0 2, Ex.r 2 9] ∧
    ISet.add Ex.ro .splitting exS (Ex.r 2 6) = some [Ex.r 0 2, Ex.r 2 5, Ex.r 5 6, Ex.r 6 9] := by decide
example : Ex.ro.isEmpty (Ex.r 2 6) = false := by decide

/-! ## C14: lookup in sets -/

/-- `contains(s, x)`, `intersects(s, x)`; `lk.key x` is the interval that is searched for -/
theorem C14_contains_element {lk : Lookup D I} (h : LookupClass o lk) {s : List I} (hs : WellFormed o s)
    (x : D) (hx : o.isEmpty (lk.key x) = false) :
    ∃ b, containsE o setSeg lk s x = some b ∧ (b = true ↔ Elem o s x) :=
  containsE_spec h.cls.lawful (h.lawfulAt hx) (wellFormed_iff.1 hs)

/-- `find(x)`: the interval that contains `x`, or `end()` if there is none. -/
theorem C14_find {lk : Lookup D I} (h : LookupClass o lk) {s : List I} (hs : WellFormed o s) (x : D)
    (hx : o.isEmpty (lk.key x) = false) :
    ∃ r, findE o setSeg lk s x = some r ∧ ∀ i, r = some i ↔ i ∈ s ∧ In o x i :=
  findE_spec h.cls.lawful (h.lawfulAt hx) (wellFormed_iff.1 hs)

/-- `find(k)`: the first interval that shares an element with `k`, or `end()` if there is none. -/
theorem C14_find_interval (h : IntervalClass o) {s : List I} (hs : WellFormed o s) (k : I)
    (hk : o.isEmpty k = false) :
    ∃ r, findI o setSeg s k = some r ∧
      (r = none → ∀ x, ¬ (Elem o s x ∧ In o x k)) ∧
      (∀ i, r = some i → i ∈ s ∧ (∃ x, In o x i ∧ In o x k) ∧
        ∀ j ∈ s, (∃ x, In o x j ∧ In o x k) → j = i ∨ ∀ x y, In o x i → In o y j → x < y) := by
  have hk : o.Nonempty k := by
    by_contra hn
    have : o.isEmpty k = true := (h.lawful.isEmpty_iff k).2 fun x hx => hn ⟨x, hx⟩
    rw [this] at hk; cases hk
  obtain ⟨r, h1, h2, h3⟩ := findI_spec h.lawful (wellFormed_iff.1 hs) hk
  refine ⟨r, h1, fun hr x hx => ?_, h3⟩
  obtain ⟨⟨i, hi, hxi⟩, hxk⟩ := hx
  exact h2 hr i hi x hxi hxk

/-- `contains(s, k)`, `within(k, s)` for an interval `k` -/
theorem C14_contains_interval (h : IntervalClass o) {s : List I} (hs : WellFormed o s) (k : I) :
    ∃ b, ISet.containsSeg o s k = some b ∧ (b = true ↔ ∀ x, In o x k → Elem o s x) :=
  ISet.containsSeg_spec h.lawful (wellFormed_iff.1 hs) k

example : LookupClass Ex.ro exE.lookup ∧ containsE Ex.ro setSeg exE.lookup exS 6 = some true ∧
    containsE Ex.ro setSeg exE.lookup exS 2 = some false ∧ findE Ex.ro setSeg exE.lookup exS 6 = some (some (Ex.r 5 9)) ∧
    ISet.containsSeg Ex.ro [Ex.r 0 2, Ex.r 2 4] (Ex.r 1 3) = some true ∧
    ISet.containsSeg Ex.ro [Ex.r 0 2, Ex.r 3 4] (Ex.r 1 4) = some false :=
  ⟨.discrete Ex.ro_disc, by decide⟩

/-! ## C24: hints (sets) -/

/-- `add(prior, k)` and `add(k)` produce equal sets, whatever the hint. -/
theorem C24_set_hint (h : IntervalClass o) (st : Style) (n : Nat) {s : List I} (hs : WellFormed o s)
    (hj : st = .joining → FullyJoined o s) (k : I) :
    ∃ a b, ISet.addHint o st n s k = some a ∧ ISet.add o st s k = some b ∧ eqC o setSeg a b = true := by
  have hw := wellFormed_iff.1 hs
  obtain ⟨a, h1, h2⟩ := ISet.addHint_spec h.lawful st n hw k
  obtain ⟨b, h3, h4⟩ := ISet.add_spec h.lawful st hw k
  refine ⟨a, b, h1, h3, ?_⟩
  have hm : ∀ x v, Maps o setSeg a x v ↔ Maps o setSeg b x v := by
    intro x v; rw [maps_unit, maps_unit, h2.dom, h4.dom]
  cases st with
  | joining =>
    have hj := (fullyJoined_iff h.lawful hw).1 (hj rfl)
    rw [eqC_joined h.lawful h2.wf h4.wf (h2.joined rfl hj) (h4.joined rfl hj)]
    exact hm
  | separating =>
    rw [eqC_spec h.lawful h2.wf h4.wf]
    exact ⟨fun x y => by rw [h2.separating rfl, h4.separating rfl], hm⟩
  | splitting =>
    rw [eqC_spec h.lawful h2.wf h4.wf]
    exact ⟨fun x y => by rw [h2.splitting rfl, h4.splitting rfl], hm⟩

example : ISet.addHint Ex.ro .joining 7 exS (Ex.r 1 6) = some [Ex.r 0 9] := by decide

/-! ## C29: hull, gaps, domain (sets) -/

/-- `hull(s)`: the values between two elements of `s`. -/
theorem C29_hull (h : IntervalClass o) {s : List I} (hs : WellFormed o s) (x : D) :
    In o x (hullC o setSeg s) ↔ ∃ y z, Elem o s y ∧ Elem o s z ∧ y ≤ x ∧ x ≤ z :=
  hullC_spec h.lawful (wellFormed_iff.1 hs) x

/-- `between(gaps, s)`: the values between two elements of `s` that are not in `s`. -/
theorem C29_between (h : IntervalClass o) (st : Style) (oracle : List I → I → Nat) {s : List I}
    (hs : WellFormed o s) : ∃ s', ISet.between o st oracle s = some s' ∧ WellFormed o s' ∧
      ∀ x, Elem o s' x ↔ ¬ Elem o s x ∧ ∃ y z, Elem o s y ∧ Elem o s z ∧ y < x ∧ x < z := by
  obtain ⟨s', h1, h2, _, h3⟩ := ISet.between_spec h.lawful st oracle (wellFormed_iff.1 hs)
  exact ⟨s', h1, wellFormed_iff.2 h2, h3⟩

/-- `domain(dom, s)`: the elements of `s`. -/
theorem C29_domain (h : IntervalClass o) (st : Style) (oracle : List I → I → Nat) {s : List I}
    (hs : WellFormed o s) : ∃ s', ISet.domain o st oracle s = some s' ∧ WellFormed o s' ∧
      ∀ x, Elem o s' x ↔ Elem o s x := by
  obtain ⟨s', h1, h2⟩ := ISet.addSet_spec h.lawful st oracle (wf_nil (o := o) (g := setSeg)) s
  refine ⟨s', h1, wellFormed_iff.2 h2.wf, fun x => ?_⟩
  rw [elem_iff, h2.dom]; simp [elem_iff]

example : hullC Ex.ro setSeg exS = Ex.r 0 9 ∧
    ISet.between Ex.ro .joining (fun _ _ => 0) exS = some [Ex.r 2 5] := by decide

/-! ## C30: conversions (sets) -/

/-- Assignment from another class of interval set keeps the elements; to the separating and splitting classes
it keeps the intervals. -/
theorem C30_assign (h : IntervalClass o) (st : Style) (oracle : List I → I → Nat) {s : List I}
    (hs : WellFormed o s) : ∃ s', ISet.assign o st oracle s = some s' ∧ WellFormed o s' ∧
      (∀ x, Elem o s' x ↔ Elem o s x) ∧ (st = .joining → FullyJoined o s') ∧ (st ≠ .joining → s' = s) := by
  obtain ⟨s', h1, h2, h3, h4, h5⟩ := ISet.assign_spec h.lawful st oracle (wellFormed_iff.1 hs)
  exact ⟨s', h1, wellFormed_iff.2 h2, h3, fun e => (fullyJoined_iff h.lawful h2).2 (h4 e), h5⟩

/-- `join(s)` keeps the elements and leaves a fully joined set. -/
theorem C30_join (h : IntervalClass o) {s : List I} (hs : WellFormed o s) :
    ∃ s', joinAll o setSeg s = some s' ∧ WellFormed o s' ∧ (∀ x, Elem o s' x ↔ Elem o s x) ∧
      FullyJoined o s' := by
  obtain ⟨s', e, h1, h2, h3⟩ := joinAll_spec h.lawful setSeg_lawful (wellFormed_iff.1 hs)
  refine ⟨s', e, wellFormed_iff.2 h1, fun x => ?_, (fullyJoined_iff h.lawful h1).2 h3⟩
  have := h2 x ()
  rwa [maps_unit, maps_unit] at this

example : joinAll Ex.ro setSeg [Ex.r 0 2, Ex.r 2 4, Ex.r 4 5, Ex.r 6 7, Ex.r 7 9] = some [Ex.r 0 5, Ex.r 6 9] := by
  decide

end ICL.Props
