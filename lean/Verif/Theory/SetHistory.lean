import Verif.Model.SetHistory
import Verif.Theory.SpecBridge
import Verif.Theory.SetFlip

/-!
# Invariants of the reachable interval sets
-/

set_option linter.unusedSectionVars false
set_option linter.unusedVariables false

namespace ICL

variable {D I : Type} [LinearOrder D] {o : IntervalOps D I} [DecidableEq I]

/-- The interval class `o`, with `E` its element functions if it has one-element intervals. -/
structure SetClass (o : IntervalOps D I) (E : Option (ElemFns D I)) : Prop where
  cls : IntervalClass o
  elem : ∀ e, E = some e → SingletonClass o e.sing ∧ LookupClass o e.lookup

/-- The invariant of interval sets. -/
def Good (o : IntervalOps D I) (st : Style) (l : List I) : Prop :=
  WF o setSeg l ∧ (st = .joining → Joined o setSeg l)

/-- The class has one-element intervals, and `x` has one: over machine integers `right_open_interval` has
none for the largest value, `left_open_interval` none for the smallest one, and `open_interval` none for both. -/
def HasElem (o : IntervalOps D I) (E : Option (ElemFns D I)) (x : D) : Prop :=
  ∃ e, E = some e ∧ o.isEmpty (e.sing x) = false ∧ o.isEmpty (e.lookup.key x) = false

/-- What is required of a call: `flip` of an empty interval is not allowed on a non-empty set, and element
operations need an element with a one-element interval. -/
def SetOp.Pre (o : IntervalOps D I) (E : Option (ElemFns D I)) (l : List I) : SetOp D I → Prop
  | .flip k => o.isEmpty k = false ∨ l = []
  | .addE x => HasElem o E x
  | .subE x => HasElem o E x
  | .interE x => HasElem o E x
  | .flipE x => HasElem o E x
  | _ => True

/-- What is required of a call with a set operand. -/
def SetOp2.Pre (st st' : Style) : SetOp2 I → Prop
  | .copy => st = st'
  | _ => True

/-- What an operation does to the elements. -/
def SetOp.Effect (o : IntervalOps D I) (l l' : List I) : SetOp D I → Prop
  | .add k | .addHint _ k => ∀ x, Dom o setSeg l' x ↔ Dom o setSeg l x ∨ o.Mem x k
  | .subtract k => ∀ x, Dom o setSeg l' x ↔ Dom o setSeg l x ∧ ¬ o.Mem x k
  | .inter _ k => ∀ x, Dom o setSeg l' x ↔ Dom o setSeg l x ∧ o.Mem x k
  | .flip k => ∀ x, Dom o setSeg l' x ↔ (Dom o setSeg l x ∧ ¬ o.Mem x k) ∨ (o.Mem x k ∧ ¬ Dom o setSeg l x)
  | .addE a => ∀ x, Dom o setSeg l' x ↔ Dom o setSeg l x ∨ x = a
  | .subE a => ∀ x, Dom o setSeg l' x ↔ Dom o setSeg l x ∧ x ≠ a
  | .interE a => ∀ x, Dom o setSeg l' x ↔ Dom o setSeg l x ∧ x = a
  | .flipE a => ∀ x, Dom o setSeg l' x ↔ (Dom o setSeg l x ∧ x ≠ a) ∨ (x = a ∧ ¬ Dom o setSeg l x)
  | .clear => ∀ x, ¬ Dom o setSeg l' x
  | .eraseRange _ _ => ∀ i, i ∈ l' → i ∈ l
  | .join => ∀ x, Dom o setSeg l' x ↔ Dom o setSeg l x

omit [DecidableEq I] in
theorem good_nil (st : Style) : Good o st [] := ⟨wf_nil, fun _ => joined_nil⟩

omit [DecidableEq I] in
theorem good_sublist {st : Style} {l l' : List I} (hl : Good o st l) (hs : l'.Sublist l) : Good o st l' :=
  ⟨⟨fun s hs' => hl.1.nonempty s (hs.subset hs'), hl.1.sorted.sublist hs⟩,
    fun hj s hs' t ht => hl.2 hj s (hs.subset hs') t (hs.subset ht)⟩

theorem maps_unit {l : List I} {x : D} {v : Unit} : Maps o setSeg l x v ↔ Dom o setSeg l x := by
  constructor
  · exact Maps.dom
  · rintro ⟨s, h1, h2⟩; exact ⟨s, h1, h2, rfl⟩

theorem SetOp.run_spec {E : Option (ElemFns D I)} (h : SetClass o E) {st : Style} {l : List I}
    (hl : Good o st l) (c : SetOp D I) (hc : c.Pre o E l) :
    ∃ l', c.run o E st l = some l' ∧ Good o st l' ∧ c.Effect o l l' := by
  have hL := h.cls.lawful
  cases c with
  | add k =>
    obtain ⟨l', h1, h2⟩ := ISet.add_spec hL st hl.1 k
    exact ⟨l', h1, ⟨h2.wf, fun hj => h2.joined hj (hl.2 hj)⟩, h2.dom⟩
  | addHint n k =>
    obtain ⟨l', h1, h2⟩ := ISet.addHint_spec hL st n hl.1 k
    exact ⟨l', h1, ⟨h2.wf, fun hj => h2.joined hj (hl.2 hj)⟩, h2.dom⟩
  | subtract k =>
    obtain ⟨l', h1, h2⟩ := ISet.subtract_spec hL hl.1 k
    exact ⟨l', h1, ⟨h2.wf, fun hj => h2.joined hL hl.1 (hl.2 hj)⟩, h2.dom⟩
  | inter oracle k =>
    obtain ⟨l', h1, h2, h3, h4, _⟩ := ISet.interSeg_spec hL st oracle hl.1 k
    exact ⟨l', h1, ⟨h2, h4⟩, h3⟩
  | flip k =>
    rcases hc with hc | rfl
    · have hk : o.Nonempty k := by
        by_contra hn
        have : o.isEmpty k = true := (hL.isEmpty_iff k).2 fun x hx => hn ⟨x, hx⟩
        rw [this] at hc; cases hc
      obtain ⟨l', h1, h2⟩ := ISet.flipSeg_spec hL st hl.1 hk
      exact ⟨l', h1, ⟨h2.wf, fun hj => h2.joined hj (hl.2 hj)⟩, h2.dom⟩
    · by_cases he : o.isEmpty k = true
      · refine ⟨[], ?_, hl, ?_⟩
        · exact ISet.flipSeg_empty hL st [] he
        · intro x
          have := (hL.isEmpty_iff k).1 he x
          simp [this]
      · have hk : o.Nonempty k := by
          by_contra hn
          exact he ((hL.isEmpty_iff k).2 fun x hx => hn ⟨x, hx⟩)
        obtain ⟨l', h1, h2⟩ := ISet.flipSeg_spec hL st hl.1 hk
        exact ⟨l', h1, ⟨h2.wf, fun hj => h2.joined hj (hl.2 hj)⟩, h2.dom⟩
  | addE a =>
    obtain ⟨e, rfl, hx1, hx2⟩ := hc
    have hm := (h.elem e rfl).1.mem hx1
    obtain ⟨l', h1, h2⟩ := ISet.add_spec hL st hl.1 (e.sing a)
    refine ⟨l', h1, ⟨h2.wf, fun hj => h2.joined hj (hl.2 hj)⟩, fun x => ?_⟩
    rw [h2.dom, hm]
  | subE a =>
    obtain ⟨e, rfl, hx1, hx2⟩ := hc
    have hm := (h.elem e rfl).1.mem hx1
    obtain ⟨l', h1, h2⟩ := ISet.subtract_spec hL hl.1 (e.sing a)
    refine ⟨l', h1, ⟨h2.wf, fun hj => h2.joined hL hl.1 (hl.2 hj)⟩, fun x => ?_⟩
    rw [h2.dom, hm]
  | interE a =>
    obtain ⟨e, rfl, hx1, hx2⟩ := hc
    have hm := (h.elem e rfl).1.mem hx1
    obtain ⟨r, h1, h2⟩ := containsE_spec hL ((h.elem e rfl).2.lawfulAt hx2) hl.1
    simp only [SetOp.run, Option.bind_some, ISet.addInterE, h1, Option.bind_eq_bind]
    cases r with
    | false =>
      refine ⟨[], rfl, good_nil st, fun x => ?_⟩
      simp only [dom_nil, false_iff, not_and]
      rintro hx rfl
      have := h2.2 hx; cases this
    | true =>
      obtain ⟨l', h3, h4⟩ := ISet.add_spec hL st (wf_nil (o := o) (g := setSeg)) (e.sing a)
      refine ⟨l', h3, ⟨h4.wf, fun hj => h4.joined hj joined_nil⟩, fun x => ?_⟩
      rw [h4.dom, hm]
      simp only [dom_nil, false_or]
      constructor
      · rintro rfl; exact ⟨h2.1 rfl, rfl⟩
      · exact fun hx => hx.2
  | flipE a =>
    obtain ⟨e, rfl, hx1, hx2⟩ := hc
    have hm := (h.elem e rfl).1.mem hx1
    obtain ⟨r, h1, h2⟩ := containsE_spec hL ((h.elem e rfl).2.lawfulAt hx2) hl.1
    simp only [SetOp.run, Option.bind_some, ISet.flipE, h1, Option.bind_eq_bind]
    cases r with
    | false =>
      have hn : ¬ Dom o setSeg l a := fun hc => by have := h2.2 hc; cases this
      obtain ⟨l', h3, h4⟩ := ISet.add_spec hL st hl.1 (e.sing a)
      refine ⟨l', h3, ⟨h4.wf, fun hj => h4.joined hj (hl.2 hj)⟩, fun x => ?_⟩
      rw [h4.dom, hm]
      constructor
      · rintro (hx | rfl)
        · exact Or.inl ⟨hx, fun hc => hn (hc ▸ hx)⟩
        · exact Or.inr ⟨rfl, hn⟩
      · rintro (hx | hx)
        · exact Or.inl hx.1
        · exact Or.inr hx.1
    | true =>
      have hn : Dom o setSeg l a := h2.1 rfl
      obtain ⟨l', h3, h4⟩ := ISet.subtract_spec hL hl.1 (e.sing a)
      refine ⟨l', h3, ⟨h4.wf, fun hj => h4.joined hL hl.1 (hl.2 hj)⟩, fun x => ?_⟩
      rw [h4.dom, hm]
      constructor
      · exact Or.inl
      · rintro (hx | ⟨rfl, hx⟩)
        · exact hx
        · exact absurd hn hx
  | clear => exact ⟨[], rfl, good_nil st, fun x hx => by simp at hx⟩
  | eraseRange i j =>
    have hs : (l.take i ++ l.drop (max i j)).Sublist l := by
      have h1 : (l.drop (max i j)).Sublist (l.drop i) := by
        rw [show max i j = i + (max i j - i) by omega, ← List.drop_drop]
        exact List.drop_sublist _ _
      calc l.take i ++ l.drop (max i j) |>.Sublist (l.take i ++ l.drop i) := List.Sublist.append_left h1 _
        _ = l := List.take_append_drop i l
    exact ⟨_, rfl, good_sublist hl hs, fun k hk => hs.subset hk⟩
  | join =>
    obtain ⟨l', e, h1, h2, h3⟩ := joinAll_spec hL setSeg_lawful hl.1
    refine ⟨l', e, ⟨h1, fun _ => h3⟩, fun x => ?_⟩
    have := h2 x ()
    rwa [maps_unit, maps_unit] at this

/-- What an operation with a set operand does to the elements. -/
def SetOp2.Effect (o : IntervalOps D I) (l r l' : List I) : SetOp2 I → Prop
  | .add _ => ∀ x, Dom o setSeg l' x ↔ Dom o setSeg l x ∨ Dom o setSeg r x
  | .sub => ∀ x, Dom o setSeg l' x ↔ Dom o setSeg l x ∧ ¬ Dom o setSeg r x
  | .inter _ => ∀ x, Dom o setSeg l' x ↔ Dom o setSeg l x ∧ Dom o setSeg r x
  | .flip _ => ∀ x, Dom o setSeg l' x ↔
      (Dom o setSeg l x ∧ ¬ Dom o setSeg r x) ∨ (Dom o setSeg r x ∧ ¬ Dom o setSeg l x)
  | .assign _ | .copy | .domain _ => ∀ x, Dom o setSeg l' x ↔ Dom o setSeg r x
  | .between _ => ∀ x, Dom o setSeg l' x ↔
        ¬ Dom o setSeg r x ∧ ∃ y z, Dom o setSeg r y ∧ Dom o setSeg r z ∧ y < x ∧ x < z

theorem SetOp2.run_spec (h : IntervalClass o) {st st' : Style} {l r : List I}
    (hl : Good o st l) (hr : Good o st' r) (c : SetOp2 I) (hc : c.Pre st st') :
    ∃ l', c.run o st st' l r = some l' ∧ Good o st l' ∧ c.Effect o l r l' := by
  have hL := h.lawful
  cases c with
  | add oracle =>
    obtain ⟨l', h1, h2⟩ := ISet.addSet_spec hL st oracle hl.1 r
    exact ⟨l', h1, ⟨h2.wf, fun hj => h2.joined hj (hl.2 hj)⟩, h2.dom⟩
  | sub =>
    obtain ⟨l', h1, h2⟩ := ISet.subSet_spec hL hl.1 hr.1
    exact ⟨l', h1, ⟨h2.wf, fun hj => h2.joined hL hl.1 (hl.2 hj)⟩, h2.dom⟩
  | inter oracle =>
    obtain ⟨l', h1, h2⟩ := ISet.interSet_spec hL st oracle hl.1 hr.1
    exact ⟨l', h1, ⟨h2.wf, h2.joined⟩, h2.dom⟩
  | flip oracle =>
    obtain ⟨l', h1, h2⟩ := ISet.flipSet_spec hL st oracle hl.1 hr.1
    exact ⟨l', h1, ⟨h2.wf, fun hj => h2.joined hj (hl.2 hj)⟩, h2.dom⟩
  | assign oracle =>
    obtain ⟨l', h1, h2, h3, h4, _⟩ := ISet.assign_spec hL st oracle hr.1
    exact ⟨l', h1, ⟨h2, h4⟩, h3⟩
  | copy =>
    cases hc
    exact ⟨r, by simp [SetOp2.run], hr, fun x => Iff.rfl⟩
  | domain oracle =>
    obtain ⟨l', h1, h2⟩ := ISet.addSet_spec hL st oracle (wf_nil (o := o) (g := setSeg)) r
    refine ⟨l', h1, ⟨h2.wf, fun hj => h2.joined hj joined_nil⟩, fun x => ?_⟩
    rw [h2.dom]; simp
  | between oracle =>
    obtain ⟨l', h1, h2, h3, h4⟩ := ISet.between_spec hL st oracle hr.1
    exact ⟨l', h1, ⟨h2, h3⟩, h4⟩

/-- An operation that terminates keeps the invariant, also if its operand has no one-element interval. -/
theorem SetOp.run_good {E : Option (ElemFns D I)} (h : SetClass o E) {st : Style} {l l' : List I}
    (hl : Good o st l) {c : SetOp D I} (hc : c.run o E st l = some l') : Good o st l' := by
  have hL := h.cls.lawful
  have use : c.Pre o E l → Good o st l' := by
    intro hp
    obtain ⟨l2, h1, h2, _⟩ := SetOp.run_spec h hl c hp
    rw [h1] at hc; cases hc; exact h2
  have hadd : ∀ {l0 : List I} {k : I}, Good o st l0 → ISet.add o st l0 k = some l' → Good o st l' := by
    intro l0 k h0 e
    obtain ⟨l2, h1, h2⟩ := ISet.add_spec hL st h0.1 k
    rw [h1] at e; cases e
    exact ⟨h2.wf, fun hj => h2.joined hj (h0.2 hj)⟩
  have hsub : ∀ {k : I}, ISet.subtract o l k = some l' → Good o st l' := by
    intro k e
    obtain ⟨l2, h1, h2⟩ := ISet.subtract_spec hL hl.1 k
    rw [h1] at e; cases e
    exact ⟨h2.wf, fun hj => h2.joined hL hl.1 (hl.2 hj)⟩
  cases c <;> try exact use trivial
  case flip k =>
    apply use
    by_cases he : o.isEmpty k = true
    · simp only [SetOp.run] at hc
      rw [ISet.flipSeg_empty h.cls.lawful st l he] at hc
      split at hc
      · right; simpa using ‹l.isEmpty = true›
      · cases hc
    · exact Or.inl (by simpa using he)
  case addE x =>
    obtain ⟨e, rfl, e1⟩ := Option.bind_eq_some_iff.1 hc
    exact hadd hl e1
  case subE x =>
    obtain ⟨e, rfl, e1⟩ := Option.bind_eq_some_iff.1 hc
    exact hsub e1
  case interE x =>
    obtain ⟨e, rfl, e1⟩ := Option.bind_eq_some_iff.1 hc
    simp only [ISet.addInterE, Option.bind_eq_bind] at e1
    obtain ⟨b, _, e2⟩ := Option.bind_eq_some_iff.1 e1
    cases b with
    | true => exact hadd (good_nil st) e2
    | false => cases e2; exact good_nil st
  case flipE x =>
    obtain ⟨e, rfl, e1⟩ := Option.bind_eq_some_iff.1 hc
    simp only [ISet.flipE, Option.bind_eq_bind] at e1
    obtain ⟨b, _, e2⟩ := Option.bind_eq_some_iff.1 e1
    cases b with
    | true => exact hsub e2
    | false => exact hadd hl e2

theorem SetOp2.pre_of_run {st st' : Style} {l r l' : List I}
    {c : SetOp2 I} (hc : c.run o st st' l r = some l') : c.Pre st st' := by
  cases c <;> simp only [SetOp2.run, SetOp2.Pre] at *
  by_contra hn
  simp [hn] at hc

theorem Reachable.good {E : Option (ElemFns D I)} (h : SetClass o E) {st : Style} {l : List I}
    (hr : Reachable o E st l) : Good o st l := by
  induction hr with
  | empty st => exact good_nil st
  | op c _ hc ih =>
    exact SetOp.run_good h ih hc
  | op2 c _ _ hc ih1 ih2 =>
    obtain ⟨l', h1, h2, _⟩ := SetOp2.run_spec h.cls ih1 ih2 c (SetOp2.pre_of_run hc)
    rw [h1] at hc; cases hc; exact h2

end ICL
