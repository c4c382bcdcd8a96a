import Verif.Model.Checked

/-!
# The checked interval functions fail nowhere where the containers call them
-/

set_option linter.unusedSimpArgs false
set_option linter.unusedSectionVars false

namespace ICL

theorem orC_some (a b : Bool) : orC (some a) (some b) = some (a || b) := by cases a <;> rfl
theorem andC_some (a b : Bool) : andC (some a) (some b) = some (a && b) := by cases a <;> rfl
theorem notC_some (a : Bool) : notC (some a) = some (!a) := rfl
theorem iteC_some {α : Type} (c : Bool) (a b : Option α) : iteC (some c) a b = if c then a else b := rfl
theorem callC_some {α β γ : Type} (f : α → β → γ) (a : α) (b : β) : callC f (some a) (some b) = some (f a b) := rfl
theorem orC_true (b : Option Bool) : orC (some true) b = some true := rfl
theorem orC_false (b : Option Bool) : orC (some false) b = b := rfl
theorem andC_true (b : Option Bool) : andC (some true) b = b := rfl
theorem andC_false (b : Option Bool) : andC (some false) b = some false := rfl

section
variable {D I : Type} [LinearOrder D]

/-- The checked functions do not fail where the containers use them, and give the results of the functions without checks. -/
structure CheckedOps.Refines (c : CheckedOps I) (o : IntervalOps D I) : Prop where
  isEmpty : ∀ i, c.isEmpty i = some (o.isEmpty i)
  exclusiveLess : ∀ i j, c.exclusiveLess i j = some (o.exclusiveLess i j)
  hull : ∀ i j, c.hull i j = some (o.hull i j)
  leftSubtract : ∀ i j, c.leftSubtract i j = some (o.leftSubtract i j)
  rightSubtract : ∀ i j, c.rightSubtract i j = some (o.rightSubtract i j)
  inter : ∀ i j, c.inter i j = some (o.inter i j)
  innerComplement : ∀ i j, c.innerComplement i j = some (o.innerComplement i j)
  neLess : ∀ i j, o.isEmpty i = false → o.isEmpty j = false → c.neLess i j = some (o.neLess i j)
  lowerLess : ∀ i j, o.isEmpty i = false → o.isEmpty j = false → c.lowerLess i j = some (o.lowerLess i j)
  upperLess : ∀ i j, o.isEmpty i = false → o.isEmpty j = false → c.upperLess i j = some (o.upperLess i j)
  lowerEqual : ∀ i j, o.isEmpty i = false → o.isEmpty j = false → c.lowerEqual i j = some (o.lowerEqual i j)
  upperEqual : ∀ i j, o.isEmpty i = false → o.isEmpty j = false → c.upperEqual i j = some (o.upperEqual i j)
  touches : ∀ i j, c.touches i j = o.touchesC i j

theorem asymChecked_refines {o : IntervalOps D (SItv D)} (h : ∀ i j, o.touchesC i j = some (o.touches i j)) :
    (asymChecked o).Refines o where
  isEmpty _ := rfl
  exclusiveLess _ _ := rfl
  hull _ _ := rfl
  leftSubtract _ _ := rfl
  rightSubtract _ _ := rfl
  inter _ _ := rfl
  innerComplement _ _ := rfl
  neLess _ _ _ _ := rfl
  lowerLess _ _ _ _ := rfl
  upperLess _ _ _ _ := rfl
  lowerEqual _ _ _ _ := rfl
  upperEqual _ _ _ _ := rfl
  touches i j := (h i j).symm

variable (s : Steps D)

/-! ## `closed_interval` -/

theorem Closed.isEmptyC_eq (i : SItv D) : Closed.isEmptyC i = some (Closed.isEmpty i) := rfl

theorem Closed.exclusiveLessC_eq (l r : SItv D) : Closed.exclusiveLessC l r = some (Closed.exclusiveLess l r) := by
  rw [Closed.exclusiveLessC, Closed.isEmptyC_eq, Closed.isEmptyC_eq, orC_some, orC_some, Closed.exclusiveLess, Bool.or_assoc]

theorem Closed.exclusiveLess_false {l r : SItv D} (h : Closed.exclusiveLess l r = false) :
    l.lo ≤ l.up ∧ r.lo ≤ r.up ∧ r.lo ≤ l.up := by
  simp only [Closed.exclusiveLess, Closed.isEmpty, Bool.or_eq_false_iff, decide_eq_false_iff_not, not_lt] at h
  exact ⟨h.1.1, h.1.2, h.2⟩

theorem Closed.exclusiveLess_true {l r : SItv D} (h : Closed.exclusiveLess l r = true)
    (hl : Closed.isEmpty l = false) (hr : Closed.isEmpty r = false) : l.up < r.lo := by
  rw [Closed.exclusiveLess, hl, hr, Bool.or_false, Bool.false_or, decide_eq_true_eq] at h
  exact h

theorem staticHullC_eq {isE : SItv D → Option Bool} {isE' : SItv D → Bool} (h : ∀ i, isE i = some (isE' i)) (l r : SItv D) :
    staticHullC isE l r = some (Static.hull isE' l r) := by
  rw [staticHullC, Static.hull, h, h, iteC_some, iteC_some]
  cases isE' r <;> cases isE' l <;> rfl

theorem closedChecked_refines (zero unit : D) : (closedChecked s zero unit).Refines (closedOps s zero unit) where
  isEmpty _ := rfl
  exclusiveLess := Closed.exclusiveLessC_eq
  hull := staticHullC_eq Closed.isEmptyC_eq
  leftSubtract i j := by
    show Closed.leftSubtractC s zero unit i j = some (Closed.leftSubtract s zero unit i j)
    rw [Closed.leftSubtractC, Closed.leftSubtract, Closed.exclusiveLessC_eq, iteC_some, Closed.upperLessEqualC, orC_some,
      iteC_some]
    by_cases h1 : Closed.exclusiveLess j i = true
    · rw [if_pos h1, if_pos h1]
    · rw [if_neg h1, if_neg h1]
      change (if Closed.upperLessEqual i j = true then _ else _) = _
      by_cases h2 : Closed.upperLessEqual i j = true
      · rw [if_pos h2, if_pos h2]
      · rw [if_neg h2, if_neg h2]
        have h3 : j.up < i.up := by
          simp only [Closed.upperLessEqual, Static.upperLess, Closed.upperEqual, Bool.or_eq_true, decide_eq_true_eq,
            not_or] at h2
          obtain ⟨h3, h4⟩ := h2
          have h4' : ¬ i.up = j.up := h4
          order
        rw [s.next_eq h3]
        rfl
  rightSubtract i j := by
    show Closed.rightSubtractC s zero unit i j = some (Closed.rightSubtract s zero unit i j)
    rw [Closed.rightSubtractC, Closed.rightSubtract, Closed.exclusiveLessC_eq, iteC_some, Closed.lowerLessEqualC, orC_some,
      iteC_some]
    by_cases h1 : Closed.exclusiveLess i j = true
    · rw [if_pos h1, if_pos h1]
    · rw [if_neg h1, if_neg h1]
      change (if Closed.lowerLessEqual j i = true then _ else _) = _
      by_cases h2 : Closed.lowerLessEqual j i = true
      · rw [if_pos h2, if_pos h2]
      · rw [if_neg h2, if_neg h2]
        have h3 : i.lo < j.lo := by
          simp only [Closed.lowerLessEqual, Static.lowerLess, Closed.lowerEqual, Bool.or_eq_true, decide_eq_true_eq,
            not_or] at h2
          obtain ⟨h3, h4⟩ := h2
          have h4' : ¬ j.lo = i.lo := h4
          order
        rw [s.prior_eq h3]
        rfl
  inter i j := by
    show Closed.interC zero unit i j = some (Closed.inter zero unit i j)
    rw [Closed.interC, Closed.inter, Closed.isEmptyC_eq, Closed.isEmptyC_eq, orC_some, iteC_some]
    cases Closed.isEmpty i || Closed.isEmpty j <;> rfl
  innerComplement i j := by
    show Closed.innerComplementC s zero unit i j = some (Closed.innerComplement s zero unit i j)
    rw [Closed.innerComplementC, Closed.innerComplement, Closed.isEmptyC_eq, Closed.isEmptyC_eq, orC_some, iteC_some,
      Closed.exclusiveLessC_eq, Closed.exclusiveLessC_eq, iteC_some, iteC_some]
    by_cases h0 : (Closed.isEmpty i || Closed.isEmpty j) = true
    · rw [if_pos h0, if_pos h0]
    · rw [if_neg h0, if_neg h0]
      rw [Bool.not_eq_true, Bool.or_eq_false_iff] at h0
      by_cases h1 : Closed.exclusiveLess i j = true
      · rw [if_pos h1, if_pos h1]
        have h3 := Closed.exclusiveLess_true h1 h0.1 h0.2
        rw [s.next_eq h3, s.prior_eq h3, callC_some]
      · rw [if_neg h1, if_neg h1]
        by_cases h2 : Closed.exclusiveLess j i = true
        · rw [if_pos h2, if_pos h2]
          have h3 := Closed.exclusiveLess_true h2 h0.2 h0.1
          rw [s.next_eq h3, s.prior_eq h3, callC_some]
        · rw [if_neg h2, if_neg h2]
  neLess _ _ _ _ := rfl
  lowerLess _ _ _ _ := rfl
  upperLess _ _ _ _ := rfl
  lowerEqual _ _ _ _ := rfl
  upperEqual _ _ _ _ := rfl
  touches _ _ := rfl

/-! ## `open_interval` -/

theorem Open.isEmptyC_eq (i : SItv D) : Open.isEmptyC s i = some (Open.isEmpty s i) := by
  rw [Open.isEmptyC, Open.isEmpty]
  by_cases h : i.up ≤ i.lo
  · rw [decide_eq_true h, orC_true, Bool.true_or]
  · rw [decide_eq_false h, orC_false, Bool.false_or, s.next_eq (not_le.1 h), Option.map_some]

theorem Open.exclusiveLessC_eq (zero : D) (l r : SItv D) :
    Open.exclusiveLessC s l r = some (Open.exclusiveLess s l r) := by
  rw [Open.exclusiveLessC, Open.exclusiveLess, Open.isEmptyC_eq, Open.isEmptyC_eq]
  cases h1 : Open.isEmpty s l with
  | true => rw [orC_true]; rfl
  | false =>
    cases h2 : Open.isEmpty s r with
    | true => rw [orC_true, orC_false]; rfl
    | false =>
      rw [orC_false, orC_false, s.prior_eq (open_isEmpty_false s zero h1).1, s.next_eq (open_isEmpty_false s zero h2).1,
        callC_some]
      rfl

theorem Open.exclusiveLess_false {l r : SItv D} (h : ¬ Open.exclusiveLess s l r = true) :
    Open.isEmpty s l = false ∧ Open.isEmpty s r = false := by
  rw [Bool.not_eq_true, Open.exclusiveLess, Bool.or_eq_false_iff, Bool.or_eq_false_iff] at h
  exact h.1

theorem openChecked_refines (zero : D) : (openChecked s zero).Refines (openOps s zero) where
  isEmpty := Open.isEmptyC_eq s
  exclusiveLess := Open.exclusiveLessC_eq s zero
  hull := staticHullC_eq (Open.isEmptyC_eq s)
  leftSubtract i j := by
    show Open.leftSubtractC s i j = some (Open.leftSubtract s i j)
    rw [Open.leftSubtractC, Open.leftSubtract, Open.exclusiveLessC_eq s zero, iteC_some]
    by_cases h : Open.exclusiveLess s j i = true
    · rw [if_pos h, if_pos h]
    · rw [if_neg h, if_neg h, s.prior_eq (open_isEmpty_false s zero (Open.exclusiveLess_false s h).1).1]
      rfl
  rightSubtract i j := by
    show Open.rightSubtractC s i j = some (Open.rightSubtract s i j)
    rw [Open.rightSubtractC, Open.rightSubtract, Open.exclusiveLessC_eq s zero, iteC_some]
    by_cases h : Open.exclusiveLess s i j = true
    · rw [if_pos h, if_pos h]
    · rw [if_neg h, if_neg h, s.next_eq (open_isEmpty_false s zero (Open.exclusiveLess_false s h).2).1]
      rfl
  inter i j := by
    show Open.interC s zero i j = some (Open.inter s zero i j)
    rw [Open.interC, Open.inter, Open.isEmptyC_eq, Open.isEmptyC_eq, orC_some, iteC_some]
    cases Open.isEmpty s i || Open.isEmpty s j <;> rfl
  innerComplement i j := by
    show Open.innerComplementC s zero i j = some (Open.innerComplement s zero i j)
    rw [Open.innerComplementC, Open.innerComplement, Open.isEmptyC_eq, Open.isEmptyC_eq, orC_some, iteC_some,
      Open.exclusiveLessC_eq s zero, Open.exclusiveLessC_eq s zero, iteC_some, iteC_some]
    by_cases h0 : (Open.isEmpty s i || Open.isEmpty s j) = true
    · rw [if_pos h0, if_pos h0]
    · rw [if_neg h0, if_neg h0]
      rw [Bool.not_eq_true, Bool.or_eq_false_iff] at h0
      have hi := (open_isEmpty_false s zero h0.1).1
      have hj := (open_isEmpty_false s zero h0.2).1
      rw [s.prior_eq hi, s.prior_eq hj, s.next_eq hi, s.next_eq hj, callC_some, callC_some]
      cases Open.exclusiveLess s i j <;> cases Open.exclusiveLess s j i <;> rfl
  neLess i j hi hj := by
    show callC _ _ _ = _
    rw [s.prior_eq (open_isEmpty_false s zero hi).1, s.next_eq (open_isEmpty_false s zero hj).1]
    rfl
  lowerLess _ _ _ _ := rfl
  upperLess _ _ _ _ := rfl
  lowerEqual i j hi hj := by
    show callC _ _ _ = _
    rw [s.next_eq (open_isEmpty_false s zero hi).1, s.next_eq (open_isEmpty_false s zero hj).1]
    rfl
  upperEqual i j hi hj := by
    show callC _ _ _ = _
    rw [s.prior_eq (open_isEmpty_false s zero hi).1, s.prior_eq (open_isEmpty_false s zero hj).1]
    rfl
  touches _ _ := rfl

/-! ## `discrete_interval` -/

theorem Disc.isEmptyC_eq (i : DItv D) : Disc.isEmptyC s i = some (Disc.isEmpty s i) := by
  rw [Disc.isEmptyC, Disc.isEmpty]
  by_cases h1 : i.bnd = Bounds.closed
  · rw [if_pos h1, if_pos h1]
  · rw [if_neg h1, if_neg h1]
    by_cases h2 : i.bnd = Bounds.opn
    · rw [if_pos h2, if_pos h2]
      by_cases h : i.up ≤ i.lo
      · rw [decide_eq_true h, orC_true, Bool.true_or]
      · rw [decide_eq_false h, orC_false, Bool.false_or, s.next_eq (not_le.1 h), Option.map_some]
    · rw [if_neg h2, if_neg h2]

theorem Disc.ends {i : DItv D} (zero : D) (h : Disc.isEmpty s i = false) :
    Disc.firstC s i = some (Disc.first s i) ∧ Disc.lastC s i = some (Disc.last s i) := by
  obtain ⟨z, h1, h2⟩ := Disc.nonempty s zero h
  exact ⟨Disc.firstC_eq s h1, Disc.lastC_eq s h2⟩

theorem Disc.lowerLessC_eq (zero : D) {l r : DItv D} (hl : Disc.isEmpty s l = false) (hr : Disc.isEmpty s r = false) :
    Disc.lowerLessC s l r = some (Disc.lowerLess s l r) := by
  rw [Disc.lowerLessC, (Disc.ends s zero hl).1, (Disc.ends s zero hr).1]; rfl

theorem Disc.upperLessC_eq (zero : D) {l r : DItv D} (hl : Disc.isEmpty s l = false) (hr : Disc.isEmpty s r = false) :
    Disc.upperLessC s l r = some (Disc.upperLess s l r) := by
  rw [Disc.upperLessC, (Disc.ends s zero hl).2, (Disc.ends s zero hr).2]; rfl

theorem Disc.exclusiveLessC_eq (zero : D) (l r : DItv D) :
    Disc.exclusiveLessC s l r = some (Disc.exclusiveLess s l r) := by
  rw [Disc.exclusiveLessC, Disc.exclusiveLess, Disc.isEmptyC_eq, Disc.isEmptyC_eq]
  cases h1 : Disc.isEmpty s l with
  | true => rw [orC_true]; rfl
  | false =>
    cases h2 : Disc.isEmpty s r with
    | true => rw [orC_true, orC_false]; rfl
    | false =>
      rw [orC_false, orC_false, (Disc.ends s zero h1).2, (Disc.ends s zero h2).1, callC_some]
      rfl

theorem iteC_pure {α : Type} (b : Bool) (x y : α) : iteC (some b) (some x) (some y) = some (if b then x else y) := by
  cases b <;> rfl

theorem Disc.leftSubtractC_eq (zero : D) (i j : DItv D) :
    Dyn.leftSubtractC (Disc.exclusiveLessC s) i j = some (Dyn.leftSubtract (Disc.exclusiveLess s) i j) := by
  rw [Dyn.leftSubtractC, Disc.exclusiveLessC_eq s zero, iteC_pure]; rfl

theorem Disc.rightSubtractC_eq (zero : D) (i j : DItv D) :
    Dyn.rightSubtractC (Disc.exclusiveLessC s) i j = some (Dyn.rightSubtract (Disc.exclusiveLess s) i j) := by
  rw [Dyn.rightSubtractC, Disc.exclusiveLessC_eq s zero, iteC_pure]; rfl

theorem Disc.hullC_eq (zero : D) (i j : DItv D) :
    Dyn.hullC (Disc.lowerLessC s) (Disc.upperLessC s) (Disc.isEmptyC s) i j =
      some (Dyn.hull (Disc.lowerLess s) (Disc.upperLess s) (Disc.isEmpty s) i j) := by
  rw [Dyn.hullC, Dyn.hull, Disc.isEmptyC_eq, Disc.isEmptyC_eq, iteC_some, iteC_some]
  by_cases h1 : Disc.isEmpty s j = true
  · rw [if_pos h1, if_pos h1]
  · rw [if_neg h1, if_neg h1]
    by_cases h2 : Disc.isEmpty s i = true
    · rw [if_pos h2, if_pos h2]
    · rw [if_neg h2, if_neg h2]
      rw [Bool.not_eq_true] at h1 h2
      rw [Dyn.lowerMinC, Dyn.upperMaxC, Disc.lowerLessC_eq s zero h2 h1, Disc.upperLessC_eq s zero h2 h1, iteC_pure, iteC_pure,
        callC_some]
      rfl

theorem discreteChecked_refines (zero : D) : (discreteChecked s zero).Refines (discreteOps s zero) where
  isEmpty := Disc.isEmptyC_eq s
  exclusiveLess := Disc.exclusiveLessC_eq s zero
  hull := Disc.hullC_eq s zero
  leftSubtract := Disc.leftSubtractC_eq s zero
  rightSubtract := Disc.rightSubtractC_eq s zero
  inter i j := by
    show Dyn.interC _ _ _ _ _ _ = some (Dyn.inter _ _ _ _ _ _)
    rw [Dyn.interC, Dyn.inter, Disc.isEmptyC_eq, Disc.isEmptyC_eq, orC_some, iteC_some]
    by_cases h0 : (Disc.isEmpty s i || Disc.isEmpty s j) = true
    · rw [if_pos h0, if_pos h0]
    · rw [if_neg h0, if_neg h0]
      rw [Bool.not_eq_true, Bool.or_eq_false_iff] at h0
      rw [Dyn.lowerMaxC, Dyn.upperMinC, Disc.lowerLessC_eq s zero h0.1 h0.2, Disc.upperLessC_eq s zero h0.1 h0.2, iteC_pure,
        iteC_pure, callC_some]
      rfl
  innerComplement i j := by
    show Dyn.innerComplementC _ _ _ _ _ _ _ = some (Dyn.innerComplement _ _ _ _ _ _ _)
    rw [Dyn.innerComplementC, Dyn.innerComplement, Disc.isEmptyC_eq, Disc.isEmptyC_eq, orC_some, iteC_some,
      Disc.exclusiveLessC_eq s zero, Disc.exclusiveLessC_eq s zero, iteC_some, iteC_some, Disc.hullC_eq s zero,
      Disc.hullC_eq s zero, Option.bind_some, Option.bind_some, Disc.leftSubtractC_eq s zero, Disc.leftSubtractC_eq s zero,
      Option.bind_some, Option.bind_some, Disc.rightSubtractC_eq s zero, Disc.rightSubtractC_eq s zero]
    cases Disc.isEmpty s i || Disc.isEmpty s j <;> cases Disc.exclusiveLess s i j <;> cases Disc.exclusiveLess s j i <;> rfl
  neLess i j hi hj := by
    show callC _ _ _ = _
    rw [(Disc.ends s zero hi).2, (Disc.ends s zero hj).1]
    rfl
  lowerLess i j hi hj := Disc.lowerLessC_eq s zero hi hj
  upperLess i j hi hj := Disc.upperLessC_eq s zero hi hj
  lowerEqual i j hi hj := by
    show callC _ _ _ = _
    rw [(Disc.ends s zero hi).1, (Disc.ends s zero hj).1]
    rfl
  upperEqual i j hi hj := by
    show callC _ _ _ = _
    rw [(Disc.ends s zero hi).2, (Disc.ends s zero hj).2]
    rfl
  touches _ _ := rfl

end

section
variable {D I : Type} [LinearOrder D] {o : IntervalOps D I} {e : ElementOps D I} {c : CheckedOps I}
  {ec : CheckedElementOps D I}

theorem CheckedClass.disc (h : CheckedClass o e c ec) : DiscreteClass o e := by
  cases h with
  | rightOpen s zero => exact .rightOpen s zero
  | leftOpen s zero => exact .leftOpen s zero
  | closed s zero unit h => exact .closed s zero unit h
  | opn s zero => exact .opn s zero
  | discrete s zero => exact .discrete s zero

theorem CheckedClass.refines (h : CheckedClass o e c ec) : c.Refines o := by
  cases h with
  | rightOpen s zero => exact asymChecked_refines fun _ _ => rfl
  | leftOpen s zero => exact asymChecked_refines fun _ _ => rfl
  | closed s zero unit h => exact closedChecked_refines s zero unit
  | opn s zero => exact openChecked_refines s zero
  | discrete s zero => exact discreteChecked_refines s zero

namespace CheckedOps.Refines

theorem containsI_eq (h : c.Refines o) {i : I} (hi : o.isEmpty i = false) (j : I) :
    c.containsI i j = some (o.containsI i j) := by
  rw [CheckedOps.containsI, IntervalOps.containsI, h.isEmpty]
  cases hj : o.isEmpty j with
  | true => rw [orC_true, Bool.true_or]
  | false =>
    rw [orC_false, h.lowerLess i j hi hj, h.lowerEqual i j hi hj, h.upperLess j i hj hi, h.upperEqual j i hj hi, orC_some, orC_some,
      andC_some]
    rfl

theorem eq_eq (h : c.Refines o) {i j : I} (hij : o.isEmpty i = o.isEmpty j) : c.eq i j = some (o.eq i j) := by
  rw [CheckedOps.eq, IntervalOps.eq, h.isEmpty, h.isEmpty, andC_some]
  cases hi : o.isEmpty i with
  | true => rw [← hij, hi]; rfl
  | false =>
    have hj : o.isEmpty j = false := by rw [← hij, hi]
    rw [hj, h.lowerEqual i j hi hj, h.upperEqual i j hi hj, andC_some]
    rfl

theorem less_eq (h : c.Refines o) (i j : I) : c.less i j = some (o.less i j) := by
  rw [CheckedOps.less, IntervalOps.less, h.isEmpty, h.isEmpty, notC_some, notC_some, andC_some]
  cases hi : o.isEmpty i with
  | true => rfl
  | false =>
    cases hj : o.isEmpty j with
    | true => rfl
    | false =>
      rw [h.lowerLess i j hi hj, h.lowerEqual i j hi hj, h.upperLess i j hi hj, andC_some, orC_some, andC_some]

theorem lessEq_eq (h : c.Refines o) (i j : I) : c.lessEq i j = some (o.lessEq i j) := by
  rw [CheckedOps.lessEq, IntervalOps.lessEq, h.isEmpty, h.isEmpty, orC_some, h.less_eq, notC_some, iteC_pure]
  rfl

theorem disjointI_eq (h : c.Refines o) (i j : I) : c.disjointI i j = some (o.disjointI i j) := by
  rw [CheckedOps.disjointI, IntervalOps.disjointI, h.isEmpty, h.isEmpty, h.exclusiveLess, h.exclusiveLess, orC_some, orC_some,
    orC_some]

theorem intersectsI_eq (h : c.Refines o) (i j : I) : c.intersectsI i j = some (o.intersectsI i j) := by
  rw [CheckedOps.intersectsI, IntervalOps.intersectsI, h.isEmpty, h.isEmpty, h.exclusiveLess, h.exclusiveLess, orC_some, orC_some,
    orC_some, notC_some]

end CheckedOps.Refines
end
end ICL
