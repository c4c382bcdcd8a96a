import Verif.Bounds
import Verif.Kinds.Dynamic

/-!
# Properties of interval bounds: C35
-/

set_option linter.unusedSectionVars false

namespace ICL.Props

/-- The four legal codes are the codes of the four bounds, all different. -/
theorem C35_codes : Bounds.opn.bits = Bits.cOpen ∧ Bounds.leftOpen.bits = Bits.cLeftOpen ∧
    Bounds.rightOpen.bits = Bits.cRightOpen ∧ Bounds.closed.bits = Bits.cClosed ∧
    (∀ a b : Bounds, a.bits = b.bits → a = b) := by
  refine ⟨rfl, rfl, rfl, rfl, ?_⟩
  rintro ⟨_ | _, _ | _⟩ ⟨_ | _, _ | _⟩ <;> decide

/-- The bit functions on codes have the meaning of the functions on flags. -/
theorem C35_unary (b : Bounds) :
    Bits.left b.bits = b.left.bits ∧ Bits.right b.bits = b.right.bits ∧ Bits.all b.bits = b.bits ∧
    Bits.reverseLeft b.bits = b.reverseLeft.bits ∧ Bits.reverseRight b.bits = b.reverseRight.bits ∧
    Bits.compl b.bits = (⟨!b.l, !b.r⟩ : Bounds).bits ∧
    Bits.isLeftClosed b.bits = b.isLeftClosed ∧ Bits.isRightClosed b.bits = b.isRightClosed ∧
    Bits.isComplementary b.bits = b.isComplementary ∧ (b.isComplementary = (b.l != b.r)) := by
  obtain ⟨_ | _, _ | _⟩ := b <;> decide

/-- The binary bit functions. -/
theorem C35_binary (a b : Bounds) :
    Bits.outerBounds a.bits b.bits = (a.outerBounds b).bits ∧
    Bits.innerBounds a.bits b.bits = (a.innerBounds b).bits ∧
    Bits.leftBounds a.bits b.bits = (a.leftBounds b).bits ∧
    Bits.rightBounds a.bits b.bits = (a.rightBounds b).bits ∧
    a.bits ||| b.bits = (a.or b).bits := by
  obtain ⟨_ | _, _ | _⟩ := a <;> obtain ⟨_ | _, _ | _⟩ := b <;> decide

section
variable {D : Type} [LinearOrder D]

/-- `outer_bounds`: an interval from the lower end of `i` to the upper end of `j`. -/
theorem C35_outer (i j : DItv D) (x : D) :
    Dyn.contains ⟨i.lo, j.up, i.bnd.outerBounds j.bnd⟩ x = true ↔
      (if i.bnd.isLeftClosed then i.lo ≤ x else i.lo < x) ∧
      (if j.bnd.isRightClosed then x ≤ j.up else x < j.up) := by
  obtain ⟨a, b, ⟨_ | _, _ | _⟩⟩ := i <;> obtain ⟨c, d, ⟨_ | _, _ | _⟩⟩ := j <;>
    simp [Dyn.contains, Bounds.outerBounds, Bounds.or, Bounds.left, Bounds.right, Bounds.isLeftClosed,
      Bounds.isRightClosed]

/-- `inner_bounds`: an interval from behind the upper end of `i` to before the lower end of `j`. -/
theorem C35_inner (i j : DItv D) (x : D) :
    Dyn.contains ⟨i.up, j.lo, i.bnd.innerBounds j.bnd⟩ x = true ↔
      ¬ (if i.bnd.isRightClosed then x ≤ i.up else x < i.up) ∧
      ¬ (if j.bnd.isLeftClosed then j.lo ≤ x else j.lo < x) := by
  obtain ⟨a, b, ⟨_ | _, _ | _⟩⟩ := i <;> obtain ⟨c, d, ⟨_ | _, _ | _⟩⟩ := j <;>
    simp [Dyn.contains, Bounds.innerBounds, Bounds.or, Bounds.reverseLeft, Bounds.reverseRight,
      Bounds.isLeftClosed, Bounds.isRightClosed]

/-- `left_bounds`, `right_bounds`: of two intervals with the same bound value the ends differ exactly if
the combined code is `is_complementary`. -/
theorem C35_left_right_bounds (i j : DItv D) :
    ((i.bnd.leftBounds j.bnd).isComplementary = true ↔ i.bnd.isLeftClosed ≠ j.bnd.isLeftClosed) ∧
    ((i.bnd.rightBounds j.bnd).isComplementary = true ↔ i.bnd.isRightClosed ≠ j.bnd.isRightClosed) := by
  obtain ⟨a, b, ⟨_ | _, _ | _⟩⟩ := i <;> obtain ⟨c, d, ⟨_ | _, _ | _⟩⟩ := j <;>
    simp [Bounds.leftBounds, Bounds.rightBounds, Bounds.isComplementary, Bounds.isLeftClosed,
      Bounds.isRightClosed, Bounds.leftOpen, Bounds.rightOpen]

example : Dyn.contains (D := ℤ) ⟨1, 3, Bounds.rightOpen.innerBounds Bounds.closed⟩ 1 = true := by decide

end

/-- `left_subtract_bounds` and `right_subtract_bounds` (not called by the library) do not compute the bounds of
the differences: `(1,4) - (1,2)` at the left is `[2,4)`, but `left_subtract_bounds` yields a closed right end;
their results always have that end closed. -/
theorem C35_subtract_bounds_counterexample (a b : Bounds) :
    Bits.isRightClosed (Bits.leftSubtractBounds a.bits b.bits) = true ∧
    Bits.isLeftClosed (Bits.rightSubtractBounds a.bits b.bits) = true := by
  obtain ⟨_ | _, _ | _⟩ := a <;> obtain ⟨_ | _, _ | _⟩ := b <;> decide

end ICL.Props
