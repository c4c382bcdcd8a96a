import Verif.StepSpec

/-!
# Lemmas for C68
-/

set_option linter.unusedSectionVars false

namespace ICL.Raw
open Spec
variable {D : Type} [LinearOrder D]

/-- `++` and `--` that lead to the next and prior value, as `Steps` -/
def toSteps (s : Incs D) (hc : Callable s) (hn : Neighbours s) : Steps D :=
  ⟨s.nx, s.pr, s.hasNx, s.hasPr, hc.1, hc.2, hn.1, hn.2⟩

theorem ofSteps_toSteps (s : Incs D) (hc : Callable s) (hn : Neighbours s) : ofSteps (toSteps s hc hn) = s := rfl

variable {s : Incs D} {zero unit : D}

theorem mem_closed (a b x : D) : (discreteOps s zero).Mem x ⟨a, b, Bounds.closed⟩ ↔ a ≤ x ∧ x ≤ b := by
  simp [IntervalOps.Mem, discreteOps, Dyn.contains, Bounds.closed, Bounds.isLeftClosed, Bounds.isRightClosed]
theorem mem_rightOpen (a b x : D) : (discreteOps s zero).Mem x ⟨a, b, Bounds.rightOpen⟩ ↔ a ≤ x ∧ x < b := by
  simp [IntervalOps.Mem, discreteOps, Dyn.contains, Bounds.rightOpen, Bounds.isLeftClosed, Bounds.isRightClosed]
theorem mem_opn (a b x : D) : (discreteOps s zero).Mem x ⟨a, b, Bounds.opn⟩ ↔ a < x ∧ x < b := by
  simp [IntervalOps.Mem, discreteOps, Dyn.contains, Bounds.opn, Bounds.isLeftClosed, Bounds.isRightClosed]

theorem discrete_exact (hc : Callable s) : (discreteOps s zero).Lawful ↔ Neighbours s := by
  constructor
  · intro h
    have hsing : ∀ x : D, (discreteOps s zero).Nonempty ⟨x, x, Bounds.closed⟩ :=
      fun x => ⟨x, (mem_closed x x x).2 ⟨le_rfl, le_rfl⟩⟩
    refine ⟨fun x y hxy => ?_, fun x y hxy => ?_⟩
    · have hopen : ∀ z, x < z → (z ≤ s.nx x ↔ ∀ w, ¬ (x < w ∧ w < z)) := fun z hz => by
        have := h.isEmpty_iff ⟨x, z, Bounds.opn⟩
        simp only [mem_opn] at this
        rw [← this]
        simp [discreteOps, Disc.isEmpty, Bounds.opn, Bounds.closed, not_le.2 hz]
      have htouch : ∀ z, z ≤ x → s.nx x ≠ z := fun z hz hn => by
        have h1 := (h.touches_below ⟨x, x, Bounds.closed⟩ ⟨z, z, Bounds.closed⟩ (hsing x) (hsing z)
          ⟨y, fun w hw => lt_of_le_of_lt ((mem_closed x x w).1 hw).2 hxy⟩).1
          (by simp [discreteOps, Disc.touches, Disc.last, Disc.first, Bounds.closed, Bounds.isLeftClosed,
            Bounds.isRightClosed, hn])
        exact absurd (h1.1 x z ((mem_closed x x x).2 ⟨le_rfl, le_rfl⟩) ((mem_closed z z z).2 ⟨le_rfl, le_rfl⟩))
          (not_lt.2 hz)
      have hlt : x < s.nx x := by
        by_contra hc
        exact htouch _ (not_lt.1 hc) rfl
      refine ⟨hlt, ?_⟩
      by_contra hc
      exact (hopen (s.nx x) hlt).1 le_rfl y ⟨hxy, not_le.1 hc⟩
    · have hex : ∀ z, (s.pr y < z ↔ ∀ w, x ≤ w → w < y → w < z) := fun z => by
        have h1 := h.neLess_iff ⟨x, y, Bounds.rightOpen⟩ ⟨z, z, Bounds.closed⟩
          ⟨x, (mem_rightOpen x y x).2 ⟨le_rfl, hxy⟩⟩ (hsing z)
        have h2 : (discreteOps s zero).neLess ⟨x, y, Bounds.rightOpen⟩ ⟨z, z, Bounds.closed⟩ = true ↔ s.pr y < z := by
          simp [discreteOps, Disc.neLess, Disc.last, Disc.first, Bounds.closed, Bounds.rightOpen, Bounds.isLeftClosed,
            Bounds.isRightClosed]
        rw [← h2, h1]
        constructor
        · exact fun g w h3 h4 => g w z ((mem_rightOpen x y w).2 ⟨h3, h4⟩) ((mem_closed z z z).2 ⟨le_rfl, le_rfl⟩)
        · intro g a b ha hb
          obtain ⟨h3, h4⟩ := (mem_rightOpen x y a).1 ha
          exact lt_of_lt_of_le (g a h3 h4) ((mem_closed z z b).1 hb).1
      refine ⟨?_, (hex y).2 fun w _ h => h⟩
      by_contra hc
      exact lt_irrefl x ((hex x).1 (not_le.1 hc) x le_rfl hxy)
  · intro hn
    exact discrete_lawful (toSteps s hc hn) zero

theorem mem_cl (a b x : D) : (closedOps s zero unit).Mem x ⟨a, b⟩ ↔ a ≤ x ∧ x ≤ b := by
  simp [IntervalOps.Mem, closedOps]

theorem closed_exact (hc : Callable s) (hu : zero < unit) : (closedOps s zero unit).Lawful ↔ Neighbours s := by
  constructor
  · intro h
    refine ⟨fun x y hxy => ?_, fun x y hxy => ?_⟩
    · have h1 : (closedOps s zero unit).leftSubtract ⟨x, y⟩ ⟨x, x⟩ = ⟨s.nx x, y⟩ := by
        simp [closedOps, Closed.leftSubtract, ICL.Closed.exclusiveLess, ICL.Closed.isEmpty, ICL.Closed.last,
          ICL.Closed.first, ICL.Closed.upperLessEqual, Static.upperLess, ICL.Closed.upperEqual, not_lt.2 hxy.le,
          ne_of_gt hxy]
      have h2 := fun z => h.mem_leftSubtract ⟨x, y⟩ ⟨x, x⟩ z
      simp only [h1, mem_cl] at h2
      have h3 := (h2 y).2 ⟨⟨hxy.le, le_rfl⟩, fun w hw => lt_of_le_of_lt hw.2 hxy⟩
      refine ⟨?_, h3.1⟩
      by_contra hc
      exact lt_irrefl x (((h2 x).1 ⟨not_lt.1 hc, hxy.le⟩).2 x ⟨le_rfl, le_rfl⟩)
    · have h1 : (closedOps s zero unit).rightSubtract ⟨x, y⟩ ⟨y, y⟩ = ⟨x, s.pr y⟩ := by
        simp [closedOps, Closed.rightSubtract, ICL.Closed.exclusiveLess, ICL.Closed.isEmpty, ICL.Closed.last,
          ICL.Closed.first, ICL.Closed.lowerLessEqual, Static.lowerLess, ICL.Closed.lowerEqual, not_lt.2 hxy.le,
          ne_of_gt hxy]
      have h2 := fun z => h.mem_rightSubtract ⟨x, y⟩ ⟨y, y⟩ z
      simp only [h1, mem_cl] at h2
      have h3 := (h2 x).2 ⟨⟨le_rfl, hxy.le⟩, fun w hw => lt_of_lt_of_le hxy hw.1⟩
      refine ⟨h3.2, ?_⟩
      by_contra hc
      exact lt_irrefl y (((h2 y).1 ⟨hxy.le, not_lt.1 hc⟩).2 y ⟨le_rfl, le_rfl⟩)
  · intro hn
    exact closed_lawful (toSteps s hc hn) zero unit hu

end ICL.Raw
