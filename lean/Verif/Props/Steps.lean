import Mathlib.Algebra.Order.Ring.Rat
import Mathlib.Tactic.NormNum
import Verif.Theory.Raw
import Verif.Model.Traits
import Verif.Props.Sets

/-!
# C68: discrete intervals need a `++` that leads to the next value
-/

set_option linter.unusedSectionVars false

namespace ICL.Props
open Spec

section
variable {D : Type} [LinearOrder D] {s : Incs D} {zero unit : D}

/-- The functions of `discrete_interval` are right, as sets of values, exactly for the domain types whose `++` and `--`
lead to the next and to the prior value. -/
theorem C68_discrete_exact (hc : Callable s) : (Raw.discreteOps s zero).Lawful ↔ Neighbours s := Raw.discrete_exact hc

/-- So are those of `closed_interval`. -/
theorem C68_closed_exact (hc : Callable s) (hu : zero < unit) :
    (Raw.closedOps s zero unit).Lawful ↔ Neighbours s := Raw.closed_exact hc hu

/-- Then everything that holds for the interval classes holds for these two. -/
theorem C68_class (hc : Callable s) (hn : Neighbours s) :
    IntervalClass (Raw.discreteOps s zero) ∧ (zero < unit → IntervalClass (Raw.closedOps s zero unit)) :=
  ⟨.discrete (Raw.toSteps s hc hn) zero, fun h => .closed (Raw.toSteps s hc hn) zero unit h⟩

/-- `right_open_interval` and `left_open_interval` are right for every domain type: they do not use `++`. -/
theorem C68_half_open : (rightOpenOps zero).Lawful ∧ (leftOpenOps zero).Lawful :=
  ⟨(IntervalClass.rightOpen zero).lawful, (IntervalClass.leftOpen zero).lawful⟩

/-! ## Interval sets -/

/-- A program that starts with an empty set; the last command comes first. -/
def runEdits {I : Type} (o : IntervalOps D I) (st : Style) : List (Edit I) → Option (List I)
  | [] => some []
  | .add k :: cs => (runEdits o st cs).bind fun l => ISet.add o st l k
  | .sub k :: cs => (runEdits o st cs).bind fun l => ISet.subtract o l k

/-- Programs with an interval class of the library, on any domain type that is right for it. -/
theorem edits_right {I : Type} [DecidableEq I] {o : IntervalOps D I} (h : IntervalClass o) (st : Style) (cs : List (Edit I)) :
    ∃ l, runEdits o st cs = some l ∧ WellFormed o l ∧ ∀ x, Elem o l x ↔ Should o cs x := by
  induction cs with
  | nil => exact ⟨[], rfl, wellFormed_iff.2 (by constructor <;> simp), fun x => ⟨fun ⟨_, h, _⟩ => (nomatch h), fun h => h.elim⟩⟩
  | cons c cs ih =>
    obtain ⟨l, e, hw, hl⟩ := ih
    cases c with
    | add k =>
      obtain ⟨l', e', hw', hl'⟩ := C08_add h st hw k
      exact ⟨l', by simp only [runEdits, e, Option.bind_some, e'], hw', fun x => by
        rw [hl', hl]; exact or_comm⟩
    | sub k =>
      obtain ⟨l', e', hw', hl'⟩ := C09_subtract h hw k
      exact ⟨l', by simp only [runEdits, e, Option.bind_some, e'], hw', fun x => by
        rw [hl', hl, and_comm]
        exact and_congr (Bool.not_eq_true _).to_iff Iff.rfl⟩

private theorem empty_false {k : DItv D} (h : (Raw.discreteOps s zero).isEmpty k = false) (st : Style) :
    ISet.add (Raw.discreteOps s zero) st [] k = some [k] := by
  cases st <;> simp [ISet.add, h, equalRange, cmpOk, ISet.handleInserted, joinNeighbours, joinLeft, joinRight, Zip.toList]

/-- Interval sets of all three classes: the elements are right after every program exactly if `++` and `--` lead to the
next and to the prior value. -/
theorem C68_sets_exact (hc : Callable s) (hm : Moves s) (st : Style) :
    (∀ cs : List (Edit (DItv D)), ∃ l, runEdits (Raw.discreteOps s zero) st cs = some l ∧
      ∀ x, Elem (Raw.discreteOps s zero) l x ↔ Should (Raw.discreteOps s zero) cs x) ↔ Neighbours s := by
  constructor
  · intro h
    refine ⟨fun x y hxy => ⟨hm.1 x y hxy, ?_⟩, fun x y hxy => ⟨?_, hm.2 x y hxy⟩⟩
    · by_contra hn
      obtain ⟨l, e, g⟩ := h [.add ⟨x, s.nx x, Bounds.opn⟩]
      have he : (Raw.discreteOps s zero).isEmpty ⟨x, s.nx x, Bounds.opn⟩ = true := by
        simp [Raw.discreteOps, Raw.Disc.isEmpty, Bounds.opn, Bounds.closed]
      simp only [runEdits, Option.bind_some, ISet.add, he, if_true, Option.some.injEq] at e
      subst e
      obtain ⟨_, h1, _⟩ := (g y).2 (.inl ((Raw.mem_opn x (s.nx x) y).2 ⟨hxy, not_le.1 hn⟩))
      cases h1
    · by_contra hn
      have hn := not_le.1 hn
      obtain ⟨l, e, g⟩ := h [.sub ⟨x, x, Bounds.closed⟩, .add ⟨x, y, Bounds.rightOpen⟩]
      have h1 : (Raw.discreteOps s zero).isEmpty ⟨x, x, Bounds.closed⟩ = false := by
        simp [Raw.discreteOps, Raw.Disc.isEmpty, Bounds.closed]
      have h2 : (Raw.discreteOps s zero).isEmpty ⟨x, y, Bounds.rightOpen⟩ = false := by
        simp [Raw.discreteOps, Raw.Disc.isEmpty, Bounds.closed, Bounds.rightOpen, Bounds.opn, hxy]
      have h3 : (Raw.discreteOps s zero).neLess ⟨x, y, Bounds.rightOpen⟩ ⟨x, x, Bounds.closed⟩ = true := by
        simp [Raw.discreteOps, Raw.Disc.neLess, Raw.Disc.last, Raw.Disc.first, Bounds.closed, Bounds.rightOpen,
          Bounds.isLeftClosed, Bounds.isRightClosed, hn]
      simp only [runEdits, Option.bind_some, empty_false h2] at e
      simp [ISet.subtract, h1, equalRange, cmpOk, setSeg, h2, h3] at e
      subst e
      have := (g x).1 ⟨_, List.mem_cons_self .., (Raw.mem_rightOpen x y x).2 ⟨le_rfl, hxy⟩⟩
      exact absurd ((Raw.mem_closed (s := s) (zero := zero) x x x).2 ⟨le_rfl, le_rfl⟩) (by
        rw [IntervalOps.Mem, this.1]; simp)
  · intro hn cs
    obtain ⟨l, e, _, g⟩ := edits_right (C68_class (unit := zero) hc hn).1 st cs
    exact ⟨l, e, g⟩

/-- What an `interval_set` makes of two elements `x` and `++x`: one interval that has all values between them, too. -/
theorem C68_conjured (hc : Callable s) (hm : Moves s) {x y : D} (hxy : x < y) :
    runEdits (Raw.discreteOps s zero) .joining
      [.add ⟨s.nx x, s.nx x, Bounds.closed⟩, .add ⟨x, x, Bounds.closed⟩] = some [⟨x, s.nx x, Bounds.closed⟩] := by
  have h1 : ∀ z, (Raw.discreteOps s zero).isEmpty ⟨z, z, Bounds.closed⟩ = false := fun z => by
    simp [Raw.discreteOps, Raw.Disc.isEmpty, Bounds.closed]
  have hlt := hm.1 x y hxy
  have h2 : (Raw.discreteOps s zero).neLess ⟨x, x, Bounds.closed⟩ ⟨s.nx x, s.nx x, Bounds.closed⟩ = true := by
    simp [Raw.discreteOps, Raw.Disc.neLess, Raw.Disc.last, Raw.Disc.first, Bounds.closed,
      Bounds.isLeftClosed, Bounds.isRightClosed, hlt]
  have h3 : (Raw.discreteOps s zero).exclusiveLess ⟨x, x, Bounds.closed⟩ ⟨s.nx x, s.nx x, Bounds.closed⟩ = true := by
    simp [Raw.discreteOps, Raw.Disc.exclusiveLess, Raw.Disc.last, Raw.Disc.first, Bounds.closed,
      Bounds.isLeftClosed, Bounds.isRightClosed, hlt]
  have h4 : (Raw.discreteOps s zero).touches ⟨x, x, Bounds.closed⟩ ⟨s.nx x, s.nx x, Bounds.closed⟩ = true := by
    simp [Raw.discreteOps, Raw.Disc.touches, Raw.Disc.last, Raw.Disc.first, Bounds.closed,
      Bounds.isLeftClosed, Bounds.isRightClosed]
  have h5 : (Raw.discreteOps s zero).touchesC ⟨x, x, Bounds.closed⟩ ⟨s.nx x, s.nx x, Bounds.closed⟩ = some true := by
    simp [Raw.discreteOps, Raw.Disc.touchesC, Raw.Disc.lastC, Raw.Disc.firstC, Bounds.closed,
      Bounds.isLeftClosed, Bounds.isRightClosed, Raw.next, (hc.1 x).2 ⟨y, hxy⟩]
  have h6 : (Raw.discreteOps s zero).hull ⟨x, x, Bounds.closed⟩ ⟨s.nx x, s.nx x, Bounds.closed⟩
      = ⟨x, s.nx x, Bounds.closed⟩ := by
    have e1 : Raw.Disc.isEmpty s ⟨x, x, Bounds.closed⟩ = false := h1 x
    have e2 : Raw.Disc.isEmpty s ⟨s.nx x, s.nx x, Bounds.closed⟩ = false := h1 (s.nx x)
    have e3 : Raw.Disc.lowerLess s ⟨x, x, Bounds.closed⟩ ⟨s.nx x, s.nx x, Bounds.closed⟩ = true := by
      simp [Raw.Disc.lowerLess, Raw.Disc.first, Bounds.closed, Bounds.isLeftClosed, hlt]
    have e4 : Raw.Disc.upperLess s ⟨x, x, Bounds.closed⟩ ⟨s.nx x, s.nx x, Bounds.closed⟩ = true := by
      simp [Raw.Disc.upperLess, Raw.Disc.last, Bounds.closed, Bounds.isRightClosed, hlt]
    simp only [Raw.discreteOps, Dyn.hull, e1, e2, Dyn.lowerMin, Dyn.upperMax, e3, e4]
    rfl
  simp only [runEdits, Option.bind_some, empty_false (h1 x)]
  simp [ISet.add, h1, equalRange, cmpOk, setSeg, h2, ISet.handleInserted, joinNeighbours, joinLeft, joinRight, joinableC,
    joinNodes, joinable, h3, h4, h5, h6, Zip.toList]

end

/-! ## Which types count as discrete -/

/-- The default interval class of a type is the discrete one exactly if the type, and what it holds as `rep`, have `++`,
and what it finally holds is no built-in floating point type. What `++` does is not looked at. -/
theorem C68_classified (t : DomainTy) :
    Traits.intervalTypeDefault t = .discrete ↔ ¬ Lacks t ∧ ¬ Holds t .floating := by
  have : Traits.isDiscrete t = true ↔ ¬ Lacks t ∧ ¬ Holds t .floating := by
    induction t with
    | floating => exact ⟨fun h => (by cases h), fun h => absurd .floating h.2⟩
    | scalar => exact ⟨fun _ => ⟨nofun, nofun⟩, fun _ => rfl⟩
    | plain inc =>
      cases inc
      · exact ⟨fun h => (by cases h), fun h => absurd .plain h.1⟩
      · exact ⟨fun _ => ⟨nofun, nofun⟩, fun _ => rfl⟩
    | wrapper inc rep ih =>
      have e : Traits.isDiscrete (.wrapper inc rep) = (inc && Traits.isDiscrete rep) := by
        cases inc <;> simp [Traits.isDiscrete, Traits.isIncrementable, Traits.hasRepType]
      rw [e, Bool.and_eq_true, ih]
      constructor
      · rintro ⟨rfl, h1, h2⟩
        exact ⟨fun h => (by cases h with | deeper _ h => exact h1 h),
          fun h => (by cases h with | wrapper _ h => exact h2 h)⟩
      · rintro ⟨h1, h2⟩
        cases inc
        · exact absurd (.here rep) h1
        · exact ⟨rfl, fun h => h1 (.deeper _ h), fun h => h2 (.wrapper _ h)⟩
  rw [← this, Traits.intervalTypeDefault]
  split <;> simp_all

/-- `std::chrono::duration<double>` is continuous, `std::chrono::duration<int>` discrete. -/
example : Traits.intervalTypeDefault (.wrapper true .floating) = .continuous ∧
    Traits.intervalTypeDefault (.wrapper true .scalar) = .discrete := by decide

/-- A class of fractions with `++`, such as `boost::rational` without icl/rational.hpp -/
def fractions : Incs ℚ := ⟨(· + 1), (· - 1), fun _ => true, fun _ => true⟩

theorem fractions_ok : Callable fractions ∧ Moves fractions :=
  ⟨⟨fun x => ⟨fun _ => ⟨x + 1, lt_add_one x⟩, fun _ => rfl⟩, fun x => ⟨fun _ => ⟨x - 1, sub_one_lt x⟩, fun _ => rfl⟩⟩,
    fun x _ _ => lt_add_one x, fun _ y _ => sub_one_lt y⟩

/-- The whole numbers -/
def wholes : Incs ℤ := Raw.ofSteps stepsInt

example : Callable wholes ∧ Moves wholes ∧ Neighbours wholes :=
  ⟨⟨stepsInt.hasNx_iff, stepsInt.hasPr_iff⟩, ⟨fun x y h => (stepsInt.nx_spec x y h).1, fun x y h => (stepsInt.pr_spec x y h).2⟩,
    stepsInt.nx_spec, stepsInt.pr_spec⟩

/-- A class of fractions with `++` counts as discrete, and the set `{0} + {1}` then contains one half. -/
theorem C68_counterexample_fractions :
    Traits.intervalTypeDefault (.plain true) = .discrete ∧ ¬ Neighbours fractions ∧
    ∃ l, runEdits (Raw.discreteOps fractions 0) .joining [.add ⟨1, 1, Bounds.closed⟩, .add ⟨0, 0, Bounds.closed⟩] = some l ∧
      Elem (Raw.discreteOps fractions 0) l (1 / 2) := by
  refine ⟨rfl, fun h => ?_, ?_⟩
  · have := (h.1 0 (1 / 2) (by norm_num)).2
    simp only [fractions] at this
    norm_num at this
  · have := C68_conjured (zero := 0) fractions_ok.1 fractions_ok.2 (show (0 : ℚ) < 1 by norm_num)
    have e : fractions.nx 0 = 1 := by simp [fractions]
    rw [e] at this
    exact ⟨_, this, _, List.mem_cons_self .., (Raw.mem_closed (s := fractions) (zero := 0) 0 1 (1 / 2)).2
      ⟨by norm_num, by norm_num⟩⟩

end ICL.Props
