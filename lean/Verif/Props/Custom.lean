import Verif.CustomSpec
import Verif.Props.Sets
import Verif.Props.Maps
import Verif.Props.Intervals

/-!
# Interval classes of users: C61

A class that meets the `Requirements` is an `IntervalClass` (`C61_class`) and over discrete domains a `DiscreteClass`
(`C61_discrete`), so that all theorems about interval classes, interval sets and interval maps hold for it.
-/

set_option linter.unusedSectionVars false

namespace ICL.Props
open Spec

variable {D C : Type} [LinearOrder D] {T : Traits D C} {k : BoundType} {o : IntervalOps D C}

private theorem lawful_of (hT : Requirements T k) {ob : IntervalOps D (SItv D)} (hL : ob.Lawful)
    (hw : ∀ a b x, ob.contains ⟨a, b⟩ x = true ↔ Within k a b x) : T.Lawful ob.isEmpty := by
  have he : ∀ a b, ob.isEmpty ⟨a, b⟩ = true ↔ ¬ ∃ x, Within k a b x := fun a b => by
    rw [hL.isEmpty_iff]; simp only [IntervalOps.Mem, hw, not_exists]
  refine ⟨fun a b h => ?_, fun a b h => (he _ _).2 (hT.empties a b ((he a b).1 h)), (he _ _).2 hT.default⟩
  have := hT.bounds a b (by by_contra hn; rw [(he a b).2 hn] at h; cases h)
  rw [Traits.view, this.1, this.2]

private theorem lawful_ro (hT : Requirements T .rightOpen) : T.Lawful (rightOpenOps (T.lower T.default)).isEmpty :=
  lawful_of hT (rightOpen_fully _).toLawful fun a b x => by simp [rightOpenOps, Within]

private theorem lawful_lo (hT : Requirements T .leftOpen) : T.Lawful (leftOpenOps (T.lower T.default)).isEmpty :=
  lawful_of hT (leftOpen_fully _).toLawful fun a b x => by simp [leftOpenOps, Within]

private theorem default_lt (hT : Requirements T .closed) : T.upper T.default < T.lower T.default := by
  by_contra hn
  exact hT.default ⟨_, le_refl _, not_lt.1 hn⟩

private theorem lawful_cl (s : Steps D) (hT : Requirements T .closed) :
    T.Lawful (closedOps s (T.upper T.default) (T.lower T.default)).isEmpty :=
  lawful_of hT (closed_lawful s _ _ (default_lt hT)) fun a b x => by simp [closedOps, Within]

private theorem lawful_op (s : Steps D) (hT : Requirements T .opn) : T.Lawful (openOps s (T.lower T.default)).isEmpty :=
  lawful_of hT (open_lawful s _) fun a b x => by simp [openOps, Within]

/-- A class of a user that meets the requirements is an interval class. -/
theorem C61_class (h : UserClass T k o) (hT : Requirements T k) : IntervalClass o := by
  cases h with
  | rightOpen => exact .custom (lawful_ro hT) (.rightOpen _)
  | leftOpen => exact .custom (lawful_lo hT) (.leftOpen _)
  | closed s => exact .custom (lawful_cl s hT) (.closed s _ _ (default_lt hT))
  | opn s => exact .custom (lawful_op s hT) (.opn s _)

/-- An object holds what lies between its two bounds. -/
theorem C61_contains (h : UserClass T k o) (c : C) (x : D) : In o x c ↔ Within k (T.lower c) (T.upper c) x := by
  cases h <;> simp [In, Within, Traits.rightOpenOps, Traits.leftOpenOps, Traits.closedOps, Traits.openOps]

/-- `construct(a, b)` holds what lies between `a` and `b`. -/
theorem C61_construct (h : UserClass T k o) (hT : Requirements T k) (a b x : D) :
    In o x (T.construct a b) ↔ Within k a b x := by
  rw [C61_contains h]
  by_cases he : ∃ x, Within k a b x
  · rw [(hT.bounds a b he).1, (hT.bounds a b he).2]
  · exact ⟨fun hx => absurd ⟨x, hx⟩ (hT.empties a b he), fun hx => absurd ⟨x, hx⟩ he⟩

/-- The element functions of the class: `singleton(x)` and so on construct what those of the class of the library with the
same bound type construct, and `first`, `last`, ... are computed from the two bounds. -/
def userElements (T : Traits D C) (s : Steps D) : BoundType → ElementOps D C
  | .rightOpen => T.elementOps (rightOpenE s)
  | .leftOpen => T.elementOps (leftOpenE s)
  | .closed => T.elementOps (closedE s)
  | .opn => T.elementOps (openE s)

/-- The functions of the class over a discrete domain. -/
def userOps (T : Traits D C) (s : Steps D) : BoundType → IntervalOps D C
  | .rightOpen => T.rightOpenOps
  | .leftOpen => T.leftOpenOps
  | .closed => T.closedOps s
  | .opn => T.openOps s

theorem C61_user (T : Traits D C) (s : Steps D) (k : BoundType) : UserClass T k (userOps T s k) := by
  cases k
  exacts [.rightOpen, .leftOpen, .closed s, .opn s]

/-- Over a discrete domain a class of a user is a discrete interval class. -/
theorem C61_discrete (s : Steps D) (hT : Requirements T k) : DiscreteClass (userOps T s k) (userElements T s k) := by
  cases k with
  | rightOpen => exact .custom (lawful_ro hT) (.rightOpen _) (.rightOpen s _)
  | leftOpen => exact .custom (lawful_lo hT) (.leftOpen _) (.leftOpen s _)
  | closed => exact .custom (lawful_cl s hT) (.closed s _ _ (default_lt hT)) (.closed s _ _ (default_lt hT))
  | opn => exact .custom (lawful_op s hT) (.opn s _) (.opn s _)

/-- `singleton` and `unit_trail` of the class. -/
abbrev userFns (T : Traits D C) (s : Steps D) (k : BoundType) : ElemFns D C :=
  ⟨(userElements T s k).singleton, .exact (userElements T s k).unitTrail⟩

theorem C61_set_class (s : Steps D) (hT : Requirements T k) : SetClass (userOps T s k) (some (userFns T s k)) :=
  ⟨(C61_discrete s hT).cls, fun e he => by
    cases he; exact ⟨.discrete (C61_discrete s hT), .discrete (C61_discrete s hT)⟩⟩

/-- Interval sets of the class keep their invariants under every history. -/
theorem C61_sets [DecidableEq C] (s : Steps D) (hT : Requirements T k) {st : Style} {l : List C}
    (hr : Reachable (userOps T s k) (some (userFns T s k)) st l) :
    WellFormed (userOps T s k) l ∧ (st = .joining → FullyJoined (userOps T s k) l) :=
  ⟨C06_well_formed (C61_set_class s hT) hr, by rintro rfl; exact C07_fully_joined (C61_set_class s hT) hr⟩

/-- Interval maps of the class keep their invariants under every history. -/
theorem C61_maps [DecidableEq C] {V : Type} [DecidableEq V] (s : Steps D) (hT : Requirements T k) {t : MapType V}
    {m : List (C × V)} (hr : MReachable (userOps T s k) (some (userFns T s k)) t m) :
    MapWellFormed (userOps T s k) m ∧ (t.cfg.joining = true → MapFullyJoined (userOps T s k) m) :=
  ⟨C15_well_formed (C61_set_class s hT) hr, fun ht => C16_fully_joined (C61_set_class s hT) ht hr⟩

/-! ## The class of the documentation -/

/-- `class MyInterval`, example/custom_interval_/custom_interval.cpp:30-39 -/
structure MyInterval where
  first : ℤ
  past : ℤ
  deriving DecidableEq

/-- `interval_traits<MyInterval>`, example/custom_interval_/custom_interval.cpp:44-58, and the default constructor -/
def myTraits : Traits ℤ MyInterval := ⟨fun a b => ⟨a, b⟩, MyInterval.first, MyInterval.past, ⟨0, 0⟩⟩

theorem C61_documentation : Requirements myTraits .rightOpen :=
  ⟨fun _ _ _ => ⟨rfl, rfl⟩, fun _ _ h => h, by simp [myTraits, Within]⟩

/-- The program of the documentation: `mySet += MyInterval(1,9)`, `mySet.subtract(3) -= 6`,
`mySet ^= MyInterval(2,8)`. -/
example : ISet.add myTraits.rightOpenOps .joining [] ⟨1, 9⟩ = some [⟨1, 9⟩] ∧
    (ISet.subE myTraits.rightOpenOps (userElements myTraits stepsInt .rightOpen).singleton [⟨1, 9⟩] 3 >>= fun s =>
      ISet.subE myTraits.rightOpenOps (userElements myTraits stepsInt .rightOpen).singleton s 6) =
      some [⟨1, 3⟩, ⟨4, 6⟩, ⟨7, 9⟩] ∧
    ISet.flipSeg myTraits.rightOpenOps .joining [⟨1, 3⟩, ⟨4, 6⟩, ⟨7, 9⟩] ⟨2, 8⟩ =
      some [⟨1, 2⟩, ⟨3, 4⟩, ⟨6, 7⟩, ⟨8, 9⟩] := by decide

/-- A class whose objects hold more than their bounds: intervals that know how many times they were cut. -/
example : Requirements (⟨fun a b => (a, b, 1), fun c => c.1, fun c => c.2.1, (1, 0, 0)⟩ : Traits ℤ (ℤ × ℤ × ℕ)) .closed :=
  ⟨fun _ _ _ => ⟨rfl, rfl⟩, fun _ _ h => h, by simp [Within]; omega⟩

/-! ## The requirements are needed -/

/-- The default constructor: the class of the documentation with the bound type `static_closed`, which
its comment offers, does not meet the requirements, because `MyInterval()` is `[0,0]`.  Subtracting `[3,5]` from
`{[3,5]}` leaves `{[0,0]}`, and adding `[4,6]` to it gives `{[0,6]}`. -/
theorem C61_counterexample_default : ¬ Requirements myTraits .closed ∧
    ISet.subtract (myTraits.closedOps stepsInt) [⟨3, 5⟩] ⟨3, 5⟩ = some [⟨0, 0⟩] ∧
    ISet.add (myTraits.closedOps stepsInt) .joining [⟨3, 5⟩] ⟨4, 6⟩ = some [⟨0, 6⟩] := by
  refine ⟨fun h => h.default ⟨0, ?_⟩, by decide⟩
  simp [myTraits, Within]

/-- A class that orders the bounds given to `construct`, so that `construct` never makes an empty interval. -/
def orderedTraits : Traits ℤ MyInterval := { myTraits with construct := fun a b => ⟨min a b, max a b⟩ }

/-- `construct` must yield an empty interval if there is no element between the bounds: for a class that orders the bounds
instead, subtracting `[2,9)` from `{[3,5)}` leaves `{[2,3) [5,9)}`. -/
theorem C61_counterexample_construct : ¬ Requirements orderedTraits .rightOpen ∧
    ISet.subtract orderedTraits.rightOpenOps [⟨3, 5⟩] ⟨2, 9⟩ = some [⟨2, 3⟩, ⟨5, 9⟩] := by
  refine ⟨fun h => h.empties 1 0 ?_ ⟨0, ?_⟩, by decide⟩
  · simp only [Within, not_exists]; omega
  · simp [orderedTraits, myTraits, Within]

end ICL.Props
