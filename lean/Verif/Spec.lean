import Verif.Ops
import Mathlib.Data.List.Forall2

/-!
# Specification vocabulary

What the property theorems talk about.  Everything here is defined by element membership
(`contains(interval, element)`), by list membership and by the order of the domain; nothing here refers
to an algorithm of the library.

A container is given by the sequence of its segments in iteration order: intervals for sets, pairs of an
interval and a value for maps.
-/

namespace ICL.Spec

section
variable {D I V : Type} (o : IntervalOps D I)

/-- `x` is an element of interval `i`. -/
def In (x : D) (i : I) : Prop := o.contains i x = true

/-- `x` is an element of the interval set `s`. -/
def Elem (s : List I) (x : D) : Prop := ∃ i ∈ s, In o x i

/-- `x` and `y` are in one and the same interval of the interval set `s`. -/
def SameSegment (s : List I) (x y : D) : Prop := ∃ i ∈ s, In o x i ∧ In o y i

/-- The interval map `m` associates the value `v` to `x`. -/
def Assoc (m : List (I × V)) (x : D) (v : V) : Prop := ∃ s ∈ m, In o x s.1 ∧ s.2 = v

/-- `x` is a key of the interval map `m`. -/
def Key (m : List (I × V)) (x : D) : Prop := ∃ s ∈ m, In o x s.1

/-- `x` and `y` are keys in one and the same segment of the interval map `m`. -/
def SameMapSegment (m : List (I × V)) (x y : D) : Prop := ∃ s ∈ m, In o x s.1 ∧ In o y s.1

/-- The value that the interval map `m` associates to `x`, if there is one. -/
def valueAt (m : List (I × V)) (x : D) : Option V :=
  (m.find? fun s => o.contains s.1 x).map Prod.snd

variable [LinearOrder D]

/-- The intervals of a sequence are non-empty, disjoint, and sorted. -/
def WellFormed (s : List I) : Prop :=
  (∀ i ∈ s, ∃ x, In o x i) ∧ s.Pairwise fun i j => ∀ x y, In o x i → In o y j → x < y

/-- Between two successive intervals there is a value that belongs to neither. -/
def FullyJoined (s : List I) : Prop :=
  ∀ p i j q, s = p ++ i :: j :: q →
    ∃ z, (∀ x, In o x i → x < z) ∧ ∀ y, In o y j → z < y

/-- The segments of a map are non-empty, disjoint, and sorted. -/
def MapWellFormed (m : List (I × V)) : Prop := WellFormed o (m.map Prod.fst)

/-- Successive segments of a map have different values or there is a value between them
that belongs to neither. -/
def MapFullyJoined (m : List (I × V)) : Prop :=
  ∀ p s t q, m = p ++ s :: t :: q → s.2 ≠ t.2 ∨
    ∃ z, (∀ x, In o x s.1 → x < z) ∧ ∀ y, In o y t.1 → z < y

/-- Two intervals are the same set of elements. -/
def SameElems (i j : I) : Prop := ∀ x, In o x i ↔ In o x j

/-- Two interval sets consist of the same intervals. -/
def SameIntervals (s t : List I) : Prop := List.Forall₂ (SameElems o) s t

/-- Two interval maps consist of the same segments. -/
def SameSegments (s t : List (I × V)) : Prop :=
  List.Forall₂ (fun a b => SameElems o a.1 b.1 ∧ a.2 = b.2) s t

/-- `z` lies between `x` and `y` (both included). -/
def Between (x y z : D) : Prop := (x ≤ z ∧ z ≤ y) ∨ (y ≤ z ∧ z ≤ x)

end
end ICL.Spec
