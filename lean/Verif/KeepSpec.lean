import Verif.PointSpec
import Verif.LawSpec

/-! Specification: maps that keep identity elements, for `==`, which sees the keys that have them. What the operators do
with one key is then a matter of optional values, where `none` stands for a missing key. -/

namespace ICL.Spec

variable {W ν : Type}

/-- A value if one of the operands has one, `f` of both if both have one. -/
def either (f : W → W → W) : Option W → Option W → Option W
  | none, b => b
  | a, none => a
  | some u, some v => some (f u v)

/-- A value if the left operand has one, `f` of both if both have one. -/
def leftwise (f : W → W → W) : Option W → Option W → Option W
  | none, _ => none
  | a, none => a
  | some u, some v => some (f u v)

/-- A value if both operands have one. -/
def jointly (f : W → W → W) : Option W → Option W → Option W
  | some u, some v => some (f u v)
  | _, _ => none

/-- Partial maps of numbers that keep zeros: `&` adds, `^` yields zero where both maps have the key. -/
def PointOps.keptNumbers [AddCommGroup W] : PointOps (Option W) :=
  ⟨either (· + ·), leftwise (· - ·), jointly (· + ·), either fun _ _ => 0⟩

/-- Total maps of numbers that keep zeros: all keys remain, `-` negates where the left map lacks the key. -/
def PointOps.keptTotalNumbers [AddCommGroup W] : PointOps (Option W) :=
  ⟨either (· + ·), fun a b => either (· + ·) a (b.map fun v => -v), either (· + ·),
    fun a b => (either (· + ·) a b).map fun _ => 0⟩

/-- Total maps of unsigned numbers that keep zeros: nothing is subtracted where the left map lacks the key. -/
def PointOps.keptUnsigned [AddCommGroup W] : PointOps (Option W) :=
  ⟨either (· + ·), leftwise (· - ·), either (· + ·), fun a b => (either (· + ·) a b).map fun _ => 0⟩

/-- Partial maps of sets that keep empty sets. -/
def PointOps.keptSets {α : Type} [DecidableEq α] : PointOps (Option (Finset α)) :=
  ⟨either (· ∪ ·), leftwise (· \ ·), jointly (· ∩ ·), either symmDiff⟩

/-- Total maps of sets that keep empty sets: `&` is the union, `^` yields the empty set, `-` adds no keys. -/
def PointOps.keptTotalSets {α : Type} [DecidableEq α] : PointOps (Option (Finset α)) :=
  ⟨either (· ∪ ·), leftwise (· \ ·), either (· ∪ ·), fun a b => (either (· ∪ ·) a b).map fun _ => ∅⟩

namespace Term

/-- The variable occurs in the term. -/
def occurs (n : ν) : Term ν → Prop
  | .var _ k => n = k
  | .add p q | .sub p q | .inter p q | .flip p q => p.occurs n ∨ q.occurs n

/-- Whether a partial map that keeps identity elements has a key, where `b n` says whether the variable `n` has it. -/
def covers (b : ν → Prop) : Term ν → Prop
  | .var _ n => b n
  | .add p q | .flip p q => p.covers b ∨ q.covers b
  | .sub p _ => p.covers b
  | .inter p q => p.covers b ∧ q.covers b

/-- The same for total maps of sets. -/
def coversTotal (b : ν → Prop) : Term ν → Prop
  | .var _ n => b n
  | .add p q | .flip p q | .inter p q => p.coversTotal b ∨ q.coversTotal b
  | .sub p _ => p.coversTotal b

end Term
end ICL.Spec
