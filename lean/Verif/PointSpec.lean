import Verif.Model.MapExpr
import Mathlib.Algebra.Group.Basic
import Mathlib.Data.Finset.SymmDiff

/-! Specification: maps as functions. An expression over maps is evaluated at one key by looking up the key in the
maps it mentions and combining the values found. -/

namespace ICL.Spec

variable {I V : Type}

/-- What the operators on maps do with the values of one key. -/
structure PointOps (V : Type) where
  add : V → V → V
  sub : V → V → V
  inter : V → V → V
  flip : V → V → V

/-- Total maps of numbers: `&` adds, `^` yields zero. -/
def PointOps.numbers {W : Type} [AddCommGroup W] : PointOps W :=
  ⟨fun u v => u + v, fun u v => u - v, fun u v => u + v, fun _ _ => 0⟩

/-- Partial maps of sets: the operations of sets. -/
def PointOps.sets {α : Type} [DecidableEq α] : PointOps (Finset α) :=
  ⟨fun u v => u ∪ v, fun u v => u \ v, fun u v => u ∩ v, fun u v => symmDiff u v⟩

/-- Total maps of sets: `&` is the union, `^` yields the empty set. -/
def PointOps.totalSets {α : Type} [DecidableEq α] : PointOps (Finset α) :=
  ⟨fun u v => u ∪ v, fun u v => u \ v, fun u v => u ∪ v, fun _ _ => ∅⟩

/-- The value of an expression at a key, where `look` yields the value the key has in a map. -/
def pointwise (F : PointOps V) (look : List (I × V) → Option V) : MapExpr I V → Option V
  | .leaf _ l => look l
  | .add a b => do
    let u ← pointwise F look a
    let v ← pointwise F look b
    pure (F.add u v)
  | .sub a b => do
    let u ← pointwise F look a
    let v ← pointwise F look b
    pure (F.sub u v)
  | .inter a b => do
    let u ← pointwise F look a
    let v ← pointwise F look b
    pure (F.inter u v)
  | .flip a b => do
    let u ← pointwise F look a
    let v ← pointwise F look b
    pure (F.flip u v)

/-- Only `+` occurs in the expression. -/
def OnlyAdd : MapExpr I V → Prop
  | .leaf _ _ => True
  | .add a b => OnlyAdd a ∧ OnlyAdd b
  | _ => False

end ICL.Spec
