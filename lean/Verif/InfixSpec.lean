import Verif.Model.SetExpr
import Verif.Model.MapExpr
import Verif.MapSpec

/-!
# What infix operators are expected to compute

`a ⊕ b` is expected to be what `Type temp(a); temp ⊕= b;` leaves in `temp`, whatever `a` and `b` are: named objects,
temporaries, or objects that are moved from.
-/

namespace ICL.Spec

variable {D I V : Type} [LinearOrder D] [DecidableEq I] [DecidableEq V]

/-- The value of an expression over interval sets if every operator copies its left operand and applies the
compound assignment to the copy.  The flags of the leaves do not matter. -/
def copying (o : IntervalOps D I) (st : Style) (oracle : List I → I → Nat) : SetExpr I → Option (List I)
  | .leaf _ l => some l
  | .add a b => (copying o st oracle a).bind fun temp => (copying o st oracle b).bind fun y =>
      ISet.addSet o st oracle temp y
  | .sub a b => (copying o st oracle a).bind fun temp => (copying o st oracle b).bind fun y =>
      ISet.subSet o temp y
  | .inter a b => (copying o st oracle a).bind fun temp => (copying o st oracle b).bind fun y =>
      ISet.interSet o st oracle temp y
  | .flip a b => (copying o st oracle a).bind fun temp => (copying o st oracle b).bind fun y =>
      ISet.flipSet o st oracle temp y

/-- The same for interval maps. -/
def mapCopying (o : IntervalOps D I) (t : MapType V) (oracle : List (I × V) → I → Nat) :
    MapExpr I V → Option (List (I × V))
  | .leaf _ l => some l
  | .add a b => (mapCopying o t oracle a).bind fun temp => (mapCopying o t oracle b).bind fun y =>
      IMap.addMap o t oracle temp y
  | .sub a b => (mapCopying o t oracle a).bind fun temp => (mapCopying o t oracle b).bind fun y =>
      IMap.subMap o t temp y
  | .inter a b => (mapCopying o t oracle a).bind fun temp => (mapCopying o t oracle b).bind fun y =>
      IMap.addInterMap o t oracle [] temp y
  | .flip a b => (mapCopying o t oracle a).bind fun temp => (mapCopying o t oracle b).bind fun y =>
      IMap.flipMap o t oracle temp y

/-- The expression with all its leaves passed as named objects. -/
def named : SetExpr I → SetExpr I
  | .leaf _ l => .leaf false l
  | .add a b => .add (named a) (named b)
  | .sub a b => .sub (named a) (named b)
  | .inter a b => .inter (named a) (named b)
  | .flip a b => .flip (named a) (named b)

/-- The same for interval maps. -/
def mapNamed : MapExpr I V → MapExpr I V
  | .leaf _ l => .leaf false l
  | .add a b => .add (mapNamed a) (mapNamed b)
  | .sub a b => .sub (mapNamed a) (mapNamed b)
  | .inter a b => .inter (mapNamed a) (mapNamed b)
  | .flip a b => .flip (mapNamed a) (mapNamed b)

/-- The right operands of all operators are named objects, as in `a + b + c`. -/
def RightNamed : MapExpr I V → Prop
  | .leaf _ _ => True
  | .add a b | .sub a b | .inter a b | .flip a b => RightNamed a ∧ ∃ l, b = .leaf false l

/-- No operator but `-` has a named object on the left and a temporary on the right, such as `a + std::move(b)` or
`a + (b + c)`. Both operands may be temporaries. -/
def LeftFirst : MapExpr I V → Prop
  | .leaf _ _ => True
  | .sub a b => LeftFirst a ∧ LeftFirst b
  | .add a b | .inter a b | .flip a b =>
    LeftFirst a ∧ LeftFirst b ∧ ((∃ l, a = .leaf false l) → ∃ l, b = .leaf false l)

/-- Combining two associated values that a map can have does not depend on their order, whether they are added,
intersected or flipped, and a value that is added where there was none is stored as it is. (Total maps add where partial
ones intersect or flip.) -/
structure OrderFree (t : MapType V) : Prop where
  plus : ∀ u v, ¬ Ignored t u → ¬ Ignored t v → t.plus.apply u v = t.plus.apply v u
  stored : ∀ v, ¬ Ignored t v → t.plus.version v = v
  sect : t.cfg.total = false → ∀ u v, ¬ Ignored t u → ¬ Ignored t v → t.sect.apply u v = t.sect.apply v u
  unsect : t.cfg.total = false → t.setLike = true → ∀ u v, ¬ Ignored t u → ¬ Ignored t v → t.unsect u v = t.unsect v u

end ICL.Spec
