import Verif.Model.MapFun
import Verif.Model.Functors

/-!
# Expressions over interval maps

The binary operators `+ - & ^` for interval maps are the same templates as those for interval sets.
-/

namespace ICL

variable {D I V : Type} [LinearOrder D] [DecidableEq I] [DecidableEq V]

/-- An expression whose leaves are objects of one interval map type.  The flag of a leaf tells whether
the object is passed as an rvalue (`std::move(a)`, a temporary) or as an lvalue.
Simplification: `|` and `|=` are `+` and `+=` under another name and have no constructor. -/
inductive MapExpr (I V : Type) where
  | leaf (rvalue : Bool) (l : List (I × V))
  | add (a b : MapExpr I V)
  | sub (a b : MapExpr I V)
  | inter (a b : MapExpr I V)
  | flip (a b : MapExpr I V)

namespace MapExpr

/-- An operator yields an rvalue. -/
def rvalue : MapExpr I V → Bool
  | .leaf b _ => b
  | _ => true

/-- The overload `operator ⊕ (const Type& operand, Type&& object)`, which yields `object ⊕= operand`, is
chosen iff the left operand is an lvalue and the right one an rvalue.
concept/interval_associator.hpp:414-441 (`+`), 853-880 (`&`), 1088-1115 (`^`) -/
def swapped (a b : MapExpr I V) : Bool := !a.rvalue && b.rvalue

/-- The value of an expression.
`a + b`: concept/interval_associator.hpp:414-441, `+=` 317-327; `a - b`: 724-737, `-=` 669-678; `a & b`: 853-880,
`&=` 770-778; `a ^ b`: 1088-1115, `^=` 998-1003, concept/interval_map.hpp:484-561. -/
def eval (o : IntervalOps D I) (t : MapType V) (oracle : List (I × V) → I → Nat) :
    MapExpr I V → Option (List (I × V))
  | .leaf _ l => some l
  | .add a b => do
    let x ← eval o t oracle a
    let y ← eval o t oracle b
    if swapped a b then IMap.addMap o t oracle y x else IMap.addMap o t oracle x y
  | .sub a b => do
    let x ← eval o t oracle a
    let y ← eval o t oracle b
    IMap.subMap o t x y
  | .inter a b => do
    let x ← eval o t oracle a
    let y ← eval o t oracle b
    if swapped a b then IMap.addInterMap o t oracle [] y x else IMap.addInterMap o t oracle [] x y
  | .flip a b => do
    let x ← eval o t oracle a
    let y ← eval o t oracle b
    if swapped a b then IMap.flipMap o t oracle y x else IMap.flipMap o t oracle x y

instance : Add (MapExpr I V) := ⟨.add⟩
instance : Sub (MapExpr I V) := ⟨.sub⟩
instance : AndOp (MapExpr I V) := ⟨.inter⟩
instance : XorOp (MapExpr I V) := ⟨.flip⟩
/-- The default constructed map `M()`. -/
instance : EmptyCollection (MapExpr I V) := ⟨.leaf true []⟩

/-- All leaves of an expression satisfy `p`. -/
def Leaves (p : List (I × V) → Prop) : MapExpr I V → Prop
  | .leaf _ l => p l
  | .add a b | .sub a b | .inter a b | .flip a b => a.Leaves p ∧ b.Leaves p

end MapExpr

end ICL
