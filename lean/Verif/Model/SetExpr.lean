import Verif.Model.SetFun

/-!
# Expressions over interval sets

The binary operators `+ - & ^` take a copy of one operand and apply the compound assignment to it.
For `+ & ^` the overload for an lvalue left and an rvalue right operand works on the *right* operand.
-/

namespace ICL

variable {D I : Type} [LinearOrder D] [DecidableEq I]

/-- An expression whose leaves are objects of one interval set type.  The flag of a leaf tells whether
the object is passed as an rvalue (`std::move(a)`, a temporary) or as an lvalue.
Simplification: `|` and `|=` are `+` and `+=` under another name and have no constructor. -/
inductive SetExpr (I : Type) where
  | leaf (rvalue : Bool) (l : List I)
  | add (a b : SetExpr I)
  | sub (a b : SetExpr I)
  | inter (a b : SetExpr I)
  | flip (a b : SetExpr I)

namespace SetExpr

/-- An operator yields an rvalue. -/
def rvalue : SetExpr I → Bool
  | .leaf b _ => b
  | _ => true

/-- The overload `operator ⊕ (const Type& operand, Type&& object)`, which yields `object ⊕= operand`, is
chosen iff the left operand is an lvalue and the right one an rvalue.
concept/interval_associator.hpp:414-441 (`+`), 853-880 (`&`), 1088-1115 (`^`) -/
def swapped (a b : SetExpr I) : Bool := !a.rvalue && b.rvalue

/-- The value of an expression.
`a + b`: concept/interval_associator.hpp:414-441, `+=` 317-327; `a - b`: 724-737; `a & b`: 853-880;
`a ^ b`: 1088-1115. -/
def eval (o : IntervalOps D I) (st : Style) (oracle : List I → I → Nat) : SetExpr I → Option (List I)
  | .leaf _ l => some l
  | .add a b => do
    let x ← eval o st oracle a
    let y ← eval o st oracle b
    if swapped a b then ISet.addSet o st oracle y x else ISet.addSet o st oracle x y
  | .sub a b => do
    let x ← eval o st oracle a
    let y ← eval o st oracle b
    ISet.subSet o x y
  | .inter a b => do
    let x ← eval o st oracle a
    let y ← eval o st oracle b
    if swapped a b then ISet.interSet o st oracle y x else ISet.interSet o st oracle x y
  | .flip a b => do
    let x ← eval o st oracle a
    let y ← eval o st oracle b
    if swapped a b then ISet.flipSet o st oracle y x else ISet.flipSet o st oracle x y

instance : Add (SetExpr I) := ⟨.add⟩
instance : Sub (SetExpr I) := ⟨.sub⟩
instance : AndOp (SetExpr I) := ⟨.inter⟩
instance : XorOp (SetExpr I) := ⟨.flip⟩
/-- The default constructed set `S()`. -/
instance : EmptyCollection (SetExpr I) := ⟨.leaf true []⟩

/-- All leaves of an expression satisfy `p`. -/
def Leaves (p : List I → Prop) : SetExpr I → Prop
  | .leaf _ l => p l
  | .add a b | .sub a b | .inter a b | .flip a b => a.Leaves p ∧ b.Leaves p

end SetExpr
end ICL
