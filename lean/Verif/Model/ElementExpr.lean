import Verif.Model.ElementMap

/-!
# Expressions over sets and maps of elements

The binary operators on `icl::set` and `icl::map` take the left operand by value and apply the compound assignment to
it. There are no overloads for temporaries, so that `a + std::move(b)` works on `a`, too.
-/

namespace ICL

/-- An expression whose leaves are objects of one type of element containers. Simplification: `|` is `+` under another
name (concept/element_associator.hpp:213-246) and has no constructor. -/
inductive ElemExpr (C : Type) where
  | leaf (c : C)
  | add (a b : ElemExpr C)
  | sub (a b : ElemExpr C)
  | inter (a b : ElemExpr C)
  | flip (a b : ElemExpr C)

namespace ElemExpr

variable {D V : Type} [LinearOrder D] [DecidableEq V]

/-- The value of an expression over `icl::set`. `a + b`: concept/element_associator.hpp:204-209, `a - b`: 344-349,
`a & b`: 425-430, `a ^ b`: 457-462. -/
def evalSet : ElemExpr (List D) → List D
  | .leaf s => s
  | .add a b => ESet.addSet (evalSet a) (evalSet b)
  | .sub a b => ESet.subSet (evalSet a) (evalSet b)
  | .inter a b => ESet.andSet (evalSet a) (evalSet b)
  | .flip a b => ESet.flipSet (evalSet a) (evalSet b)

/-- The value of an expression over `icl::map`, by the same operators. -/
def evalMap (t : MapType V) : ElemExpr (List (D × V)) → List (D × V)
  | .leaf m => m
  | .add a b => EMap.addMap t (evalMap t a) (evalMap t b)
  | .sub a b => EMap.subMap t (evalMap t a) (evalMap t b)
  | .inter a b => EMap.andMap t (evalMap t a) (evalMap t b)
  | .flip a b => EMap.flipMap t (evalMap t a) (evalMap t b)

end ElemExpr
end ICL
