import Verif.PointSpec
import Verif.Model.SetExpr

/-! Specification: equations between terms with variables. A term can be evaluated over truth values (the variable says
whether some element is in the set), over the values of a map at one key, and over objects. -/

namespace ICL.Spec

variable {I V ν : Type}

/-- A term in variables for objects of one type. `moved` says that the operand is a temporary with the value of the
variable, which decides between the overloads of the operators. -/
inductive Term (ν : Type) where
  | var (moved : Bool) (n : ν)
  | add (a b : Term ν)
  | sub (a b : Term ν)
  | inter (a b : Term ν)
  | flip (a b : Term ν)

namespace Term

/-- Whether an element is in the set the term stands for, where `b n` says whether it is in the variable `n`. -/
def holds (b : ν → Prop) : Term ν → Prop
  | .var _ n => b n
  | .add p q => p.holds b ∨ q.holds b
  | .sub p q => p.holds b ∧ ¬ q.holds b
  | .inter p q => p.holds b ∧ q.holds b
  | .flip p q => ¬ (p.holds b ↔ q.holds b)

/-- The value of the term, where `b n` is the value of the variable `n`. -/
def value (F : PointOps V) (b : ν → V) : Term ν → V
  | .var _ n => b n
  | .add p q => F.add (p.value F b) (q.value F b)
  | .sub p q => F.sub (p.value F b) (q.value F b)
  | .inter p q => F.inter (p.value F b) (q.value F b)
  | .flip p q => F.flip (p.value F b) (q.value F b)

/-- The expression over interval sets. -/
def ofSets (σ : ν → List I) : Term ν → SetExpr I
  | .var m n => .leaf m (σ n)
  | .add p q => .add (p.ofSets σ) (q.ofSets σ)
  | .sub p q => .sub (p.ofSets σ) (q.ofSets σ)
  | .inter p q => .inter (p.ofSets σ) (q.ofSets σ)
  | .flip p q => .flip (p.ofSets σ) (q.ofSets σ)

/-- The expression over interval maps. -/
def ofMaps (σ : ν → List (I × V)) : Term ν → MapExpr I V
  | .var m n => .leaf m (σ n)
  | .add p q => .add (p.ofMaps σ) (q.ofMaps σ)
  | .sub p q => .sub (p.ofMaps σ) (q.ofMaps σ)
  | .inter p q => .inter (p.ofMaps σ) (q.ofMaps σ)
  | .flip p q => .flip (p.ofMaps σ) (q.ofMaps σ)

end Term
end ICL.Spec
