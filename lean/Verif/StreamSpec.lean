import Verif.Model.Stream
import Verif.Spec
import Mathlib.Data.Nat.Digits.Defs

/-!
# Specification of readable output

Which texts let a reader recover what was written.
-/

namespace ICL.Stream
variable {α : Type}

/-- A reader who knows that a text written for a value in `A` is followed by one of the marks in `ends`
recognises the value, the mark, and where the text ends. -/
def Readable (A : α → Prop) (p : α → Text) (ends : List Text) : Prop :=
  ∀ a b, A a → A b → ∀ c ∈ ends, ∀ d ∈ ends, ∀ r s,
    p a ++ c ++ r = p b ++ d ++ s → a = b ∧ c = d ∧ r = s

/-- A reader recognises the value and where its text ends, whatever follows. -/
def SelfContained (A : α → Prop) (p : α → Text) : Prop :=
  ∀ a b, A a → A b → ∀ r s, p a ++ r = p b ++ s → a = b ∧ r = s

/-- No text starts with one of these characters. -/
def NeverStarts (p : α → Text) (cs : List Char) : Prop := ∀ a, ∀ c ∈ cs, (p a).head? ≠ some c

/-- The elements of the domain are written such that the ends of an interval can be told apart: a text followed by
a comma, or by a closing bracket. -/
def ReadableElements (p : α → Text) : Prop :=
  Readable (fun _ => True) p [[',']] ∧ Readable (fun _ => True) p [[')'], [']']]

/-- The output of `<<` for an interval class: brackets and ends of the interval -/
inductive Prints : {D I : Type} → [LinearOrder D] → IntervalOps D I → View D I → (static : Bool) → Prop
  | rightOpen {D : Type} [LinearOrder D] (zero : D) : Prints (rightOpenOps zero) rightOpenView true
  | leftOpen {D : Type} [LinearOrder D] (zero : D) : Prints (leftOpenOps zero) leftOpenView true
  | closed {D : Type} [LinearOrder D] (s : Steps D) (zero unit : D) (h : zero < unit) :
      Prints (closedOps s zero unit) closedView true
  | opn {D : Type} [LinearOrder D] (s : Steps D) (zero : D) : Prints (openOps s zero) openView true
  | discrete {D : Type} [LinearOrder D] (s : Steps D) (zero : D) : Prints (discreteOps s zero) dynamicView false
  | continuous {D : Type} [LinearOrder D] [DenselyOrdered D] [NoMaxOrder D] [NoMinOrder D] (zero : D) :
      Prints (continuousOps zero) dynamicView false

/-- The decimal digits of a natural number, most significant digit first -/
def digits (n : ℕ) : Text :=
  if n = 0 then ['0'] else ((Nat.digits 10 n).reverse).map Nat.digitChar

/-- How `<<` writes an integer with default formatting -/
def decimal (n : ℤ) : Text := if n < 0 then '-' :: digits n.natAbs else digits n.natAbs

end ICL.Stream
