import Verif.Kinds.Classes

/-!
# Output to streams

`operator <<` of bounds, intervals, interval containers and element containers, and `to_string`.  A stream is
modelled by the text it receives, a list of characters.  How elements and values are written is the business of
their own `operator <<`: a function from values to texts.  Formatting state of the stream (`std::setw`, locale,
failure bits) is not modelled.
-/

namespace ICL.Stream

/-- What is written to a stream -/
abbrev Text := List Char

/-- `left_bracket(interval_bounds)`, concept/interval_bounds.hpp:77-78 -/
def leftBracket (b : Bounds) : Char := if b.isLeftClosed then '[' else '('
/-- `right_bracket(interval_bounds)`, concept/interval_bounds.hpp:80-81 -/
def rightBracket (b : Bounds) : Char := if b.isRightClosed then ']' else ')'

/-- `operator <<` of `interval_bounds`, concept/interval_bounds.hpp:107-113 -/
def bounds (b : Bounds) : Text := [leftBracket b, rightBracket b]

/-- What `operator <<` reads of an interval: `left_bracket`, `right_bracket`, `interval_traits::lower` and
`interval_traits::upper` -/
structure View (D I : Type) where
  lb : I → Char
  rb : I → Char
  lower : I → D
  upper : I → D

section
variable {D : Type}

/-- `right_open_interval`: `left_bracket` concept/interval.hpp:1458-1462, `right_bracket` 1472-1476 -/
def rightOpenView : View D (SItv D) := ⟨fun _ => '[', fun _ => ')', SItv.lo, SItv.up⟩
/-- `left_open_interval`: `left_bracket` concept/interval.hpp:1452-1456, `right_bracket` 1478-1482 -/
def leftOpenView : View D (SItv D) := ⟨fun _ => '(', fun _ => ']', SItv.lo, SItv.up⟩
/-- `closed_interval`: `left_bracket` concept/interval.hpp:1458-1462, `right_bracket` 1478-1482 -/
def closedView : View D (SItv D) := ⟨fun _ => '[', fun _ => ']', SItv.lo, SItv.up⟩
/-- `open_interval`: `left_bracket` concept/interval.hpp:1452-1456, `right_bracket` 1472-1476 -/
def openView : View D (SItv D) := ⟨fun _ => '(', fun _ => ')', SItv.lo, SItv.up⟩
/-- `discrete_interval` and `continuous_interval`: `left_bracket` concept/interval.hpp:1464-1469, `right_bracket`
1484-1489 -/
def dynamicView : View D (DItv D) :=
  ⟨fun i => leftBracket i.bnd, fun i => rightBracket i.bnd, DItv.lo, DItv.up⟩

variable {I V : Type} (o : IntervalOps D I) (w : View D I) (p : D → Text) (q : V → Text)

/-- `operator <<` of intervals, concept/interval.hpp:1492-1506 -/
def interval (i : I) : Text :=
  if o.isEmpty i then [w.lb i] ++ [w.rb i]
  else [w.lb i] ++ p (w.lower i) ++ [','] ++ p (w.upper i) ++ [w.rb i]

/-- `operator <<` of interval sets, concept/interval_set.hpp:337-348 -/
def intervalSet (s : List I) : Text :=
  ['{'] ++ s.flatMap (interval o w p) ++ ['}']

/-- One segment of the output of an interval map, concept/interval_map.hpp:666-668 -/
def segment (s : I × V) : Text :=
  ['('] ++ interval o w p s.1 ++ ['-', '>'] ++ q s.2 ++ [')']

/-- `operator <<` of interval maps, concept/interval_map.hpp:660-671 -/
def intervalMap (m : List (I × V)) : Text :=
  ['{'] ++ m.flatMap (segment o w p q) ++ ['}']

/-- `operator <<` of element sets (`std::set`), concept/element_set.hpp:117-127 -/
def elementSet (s : List D) : Text :=
  ['{'] ++ s.flatMap (fun x => p x ++ [' ']) ++ ['}']

/-- `operator <<` of element maps (`icl::map`), concept/element_map.hpp:464-474 -/
def elementMap (m : List (D × V)) : Text :=
  ['{'] ++ m.flatMap (fun a => ['('] ++ p a.1 ++ ['-', '>'] ++ q a.2 ++ [')']) ++ ['}']

end

/-- `to_string<Type>::apply`, type_traits/to_string.hpp:30-35: the text a new stream receives -/
def text {α : Type} (write : α → Text) (a : α) : Text := [] ++ write a

end ICL.Stream
