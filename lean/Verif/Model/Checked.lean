import Verif.Kinds.Classes

/-!
# The interval functions with checks for overflow

The functions of `concept/interval.hpp` once more, for the discrete interval classes, now with the outcome `none` if `++`
or `--` leaves the range of the domain type (`Steps.next`, `Steps.prior`) or if an assertion on the least value
(`numeric_minimum`) fails.  Conditions are evaluated as in C++: the second operand of `||` and `&&` only if it is needed.
The functions of `Kinds/Static.lean`, `Kinds/Dynamic.lean` and `Kinds/Classes.lean` are the same without the checks:
with a value that is left open where `++` or `--` overflows.
-/

namespace ICL

/-- `a || b` -/
def orC (a b : Option Bool) : Option Bool := a.bind fun x => if x then some true else b
/-- `a && b` -/
def andC (a b : Option Bool) : Option Bool := a.bind fun x => if x then b else some false
/-- `!a` -/
def notC (a : Option Bool) : Option Bool := a.map (!·)
/-- `if(c) return a; else return b;` -/
def iteC {α : Type} (c : Option Bool) (a b : Option α) : Option α := c.bind fun x => if x then a else b
/-- `f(a, b)` for a function that does not fail -/
def callC {α β γ : Type} (f : α → β → γ) (a : Option α) (b : Option β) : Option γ := a.bind fun x => b.map fun y => f x y

/-- The functions on intervals, see `IntervalOps`.  `none` is an overflow or a failed assertion. -/
structure CheckedOps (I : Type) where
  /-- `is_empty`, interval.hpp:550-592 -/
  isEmpty : I → Option Bool
  /-- `exclusive_less`, interval.hpp:600-633 -/
  exclusiveLess : I → I → Option Bool
  /-- `non_empty::exclusive_less` after its assertion, interval.hpp:806-841 -/
  neLess : I → I → Option Bool
  /-- `lower_less`, interval.hpp:637-659 -/
  lowerLess : I → I → Option Bool
  /-- `upper_less`, interval.hpp:663-685 -/
  upperLess : I → I → Option Bool
  /-- `lower_equal`, interval.hpp:725-752 -/
  lowerEqual : I → I → Option Bool
  /-- `upper_equal`, interval.hpp:756-783 -/
  upperEqual : I → I → Option Bool
  /-- `touches`, interval.hpp:961-988 -/
  touches : I → I → Option Bool
  /-- `hull` of two intervals, interval.hpp:1120-1153 -/
  hull : I → I → Option I
  /-- `left_subtract(right, left_minuend)`, interval.hpp:1168-1208 -/
  leftSubtract : I → I → Option I
  /-- `right_subtract(left, right_minuend)`, interval.hpp:1221-1261 -/
  rightSubtract : I → I → Option I
  /-- `operator &`, interval.hpp:1268-1314 -/
  inter : I → I → Option I
  /-- `inner_complement` = `between`, interval.hpp:1339-1400 -/
  innerComplement : I → I → Option I

namespace CheckedOps
variable {I : Type} (c : CheckedOps I)

/-- `contains(interval, interval)`, interval.hpp:843-856, with `lower_less_equal` (786-791) and `upper_less_equal`
(793-798) -/
def containsI (super sub : I) : Option Bool :=
  orC (c.isEmpty sub) (andC (orC (c.lowerLess super sub) (c.lowerEqual super sub))
    (orC (c.upperLess sub super) (c.upperEqual sub super)))
/-- `operator ==`, interval.hpp:905-911 -/
def eq (l r : I) : Option Bool :=
  orC (andC (c.isEmpty l) (c.isEmpty r)) (andC (c.lowerEqual l r) (c.upperEqual l r))
/-- `operator <`, interval.hpp:921-928 -/
def less (l r : I) : Option Bool :=
  andC (andC (notC (c.isEmpty l)) (notC (c.isEmpty r)))
    (orC (c.lowerLess l r) (andC (c.lowerEqual l r) (c.upperLess l r)))
/-- `operator <=`, interval.hpp:938-946, with `operator >`, 930-935 -/
def lessEq (l r : I) : Option Bool := iteC (orC (c.isEmpty l) (c.isEmpty r)) (some false) (notC (c.less r l))
/-- `intersects(interval, interval)`, interval.hpp:1318-1324 -/
def intersectsI (l r : I) : Option Bool :=
  notC (orC (orC (orC (c.isEmpty l) (c.isEmpty r)) (c.exclusiveLess l r)) (c.exclusiveLess r l))
/-- `disjoint(interval, interval)`, interval.hpp:1327-1333 -/
def disjointI (l r : I) : Option Bool :=
  orC (orC (orC (c.isEmpty l) (c.isEmpty r)) (c.exclusiveLess l r)) (c.exclusiveLess r l)

end CheckedOps

/-- The functions that relate intervals and elements, see `ElementOps`. -/
structure CheckedElementOps (D I : Type) where
  /-- `singleton`, interval.hpp:90-150 -/
  singleton : D → Option I
  /-- `unit_trail`, interval.hpp:165-239 -/
  unitTrail : D → Option I
  /-- `hull(left, right)` of two elements, interval.hpp:286-366 -/
  hullE : D → D → Option I
  /-- `first`, interval.hpp:387-413 -/
  first : I → Option D
  /-- `last`, interval.hpp:417-456 -/
  last : I → Option D
  /-- `last_next`, interval.hpp:459-488 -/
  lastNext : I → Option D
  /-- `contains(interval, element)`, interval.hpp:858-864 (static bounds), 882-894 (dynamic bounds) -/
  contains : I → D → Option Bool

section
variable {D : Type} [LinearOrder D]

/-- The functions of `right_open_interval` and `left_open_interval` step nowhere. -/
def asymChecked (o : IntervalOps D (SItv D)) : CheckedOps (SItv D) where
  -- interval.hpp:550-555
  isEmpty i := some (o.isEmpty i)
  -- interval.hpp:600-606
  exclusiveLess l r := some (o.exclusiveLess l r)
  -- interval.hpp:806-812
  neLess l r := some (o.neLess l r)
  -- interval.hpp:637-642
  lowerLess l r := some (o.lowerLess l r)
  -- interval.hpp:663-668
  upperLess l r := some (o.upperLess l r)
  -- interval.hpp:725-730
  lowerEqual l r := some (o.lowerEqual l r)
  -- interval.hpp:756-761
  upperEqual l r := some (o.upperEqual l r)
  -- interval.hpp:961-966
  touches l r := some (o.touches l r)
  -- interval.hpp:1120-1137
  hull l r := some (o.hull l r)
  -- interval.hpp:1168-1176
  leftSubtract l r := some (o.leftSubtract l r)
  -- interval.hpp:1221-1228
  rightSubtract l r := some (o.rightSubtract l r)
  -- interval.hpp:1268-1284
  inter l r := some (o.inter l r)
  -- interval.hpp:1339-1351
  innerComplement l r := some (o.innerComplement l r)

/-- `contains(interval, element)` for discrete static bounds, interval.hpp:858-864 -/
def containsFLC {I : Type} (first last : I → Option D) (i : I) (x : D) : Option Bool :=
  andC ((first i).map fun a => decide (a ≤ x)) ((last i).map fun b => decide (x ≤ b))

/-- `hull` of two intervals with static bounds, interval.hpp:1120-1137 -/
def staticHullC (isEmpty : SItv D → Option Bool) (l r : SItv D) : Option (SItv D) :=
  iteC (isEmpty r) (some l) (iteC (isEmpty l) (some r) (some ⟨stdMin l.lo r.lo, stdMax l.up r.up⟩))

variable (s : Steps D)

/-- `right_open_interval`: `singleton` and `unit_trail`, interval.hpp:90-101 and 162-172; `hull`, 286-296; `first`, 387-393;
`last`, 426-440; `last_next`, 469-478 -/
def rightOpenEC : CheckedElementOps D (SItv D) where
  singleton x := (s.next x).map fun n => ⟨x, n⟩
  unitTrail x := (s.next x).map fun n => ⟨x, n⟩
  hullE a b := if a < b then (s.next b).map fun n => ⟨a, n⟩ else (s.next a).map fun n => ⟨b, n⟩
  first i := some i.lo
  last i := s.prior i.up
  lastNext i := some i.up
  contains := containsFLC (fun i => some i.lo) (fun i => s.prior i.up)

/-- `left_open_interval`: `singleton` and `unit_trail`, interval.hpp:103-119 and 174-190; `hull`, 298-318; `first`, 395-403;
`last`, 417-424; `last_next`, 459-467.  The assertions that the argument is greater than the least value are part of
`prior`. -/
def leftOpenEC : CheckedElementOps D (SItv D) where
  singleton x := (s.prior x).map fun p => ⟨p, x⟩
  unitTrail x := (s.prior x).map fun p => ⟨p, x⟩
  hullE a b := if a < b then (s.prior a).map fun p => ⟨p, b⟩ else (s.prior b).map fun p => ⟨p, a⟩
  first i := s.next i.lo
  last i := some i.up
  lastNext i := s.next i.up
  contains := containsFLC (fun i => s.next i.lo) (fun i => some i.up)

namespace Closed

/-- `is_empty`, interval.hpp:557-562 -/
def isEmptyC (i : SItv D) : Option Bool := some (decide (i.up < i.lo))
/-- `exclusive_less`, interval.hpp:616-623; `first` and `last` do not step -/
def exclusiveLessC (l r : SItv D) : Option Bool :=
  orC (isEmptyC l) (orC (isEmptyC r) (some (decide (l.up < r.lo))))
/-- `lower_less_equal`, interval.hpp:786-791 -/
def lowerLessEqualC (l r : SItv D) : Option Bool := orC (some (decide (l.lo < r.lo))) (some (decide (l.lo = r.lo)))
/-- `upper_less_equal`, interval.hpp:793-798 -/
def upperLessEqualC (l r : SItv D) : Option Bool := orC (some (decide (l.up < r.up))) (some (decide (l.up = r.up)))
/-- `left_subtract`, interval.hpp:1178-1188 -/
def leftSubtractC (zero unit : D) (right leftMinuend : SItv D) : Option (SItv D) :=
  iteC (exclusiveLessC leftMinuend right) (some right)
    (iteC (upperLessEqualC right leftMinuend) (some ⟨unit, zero⟩)
      ((s.next leftMinuend.up).map fun n => ⟨n, right.up⟩))
/-- `right_subtract`, interval.hpp:1231-1241 -/
def rightSubtractC (zero unit : D) (left rightMinuend : SItv D) : Option (SItv D) :=
  iteC (exclusiveLessC left rightMinuend) (some left)
    (iteC (lowerLessEqualC rightMinuend left) (some ⟨unit, zero⟩)
      ((s.prior rightMinuend.lo).map fun p => ⟨left.lo, p⟩))
/-- `operator &`, interval.hpp:1286-1302 -/
def interC (zero unit : D) (l r : SItv D) : Option (SItv D) :=
  iteC (orC (isEmptyC l) (isEmptyC r)) (some ⟨unit, zero⟩) (some ⟨stdMax l.lo r.lo, stdMin l.up r.up⟩)
/-- `inner_complement`, interval.hpp:1353-1365 -/
def innerComplementC (zero unit : D) (l r : SItv D) : Option (SItv D) :=
  iteC (orC (isEmptyC l) (isEmptyC r)) (some ⟨unit, zero⟩)
    (iteC (exclusiveLessC l r) (callC SItv.mk (s.next l.up) (s.prior r.lo))
      (iteC (exclusiveLessC r l) (callC SItv.mk (s.next r.up) (s.prior l.lo)) (some ⟨unit, zero⟩)))

end Closed

/-- `closed_interval` over a discrete domain -/
def closedChecked (zero unit : D) : CheckedOps (SItv D) where
  isEmpty := Closed.isEmptyC
  exclusiveLess := Closed.exclusiveLessC
  -- interval.hpp:822-829
  neLess l r := some (decide (l.up < r.lo))
  -- interval.hpp:637-642
  lowerLess l r := some (decide (l.lo < r.lo))
  -- interval.hpp:663-668
  upperLess l r := some (decide (l.up < r.up))
  -- interval.hpp:732-737
  lowerEqual l r := some (decide (l.lo = r.lo))
  -- interval.hpp:763-768
  upperEqual l r := some (decide (l.up = r.up))
  touches := Closed.touchesC s
  hull := staticHullC Closed.isEmptyC
  leftSubtract := Closed.leftSubtractC s zero unit
  rightSubtract := Closed.rightSubtractC s zero unit
  inter := Closed.interC zero unit
  innerComplement := Closed.innerComplementC s zero unit

/-- `closed_interval`: `singleton` and `unit_trail`, interval.hpp:136-142 and 211-221; `hull`, 320-330; `first`, 387-393;
`last`, 417-424; `last_next`, 459-467 -/
def closedEC : CheckedElementOps D (SItv D) where
  singleton x := some ⟨x, x⟩
  unitTrail x := some ⟨x, x⟩
  hullE a b := some (if a < b then ⟨a, b⟩ else ⟨b, a⟩)
  first i := some i.lo
  last i := some i.up
  lastNext i := s.next i.up
  contains := containsFLC (fun i => some i.lo) (fun i => some i.up)

namespace Open

/-- `is_empty`, interval.hpp:564-570 -/
def isEmptyC (i : SItv D) : Option Bool :=
  orC (some (decide (i.up ≤ i.lo))) ((s.next i.lo).map fun n => decide (i.up ≤ n))
/-- `exclusive_less`, interval.hpp:616-623 -/
def exclusiveLessC (l r : SItv D) : Option Bool :=
  orC (isEmptyC s l) (orC (isEmptyC s r) (callC (fun a b => decide (a < b)) (s.prior l.up) (s.next r.lo)))
/-- `left_subtract`, interval.hpp:1190-1198 -/
def leftSubtractC (right leftMinuend : SItv D) : Option (SItv D) :=
  iteC (exclusiveLessC s leftMinuend right) (some right) ((s.prior leftMinuend.up).map fun p => ⟨p, right.up⟩)
/-- `right_subtract`, interval.hpp:1243-1251 -/
def rightSubtractC (left rightMinuend : SItv D) : Option (SItv D) :=
  iteC (exclusiveLessC s left rightMinuend) (some left) ((s.next rightMinuend.lo).map fun n => ⟨left.lo, n⟩)
/-- `operator &`, interval.hpp:1286-1302 -/
def interC (zero : D) (l r : SItv D) : Option (SItv D) :=
  iteC (orC (isEmptyC s l) (isEmptyC s r)) (some ⟨zero, zero⟩) (some ⟨stdMax l.lo r.lo, stdMin l.up r.up⟩)
/-- `inner_complement`, interval.hpp:1367-1379 -/
def innerComplementC (zero : D) (l r : SItv D) : Option (SItv D) :=
  iteC (orC (isEmptyC s l) (isEmptyC s r)) (some ⟨zero, zero⟩)
    (iteC (exclusiveLessC s l r) (callC SItv.mk (s.prior l.up) (s.next r.lo))
      (iteC (exclusiveLessC s r l) (callC SItv.mk (s.prior r.up) (s.next l.lo)) (some ⟨zero, zero⟩)))

end Open

/-- `open_interval` over a discrete domain -/
def openChecked (zero : D) : CheckedOps (SItv D) where
  isEmpty := Open.isEmptyC s
  exclusiveLess := Open.exclusiveLessC s
  -- interval.hpp:822-829
  neLess l r := callC (fun a b => decide (a < b)) (s.prior l.up) (s.next r.lo)
  -- interval.hpp:637-642
  lowerLess l r := some (decide (l.lo < r.lo))
  -- interval.hpp:663-668
  upperLess l r := some (decide (l.up < r.up))
  -- interval.hpp:732-737
  lowerEqual l r := callC (fun a b => decide (a = b)) (s.next l.lo) (s.next r.lo)
  -- interval.hpp:763-768
  upperEqual l r := callC (fun a b => decide (a = b)) (s.prior l.up) (s.prior r.up)
  touches := Open.touchesC s
  hull := staticHullC (Open.isEmptyC s)
  leftSubtract := Open.leftSubtractC s
  rightSubtract := Open.rightSubtractC s
  inter := Open.interC s zero
  innerComplement := Open.innerComplementC s zero

/-- `open_interval`: `singleton` and `unit_trail`, interval.hpp:121-134 and 192-209; `hull`, 332-353; `first`, 395-403;
`last`, 426-440; `last_next`, 469-478 -/
def openEC : CheckedElementOps D (SItv D) where
  singleton x := callC SItv.mk (s.prior x) (s.next x)
  unitTrail x := callC SItv.mk (s.prior x) (s.next x)
  hullE a b := if a < b then callC SItv.mk (s.prior a) (s.next b) else callC SItv.mk (s.prior b) (s.next a)
  first i := s.next i.lo
  last i := s.prior i.up
  lastNext i := some i.up
  contains := containsFLC (fun i => s.next i.lo) (fun i => s.prior i.up)

namespace Dyn
variable (lowerLess upperLess exclusiveLess : DItv D → DItv D → Option Bool) (isEmpty : DItv D → Option Bool)

/-- `lower_min`, interval.hpp:688-694 -/
def lowerMinC (l r : DItv D) : Option (BVal D) :=
  iteC (lowerLess l r) (some (boundedLower l)) (some (boundedLower r))
/-- `lower_max`, interval.hpp:697-703 -/
def lowerMaxC (l r : DItv D) : Option (BVal D) :=
  iteC (lowerLess l r) (some (boundedLower r)) (some (boundedLower l))
/-- `upper_max`, interval.hpp:706-712 -/
def upperMaxC (l r : DItv D) : Option (BVal D) :=
  iteC (upperLess l r) (some (boundedUpper r)) (some (boundedUpper l))
/-- `upper_min`, interval.hpp:715-721 -/
def upperMinC (l r : DItv D) : Option (BVal D) :=
  iteC (upperLess l r) (some (boundedUpper l)) (some (boundedUpper r))

/-- `hull` of two intervals, interval.hpp:1139-1153 -/
def hullC (l r : DItv D) : Option (DItv D) :=
  iteC (isEmpty r) (some l) (iteC (isEmpty l) (some r)
    (callC constructBounded (lowerMinC lowerLess l r) (upperMaxC upperLess l r)))
/-- `left_subtract`, interval.hpp:1200-1208 -/
def leftSubtractC (right leftMinuend : DItv D) : Option (DItv D) :=
  iteC (exclusiveLess leftMinuend right) (some right)
    (some (constructBounded (reverseBoundedUpper leftMinuend) (boundedUpper right)))
/-- `right_subtract`, interval.hpp:1253-1261 -/
def rightSubtractC (left rightMinuend : DItv D) : Option (DItv D) :=
  iteC (exclusiveLess left rightMinuend) (some left)
    (some (constructBounded (boundedLower left) (reverseBoundedLower rightMinuend)))
/-- `operator &`, interval.hpp:1304-1314 -/
def interC (zero : D) (l r : DItv D) : Option (DItv D) :=
  iteC (orC (isEmpty l) (isEmpty r)) (some ⟨zero, zero, Bounds.rightOpen⟩)
    (callC constructBounded (lowerMaxC lowerLess l r) (upperMinC upperLess l r))
/-- `inner_complement`, interval.hpp:1381-1393 -/
def innerComplementC (zero : D) (l r : DItv D) : Option (DItv D) :=
  iteC (orC (isEmpty l) (isEmpty r)) (some ⟨zero, zero, Bounds.rightOpen⟩)
    (iteC (exclusiveLess l r)
      (((hullC lowerLess upperLess isEmpty l r).bind (leftSubtractC exclusiveLess · l)).bind
        (rightSubtractC exclusiveLess · r))
      (iteC (exclusiveLess r l)
        (((hullC lowerLess upperLess isEmpty r l).bind (leftSubtractC exclusiveLess · r)).bind
          (rightSubtractC exclusiveLess · l))
        (some ⟨zero, zero, Bounds.rightOpen⟩)))

end Dyn

namespace Disc

/-- `is_empty`, interval.hpp:572-583 -/
def isEmptyC (i : DItv D) : Option Bool :=
  if i.bnd = Bounds.closed then some (decide (i.up < i.lo))
  else if i.bnd = Bounds.opn then
    orC (some (decide (i.up ≤ i.lo))) ((s.next i.lo).map fun n => decide (i.up ≤ n))
  else some (decide (i.up ≤ i.lo))
/-- `exclusive_less`, interval.hpp:608-614 -/
def exclusiveLessC (l r : DItv D) : Option Bool :=
  orC (isEmptyC s l) (orC (isEmptyC s r) (callC (fun a b => decide (a < b)) (lastC s l) (firstC s r)))
/-- `lower_less`, interval.hpp:644-649 -/
def lowerLessC (l r : DItv D) : Option Bool := callC (fun a b => decide (a < b)) (firstC s l) (firstC s r)
/-- `upper_less`, interval.hpp:670-675 -/
def upperLessC (l r : DItv D) : Option Bool := callC (fun a b => decide (a < b)) (lastC s l) (lastC s r)

end Disc

/-- `discrete_interval` -/
def discreteChecked (zero : D) : CheckedOps (DItv D) where
  isEmpty := Disc.isEmptyC s
  exclusiveLess := Disc.exclusiveLessC s
  -- interval.hpp:814-820
  neLess l r := callC (fun a b => decide (a < b)) (Disc.lastC s l) (Disc.firstC s r)
  lowerLess := Disc.lowerLessC s
  upperLess := Disc.upperLessC s
  -- interval.hpp:739-744
  lowerEqual l r := callC (fun a b => decide (a = b)) (Disc.firstC s l) (Disc.firstC s r)
  -- interval.hpp:770-775
  upperEqual l r := callC (fun a b => decide (a = b)) (Disc.lastC s l) (Disc.lastC s r)
  touches := Disc.touchesC s
  hull := Dyn.hullC (Disc.lowerLessC s) (Disc.upperLessC s) (Disc.isEmptyC s)
  leftSubtract := Dyn.leftSubtractC (Disc.exclusiveLessC s)
  rightSubtract := Dyn.rightSubtractC (Disc.exclusiveLessC s)
  inter := Dyn.interC (Disc.lowerLessC s) (Disc.upperLessC s) (Disc.isEmptyC s) zero
  innerComplement :=
    Dyn.innerComplementC (Disc.lowerLessC s) (Disc.upperLessC s) (Disc.exclusiveLessC s) (Disc.isEmptyC s) zero

/-- `discrete_interval`: `singleton` and `unit_trail`, interval.hpp:145-150 and 228-233; `hull`, 355-366; `first`, 405-413;
`last`, 442-456; `last_next`, 480-488; `contains`, 882-894 -/
def discreteEC : CheckedElementOps D (DItv D) where
  singleton x := some ⟨x, x, Bounds.closed⟩
  unitTrail x := some ⟨x, x, Bounds.closed⟩
  hullE a b := some (if a < b then ⟨a, b, Bounds.closed⟩ else ⟨b, a, Bounds.closed⟩)
  first := Disc.firstC s
  last := Disc.lastC s
  lastNext i := if i.bnd.isRightClosed then s.next i.up else some i.up
  contains i x := some (Dyn.contains i x)

end

/-- The interval classes with discrete domains: the functions without checks, and with checks. -/
inductive CheckedClass : {D I : Type} → [LinearOrder D] → IntervalOps D I → ElementOps D I → CheckedOps I →
    CheckedElementOps D I → Prop
  | rightOpen {D : Type} [LinearOrder D] (s : Steps D) (zero : D) :
      CheckedClass (rightOpenOps zero) (rightOpenE s) (asymChecked (rightOpenOps zero)) (rightOpenEC s)
  | leftOpen {D : Type} [LinearOrder D] (s : Steps D) (zero : D) :
      CheckedClass (leftOpenOps zero) (leftOpenE s) (asymChecked (leftOpenOps zero)) (leftOpenEC s)
  | closed {D : Type} [LinearOrder D] (s : Steps D) (zero unit : D) (h : zero < unit) :
      CheckedClass (closedOps s zero unit) (closedE s) (closedChecked s zero unit) (closedEC s)
  | opn {D : Type} [LinearOrder D] (s : Steps D) (zero : D) :
      CheckedClass (openOps s zero) (openE s) (openChecked s zero) (openEC s)
  | discrete {D : Type} [LinearOrder D] (s : Steps D) (zero : D) :
      CheckedClass (discreteOps s zero) (discreteE s) (discreteChecked s zero) (discreteEC s)

end ICL
