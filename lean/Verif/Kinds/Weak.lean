import Verif.Kinds.Dynamic
import Verif.Kinds.Custom

/-!
# Domain types with a strict weak ordering

The order `Compare` of a domain type has to be a strict weak ordering only: it need not tell all values apart
(strings compared without regard to case, records compared by one of their fields).  All functions of concept/interval.hpp
compare values by `domain_less`, `domain_less_equal` and `domain_equal`, concept/interval.hpp:40-64, which call `Compare`
and nothing else.

Here `E` is the domain type, `D` the linear order of the classes of equivalent values and `key` takes a value to its class:
`Compare()(a, b)` is `key a < key b`.  The functions are those of `Static.lean` and `Dynamic.lean`; they compare keys, but the
intervals hold values, and where the code takes a value from one of its operands, so does the model.  `Mem x i` speaks of
classes `x`.
-/

set_option linter.unusedSectionVars false

namespace ICL

/-- `++` and `--` of a discrete domain type with a strict weak ordering: they take equivalent values to equivalent values. -/
structure WeakSteps {E D : Type} [LinearOrder D] (key : E → D) (s : Steps D) where
  inc : E → E
  dec : E → E
  key_inc : ∀ e, key (inc e) = s.nx (key e)
  key_dec : ∀ e, key (dec e) = s.pr (key e)

namespace Weak

section
variable {E D : Type} (key : E → D)

/-- The classes of the bounds of an interval. -/
def view (i : SItv E) : SItv D := ⟨key i.lo, key i.up⟩
@[inherit_doc view] def viewD (i : DItv E) : DItv D := ⟨key i.lo, key i.up, i.bnd⟩

variable [LinearOrder D]

/-- `(std::min)(a, b, domain_compare())` -/
def min (a b : E) : E := if key b < key a then b else a
/-- `(std::max)(a, b, domain_compare())` -/
def max (a b : E) : E := if key a < key b then b else a

theorem key_min (a b : E) : key (min key a b) = stdMin (key a) (key b) := by
  unfold min stdMin; split <;> rfl
theorem key_max (a b : E) : key (max key a b) = stdMax (key a) (key b) := by
  unfold max stdMax; split <;> rfl

/-! ## Static bounds -/

/-- `hull` of two intervals, concept/interval.hpp:1120-1137 -/
def hull (isEmpty : SItv D → Bool) (l r : SItv E) : SItv E :=
  if isEmpty (view key r) then l else if isEmpty (view key l) then r else ⟨min key l.lo r.lo, max key l.up r.up⟩
/-- `operator &`, concept/interval.hpp:1268-1302; `empty` is `identity_element<Type>::value()` -/
def inter (isEmpty : SItv D → Bool) (empty l r : SItv E) : SItv E :=
  if isEmpty (view key l) || isEmpty (view key r) then empty else ⟨max key l.lo r.lo, min key l.up r.up⟩

/-- `left_subtract` of asymmetric intervals, concept/interval.hpp:1168-1176 -/
def asymLeftSubtract (right leftMinuend : SItv E) : SItv E :=
  if Asym.exclusiveLess (view key leftMinuend) (view key right) then right else ⟨leftMinuend.up, right.up⟩
/-- `right_subtract` of asymmetric intervals, concept/interval.hpp:1221-1228 -/
def asymRightSubtract (left rightMinuend : SItv E) : SItv E :=
  if Asym.exclusiveLess (view key left) (view key rightMinuend) then left else ⟨left.lo, rightMinuend.lo⟩
/-- `inner_complement` of asymmetric intervals, concept/interval.hpp:1339-1351 -/
def asymInnerComplement (zero : E) (l r : SItv E) : SItv E :=
  if Asym.isEmpty (view key l) || Asym.isEmpty (view key r) then ⟨zero, zero⟩
  else if Asym.exclusiveLess (view key l) (view key r) then ⟨l.up, r.lo⟩
  else if Asym.exclusiveLess (view key r) (view key l) then ⟨r.up, l.lo⟩
  else ⟨zero, zero⟩

/-- `right_open_interval<E>` -/
def rightOpenOps (zero : E) : IntervalOps D (SItv E) where
  contains i x := decide (key i.lo ≤ x) && decide (x < key i.up)
  isEmpty i := Asym.isEmpty (view key i)
  exclusiveLess l r := Asym.exclusiveLess (view key l) (view key r)
  neLess l r := Asym.neLess (view key l) (view key r)
  lowerLess l r := Static.lowerLess (view key l) (view key r)
  upperLess l r := Static.upperLess (view key l) (view key r)
  lowerEqual l r := Static.lowerEqual (view key l) (view key r)
  upperEqual l r := Static.upperEqual (view key l) (view key r)
  touches l r := Asym.touches (view key l) (view key r)
  touchesC l r := some (Asym.touches (view key l) (view key r))
  hull := hull key Asym.isEmpty
  leftSubtract := asymLeftSubtract key
  rightSubtract := asymRightSubtract key
  inter := inter key Asym.isEmpty ⟨zero, zero⟩
  innerComplement := asymInnerComplement key zero
  empty := ⟨zero, zero⟩

/-- `left_open_interval<E>` -/
def leftOpenOps (zero : E) : IntervalOps D (SItv E) where
  contains i x := decide (key i.lo < x) && decide (x ≤ key i.up)
  isEmpty i := Asym.isEmpty (view key i)
  exclusiveLess l r := Asym.exclusiveLess (view key l) (view key r)
  neLess l r := Asym.neLess (view key l) (view key r)
  lowerLess l r := Static.lowerLess (view key l) (view key r)
  upperLess l r := Static.upperLess (view key l) (view key r)
  lowerEqual l r := Static.lowerEqual (view key l) (view key r)
  upperEqual l r := Static.upperEqual (view key l) (view key r)
  touches l r := Asym.touches (view key l) (view key r)
  touchesC l r := some (Asym.touches (view key l) (view key r))
  hull := hull key Asym.isEmpty
  leftSubtract := asymLeftSubtract key
  rightSubtract := asymRightSubtract key
  inter := inter key Asym.isEmpty ⟨zero, zero⟩
  innerComplement := asymInnerComplement key zero
  empty := ⟨zero, zero⟩

end

section
variable {E D : Type} [LinearOrder D] {key : E → D} {s : Steps D} (w : WeakSteps key s)

/-- `left_subtract` of closed intervals, concept/interval.hpp:1178-1188 -/
def closedLeftSubtract (zero unit : E) (right leftMinuend : SItv E) : SItv E :=
  if Closed.exclusiveLess (view key leftMinuend) (view key right) then right
  else if Closed.upperLessEqual (view key right) (view key leftMinuend) then ⟨unit, zero⟩
  else ⟨w.inc leftMinuend.up, right.up⟩
/-- `right_subtract` of closed intervals, concept/interval.hpp:1231-1241 -/
def closedRightSubtract (zero unit : E) (left rightMinuend : SItv E) : SItv E :=
  if Closed.exclusiveLess (view key left) (view key rightMinuend) then left
  else if Closed.lowerLessEqual (view key rightMinuend) (view key left) then ⟨unit, zero⟩
  else ⟨left.lo, w.dec rightMinuend.lo⟩
/-- `inner_complement` of closed intervals, concept/interval.hpp:1353-1365 -/
def closedInnerComplement (zero unit : E) (l r : SItv E) : SItv E :=
  if Closed.isEmpty (view key l) || Closed.isEmpty (view key r) then ⟨unit, zero⟩
  else if Closed.exclusiveLess (view key l) (view key r) then ⟨w.inc l.up, w.dec r.lo⟩
  else if Closed.exclusiveLess (view key r) (view key l) then ⟨w.inc r.up, w.dec l.lo⟩
  else ⟨unit, zero⟩

/-- `closed_interval<E>` -/
def closedOps (zero unit : E) : IntervalOps D (SItv E) where
  contains i x := decide (key i.lo ≤ x) && decide (x ≤ key i.up)
  isEmpty i := Closed.isEmpty (view key i)
  exclusiveLess l r := Closed.exclusiveLess (view key l) (view key r)
  neLess l r := Closed.neLess (view key l) (view key r)
  lowerLess l r := Static.lowerLess (view key l) (view key r)
  upperLess l r := Static.upperLess (view key l) (view key r)
  lowerEqual l r := Closed.lowerEqual (view key l) (view key r)
  upperEqual l r := Closed.upperEqual (view key l) (view key r)
  touches l r := decide (key (w.inc l.up) = key r.lo)
  touchesC l r := if s.hasNx (key l.up) then some (decide (key (w.inc l.up) = key r.lo)) else none
  hull := hull key Closed.isEmpty
  leftSubtract := closedLeftSubtract w zero unit
  rightSubtract := closedRightSubtract w zero unit
  inter := inter key Closed.isEmpty ⟨unit, zero⟩
  innerComplement := closedInnerComplement w zero unit
  empty := ⟨unit, zero⟩

/-- `left_subtract` of open intervals, concept/interval.hpp:1190-1198 -/
def openLeftSubtract (right leftMinuend : SItv E) : SItv E :=
  if Open.exclusiveLess s (view key leftMinuend) (view key right) then right else ⟨w.dec leftMinuend.up, right.up⟩
/-- `right_subtract` of open intervals, concept/interval.hpp:1243-1251 -/
def openRightSubtract (left rightMinuend : SItv E) : SItv E :=
  if Open.exclusiveLess s (view key left) (view key rightMinuend) then left else ⟨left.lo, w.inc rightMinuend.lo⟩
/-- `inner_complement` of open intervals, concept/interval.hpp:1367-1379 -/
def openInnerComplement (zero : E) (l r : SItv E) : SItv E :=
  if Open.isEmpty s (view key l) || Open.isEmpty s (view key r) then ⟨zero, zero⟩
  else if Open.exclusiveLess s (view key l) (view key r) then ⟨w.dec l.up, w.inc r.lo⟩
  else if Open.exclusiveLess s (view key r) (view key l) then ⟨w.dec r.up, w.inc l.lo⟩
  else ⟨zero, zero⟩

/-- `open_interval<E>`.  The class of `++e` is the next class (`WeakSteps`), so that `first` and `last`, when they are only
compared, are those of the classes. -/
def openOps (zero : E) : IntervalOps D (SItv E) where
  contains i x := decide (key i.lo < x) && decide (x < key i.up)
  isEmpty i := Open.isEmpty s (view key i)
  exclusiveLess l r := Open.exclusiveLess s (view key l) (view key r)
  neLess l r := Open.neLess s (view key l) (view key r)
  lowerLess l r := Static.lowerLess (view key l) (view key r)
  upperLess l r := Static.upperLess (view key l) (view key r)
  lowerEqual l r := Open.lowerEqual s (view key l) (view key r)
  upperEqual l r := Open.upperEqual s (view key l) (view key r)
  touches l r := decide (key l.up = key (w.inc r.lo))
  touchesC l r := if s.hasNx (key r.lo) then some (decide (key l.up = key (w.inc r.lo))) else none
  hull := hull key (Open.isEmpty s)
  leftSubtract := openLeftSubtract w
  rightSubtract := openRightSubtract w
  inter := inter key (Open.isEmpty s) ⟨zero, zero⟩
  innerComplement := openInnerComplement w zero
  empty := ⟨zero, zero⟩

end

/-! ## Dynamic bounds

The functions of `Dyn` take values from their operands already; they are given the comparisons of the keys. -/

section
variable {E D : Type} [LinearOrder D] (key : E → D)

/-- `contains(interval, element)` for dynamic bounds, concept/interval.hpp:882-894 -/
def containsD (i : DItv E) (x : D) : Bool := Dyn.contains (viewD key i) x

/-- `discrete_interval<E>` -/
def discreteOps (s : Steps D) (zero : E) : IntervalOps D (DItv E) :=
  let lowerLess l r := Disc.lowerLess s (viewD key l) (viewD key r)
  let upperLess l r := Disc.upperLess s (viewD key l) (viewD key r)
  let exclusiveLess l r := Disc.exclusiveLess s (viewD key l) (viewD key r)
  let isEmpty i := Disc.isEmpty s (viewD key i)
  { contains := containsD key
    isEmpty := isEmpty
    exclusiveLess := exclusiveLess
    neLess := fun l r => Disc.neLess s (viewD key l) (viewD key r)
    lowerLess := lowerLess
    upperLess := upperLess
    lowerEqual := fun l r => Disc.lowerEqual s (viewD key l) (viewD key r)
    upperEqual := fun l r => Disc.upperEqual s (viewD key l) (viewD key r)
    touches := fun l r => Disc.touches s (viewD key l) (viewD key r)
    touchesC := fun l r => Disc.touchesC s (viewD key l) (viewD key r)
    hull := Dyn.hull lowerLess upperLess isEmpty
    leftSubtract := Dyn.leftSubtract exclusiveLess
    rightSubtract := Dyn.rightSubtract exclusiveLess
    inter := Dyn.inter lowerLess upperLess isEmpty zero
    innerComplement := Dyn.innerComplement lowerLess upperLess exclusiveLess isEmpty zero
    empty := ⟨zero, zero, Bounds.rightOpen⟩ }

/-- `continuous_interval<E>` -/
def continuousOps (zero : E) : IntervalOps D (DItv E) :=
  let lowerLess l r := Cont.lowerLess (viewD key l) (viewD key r)
  let upperLess l r := Cont.upperLess (viewD key l) (viewD key r)
  let exclusiveLess l r := Cont.exclusiveLess (viewD key l) (viewD key r)
  let isEmpty i := Cont.isEmpty (viewD key i)
  { contains := containsD key
    isEmpty := isEmpty
    exclusiveLess := exclusiveLess
    neLess := fun l r => Cont.neLess (viewD key l) (viewD key r)
    lowerLess := lowerLess
    upperLess := upperLess
    lowerEqual := fun l r => Cont.lowerEqual (viewD key l) (viewD key r)
    upperEqual := fun l r => Cont.upperEqual (viewD key l) (viewD key r)
    touches := fun l r => Cont.touches (viewD key l) (viewD key r)
    touchesC := fun l r => some (Cont.touches (viewD key l) (viewD key r))
    hull := Dyn.hull lowerLess upperLess isEmpty
    leftSubtract := Dyn.leftSubtract exclusiveLess
    rightSubtract := Dyn.rightSubtract exclusiveLess
    inter := Dyn.inter lowerLess upperLess isEmpty zero
    innerComplement := Dyn.innerComplement lowerLess upperLess exclusiveLess isEmpty zero
    empty := ⟨zero, zero, Bounds.rightOpen⟩ }

end
end Weak

/-! ## The classes -/

/-- The interval classes of the library over a domain type with a strict weak ordering; the same class over the classes of
equivalent values; and the intervals of the one as intervals of the other. -/
inductive WeakClass {E D : Type} [LinearOrder D] (key : E → D) :
    {I J : Type} → IntervalOps D I → IntervalOps D J → (I → J) → Prop
  | rightOpen (zero : E) : WeakClass key (Weak.rightOpenOps key zero) (rightOpenOps (key zero)) (Weak.view key)
  | leftOpen (zero : E) : WeakClass key (Weak.leftOpenOps key zero) (leftOpenOps (key zero)) (Weak.view key)
  | closed {s : Steps D} (w : WeakSteps key s) (zero unit : E) (h : key zero < key unit) :
      WeakClass key (Weak.closedOps w zero unit) (closedOps s (key zero) (key unit)) (Weak.view key)
  | opn {s : Steps D} (w : WeakSteps key s) (zero : E) :
      WeakClass key (Weak.openOps w zero) (openOps s (key zero)) (Weak.view key)
  | discrete (s : Steps D) (zero : E) :
      WeakClass key (Weak.discreteOps key s zero) (discreteOps s (key zero)) (Weak.viewD key)
  | continuous [DenselyOrdered D] [NoMaxOrder D] [NoMinOrder D] (zero : E) :
      WeakClass key (Weak.continuousOps key zero) (continuousOps (key zero)) (Weak.viewD key)

/-- The classes with static bounds among them. -/
inductive WeakStatic {E D : Type} [LinearOrder D] (key : E → D) : IntervalOps D (SItv E) → IntervalOps D (SItv D) → Prop
  | rightOpen (zero : E) : WeakStatic key (Weak.rightOpenOps key zero) (rightOpenOps (key zero))
  | leftOpen (zero : E) : WeakStatic key (Weak.leftOpenOps key zero) (leftOpenOps (key zero))
  | closed {s : Steps D} (w : WeakSteps key s) (zero unit : E) (h : key zero < key unit) :
      WeakStatic key (Weak.closedOps w zero unit) (closedOps s (key zero) (key unit))
  | opn {s : Steps D} (w : WeakSteps key s) (zero : E) : WeakStatic key (Weak.openOps w zero) (openOps s (key zero))

theorem WeakStatic.cls {E D : Type} [LinearOrder D] {key : E → D} {ow : IntervalOps D (SItv E)}
    {o : IntervalOps D (SItv D)} (h : WeakStatic key ow o) : WeakClass key ow o (Weak.view key) := by
  cases h with
  | rightOpen zero => exact .rightOpen zero
  | leftOpen zero => exact .leftOpen zero
  | closed w zero unit hu => exact .closed w zero unit hu
  | opn w zero => exact .opn w zero

/-- `v` takes the results of the functions of one class to those of the other. -/
structure Iso {D I J : Type} (ow : IntervalOps D I) (o : IntervalOps D J) (v : I → J) : Prop where
  contains : ∀ i x, ow.contains i x = o.contains (v i) x
  isEmpty : ∀ i, ow.isEmpty i = o.isEmpty (v i)
  exclusiveLess : ∀ i j, ow.exclusiveLess i j = o.exclusiveLess (v i) (v j)
  neLess : ∀ i j, ow.neLess i j = o.neLess (v i) (v j)
  lowerLess : ∀ i j, ow.lowerLess i j = o.lowerLess (v i) (v j)
  upperLess : ∀ i j, ow.upperLess i j = o.upperLess (v i) (v j)
  lowerEqual : ∀ i j, ow.lowerEqual i j = o.lowerEqual (v i) (v j)
  upperEqual : ∀ i j, ow.upperEqual i j = o.upperEqual (v i) (v j)
  touches : ∀ i j, ow.touches i j = o.touches (v i) (v j)
  touchesC : ∀ i j, ow.touchesC i j = o.touchesC (v i) (v j)
  hull : ∀ i j, v (ow.hull i j) = o.hull (v i) (v j)
  leftSubtract : ∀ i j, v (ow.leftSubtract i j) = o.leftSubtract (v i) (v j)
  rightSubtract : ∀ i j, v (ow.rightSubtract i j) = o.rightSubtract (v i) (v j)
  inter : ∀ i j, v (ow.inter i j) = o.inter (v i) (v j)
  innerComplement : ∀ i j, v (ow.innerComplement i j) = o.innerComplement (v i) (v j)
  empty : v ow.empty = o.empty

theorem Iso.sim {D I J : Type} [LinearOrder D] {ow : IntervalOps D I} {o : IntervalOps D J} {v : I → J} (h : Iso ow o v)
    (ho : o.Lawful) : Sim ow o v where
  contains := h.contains
  isEmpty := h.isEmpty
  exclusiveLess := h.exclusiveLess
  neLess := h.neLess
  lowerLess := h.lowerLess
  upperLess := h.upperLess
  lowerEqual := h.lowerEqual
  upperEqual := h.upperEqual
  touches := h.touches
  touchesC := h.touchesC
  hull i j x := by rw [h.contains, h.hull]
  leftSubtract i j x := by rw [h.contains, h.leftSubtract]
  rightSubtract i j x := by rw [h.contains, h.rightSubtract]
  inter i j x := by rw [h.contains, h.inter]
  innerComplement i j x := by rw [h.contains, h.innerComplement]
  empty x := by
    rw [h.contains, h.empty]
    exact Bool.eq_false_iff.2 (ho.not_mem_empty x)

section
variable {E D I J : Type} [LinearOrder D] {key : E → D} {ow : IntervalOps D I} {o : IntervalOps D J} {v : I → J}

namespace Weak

theorem view_hull (isEmpty : SItv D → Bool) (i j : SItv E) :
    view key (hull key isEmpty i j) = Static.hull isEmpty (view key i) (view key j) := by
  unfold hull Static.hull
  split_ifs <;> simp [view, key_min, key_max]

section
variable (f g h : DItv D → DItv D → Bool) (e : DItv D → Bool) (zero : E)

theorem viewD_hull (i j : DItv E) :
    viewD key (Dyn.hull (fun l r => f (viewD key l) (viewD key r)) (fun l r => g (viewD key l) (viewD key r))
      (fun i => e (viewD key i)) i j) = Dyn.hull f g e (viewD key i) (viewD key j) := by
  unfold Dyn.hull Dyn.lowerMin Dyn.upperMax
  split_ifs <;> rfl
theorem viewD_leftSubtract (i j : DItv E) :
    viewD key (Dyn.leftSubtract (fun l r => h (viewD key l) (viewD key r)) i j) =
      Dyn.leftSubtract h (viewD key i) (viewD key j) := by
  unfold Dyn.leftSubtract
  split_ifs <;> rfl
theorem viewD_rightSubtract (i j : DItv E) :
    viewD key (Dyn.rightSubtract (fun l r => h (viewD key l) (viewD key r)) i j) =
      Dyn.rightSubtract h (viewD key i) (viewD key j) := by
  unfold Dyn.rightSubtract
  split_ifs <;> rfl
theorem viewD_inter (i j : DItv E) :
    viewD key (Dyn.inter (fun l r => f (viewD key l) (viewD key r)) (fun l r => g (viewD key l) (viewD key r))
      (fun i => e (viewD key i)) zero i j) = Dyn.inter f g e (key zero) (viewD key i) (viewD key j) := by
  unfold Dyn.inter Dyn.lowerMax Dyn.upperMin
  split_ifs <;> rfl
theorem viewD_innerComplement (i j : DItv E) :
    viewD key (Dyn.innerComplement (fun l r => f (viewD key l) (viewD key r)) (fun l r => g (viewD key l) (viewD key r))
      (fun l r => h (viewD key l) (viewD key r)) (fun i => e (viewD key i)) zero i j) =
        Dyn.innerComplement f g h e (key zero) (viewD key i) (viewD key j) := by
  unfold Dyn.innerComplement
  split_ifs
  · rfl
  · rw [viewD_rightSubtract, viewD_leftSubtract, viewD_hull]
  · rw [viewD_rightSubtract, viewD_leftSubtract, viewD_hull]
  · rfl

end
end Weak

open Weak

theorem WeakClass.base (h : WeakClass key ow o v) : o.Lawful := by
  cases h with
  | rightOpen zero => exact (rightOpen_fully _).toLawful
  | leftOpen zero => exact (leftOpen_fully _).toLawful
  | closed w zero unit hu => exact closed_lawful _ _ _ hu
  | opn w zero => exact open_lawful _ _
  | discrete s zero => exact discrete_lawful s _
  | continuous zero => exact (continuous_fully _).toLawful

theorem WeakClass.iso (h : WeakClass key ow o v) : Iso ow o v := by
  cases h with
  | rightOpen zero =>
    refine ⟨fun _ _ => rfl, fun _ => rfl, fun _ _ => rfl, fun _ _ => rfl, fun _ _ => rfl, fun _ _ => rfl, fun _ _ => rfl,
      fun _ _ => rfl, fun _ _ => rfl, fun _ _ => rfl, fun i j => view_hull _ i j, fun i j => ?_, fun i j => ?_,
      fun i j => ?_, fun i j => ?_, rfl⟩
    · simp only [Weak.rightOpenOps, ICL.rightOpenOps, asymLeftSubtract, Asym.leftSubtract]; split_ifs <;> rfl
    · simp only [Weak.rightOpenOps, ICL.rightOpenOps, asymRightSubtract, Asym.rightSubtract]; split_ifs <;> rfl
    · simp only [Weak.rightOpenOps, ICL.rightOpenOps, inter, Asym.inter]
      split_ifs <;> simp [view, key_min, key_max]
    · simp only [Weak.rightOpenOps, ICL.rightOpenOps, asymInnerComplement, Asym.innerComplement]; split_ifs <;> rfl
  | leftOpen zero =>
    refine ⟨fun _ _ => rfl, fun _ => rfl, fun _ _ => rfl, fun _ _ => rfl, fun _ _ => rfl, fun _ _ => rfl, fun _ _ => rfl,
      fun _ _ => rfl, fun _ _ => rfl, fun _ _ => rfl, fun i j => view_hull _ i j, fun i j => ?_, fun i j => ?_,
      fun i j => ?_, fun i j => ?_, rfl⟩
    · simp only [Weak.leftOpenOps, ICL.leftOpenOps, asymLeftSubtract, Asym.leftSubtract]; split_ifs <;> rfl
    · simp only [Weak.leftOpenOps, ICL.leftOpenOps, asymRightSubtract, Asym.rightSubtract]; split_ifs <;> rfl
    · simp only [Weak.leftOpenOps, ICL.leftOpenOps, inter, Asym.inter]
      split_ifs <;> simp [view, key_min, key_max]
    · simp only [Weak.leftOpenOps, ICL.leftOpenOps, asymInnerComplement, Asym.innerComplement]; split_ifs <;> rfl
  | @closed s w zero unit hu =>
    refine ⟨fun _ _ => rfl, fun _ => rfl, fun _ _ => rfl, fun _ _ => rfl, fun _ _ => rfl, fun _ _ => rfl, fun _ _ => rfl,
      fun _ _ => rfl, fun i j => ?_, fun i j => ?_, fun i j => view_hull _ i j, fun i j => ?_, fun i j => ?_,
      fun i j => ?_, fun i j => ?_, rfl⟩
    · simp only [Weak.closedOps, ICL.closedOps, Closed.touches, view, w.key_inc, Closed.lastNext, Closed.first]
    · simp only [Weak.closedOps, ICL.closedOps, Closed.touchesC, view, w.key_inc, Steps.next, Closed.first]
      split_ifs <;> rfl
    · simp only [Weak.closedOps, ICL.closedOps, closedLeftSubtract, Closed.leftSubtract]
      split_ifs <;> simp [view, w.key_inc]
    · simp only [Weak.closedOps, ICL.closedOps, closedRightSubtract, Closed.rightSubtract]
      split_ifs <;> simp [view, w.key_dec]
    · simp only [Weak.closedOps, ICL.closedOps, inter, Closed.inter]
      split_ifs <;> simp [view, key_min, key_max]
    · simp only [Weak.closedOps, ICL.closedOps, closedInnerComplement, Closed.innerComplement]
      split_ifs <;> simp [view, w.key_inc, w.key_dec]
  | @opn s w zero =>
    refine ⟨fun _ _ => rfl, fun _ => rfl, fun _ _ => rfl, fun _ _ => rfl, fun _ _ => rfl, fun _ _ => rfl, fun _ _ => rfl,
      fun _ _ => rfl, fun i j => ?_, fun i j => ?_, fun i j => view_hull _ i j, fun i j => ?_, fun i j => ?_,
      fun i j => ?_, fun i j => ?_, rfl⟩
    · simp only [Weak.openOps, ICL.openOps, Open.touches, view, w.key_inc, Open.lastNext, Open.first]
    · simp only [Weak.openOps, ICL.openOps, Open.touchesC, view, w.key_inc, Steps.next, Open.lastNext]
      split_ifs <;> rfl
    · simp only [Weak.openOps, ICL.openOps, openLeftSubtract, Open.leftSubtract]
      split_ifs <;> simp [view, w.key_dec]
    · simp only [Weak.openOps, ICL.openOps, openRightSubtract, Open.rightSubtract]
      split_ifs <;> simp [view, w.key_inc]
    · simp only [Weak.openOps, ICL.openOps, inter, Open.inter]
      split_ifs <;> simp [view, key_min, key_max]
    · simp only [Weak.openOps, ICL.openOps, openInnerComplement, Open.innerComplement]
      split_ifs <;> simp [view, w.key_inc, w.key_dec, Open.first, Open.last]
  | discrete s zero =>
    exact ⟨fun _ _ => rfl, fun _ => rfl, fun _ _ => rfl, fun _ _ => rfl, fun _ _ => rfl, fun _ _ => rfl, fun _ _ => rfl,
      fun _ _ => rfl, fun _ _ => rfl, fun _ _ => rfl, viewD_hull _ _ _, viewD_leftSubtract _, viewD_rightSubtract _,
      viewD_inter _ _ _ _, viewD_innerComplement _ _ _ _ _, rfl⟩
  | continuous zero =>
    exact ⟨fun _ _ => rfl, fun _ => rfl, fun _ _ => rfl, fun _ _ => rfl, fun _ _ => rfl, fun _ _ => rfl, fun _ _ => rfl,
      fun _ _ => rfl, fun _ _ => rfl, fun _ _ => rfl, viewD_hull _ _ _, viewD_leftSubtract _, viewD_rightSubtract _,
      viewD_inter _ _ _ _, viewD_innerComplement _ _ _ _ _, rfl⟩

/-- The elements of a non-empty interval with static bounds determine the keys of its bounds. -/
theorem WeakStatic.view_eq {ow : IntervalOps D (SItv E)} {o : IntervalOps D (SItv D)} (h : WeakStatic key ow o)
    {i j : SItv E} (hi : ow.Nonempty i) (he : ∀ x, ow.Mem x i ↔ ow.Mem x j) : view key i = view key j := by
  obtain ⟨x, hx⟩ := hi
  have hx' := (he x).1 hx
  have h1 := he (key i.lo)
  have h2 := he (key i.up)
  have h3 := he (key j.lo)
  have h4 := he (key j.up)
  have : key i.lo = key j.lo ∧ key i.up = key j.up := by
    cases h <;> simp only [IntervalOps.Mem, Weak.rightOpenOps, Weak.leftOpenOps, Weak.closedOps, Weak.openOps,
        Bool.and_eq_true, decide_eq_true_eq] at * <;> constructor <;>
      (apply le_antisymm <;> by_contra hc <;> push Not at hc <;> grind)
  simp only [view, this.1, this.2]

theorem WeakClass.sim (h : WeakClass key ow o v) : Sim ow o v := h.iso.sim h.base

theorem WeakClass.lawful (h : WeakClass key ow o v) : ow.Lawful := h.sim.lawful h.base

theorem WeakClass.fully [NoMaxOrder D] [NoMinOrder D] (h : WeakClass key ow o v) : ow.FullyLawful := by
  refine h.sim.fully ?_
  cases h with
  | rightOpen zero => exact rightOpen_fully _
  | leftOpen zero => exact leftOpen_fully _
  | closed w zero unit hu => exact closed_fully _ _ _ hu
  | opn w zero => exact open_fully _ _
  | discrete s zero => exact discrete_fully s _
  | continuous zero => exact continuous_fully _

end
end ICL
