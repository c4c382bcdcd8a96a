import Verif.Kinds.Static

/-!
# Interval classes of users

A user makes an own class an interval class by specialising `interval_traits` and `interval_bound_type`
(doc/customization.qbk, example/custom_interval_/custom_interval.cpp:38-63).  The functions of concept/interval.hpp
reach the objects of such a class only by `interval_traits<Type>::construct`, `lower` and `upper`
(interval_traits.hpp:29-54), and by copying them.

`Traits D C` is a specialisation of `interval_traits` for the class `C`.  `Traits.rightOpenOps`, ... are the functions of
concept/interval.hpp for `C`, for each of the four static bound types.  An object of `C` may hold more than its two bounds:
where the library returns one of its operands, the model returns the operand, and where it calls `construct`, the
model calls `construct`.

Simplification: the class has no `operator ==`, `<`, ... of its own, so that those of concept/interval.hpp are used.
`std::greater` orderings are covered by instantiating the order with its dual.
-/

set_option linter.unreachableTactic false
set_option linter.unusedTactic false

namespace ICL

/-- A specialisation of `interval_traits` for the class `C`, interval_traits.hpp:29-38, and the default
constructor of `C`, which is what `identity_element<C>::value()` calls, type_traits/identity_element.hpp:21-26. -/
structure Traits (D C : Type) where
  construct : D → D → C
  lower : C → D
  upper : C → D
  default : C

namespace Traits
variable {D C : Type} (T : Traits D C)

/-- The two bounds of an object. -/
def view (c : C) : SItv D := ⟨T.lower c, T.upper c⟩

/-- `construct` with the two bounds of an interval. -/
def make (i : SItv D) : C := T.construct i.lo i.up

/-- What is required of the specialisation, `isEmpty` being `is_empty` of the class of the library with the same
bound type: `construct(lo, up)` has the bounds `lo` and `up` if there is an element between them, and is empty otherwise,
and a default constructed object is empty. -/
structure Lawful (isEmpty : SItv D → Bool) : Prop where
  bounds : ∀ a b, isEmpty ⟨a, b⟩ = false → T.view (T.construct a b) = ⟨a, b⟩
  empties : ∀ a b, isEmpty ⟨a, b⟩ = true → isEmpty (T.view (T.construct a b)) = true
  default : isEmpty (T.view T.default) = true

variable [LinearOrder D]

/-- `hull` of two intervals, concept/interval.hpp:1120-1137 -/
def hull (isEmpty : SItv D → Bool) (l r : C) : C :=
  if isEmpty (T.view r) then l else if isEmpty (T.view l) then r
  else T.construct (stdMin (T.lower l) (T.lower r)) (stdMax (T.upper l) (T.upper r))
/-- `operator &`, concept/interval.hpp:1268-1302 -/
def inter (isEmpty : SItv D → Bool) (l r : C) : C :=
  if isEmpty (T.view l) || isEmpty (T.view r) then T.default
  else T.construct (stdMax (T.lower l) (T.lower r)) (stdMin (T.upper l) (T.upper r))

/-- `left_subtract` of asymmetric intervals, concept/interval.hpp:1168-1176 -/
def asymLeftSubtract (right leftMinuend : C) : C :=
  if Asym.exclusiveLess (T.view leftMinuend) (T.view right) then right
  else T.construct (T.upper leftMinuend) (T.upper right)
/-- `right_subtract` of asymmetric intervals, concept/interval.hpp:1221-1228 -/
def asymRightSubtract (left rightMinuend : C) : C :=
  if Asym.exclusiveLess (T.view left) (T.view rightMinuend) then left
  else T.construct (T.lower left) (T.lower rightMinuend)
/-- `inner_complement` of asymmetric intervals, concept/interval.hpp:1339-1351 -/
def asymInnerComplement (l r : C) : C :=
  if Asym.isEmpty (T.view l) || Asym.isEmpty (T.view r) then T.default
  else if Asym.exclusiveLess (T.view l) (T.view r) then T.construct (T.upper l) (T.lower r)
  else if Asym.exclusiveLess (T.view r) (T.view l) then T.construct (T.upper r) (T.lower l)
  else T.default

/-- A class with `interval_bound_type` `static_right_open` -/
def rightOpenOps : IntervalOps D C where
  -- `contains` (is_continuous_right_open), concept/interval.hpp:874-880, see `ICL.rightOpenOps`
  contains i x := decide (T.lower i ≤ x) && decide (x < T.upper i)
  isEmpty i := Asym.isEmpty (T.view i)
  exclusiveLess l r := Asym.exclusiveLess (T.view l) (T.view r)
  neLess l r := Asym.neLess (T.view l) (T.view r)
  lowerLess l r := Static.lowerLess (T.view l) (T.view r)
  upperLess l r := Static.upperLess (T.view l) (T.view r)
  lowerEqual l r := Static.lowerEqual (T.view l) (T.view r)
  upperEqual l r := Static.upperEqual (T.view l) (T.view r)
  touches l r := Asym.touches (T.view l) (T.view r)
  touchesC l r := some (Asym.touches (T.view l) (T.view r))
  hull := T.hull Asym.isEmpty
  leftSubtract := T.asymLeftSubtract
  rightSubtract := T.asymRightSubtract
  inter := T.inter Asym.isEmpty
  innerComplement := T.asymInnerComplement
  empty := T.default

/-- A class with `interval_bound_type` `static_left_open` -/
def leftOpenOps : IntervalOps D C where
  -- `contains` (is_continuous_left_open), concept/interval.hpp:866-872, see `ICL.leftOpenOps`
  contains i x := decide (T.lower i < x) && decide (x ≤ T.upper i)
  isEmpty i := Asym.isEmpty (T.view i)
  exclusiveLess l r := Asym.exclusiveLess (T.view l) (T.view r)
  neLess l r := Asym.neLess (T.view l) (T.view r)
  lowerLess l r := Static.lowerLess (T.view l) (T.view r)
  upperLess l r := Static.upperLess (T.view l) (T.view r)
  lowerEqual l r := Static.lowerEqual (T.view l) (T.view r)
  upperEqual l r := Static.upperEqual (T.view l) (T.view r)
  touches l r := Asym.touches (T.view l) (T.view r)
  touchesC l r := some (Asym.touches (T.view l) (T.view r))
  hull := T.hull Asym.isEmpty
  leftSubtract := T.asymLeftSubtract
  rightSubtract := T.asymRightSubtract
  inter := T.inter Asym.isEmpty
  innerComplement := T.asymInnerComplement
  empty := T.default

variable (s : Steps D)

/-- `left_subtract` of closed intervals, concept/interval.hpp:1178-1188 -/
def closedLeftSubtract (right leftMinuend : C) : C :=
  if Closed.exclusiveLess (T.view leftMinuend) (T.view right) then right
  else if Closed.upperLessEqual (T.view right) (T.view leftMinuend) then T.default
  else T.construct (s.nx (T.upper leftMinuend)) (T.upper right)
/-- `right_subtract` of closed intervals, concept/interval.hpp:1231-1241 -/
def closedRightSubtract (left rightMinuend : C) : C :=
  if Closed.exclusiveLess (T.view left) (T.view rightMinuend) then left
  else if Closed.lowerLessEqual (T.view rightMinuend) (T.view left) then T.default
  else T.construct (T.lower left) (s.pr (T.lower rightMinuend))
/-- `inner_complement` of closed intervals, concept/interval.hpp:1353-1365 -/
def closedInnerComplement (l r : C) : C :=
  if Closed.isEmpty (T.view l) || Closed.isEmpty (T.view r) then T.default
  else if Closed.exclusiveLess (T.view l) (T.view r) then T.construct (s.nx (T.upper l)) (s.pr (T.lower r))
  else if Closed.exclusiveLess (T.view r) (T.view l) then T.construct (s.nx (T.upper r)) (s.pr (T.lower l))
  else T.default

/-- A class with `interval_bound_type` `static_closed` over a discrete domain -/
def closedOps : IntervalOps D C where
  contains i x := decide (T.lower i ≤ x) && decide (x ≤ T.upper i)
  isEmpty i := Closed.isEmpty (T.view i)
  exclusiveLess l r := Closed.exclusiveLess (T.view l) (T.view r)
  neLess l r := Closed.neLess (T.view l) (T.view r)
  lowerLess l r := Static.lowerLess (T.view l) (T.view r)
  upperLess l r := Static.upperLess (T.view l) (T.view r)
  lowerEqual l r := Closed.lowerEqual (T.view l) (T.view r)
  upperEqual l r := Closed.upperEqual (T.view l) (T.view r)
  touches l r := Closed.touches s (T.view l) (T.view r)
  touchesC l r := Closed.touchesC s (T.view l) (T.view r)
  hull := T.hull Closed.isEmpty
  leftSubtract := T.closedLeftSubtract s
  rightSubtract := T.closedRightSubtract s
  inter := T.inter Closed.isEmpty
  innerComplement := T.closedInnerComplement s
  empty := T.default

/-- `left_subtract` of open intervals, concept/interval.hpp:1190-1198 -/
def openLeftSubtract (right leftMinuend : C) : C :=
  if Open.exclusiveLess s (T.view leftMinuend) (T.view right) then right
  else T.construct (s.pr (T.upper leftMinuend)) (T.upper right)
/-- `right_subtract` of open intervals, concept/interval.hpp:1243-1251 -/
def openRightSubtract (left rightMinuend : C) : C :=
  if Open.exclusiveLess s (T.view left) (T.view rightMinuend) then left
  else T.construct (T.lower left) (s.nx (T.lower rightMinuend))
/-- `inner_complement` of open intervals, concept/interval.hpp:1367-1379 -/
def openInnerComplement (l r : C) : C :=
  if Open.isEmpty s (T.view l) || Open.isEmpty s (T.view r) then T.default
  else if Open.exclusiveLess s (T.view l) (T.view r) then
    T.construct (Open.last s (T.view l)) (Open.first s (T.view r))
  else if Open.exclusiveLess s (T.view r) (T.view l) then
    T.construct (Open.last s (T.view r)) (Open.first s (T.view l))
  else T.default

/-- A class with `interval_bound_type` `static_open` over a discrete domain -/
def openOps : IntervalOps D C where
  contains i x := decide (T.lower i < x) && decide (x < T.upper i)
  isEmpty i := Open.isEmpty s (T.view i)
  exclusiveLess l r := Open.exclusiveLess s (T.view l) (T.view r)
  neLess l r := Open.neLess s (T.view l) (T.view r)
  lowerLess l r := Static.lowerLess (T.view l) (T.view r)
  upperLess l r := Static.upperLess (T.view l) (T.view r)
  lowerEqual l r := Open.lowerEqual s (T.view l) (T.view r)
  upperEqual l r := Open.upperEqual s (T.view l) (T.view r)
  touches l r := Open.touches s (T.view l) (T.view r)
  touchesC l r := Open.touchesC s (T.view l) (T.view r)
  hull := T.hull (Open.isEmpty s)
  leftSubtract := T.openLeftSubtract s
  rightSubtract := T.openRightSubtract s
  inter := T.inter (Open.isEmpty s)
  innerComplement := T.openInnerComplement s
  empty := T.default

end Traits

/-! ## Classes with the same functions -/

/-- `v` carries the functions of one interval class over to those of another one: the comparisons are the same, and
the results hold the same elements. -/
structure Sim {D C I : Type} (oc : IntervalOps D C) (o : IntervalOps D I) (v : C → I) : Prop where
  contains : ∀ i x, oc.contains i x = o.contains (v i) x
  isEmpty : ∀ i, oc.isEmpty i = o.isEmpty (v i)
  exclusiveLess : ∀ i j, oc.exclusiveLess i j = o.exclusiveLess (v i) (v j)
  neLess : ∀ i j, oc.neLess i j = o.neLess (v i) (v j)
  lowerLess : ∀ i j, oc.lowerLess i j = o.lowerLess (v i) (v j)
  upperLess : ∀ i j, oc.upperLess i j = o.upperLess (v i) (v j)
  lowerEqual : ∀ i j, oc.lowerEqual i j = o.lowerEqual (v i) (v j)
  upperEqual : ∀ i j, oc.upperEqual i j = o.upperEqual (v i) (v j)
  touches : ∀ i j, oc.touches i j = o.touches (v i) (v j)
  touchesC : ∀ i j, oc.touchesC i j = o.touchesC (v i) (v j)
  hull : ∀ i j x, oc.contains (oc.hull i j) x = o.contains (o.hull (v i) (v j)) x
  leftSubtract : ∀ i j x, oc.contains (oc.leftSubtract i j) x = o.contains (o.leftSubtract (v i) (v j)) x
  rightSubtract : ∀ i j x, oc.contains (oc.rightSubtract i j) x = o.contains (o.rightSubtract (v i) (v j)) x
  inter : ∀ i j x, oc.contains (oc.inter i j) x = o.contains (o.inter (v i) (v j)) x
  innerComplement : ∀ i j x, oc.contains (oc.innerComplement i j) x = o.contains (o.innerComplement (v i) (v j)) x
  empty : ∀ x, oc.contains oc.empty x = false

namespace Sim
variable {D C I : Type} {oc : IntervalOps D C} {o : IntervalOps D I} {v : C → I}

theorem mem (h : Sim oc o v) (i : C) (x : D) : oc.Mem x i ↔ o.Mem x (v i) := by
  rw [IntervalOps.Mem, h.contains, IntervalOps.Mem]

theorem containsI (h : Sim oc o v) (i j : C) : oc.containsI i j = o.containsI (v i) (v j) := by
  simp only [IntervalOps.containsI, IntervalOps.lowerLessEqual, IntervalOps.upperLessEqual, h.isEmpty, h.lowerLess,
    h.upperLess, h.lowerEqual, h.upperEqual]

theorem eq (h : Sim oc o v) (i j : C) : oc.eq i j = o.eq (v i) (v j) := by
  simp only [IntervalOps.eq, h.isEmpty, h.lowerEqual, h.upperEqual]

variable [LinearOrder D]

omit [LinearOrder D] in
theorem nonempty (h : Sim oc o v) (i : C) : oc.Nonempty i ↔ o.Nonempty (v i) := by
  simp only [IntervalOps.Nonempty, h.mem]

theorem before (h : Sim oc o v) (i j : C) : oc.Before i j ↔ o.Before (v i) (v j) := by
  simp only [IntervalOps.Before, h.mem]

theorem lawful (h : Sim oc o v) (ho : o.Lawful) : oc.Lawful where
  isEmpty_iff i := by rw [h.isEmpty, ho.isEmpty_iff]; simp only [h.mem]
  convex i x y z := by simp only [h.mem]; exact ho.convex _ x y z
  exclusiveLess_iff i j := by rw [h.exclusiveLess, ho.exclusiveLess_iff, h.before]
  neLess_iff i j h1 h2 := by
    rw [h.neLess, ho.neLess_iff _ _ ((h.nonempty i).1 h1) ((h.nonempty j).1 h2), h.before]
  lowerLess_iff i j h1 h2 := by
    rw [h.lowerLess, ho.lowerLess_iff _ _ ((h.nonempty i).1 h1) ((h.nonempty j).1 h2)]; simp only [h.mem]
  upperLess_iff i j h1 h2 := by
    rw [h.upperLess, ho.upperLess_iff _ _ ((h.nonempty i).1 h1) ((h.nonempty j).1 h2)]; simp only [h.mem]
  lowerEqual_iff i j h1 h2 := by
    rw [h.lowerEqual, ho.lowerEqual_iff _ _ ((h.nonempty i).1 h1) ((h.nonempty j).1 h2), h.lowerLess, h.lowerLess]
  upperEqual_iff i j h1 h2 := by
    rw [h.upperEqual, ho.upperEqual_iff _ _ ((h.nonempty i).1 h1) ((h.nonempty j).1 h2), h.upperLess, h.upperLess]
  containsI_iff i j h1 := by rw [h.containsI, ho.containsI_iff _ _ ((h.nonempty i).1 h1)]; simp only [h.mem]
  eq_iff i j h1 h2 := by
    rw [h.eq, ho.eq_iff _ _ ((h.nonempty i).1 h1) ((h.nonempty j).1 h2)]; simp only [h.mem]
  touches_below i j h1 h2 h3 := by
    simp only [h.mem] at h3
    rw [h.touches, ho.touches_below _ _ ((h.nonempty i).1 h1) ((h.nonempty j).1 h2) h3, h.before]
    simp only [h.mem]
  touchesC_eq i j h1 h2 h3 := by
    simp only [h.mem] at h3
    rw [h.touches, h.touchesC, ho.touchesC_eq _ _ ((h.nonempty i).1 h1) ((h.nonempty j).1 h2) h3]
  mem_hull i j x := by
    rw [IntervalOps.Mem, h.hull]; simp only [h.mem]; exact ho.mem_hull _ _ x
  mem_leftSubtract i j x := by
    rw [IntervalOps.Mem, h.leftSubtract]; simp only [h.mem]; exact ho.mem_leftSubtract _ _ x
  mem_rightSubtract i j x := by
    rw [IntervalOps.Mem, h.rightSubtract]; simp only [h.mem]; exact ho.mem_rightSubtract _ _ x
  mem_inter i j x := by
    rw [IntervalOps.Mem, h.inter]; simp only [h.mem]; exact ho.mem_inter _ _ x
  mem_innerComplement i j x := by
    rw [IntervalOps.Mem, h.innerComplement]; simp only [h.mem, h.nonempty]; exact ho.mem_innerComplement _ _ x
  not_mem_empty x := by rw [IntervalOps.Mem, h.empty]; exact Bool.false_ne_true

theorem fully (h : Sim oc o v) (ho : o.FullyLawful) : oc.FullyLawful where
  toLawful := h.lawful ho.toLawful
  containsI_full i j := by rw [h.containsI, ho.containsI_full]; simp only [h.mem]
  eq_full i j := by rw [h.eq, ho.eq_full]; simp only [h.mem]
  touches_full i j h1 h2 := by
    rw [h.touches, ho.touches_full _ _ ((h.nonempty i).1 h1) ((h.nonempty j).1 h2), h.before]; simp only [h.mem]

end Sim

/-! ## The classes of users -/

/-- The class of a user with the traits `T`, and the class of the library with the same bound type.
`zero` and `unit` are parameters of the class of the library only. -/
inductive CustomClass {D C : Type} [LinearOrder D] (T : Traits D C) :
    IntervalOps D (SItv D) → IntervalOps D C → Prop
  | rightOpen (zero : D) : CustomClass T (rightOpenOps zero) T.rightOpenOps
  | leftOpen (zero : D) : CustomClass T (leftOpenOps zero) T.leftOpenOps
  | closed (s : Steps D) (zero unit : D) (hu : zero < unit) : CustomClass T (closedOps s zero unit) (T.closedOps s)
  | opn (s : Steps D) (zero : D) : CustomClass T (openOps s zero) (T.openOps s)

section
variable {D C : Type} [LinearOrder D] {T : Traits D C} {o : IntervalOps D (SItv D)} {oc : IntervalOps D C}

theorem contains_eq_false {D I : Type} [LinearOrder D] {o : IntervalOps D I} (ho : o.Lawful) {i : I}
    (h : o.isEmpty i = true) (x : D) : o.contains i x = false := by
  rw [← Bool.not_eq_true]
  exact (ho.isEmpty_iff i).1 h x

theorem Traits.Lawful.contains_construct (hT : T.Lawful o.isEmpty) (ho : o.Lawful) (a b x : D) :
    o.contains (T.view (T.construct a b)) x = o.contains ⟨a, b⟩ x := by
  cases he : o.isEmpty ⟨a, b⟩ with
  | false => rw [hT.bounds a b he]
  | true => rw [contains_eq_false ho he, contains_eq_false ho (hT.empties a b he)]

theorem Traits.Lawful.contains_default (hT : T.Lawful o.isEmpty) (ho : o.Lawful) (x : D) :
    o.contains (T.view T.default) x = o.contains o.empty x := by
  rw [contains_eq_false ho hT.default]
  exact (Bool.eq_false_iff.2 (ho.not_mem_empty x)).symm

theorem CustomClass.base (h : CustomClass T o oc) : o.Lawful := by
  cases h with
  | rightOpen zero => exact (rightOpen_fully zero).toLawful
  | leftOpen zero => exact (leftOpen_fully zero).toLawful
  | closed s zero unit hu => exact closed_lawful s zero unit hu
  | opn s zero => exact open_lawful s zero

theorem rightOpen_sim (zero : D) (hT : T.Lawful (rightOpenOps zero).isEmpty) :
    Sim (T.rightOpenOps) (rightOpenOps zero) T.view := by
  have ho := (CustomClass.rightOpen (T := T) zero).base
  have hc := hT.contains_construct ho
  have hd := hT.contains_default ho
  refine ⟨fun _ _ => rfl, fun _ => rfl, fun _ _ => rfl, fun _ _ => rfl, fun _ _ => rfl, fun _ _ => rfl, fun _ _ => rfl,
    fun _ _ => rfl, fun _ _ => rfl, fun _ _ => rfl, fun i j x => ?_, fun i j x => ?_, fun i j x => ?_,
    fun i j x => ?_, fun i j x => ?_, fun x => contains_eq_false ho hT.default x⟩
  · change (rightOpenOps zero).contains (T.view (T.hull Asym.isEmpty i j)) x = (rightOpenOps zero).contains (Static.hull Asym.isEmpty (T.view i) (T.view j)) x
    unfold Traits.hull Static.hull
    split_ifs <;> first | rfl | exact hc _ _ x | exact hd x
  · change (rightOpenOps zero).contains (T.view (T.asymLeftSubtract i j)) x = (rightOpenOps zero).contains (Asym.leftSubtract (T.view i) (T.view j)) x
    unfold Traits.asymLeftSubtract Asym.leftSubtract
    split_ifs <;> first | rfl | exact hc _ _ x | exact hd x
  · change (rightOpenOps zero).contains (T.view (T.asymRightSubtract i j)) x = (rightOpenOps zero).contains (Asym.rightSubtract (T.view i) (T.view j)) x
    unfold Traits.asymRightSubtract Asym.rightSubtract
    split_ifs <;> first | rfl | exact hc _ _ x | exact hd x
  · change (rightOpenOps zero).contains (T.view (T.inter Asym.isEmpty i j)) x = (rightOpenOps zero).contains (Asym.inter zero (T.view i) (T.view j)) x
    unfold Traits.inter Asym.inter
    split_ifs <;> first | rfl | exact hc _ _ x | exact hd x
  · change (rightOpenOps zero).contains (T.view (T.asymInnerComplement i j)) x = (rightOpenOps zero).contains (Asym.innerComplement zero (T.view i) (T.view j)) x
    unfold Traits.asymInnerComplement Asym.innerComplement
    split_ifs <;> first | rfl | exact hc _ _ x | exact hd x

theorem leftOpen_sim (zero : D) (hT : T.Lawful (leftOpenOps zero).isEmpty) :
    Sim (T.leftOpenOps) (leftOpenOps zero) T.view := by
  have ho := (CustomClass.leftOpen (T := T) zero).base
  have hc := hT.contains_construct ho
  have hd := hT.contains_default ho
  refine ⟨fun _ _ => rfl, fun _ => rfl, fun _ _ => rfl, fun _ _ => rfl, fun _ _ => rfl, fun _ _ => rfl, fun _ _ => rfl,
    fun _ _ => rfl, fun _ _ => rfl, fun _ _ => rfl, fun i j x => ?_, fun i j x => ?_, fun i j x => ?_,
    fun i j x => ?_, fun i j x => ?_, fun x => contains_eq_false ho hT.default x⟩
  · change (leftOpenOps zero).contains (T.view (T.hull Asym.isEmpty i j)) x = (leftOpenOps zero).contains (Static.hull Asym.isEmpty (T.view i) (T.view j)) x
    unfold Traits.hull Static.hull
    split_ifs <;> first | rfl | exact hc _ _ x | exact hd x
  · change (leftOpenOps zero).contains (T.view (T.asymLeftSubtract i j)) x = (leftOpenOps zero).contains (Asym.leftSubtract (T.view i) (T.view j)) x
    unfold Traits.asymLeftSubtract Asym.leftSubtract
    split_ifs <;> first | rfl | exact hc _ _ x | exact hd x
  · change (leftOpenOps zero).contains (T.view (T.asymRightSubtract i j)) x = (leftOpenOps zero).contains (Asym.rightSubtract (T.view i) (T.view j)) x
    unfold Traits.asymRightSubtract Asym.rightSubtract
    split_ifs <;> first | rfl | exact hc _ _ x | exact hd x
  · change (leftOpenOps zero).contains (T.view (T.inter Asym.isEmpty i j)) x = (leftOpenOps zero).contains (Asym.inter zero (T.view i) (T.view j)) x
    unfold Traits.inter Asym.inter
    split_ifs <;> first | rfl | exact hc _ _ x | exact hd x
  · change (leftOpenOps zero).contains (T.view (T.asymInnerComplement i j)) x = (leftOpenOps zero).contains (Asym.innerComplement zero (T.view i) (T.view j)) x
    unfold Traits.asymInnerComplement Asym.innerComplement
    split_ifs <;> first | rfl | exact hc _ _ x | exact hd x

theorem closed_sim (s : Steps D) (zero unit : D) (hu : zero < unit)
    (hT : T.Lawful (closedOps s zero unit).isEmpty) :
    Sim (T.closedOps s) (closedOps s zero unit) T.view := by
  have ho := (CustomClass.closed (T := T) s zero unit hu).base
  have hc := hT.contains_construct ho
  have hd := hT.contains_default ho
  refine ⟨fun _ _ => rfl, fun _ => rfl, fun _ _ => rfl, fun _ _ => rfl, fun _ _ => rfl, fun _ _ => rfl, fun _ _ => rfl,
    fun _ _ => rfl, fun _ _ => rfl, fun _ _ => rfl, fun i j x => ?_, fun i j x => ?_, fun i j x => ?_,
    fun i j x => ?_, fun i j x => ?_, fun x => contains_eq_false ho hT.default x⟩
  · change (closedOps s zero unit).contains (T.view (T.hull Closed.isEmpty i j)) x = (closedOps s zero unit).contains (Static.hull Closed.isEmpty (T.view i) (T.view j)) x
    unfold Traits.hull Static.hull
    split_ifs <;> first | rfl | exact hc _ _ x | exact hd x
  · change (closedOps s zero unit).contains (T.view (T.closedLeftSubtract s i j)) x = (closedOps s zero unit).contains (Closed.leftSubtract s zero unit (T.view i) (T.view j)) x
    unfold Traits.closedLeftSubtract Closed.leftSubtract
    split_ifs <;> first | rfl | exact hc _ _ x | exact hd x
  · change (closedOps s zero unit).contains (T.view (T.closedRightSubtract s i j)) x = (closedOps s zero unit).contains (Closed.rightSubtract s zero unit (T.view i) (T.view j)) x
    unfold Traits.closedRightSubtract Closed.rightSubtract
    split_ifs <;> first | rfl | exact hc _ _ x | exact hd x
  · change (closedOps s zero unit).contains (T.view (T.inter Closed.isEmpty i j)) x = (closedOps s zero unit).contains (Closed.inter zero unit (T.view i) (T.view j)) x
    unfold Traits.inter Closed.inter
    split_ifs <;> first | rfl | exact hc _ _ x | exact hd x
  · change (closedOps s zero unit).contains (T.view (T.closedInnerComplement s i j)) x = (closedOps s zero unit).contains (Closed.innerComplement s zero unit (T.view i) (T.view j)) x
    unfold Traits.closedInnerComplement Closed.innerComplement
    split_ifs <;> first | rfl | exact hc _ _ x | exact hd x

theorem open_sim (s : Steps D) (zero : D) (hT : T.Lawful (openOps s zero).isEmpty) :
    Sim (T.openOps s) (openOps s zero) T.view := by
  have ho := (CustomClass.opn (T := T) s zero).base
  have hc := hT.contains_construct ho
  have hd := hT.contains_default ho
  refine ⟨fun _ _ => rfl, fun _ => rfl, fun _ _ => rfl, fun _ _ => rfl, fun _ _ => rfl, fun _ _ => rfl, fun _ _ => rfl,
    fun _ _ => rfl, fun _ _ => rfl, fun _ _ => rfl, fun i j x => ?_, fun i j x => ?_, fun i j x => ?_,
    fun i j x => ?_, fun i j x => ?_, fun x => contains_eq_false ho hT.default x⟩
  · change (openOps s zero).contains (T.view (T.hull (Open.isEmpty s) i j)) x = (openOps s zero).contains (Static.hull (Open.isEmpty s) (T.view i) (T.view j)) x
    unfold Traits.hull Static.hull
    split_ifs <;> first | rfl | exact hc _ _ x | exact hd x
  · change (openOps s zero).contains (T.view (T.openLeftSubtract s i j)) x = (openOps s zero).contains (Open.leftSubtract s (T.view i) (T.view j)) x
    unfold Traits.openLeftSubtract Open.leftSubtract
    split_ifs <;> first | rfl | exact hc _ _ x | exact hd x
  · change (openOps s zero).contains (T.view (T.openRightSubtract s i j)) x = (openOps s zero).contains (Open.rightSubtract s (T.view i) (T.view j)) x
    unfold Traits.openRightSubtract Open.rightSubtract
    split_ifs <;> first | rfl | exact hc _ _ x | exact hd x
  · change (openOps s zero).contains (T.view (T.inter (Open.isEmpty s) i j)) x = (openOps s zero).contains (Open.inter s zero (T.view i) (T.view j)) x
    unfold Traits.inter Open.inter
    split_ifs <;> first | rfl | exact hc _ _ x | exact hd x
  · change (openOps s zero).contains (T.view (T.openInnerComplement s i j)) x = (openOps s zero).contains (Open.innerComplement s zero (T.view i) (T.view j)) x
    unfold Traits.openInnerComplement Open.innerComplement
    split_ifs <;> first | rfl | exact hc _ _ x | exact hd x

theorem CustomClass.sim (h : CustomClass T o oc) (hT : T.Lawful o.isEmpty) : Sim oc o T.view := by
  cases h with
  | rightOpen zero => exact rightOpen_sim zero hT
  | leftOpen zero => exact leftOpen_sim zero hT
  | closed s zero unit hu => exact closed_sim s zero unit hu hT
  | opn s zero => exact open_sim s zero hT

theorem CustomClass.lawful (h : CustomClass T o oc) (hT : T.Lawful o.isEmpty) : oc.Lawful :=
  (h.sim hT).lawful h.base

theorem CustomClass.fully [NoMaxOrder D] [NoMinOrder D] (h : CustomClass T o oc) (hT : T.Lawful o.isEmpty) :
    oc.FullyLawful := by
  refine (h.sim hT).fully ?_
  cases h with
  | rightOpen zero => exact rightOpen_fully zero
  | leftOpen zero => exact leftOpen_fully zero
  | closed s zero unit hu => exact closed_fully s zero unit hu
  | opn s zero => exact open_fully s zero

/-- The elements of a constructed object. -/
theorem CustomClass.mem_make (h : CustomClass T o oc) (hT : T.Lawful o.isEmpty) (i : SItv D) (x : D) :
    oc.Mem x (T.make i) ↔ o.Mem x i := by
  rw [(h.sim hT).mem, IntervalOps.Mem, IntervalOps.Mem, Traits.make, hT.contains_construct h.base]

theorem CustomClass.isEmpty_make (h : CustomClass T o oc) (hT : T.Lawful o.isEmpty) (i : SItv D) :
    oc.isEmpty (T.make i) = o.isEmpty i := by
  rw [(h.sim hT).isEmpty, Traits.make]
  cases he : o.isEmpty i with
  | false => rw [hT.bounds _ _ he]; exact he
  | true => exact hT.empties _ _ he

end
end ICL
