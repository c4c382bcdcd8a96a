import Mathlib.Order.Defs.LinearOrder

/-!
# The interface between intervals and containers

`IntervalOps D I` collects the functions of `include/boost/icl/concept/interval.hpp` that are
called by the interval containers, for one interval class `I` over one domain type `D`.
`Lawful` describes these functions by element membership (`contains(interval, element)`) only.
Every interval class of the library is given as an instance of `IntervalOps` in `Verif/Kinds`,
and proved lawful there.
-/

namespace ICL

/-- The functions on intervals (all from `concept/interval.hpp`). -/
structure IntervalOps (D I : Type) where
  /-- `contains(interval, element)`, concept/interval.hpp:858-894 -/
  contains : I → D → Bool
  /-- `is_empty`, concept/interval.hpp:550-592 -/
  isEmpty : I → Bool
  /-- `exclusive_less`, concept/interval.hpp:600-633 -/
  exclusiveLess : I → I → Bool
  /-- `non_empty::exclusive_less` without its assertion that both operands are
  non-empty, concept/interval.hpp:806-841; the comparator of all interval containers
  (detail/exclusive_less_than.hpp). -/
  neLess : I → I → Bool
  /-- `lower_less`, concept/interval.hpp:637-659 -/
  lowerLess : I → I → Bool
  /-- `upper_less`, concept/interval.hpp:663-685 -/
  upperLess : I → I → Bool
  /-- `lower_equal`, concept/interval.hpp:725-752 -/
  lowerEqual : I → I → Bool
  /-- `upper_equal`, concept/interval.hpp:756-783 -/
  upperEqual : I → I → Bool
  /-- `touches`, concept/interval.hpp:961-988 -/
  touches : I → I → Bool
  /-- `touches` again, as the containers call it: `none` if `++` or `--` leaves the range of a machine
  type or trips the assertion of `last`, concept/interval.hpp:426-456 -/
  touchesC : I → I → Option Bool
  /-- `hull` of two intervals, concept/interval.hpp:1120-1153 -/
  hull : I → I → I
  /-- `left_subtract(right, left_minuend)`, concept/interval.hpp:1168-1208 -/
  leftSubtract : I → I → I
  /-- `right_subtract(left, right_minuend)`, concept/interval.hpp:1221-1261 -/
  rightSubtract : I → I → I
  /-- `operator &`, concept/interval.hpp:1268-1314 -/
  inter : I → I → I
  /-- `inner_complement` = `between`, concept/interval.hpp:1339-1400 -/
  innerComplement : I → I → I
  /-- `identity_element<Type>::value()`, the default constructed interval -/
  empty : I

namespace IntervalOps
variable {D I : Type} (o : IntervalOps D I)

/-- `lower_less_equal`, concept/interval.hpp:786-791 -/
def lowerLessEqual (l r : I) : Bool := o.lowerLess l r || o.lowerEqual l r
/-- `upper_less_equal`, concept/interval.hpp:793-798 -/
def upperLessEqual (l r : I) : Bool := o.upperLess l r || o.upperEqual l r
/-- `contains(interval, interval)`, concept/interval.hpp:843-856 -/
def containsI (super sub : I) : Bool :=
  o.isEmpty sub || (o.lowerLessEqual super sub && o.upperLessEqual sub super)
/-- `within(interval, interval)`, concept/interval.hpp:897-902 -/
def withinI (sub super : I) : Bool := o.containsI super sub
/-- `operator ==`, concept/interval.hpp:905-911 -/
def eq (l r : I) : Bool :=
  (o.isEmpty l && o.isEmpty r) || (o.lowerEqual l r && o.upperEqual l r)
/-- `operator <`, concept/interval.hpp:921-928 -/
def less (l r : I) : Bool :=
  (!o.isEmpty l && !o.isEmpty r)
    && (o.lowerLess l r || (o.lowerEqual l r && o.upperLess l r))
/-- `operator >`, concept/interval.hpp:930-935 -/
def greater (l r : I) : Bool := o.less r l
/-- `operator <=`, concept/interval.hpp:938-946 -/
def lessEq (l r : I) : Bool :=
  if o.isEmpty l || o.isEmpty r then false else !(o.greater l r)
/-- `operator >=`, concept/interval.hpp:948-956 -/
def greaterEq (l r : I) : Bool :=
  if o.isEmpty l || o.isEmpty r then false else !(o.less l r)
/-- `intersects(interval, interval)`, concept/interval.hpp:1318-1324 -/
def intersectsI (l r : I) : Bool :=
  !(o.isEmpty l || o.isEmpty r || o.exclusiveLess l r || o.exclusiveLess r l)
/-- `disjoint(interval, interval)`, concept/interval.hpp:1327-1333 -/
def disjointI (l r : I) : Bool :=
  o.isEmpty l || o.isEmpty r || o.exclusiveLess l r || o.exclusiveLess r l

/-- Specification vocabulary: `x` is an element of interval `i`. -/
def Mem (x : D) (i : I) : Prop := o.contains i x = true

variable [LinearOrder D]

/-- Specification vocabulary: every element of `i` is less than every element of `j`. -/
def Before (i j : I) : Prop := ∀ x y, o.Mem x i → o.Mem y j → x < y

/-- Specification vocabulary: `i` has an element. -/
def Nonempty (i : I) : Prop := ∃ x, o.Mem x i

/-- Specification of an interval class by element membership only: what the containers rely on.  It does not
say more than that about operands that the containers do not use, because over machine integers
the functions go wrong there (see `Props/Machine.lean`): comparisons of empty intervals,
and `touches` of an interval that contains the largest value. -/
structure Lawful : Prop where
  isEmpty_iff : ∀ i, o.isEmpty i = true ↔ ∀ x, ¬ o.Mem x i
  convex : ∀ i x y z, o.Mem x i → o.Mem z i → x ≤ y → y ≤ z → o.Mem y i
  exclusiveLess_iff : ∀ i j, o.exclusiveLess i j = true ↔ o.Before i j
  neLess_iff : ∀ i j, o.Nonempty i → o.Nonempty j → (o.neLess i j = true ↔ o.Before i j)
  lowerLess_iff : ∀ i j, o.Nonempty i → o.Nonempty j →
    (o.lowerLess i j = true ↔ ∃ x, o.Mem x i ∧ ∀ y, o.Mem y j → x < y)
  upperLess_iff : ∀ i j, o.Nonempty i → o.Nonempty j →
    (o.upperLess i j = true ↔ ∃ y, o.Mem y j ∧ ∀ x, o.Mem x i → x < y)
  lowerEqual_iff : ∀ i j, o.Nonempty i → o.Nonempty j →
    (o.lowerEqual i j = true ↔ o.lowerLess i j = false ∧ o.lowerLess j i = false)
  upperEqual_iff : ∀ i j, o.Nonempty i → o.Nonempty j →
    (o.upperEqual i j = true ↔ o.upperLess i j = false ∧ o.upperLess j i = false)
  containsI_iff : ∀ i j, o.Nonempty i → (o.containsI i j = true ↔ ∀ x, o.Mem x j → o.Mem x i)
  eq_iff : ∀ i j, o.Nonempty i → o.Nonempty j →
    (o.eq i j = true ↔ ∀ x, o.Mem x i ↔ o.Mem x j)
  touches_below : ∀ i j, o.Nonempty i → o.Nonempty j → (∃ z, ∀ x, o.Mem x i → x < z) →
    (o.touches i j = true ↔ o.Before i j ∧
      ¬ ∃ z, (∀ x, o.Mem x i → x < z) ∧ (∀ y, o.Mem y j → z < y))
  touchesC_eq : ∀ i j, o.Nonempty i → o.Nonempty j → (∃ z, ∀ x, o.Mem x i → x < z) →
    o.touchesC i j = some (o.touches i j)
  mem_hull : ∀ i j x, o.Mem x (o.hull i j) ↔
    ∃ a b, (o.Mem a i ∨ o.Mem a j) ∧ (o.Mem b i ∨ o.Mem b j) ∧ a ≤ x ∧ x ≤ b
  mem_leftSubtract : ∀ i j x, o.Mem x (o.leftSubtract i j) ↔
    o.Mem x i ∧ ∀ y, o.Mem y j → y < x
  mem_rightSubtract : ∀ i j x, o.Mem x (o.rightSubtract i j) ↔
    o.Mem x i ∧ ∀ y, o.Mem y j → x < y
  mem_inter : ∀ i j x, o.Mem x (o.inter i j) ↔ o.Mem x i ∧ o.Mem x j
  mem_innerComplement : ∀ i j x, o.Mem x (o.innerComplement i j) ↔
    o.Nonempty i ∧ o.Nonempty j ∧
      (((∀ a, o.Mem a i → a < x) ∧ (∀ b, o.Mem b j → x < b)) ∨
       ((∀ b, o.Mem b j → b < x) ∧ (∀ a, o.Mem a i → x < a)))
  not_mem_empty : ∀ x, ¬ o.Mem x o.empty

/-- `touches` of an interval and a later one -/
theorem Lawful.touches_iff {o : IntervalOps D I} (h : o.Lawful) (i j : I) (hi : o.Nonempty i)
    (hj : o.Nonempty j) (hb : o.Before i j) :
    o.touches i j = true ↔ ¬ ∃ z, (∀ x, o.Mem x i → x < z) ∧ (∀ y, o.Mem y j → z < y) := by
  have hz : ∃ z, ∀ x, o.Mem x i → x < z := by
    obtain ⟨z, hz⟩ := hj
    exact ⟨z, fun x hx => hb x z hx hz⟩
  rw [h.touches_below i j hi hj hz]
  exact ⟨fun h => h.2, fun h => ⟨hb, h⟩⟩

/-- `touches` of an interval and a later one does not leave the range of the domain type. -/
theorem Lawful.touchesC_before {o : IntervalOps D I} (h : o.Lawful) (i j : I) (hi : o.Nonempty i)
    (hj : o.Nonempty j) (hb : o.Before i j) : o.touchesC i j = some (o.touches i j) := by
  obtain ⟨z, hz⟩ := hj
  exact h.touchesC_eq i j hi ⟨z, hz⟩ ⟨z, fun x hx => hb x z hx hz⟩

/-- The interval functions are right for all operands: this holds if no value of the domain is the
largest or the smallest one. -/
structure FullyLawful : Prop extends Lawful o where
  containsI_full : ∀ i j, o.containsI i j = true ↔ ∀ x, o.Mem x j → o.Mem x i
  eq_full : ∀ i j, o.eq i j = true ↔ ∀ x, o.Mem x i ↔ o.Mem x j
  touches_full : ∀ i j, o.Nonempty i → o.Nonempty j →
    (o.touches i j = true ↔ o.Before i j ∧
      ¬ ∃ z, (∀ x, o.Mem x i → x < z) ∧ (∀ y, o.Mem y j → z < y))

end IntervalOps
end ICL
