import Verif.Model.Observers

/-!
# Element references

What dereferencing an element iterator of an interval map gives: a `mapped_reference`, that holds references to a key
and to an associated value. The value is the one in the container. The key does not exist there, an interval does. It is
the member `_inter_pos` of the iterator that the reference refers to.
-/

set_option linter.unusedSectionVars false

namespace ICL.ElemRef

/-! ## Comparing -/

/-- `==`, `<` and `>` of a type -/
structure Cmp (α : Type) where
  eq : α → α → Bool
  lt : α → α → Bool
  gt : α → α → Bool

/-- The operators of a type with a total order -/
def Cmp.ofOrder (α : Type) [LinearOrder α] : Cmp α where
  eq a b := decide (a = b)
  lt a b := decide (a < b)
  gt a b := decide (b < a)

/-- The six operators -/
inductive CmpOp
  | eq | ne | lt | gt | le | ge
  deriving DecidableEq, Repr

section
variable {K V : Type} (k : Cmp K) (v : Cmp V)

/-! The left operand is a `mapped_reference`, the right one a `mapped_reference` or a `std::pair`. -/

/-- `operator ==`, detail/mapped_reference.hpp:89-92 -/
def refEq (left right : K × V) : Bool := k.eq left.1 right.1 && v.eq left.2 right.2
/-- `operator !=`, detail/mapped_reference.hpp:94-97 -/
def refNe (left right : K × V) : Bool := !refEq k v left right
/-- `operator <`, detail/mapped_reference.hpp:99-105 -/
def refLt (left right : K × V) : Bool := k.lt left.1 right.1 || (!k.lt right.1 left.1 && v.lt left.2 right.2)
/-- `operator >`, detail/mapped_reference.hpp:107-113 -/
def refGt (left right : K × V) : Bool := k.gt left.1 right.1 || (!k.gt right.1 left.1 && v.gt left.2 right.2)
/-- `operator <=`, detail/mapped_reference.hpp:115-120 -/
def refLe (left right : K × V) : Bool := !refGt k v left right
/-- `operator >=`, detail/mapped_reference.hpp:122-127 -/
def refGe (left right : K × V) : Bool := !refLt k v left right

/-! The left operand is a `std::pair`, the right one a `mapped_reference`. -/

/-- `operator ==`, detail/mapped_reference.hpp:132-138 -/
def pairEq (left right : K × V) : Bool := refEq k v right left
/-- `operator !=`, detail/mapped_reference.hpp:140-146 -/
def pairNe (left right : K × V) : Bool := !refEq k v right left
/-- `operator <`, detail/mapped_reference.hpp:149-155 -/
def pairLt (left right : K × V) : Bool := refGt k v right left
/-- `operator >`, detail/mapped_reference.hpp:158-164 -/
def pairGt (left right : K × V) : Bool := refLt k v right left
/-- `operator <=`, detail/mapped_reference.hpp:167-173 -/
def pairLe (left right : K × V) : Bool := !refLt k v right left
/-- `operator >=`, detail/mapped_reference.hpp:176-182 -/
def pairGe (left right : K × V) : Bool := !pairLt k v left right

/-- What the operands are: the operators of two `std::pair`s are not part of the library. -/
inductive Operands
  | refRef | refPair | pairRef
  deriving DecidableEq, Repr

/-- The operator that overload resolution finds, detail/mapped_reference.hpp:21-55 and 89-182 -/
def apply : Operands → CmpOp → K × V → K × V → Bool
  | .refRef, .eq | .refPair, .eq => refEq k v
  | .refRef, .ne | .refPair, .ne => refNe k v
  | .refRef, .lt | .refPair, .lt => refLt k v
  | .refRef, .gt | .refPair, .gt => refGt k v
  | .refRef, .le | .refPair, .le => refLe k v
  | .refRef, .ge | .refPair, .ge => refGe k v
  | .pairRef, .eq => pairEq k v
  | .pairRef, .ne => pairNe k v
  | .pairRef, .lt => pairLt k v
  | .pairRef, .gt => pairGt k v
  | .pairRef, .le => pairLe k v
  | .pairRef, .ge => pairGe k v
end

/-! ## The life of references -/

/-- An object of type `element_iterator`: its position (`_saltator` and `_reptator`), and `_inter_pos`, that has no
value before the iterator is dereferenced.  detail/element_iterator.hpp:322-326 -/
structure Cell where
  pos : ElemIt
  inter : Option ℤ
  deriving DecidableEq

/-- A `mapped_reference` made by an element iterator: the object whose `_inter_pos` its `first` refers to, and the value
that its `second` refers to, which is in the container.  detail/mapped_reference.hpp:77-80 -/
structure Ref (V : Type) where
  cell : Nat
  val : V
  deriving DecidableEq

/-- The iterators of a program, in the order in which they are made; `none` if the object is destroyed. -/
abbrev Mem := List (Option Cell)

/-- What a program does with element iterators while the map stays as it is. -/
inductive Cmd
  /-- a new iterator `elements_begin(m)`, for a reverse iterator `elements_rbegin(m)` -/
  | first
  /-- a new iterator `elements_end(m)`, for a reverse iterator `elements_rend(m)` -/
  | last
  /-- a new iterator that is a copy -/
  | copy (i : Nat)
  /-- a new iterator that is made by conversion, as from `element_iterator` to `element_const_iterator` -/
  | convert (i : Nat)
  /-- `i = j` -/
  | assign (i j : Nat)
  /-- `++i` -/
  | incr (i : Nat)
  /-- `--i` -/
  | decr (i : Nat)
  /-- `*i`, the result being used or not -/
  | deref (i : Nat)
  /-- the object ceases to exist -/
  | destroy (i : Nat)
  deriving DecidableEq

section
variable {I V : Type} (o : IntervalOps ℤ I) (e : ElementOps ℤ I)

/-- Forward or reverse iterators: the sequence of segments, and the element at an offset. -/
structure Dir (I V : Type) where
  segs : List (I × V)
  elem : I × V → ℤ → ℤ × V

/-- `element_iterator`s of `m` -/
def Dir.forward (m : List (I × V)) : Dir I V := ⟨m, ElemIt.fwd e mapSeg⟩
/-- `element_reverse_iterator`s of `m` -/
def Dir.reverse (m : List (I × V)) : Dir I V := ⟨m.reverse, ElemIt.bwd e mapSeg⟩

/-- The iterator with the number `i`, if it exists -/
def cell (M : Mem) (i : Nat) : Option Cell := (M[i]?).join

/-- `*i`: `_inter_pos` of the iterator is set, and the result refers to it. detail/element_iterator.hpp:231-237 and
317-320 -/
def deref (d : Dir I V) (i : Nat) (M : Mem) : Option (Ref V × Mem) :=
  (cell M i).bind fun c => (ElemIt.deref d.elem d.segs c.pos).map fun x =>
    (⟨i, x.2⟩, M.set i (some { c with inter := some x.1 }))

/-- A command. Constructors: detail/element_iterator.hpp:270-281, of which the one in 277-281, a conversion, leaves
`_inter_pos` alone; copying and assignment are those of the compiler. -/
def step (d : Dir I V) : Cmd → Mem → Option Mem
  | .first, M => some (M ++ [some ⟨ElemIt.begin, none⟩])
  | .last, M => some (M ++ [some ⟨ElemIt.end_ d.segs, none⟩])
  | .copy i, M => (cell M i).map fun c => M ++ [some c]
  | .convert i, M => (cell M i).map fun c => M ++ [some { c with inter := none }]
  | .assign i j, M => (cell M i).bind fun _ => (cell M j).map fun c => M.set i (some c)
  | .incr i, M => (cell M i).bind fun c => (ElemIt.incr o e mapSeg d.segs c.pos).map fun p =>
      M.set i (some { c with pos := p })
  | .decr i, M => (cell M i).bind fun c => (ElemIt.decr o e mapSeg d.segs c.pos).map fun p =>
      M.set i (some { c with pos := p })
  | .deref i, M => (deref d i M).map Prod.snd
  | .destroy i, M => (cell M i).map fun _ => M.set i none

/-- A program -/
def run (d : Dir I V) : List Cmd → Mem → Option Mem
  | [], M => some M
  | c :: cs, M => (step o e d c M).bind (run d cs)

/-- The pair that a reference denotes, as by `operator std::pair`, detail/mapped_reference.hpp:86-87; `none` if it
dangles. -/
def read (M : Mem) (r : Ref V) : Option (ℤ × V) := (cell M r.cell).bind fun c => c.inter.map fun x => (x, r.val)

end
end ICL.ElemRef
