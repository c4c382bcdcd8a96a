import Verif.Model.Overload

/-!
# The documented overload tables

The overload tables of the documentation, doc/functions.qbk:40-190 and the sections on the
operations, with the placeholders they use.  Nothing here mentions traits or candidates.
-/

namespace ICL
namespace OverloadSpec

open Overload (Ty Style Op Outcome)

/-- The placeholders of the tables: element, interval, element-value pair, interval-value pair,
    `interval_set`, `separate_interval_set`, `split_interval_set`, `interval_map`,
    `split_interval_map`. -/
inductive Sym
  | e | i | b | p | S1 | S2 | S3 | M1 | M3
  deriving DecidableEq, Repr

/-- The template arguments the types of a table share: domain type, comparison, interval template,
    codomain type, and the remaining arguments of the sets and of the maps. -/
structure Params where
  cls : Nat
  dom : Ty
  cmp : Nat
  cod : Ty
  setOpts : Nat
  mapOpts : Overload.MapOpts

/-- `Is q x t`: for the template arguments `q`, the placeholder `x` stands for the type `t`.
    An interval-value pair is a `std::pair` whose first component may be const. -/
def Sym.Is (q : Params) : Sym → Ty → Prop
  | .e, t => t = q.dom
  | .i, t => t = .interval q.cls q.dom q.cmp
  | .b, t => t = .mapping q.dom q.cod
  | .p, t => ∃ c, t = .pair c (.interval q.cls q.dom q.cmp) q.cod
  | .S1, t => t = .set .joining q.cls q.dom q.cmp q.setOpts
  | .S2, t => t = .set .separating q.cls q.dom q.cmp q.setOpts
  | .S3, t => t = .set .splitting q.cls q.dom q.cmp q.setOpts
  | .M1, t => t = .map false q.cls q.dom q.cmp q.cod q.mapOpts
  | .M3, t => t = .map true q.cls q.dom q.cmp q.cod q.mapOpts

/-- The same, but the remaining template arguments of sets and maps (traits, combiner, section,
    allocator) may be anything. -/
def Sym.Like (q : Params) (x : Sym) (t : Ty) : Prop :=
  ∃ s m, x.Is { q with setOpts := s, mapOpts := m } t

/-- The columns, and rows, in the order of the tables. -/
def Sym.index : Sym → Nat
  | .e => 0 | .i => 1 | .b => 2 | .p => 3 | .S1 => 4 | .S2 => 5 | .S3 => 6 | .M1 => 7 | .M3 => 8

section
open Sym

/-- An empty cell. -/
private abbrev o : Option Sym := none
instance : Coe Sym (Option Sym) := ⟨some⟩

/-- doc/functions.qbk:143-159, doc/functions_addition.qbk:223-236 (`+`; `|` is the same function);
    doc/functions_symmetric_difference.qbk:126-139 (`^`). -/
def plusTable : List (List (Option Sym)) :=
  --  e   i   b   p   S1  S2  S3  M1  M3
  [ [ o,  o,  o,  o,  S1, S2, S3, o,  o  ],   -- e
    [ o,  o,  o,  o,  S1, S2, S3, o,  o  ],   -- i
    [ o,  o,  o,  o,  o,  o,  o,  M1, M3 ],   -- b
    [ o,  o,  o,  o,  o,  o,  o,  M1, M3 ],   -- p
    [ S1, S1, o,  o,  S1, S2, S3, o,  o  ],   -- S1
    [ S2, S2, o,  o,  S2, S2, S3, o,  o  ],   -- S2
    [ S3, S3, o,  o,  S3, S3, S3, o,  o  ],   -- S3
    [ o,  o,  M1, M1, o,  o,  o,  M1, M3 ],   -- M1
    [ o,  o,  M3, M3, o,  o,  o,  M3, M3 ] ]  -- M3

/-- doc/functions_intersection.qbk:180-193 (`&`). -/
def andTable : List (List (Option Sym)) :=
  --  e   i   b   p   S1  S2  S3  M1  M3
  [ [ o,  o,  o,  o,  S1, S2, S3, M1, M3 ],   -- e
    [ o,  i,  o,  o,  S1, S2, S3, M1, M3 ],   -- i
    [ o,  o,  o,  o,  o,  o,  o,  M1, M3 ],   -- b
    [ o,  o,  o,  o,  o,  o,  o,  M1, M3 ],   -- p
    [ S1, S1, o,  o,  S1, S2, S3, M1, M3 ],   -- S1
    [ S2, S2, o,  o,  S2, S2, S3, M1, M3 ],   -- S2
    [ S3, S3, o,  o,  S3, S3, S3, M1, M3 ],   -- S3
    [ M1, M1, M1, M1, M1, M1, M1, M1, M3 ],   -- M1
    [ M3, M3, M3, M3, M3, M3, M3, M3, M3 ] ]  -- M3

/-- The tables for `+=`, `|=` (doc/functions_addition.qbk:134-140) and `^=`
    (doc/functions_symmetric_difference.qbk:92-98), whose row `S` is written out for the three kinds
    of sets and whose row `M` for the two kinds of maps. -/
def plusAssignTable : List (List (Option Sym)) :=
  --  e   i   b   p   S1  S2  S3  M1  M3
  [ [ o,  o,  o,  o,  o,  o,  o,  o,  o  ],   -- e
    [ o,  o,  o,  o,  o,  o,  o,  o,  o  ],   -- i
    [ o,  o,  o,  o,  o,  o,  o,  o,  o  ],   -- b
    [ o,  o,  o,  o,  o,  o,  o,  o,  o  ],   -- p
    [ S1, S1, o,  o,  S1, S1, S1, o,  o  ],   -- S1
    [ S2, S2, o,  o,  S2, S2, S2, o,  o  ],   -- S2
    [ S3, S3, o,  o,  S3, S3, S3, o,  o  ],   -- S3
    [ o,  o,  M1, M1, o,  o,  o,  M1, M1 ],   -- M1
    [ o,  o,  M3, M3, o,  o,  o,  M3, M3 ] ]  -- M3

/-- The tables for `-=` and `-` (doc/functions_subtraction.qbk:87-93, 151-156) and `&=`
    (doc/functions.qbk:54-63), written out in the same way. -/
def minusTable : List (List (Option Sym)) :=
  --  e   i   b   p   S1  S2  S3  M1  M3
  [ [ o,  o,  o,  o,  o,  o,  o,  o,  o  ],   -- e
    [ o,  o,  o,  o,  o,  o,  o,  o,  o  ],   -- i
    [ o,  o,  o,  o,  o,  o,  o,  o,  o  ],   -- b
    [ o,  o,  o,  o,  o,  o,  o,  o,  o  ],   -- p
    [ S1, S1, o,  o,  S1, S1, S1, o,  o  ],   -- S1
    [ S2, S2, o,  o,  S2, S2, S2, o,  o  ],   -- S2
    [ S3, S3, o,  o,  S3, S3, S3, o,  o  ],   -- S3
    [ M1, M1, M1, M1, M1, M1, M1, M1, M1 ],   -- M1
    [ M3, M3, M3, M3, M3, M3, M3, M3, M3 ] ]  -- M3

end

/-- The table of an operator. -/
def table : Op → List (List (Option Sym))
  | .addAssign => plusAssignTable
  | .orAssign => plusAssignTable
  | .xorAssign => plusAssignTable
  | .subAssign => minusTable
  | .andAssign => minusTable
  | .sub => minusTable
  | .add => plusTable
  | .or => plusTable
  | .xor => plusTable
  | .and => andTable

/-- The cell of the table in row `x` and column `y`. -/
def cell (op : Op) (x y : Sym) : Option Sym :=
  (((table op)[x.index]?.getD [])[y.index]?).getD none

/-- The outcome of a call agrees with a cell: where the cell is empty the call does not compile for
    lack of a function; where it shows a placeholder the call means one function and the placeholder
    stands for its result type. -/
def Agrees (stands : Sym → Ty → Prop) : Option Sym → Outcome → Prop
  | none, out => out = .noMatch
  | some z, out => ∃ t left, out = .result t left ∧ stands z t

/-- A documented combination, and result type, for the call `l op r`. -/
def Documented (op : Op) (l r t : Ty) : Prop :=
  ∃ (q : Params) (x y z : Sym), x.Like q l ∧ y.Like q r ∧ cell op x y = some z ∧ z.Like q t

/-- Is it a compound assignment? -/
def Assigns (op : Op) : Prop :=
  op = .addAssign ∨ op = .orAssign ∨ op = .subAssign ∨ op = .andAssign ∨ op = .xorAssign

/-- Is the cell in row `x` and column `y` of the table of a function filled?  For `within` the row is
    that of the second argument.
    `insert` doc/functions_insertion.qbk:77-83 (the table of `+=`); `erase`
    doc/functions_erasure.qbk:67-73, `contains` and `within` doc/functions_containedness.qbk:37-47,
    `intersects` and `disjoint` doc/functions_intersection.qbk:243-248 (the table of `-=`);
    `is_element_equal`, `_less`, `_greater` doc/functions_equivs_orderings.qbk:100-113. -/
def fnCell : Overload.Fn → Sym → Sym → Bool
  | .insert, x, y => (cell .addAssign x y).isSome
  | .erase, x, y => (cell .subAssign x y).isSome
  | .contains, x, y => (cell .subAssign x y).isSome
  | .within, x, y => (cell .subAssign x y).isSome
  | .intersects, x, y => (cell .subAssign x y).isSome
  | .disjoint, x, y => (cell .subAssign x y).isSome
  | .elementCompare, x, y =>
    decide (4 ≤ x.index ∧ x.index ≤ 6 ∧ 4 ≤ y.index ∧ y.index ≤ 6)
      || decide (7 ≤ x.index ∧ 7 ≤ y.index)

/-- The domain type is neither an interval container nor an interval itself. -/
def PlainDomain (q : Params) : Prop :=
  (∀ c d k, q.dom ≠ .interval c d k) ∧ (∀ s c d k a, q.dom ≠ .set s c d k a)
    ∧ ∀ f c d k v a, q.dom ≠ .map f c d k v a

end OverloadSpec
end ICL
