/-!
# Interval bounds

Model of `include/boost/icl/interval_bounds.hpp` and `include/boost/icl/concept/interval_bounds.hpp`.

The C++ class stores an 8 bit code, of which the four values 0..3 are legal
(`interval_bounds.hpp:29-32`).  We give the bit-level functions (namespace `Bits`) and a
two-flag representation `Bounds`, and `Verif/Props/Bounds.lean` proves that the two agree on
all legal codes.
-/

namespace ICL

/-! The bit-level functions, verbatim, on the `unsigned char` code. -/
namespace Bits

/-- `interval_bounds::_right`, interval_bounds.hpp:34 -/
def cRight : BitVec 8 := 1
/-- `interval_bounds::_left`, interval_bounds.hpp:35 -/
def cLeft : BitVec 8 := 2
/-- `interval_bounds::_all`, interval_bounds.hpp:36 -/
def cAll : BitVec 8 := 3
/-- `interval_bounds::_open`, interval_bounds.hpp:29 -/
def cOpen : BitVec 8 := 0
/-- `interval_bounds::_left_open`, interval_bounds.hpp:30 -/
def cLeftOpen : BitVec 8 := 1
/-- `interval_bounds::_right_open`, interval_bounds.hpp:31 -/
def cRightOpen : BitVec 8 := 2
/-- `interval_bounds::_closed`, interval_bounds.hpp:32 -/
def cClosed : BitVec 8 := 3

/-- `left()`, interval_bounds.hpp:42, concept/interval_bounds.hpp:18-19 -/
def left (b : BitVec 8) : BitVec 8 := b &&& cLeft
/-- `right()`, interval_bounds.hpp:43, concept/interval_bounds.hpp:21-22 -/
def right (b : BitVec 8) : BitVec 8 := b &&& cRight
/-- `all()`, interval_bounds.hpp:41, concept/interval_bounds.hpp:24-25 -/
def all (b : BitVec 8) : BitVec 8 := b &&& cAll
/-- `reverse_left()`, interval_bounds.hpp:44 -/
def reverseLeft (b : BitVec 8) : BitVec 8 := ((~~~b) >>> 1) &&& cRight
/-- `reverse_right()`, interval_bounds.hpp:45 -/
def reverseRight (b : BitVec 8) : BitVec 8 := ((~~~b) <<< 1) &&& cLeft
/-- `operator ~`, concept/interval_bounds.hpp:47-48 -/
def compl (b : BitVec 8) : BitVec 8 := all (~~~b)
/-- `outer_bounds`, concept/interval_bounds.hpp:50-51 -/
def outerBounds (x1 x2 : BitVec 8) : BitVec 8 := left x1 ||| right x2
/-- `inner_bounds`, concept/interval_bounds.hpp:53-54 -/
def innerBounds (x1 x2 : BitVec 8) : BitVec 8 := reverseRight x1 ||| reverseLeft x2
/-- `left_bounds`, concept/interval_bounds.hpp:56-57 -/
def leftBounds (x1 x2 : BitVec 8) : BitVec 8 := left x1 ||| (left x2 >>> 1)
/-- `right_bounds`, concept/interval_bounds.hpp:59-60 -/
def rightBounds (x1 x2 : BitVec 8) : BitVec 8 := (right x1 <<< 1) ||| right x2
/-- `left_subtract_bounds`, concept/interval_bounds.hpp:62-63 (not called inside the library) -/
def leftSubtractBounds (x1 x2 : BitVec 8) : BitVec 8 := right x1 ||| compl (right x2 <<< 1)
/-- `right_subtract_bounds`, concept/interval_bounds.hpp:65-66 (not called inside the library) -/
def rightSubtractBounds (x1 x2 : BitVec 8) : BitVec 8 := left x1 ||| compl (left x2 >>> 1)
/-- `is_complementary`, concept/interval_bounds.hpp:68-69 -/
def isComplementary (x1 : BitVec 8) : Bool := x1 == cRightOpen || x1 == cLeftOpen
/-- `is_left_closed`, concept/interval_bounds.hpp:71-72 -/
def isLeftClosed (b : BitVec 8) : Bool := left b == 2
/-- `is_right_closed`, concept/interval_bounds.hpp:74-75 -/
def isRightClosed (b : BitVec 8) : Bool := right b == 1

end Bits

/-- A legal bound code (one of the four static bounds), as two flags:
`l` — the left end is included, `r` — the right end is included.
Models `interval_bounds` restricted to the codes 0..3, interval_bounds.hpp:19-57. -/
structure Bounds where
  l : Bool
  r : Bool
  deriving DecidableEq, Repr

namespace Bounds

/-- The code of a legal bound, interval_bounds.hpp:29-32. -/
def bits (b : Bounds) : BitVec 8 :=
  (if b.l then Bits.cLeft else 0) ||| (if b.r then Bits.cRight else 0)

/-- `interval_bounds::open()`, interval_bounds.hpp:49 -/
def opn : Bounds := ⟨false, false⟩
/-- `interval_bounds::left_open()`, interval_bounds.hpp:50 -/
def leftOpen : Bounds := ⟨false, true⟩
/-- `interval_bounds::right_open()`, interval_bounds.hpp:51 -/
def rightOpen : Bounds := ⟨true, false⟩
/-- `interval_bounds::closed()`, interval_bounds.hpp:52 -/
def closed : Bounds := ⟨true, true⟩

/-- `left()`, interval_bounds.hpp:42 -/
def left (b : Bounds) : Bounds := ⟨b.l, false⟩
/-- `right()`, interval_bounds.hpp:43 -/
def right (b : Bounds) : Bounds := ⟨false, b.r⟩
/-- `reverse_left()`, interval_bounds.hpp:44 -/
def reverseLeft (b : Bounds) : Bounds := ⟨false, !b.l⟩
/-- `reverse_right()`, interval_bounds.hpp:45 -/
def reverseRight (b : Bounds) : Bounds := ⟨!b.r, false⟩
/-- `operator |`, concept/interval_bounds.hpp:36-37 -/
def or (a b : Bounds) : Bounds := ⟨a.l || b.l, a.r || b.r⟩
/-- `outer_bounds`, concept/interval_bounds.hpp:50-51 -/
def outerBounds (x1 x2 : Bounds) : Bounds := x1.left.or x2.right
/-- `inner_bounds`, concept/interval_bounds.hpp:53-54 -/
def innerBounds (x1 x2 : Bounds) : Bounds := x1.reverseRight.or x2.reverseLeft
/-- `left_bounds`, concept/interval_bounds.hpp:56-57 -/
def leftBounds (x1 x2 : Bounds) : Bounds := ⟨x1.l, x2.l⟩
/-- `right_bounds`, concept/interval_bounds.hpp:59-60 -/
def rightBounds (x1 x2 : Bounds) : Bounds := ⟨x1.r, x2.r⟩
/-- `is_complementary`, concept/interval_bounds.hpp:68-69 -/
def isComplementary (b : Bounds) : Bool := b == rightOpen || b == leftOpen
/-- `is_left_closed`, concept/interval_bounds.hpp:71-72 -/
def isLeftClosed (b : Bounds) : Bool := b.l
/-- `is_right_closed`, concept/interval_bounds.hpp:74-75 -/
def isRightClosed (b : Bounds) : Bool := b.r

end Bounds
end ICL
