import Verif.Model.ElementMap

/-!
# Histories of containers of elements

The public operations on `icl::set` and `icl::map` as data, their execution, and the containers that a program can
produce by executing them in any order and on any operands.
-/

namespace ICL

/-- Operations on a set of elements with an element as operand, or none. -/
inductive ESOp (D : Type)
  /-- `s.insert(x)`, `add(s, x)`, `s += x` -/
  | add (x : D)
  /-- `s.erase(x)`, `subtract(s, x)`, `s -= x` -/
  | subtract (x : D)
  /-- `s &= x` -/
  | andKey (x : D)
  /-- `flip(s, x)`, `s ^= x` -/
  | flip (x : D)
  /-- `s.clear()` -/
  | clear
  /-- `s.erase(first, past)`, and `s.erase(position)`: removes the nodes from position `i` to before position `j` -/
  | eraseRange (i j : Nat)

/-- Operations on a set of elements with such a set as operand. -/
inductive ESOp2
  /-- `s += r`, `insert(s, r)` -/
  | add
  /-- `s -= r`, `erase(s, r)` -/
  | sub
  /-- `s &= r` -/
  | inter
  /-- `s ^= r` -/
  | flip

/-- Operations on an `icl::map` with a pair, a key or a set of keys as operand, or none. -/
inductive EOp (D V : Type)
  /-- `m.add({x, v})`, `m += {x, v}` -/
  | add (x : D) (v : V)
  /-- `m.add(prior, {x, v})` -/
  | addHint (x : D) (v : V)
  /-- `m.subtract({x, v})`, `m -= {x, v}` -/
  | subtract (x : D) (v : V)
  /-- `m.insert({x, v})`, `m.insert(prior, {x, v})` -/
  | insert (x : D) (v : V)
  /-- `m.erase({x, v})` -/
  | erase (x : D) (v : V)
  /-- `m.erase(x)`, `m.subtract(x)` -/
  | eraseKey (x : D)
  /-- `erase(m, r)` for a set of keys -/
  | eraseSet (r : List D)
  /-- `m -= r` for a set of keys -/
  | subSet (r : List D)
  /-- `m &= {x, v}` -/
  | inter (x : D) (v : V)
  /-- `m &= x` -/
  | interKey (x : D)
  /-- `m &= r` for a set of keys -/
  | interSet (r : List D)
  /-- `m.flip({x, v})`, `m ^= {x, v}` -/
  | flip (x : D) (v : V)
  /-- `m[x] = v` -/
  | bracket (x : D) (v : V)
  /-- `m.clear()` -/
  | clear
  /-- `m.erase(first, past)`, and `m.erase(position)`: removes the nodes from position `i` to before position `j` -/
  | eraseRange (i j : Nat)

/-- Operations on an `icl::map` with an `icl::map` of the same keys and values as operand, whatever its traits. -/
inductive EOp2
  /-- `m += r` -/
  | add
  /-- `m -= r` -/
  | sub
  /-- `insert(m, r)` -/
  | insert
  /-- `erase(m, r)` -/
  | erase
  /-- `m &= r` -/
  | inter
  /-- `m ^= r` -/
  | flip

variable {D V : Type} [LinearOrder D] [DecidableEq V]

/-- Execution of an operation -/
def ESOp.run (s : List D) : ESOp D → List D
  | .add x => ESet.add s x
  | .subtract x => ESet.subtract s x
  | .andKey x => ESet.andKey s x
  | .flip x => ESet.flip s x
  | .clear => []
  | .eraseRange i j => s.take i ++ s.drop (max i j)

/-- Execution of an operation with the set `r` -/
def ESOp2.run (s r : List D) : ESOp2 → List D
  | .add => ESet.addSet s r
  | .sub => ESet.subSet s r
  | .inter => ESet.andSet s r
  | .flip => ESet.flipSet s r

/-- Execution of an operation -/
def EOp.run (t : MapType V) (m : List (D × V)) : EOp D V → List (D × V)
  | .add x v => EMap.add t m x v
  | .addHint x v => EMap.addHint t m x v
  | .subtract x v => EMap.subtract t m x v
  | .insert x v => (EMap.insert t m x v).1
  | .erase x v => (EMap.erasePair t m x v).1
  | .eraseKey x => EMap.eraseKey m x
  | .eraseSet r => EMap.eraseSet m r
  | .subSet r => EMap.subSet m r
  | .inter x v => EMap.andPair t m x v
  | .interKey x => EMap.andKey t m x
  | .interSet r => EMap.andSet t m r
  | .flip x v => EMap.flip t m x v
  | .bracket x v => EMap.bracket t m x v
  | .clear => []
  | .eraseRange i j => m.take i ++ m.drop (max i j)

/-- Execution of an operation with the map `r` -/
def EOp2.run (t : MapType V) (m r : List (D × V)) : EOp2 → List (D × V)
  | .add => EMap.addMap t m r
  | .sub => EMap.subMap t m r
  | .insert => EMap.insertMap t m r
  | .erase => EMap.eraseMap t m r
  | .inter => EMap.andMap t m r
  | .flip => EMap.flipMap t m r

/-- The set that an operation has as its operand. -/
def EOp.operand {D V : Type} : EOp D V → List D
  | .eraseSet r | .subSet r | .interSet r => r
  | _ => []

/-- The operations that absorb identity elements. -/
def EOp.absorbing {D V : Type} : EOp D V → Bool
  | .bracket _ _ => false
  | _ => true

/-- The sets of elements that a program can produce. -/
inductive ESReachable : List D → Prop
  | empty : ESReachable []
  | op {s : List D} (c : ESOp D) : ESReachable s → ESReachable (c.run s)
  | op2 {s r : List D} (c : ESOp2) : ESReachable s → ESReachable r → ESReachable (c.run s r)

/-- The maps of type `t` that a program can produce. -/
inductive EReachable : MapType V → List (D × V) → Prop
  /-- the constructor from a range; with an empty range the default constructor -/
  | range (t : MapType V) (l : List (D × V)) : EReachable t (EMap.ofRange l)
  | op {t : MapType V} {m : List (D × V)} (c : EOp D V) : EReachable t m → ESReachable c.operand →
      EReachable t (c.run t m)
  | op2 {t t' : MapType V} {m r : List (D × V)} (c : EOp2) : EReachable t m → EReachable t' r →
      EReachable t (c.run t m r)

/-- The maps of type `t` that a program can produce by the operations that absorb identity elements, on any
operands. -/
inductive EAbsorbing : MapType V → List (D × V) → Prop
  | empty (t : MapType V) : EAbsorbing t []
  | op {t : MapType V} {m : List (D × V)} (c : EOp D V) : c.absorbing = true → EAbsorbing t m →
      ESReachable c.operand → EAbsorbing t (c.run t m)
  | op2 {t t' : MapType V} {m r : List (D × V)} (c : EOp2) : EAbsorbing t m → EReachable t' r →
      EAbsorbing t (c.run t m r)

end ICL
