import Verif.Model.SetFun

/-!
# Histories of interval sets

The public operations on an interval set as data, their execution, and the sets that a program can
produce by executing them in any order and on any operands.
-/

namespace ICL

/-- `singleton` and `find(element)` of an interval class that has them. -/
structure ElemFns (D I : Type) where
  sing : D → I
  lookup : Lookup D I

/-- Operations on an interval set with an element or interval operand, or none. -/
inductive SetOp (D I : Type)
  /-- `s.add(k)`, `s.insert(k)`, `s += k`, `s |= k` -/
  | add (k : I)
  /-- `s.add(prior, k)`, `s.insert(prior, k)`; see `ISet.addHint` for `n` -/
  | addHint (n : Nat) (k : I)
  /-- `s.subtract(k)`, `s.erase(k)`, `s -= k` -/
  | subtract (k : I)
  /-- `s &= k` -/
  | inter (oracle : List I → I → Nat) (k : I)
  /-- `s.flip(k)`, `s ^= k` -/
  | flip (k : I)
  /-- `s.add(x)`, `s.insert(x)`, `s += x` -/
  | addE (x : D)
  /-- `s.subtract(x)`, `s.erase(x)`, `s -= x` -/
  | subE (x : D)
  /-- `s &= x` -/
  | interE (x : D)
  /-- `s.flip(x)`, `s ^= x` -/
  | flipE (x : D)
  /-- `s.clear()` -/
  | clear
  /-- `s.erase(first, past)`, and `s.erase(position)`: removes the nodes from position `i` to before
  position `j`; interval_base_set.hpp:324-333 -/
  | eraseRange (i j : Nat)
  /-- `icl::join(s)` -/
  | join

/-- Operations on an interval set with an interval set operand of any class. -/
inductive SetOp2 (I : Type)
  /-- `s += r`, `s |= r` -/
  | add (oracle : List I → I → Nat)
  /-- `s -= r` -/
  | sub
  /-- `s &= r` -/
  | inter (oracle : List I → I → Nat)
  /-- `s ^= r` -/
  | flip (oracle : List I → I → Nat)
  /-- `s = r`, `s.assign(r)` and construction from `r`, from another class of interval set -/
  | assign (oracle : List I → I → Nat)
  /-- `s = r` from the same class: a copy of the nodes -/
  | copy
  /-- `domain(s, r)` -/
  | domain (oracle : List I → I → Nat)
  /-- `between(s, r)` -/
  | between (oracle : List I → I → Nat)

variable {D I : Type} (o : IntervalOps D I)

/-- Execution of an operation. Element operations need a class `E` with one-element intervals. -/
def SetOp.run [DecidableEq I] (E : Option (ElemFns D I)) (st : Style) (l : List I) :
    SetOp D I → Option (List I)
  | .add k => ISet.add o st l k
  | .addHint n k => ISet.addHint o st n l k
  | .subtract k => ISet.subtract o l k
  | .inter oracle k => ISet.interSeg o st oracle l k
  | .flip k => ISet.flipSeg o st l k
  | .addE x => E.bind fun e => ISet.addE o st e.sing l x
  | .subE x => E.bind fun e => ISet.subE o e.sing l x
  | .interE x => E.bind fun e => ISet.addInterE o st e.sing e.lookup [] l x
  | .flipE x => E.bind fun e => ISet.flipE o st e.sing e.lookup l x
  | .clear => some []
  | .eraseRange i j => some (l.take i ++ l.drop (max i j))
  | .join => joinAll o setSeg l

/-- Execution of an operation with an interval set `r`, `st'` being its class. -/
def SetOp2.run [DecidableEq I] (st st' : Style) (l r : List I) : SetOp2 I → Option (List I)
  | .add oracle => ISet.addSet o st oracle l r
  | .sub => ISet.subSet o l r
  | .inter oracle => ISet.interSet o st oracle l r
  | .flip oracle => ISet.flipSet o st oracle l r
  | .assign oracle => ISet.assign o st oracle r
  | .copy => if st = st' then some r else none
  | .domain oracle => ISet.domain o st oracle r
  | .between oracle => ISet.between o st oracle r

/-- The interval sets of class `st` that a program can produce. -/
inductive Reachable [DecidableEq I] (E : Option (ElemFns D I)) : Style → List I → Prop
  | empty (st : Style) : Reachable E st []
  | op {st : Style} {l l' : List I} (c : SetOp D I) : Reachable E st l → c.run o E st l = some l' →
      Reachable E st l'
  | op2 {st st' : Style} {l r l' : List I} (c : SetOp2 I) : Reachable E st l → Reachable E st' r →
      c.run o st st' l r = some l' → Reachable E st l'

end ICL
