import Verif.Model.MapFun
import Verif.Model.SetHistory

/-!
# Histories of interval maps

The public operations on an interval map as data, their execution, and the maps that a program can
produce by executing them in any order and on any operands.
-/

namespace ICL

/-- Operations on an interval map with a segment, element, interval or key operand, or none. -/
inductive MapOp (D I V : Type)
  /-- `m.add({k, v})`, `m += {k, v}` -/
  | add (k : I) (v : V)
  /-- `m.add(prior, {k, v})`; see `IMap.addHintC` for `n` -/
  | addHint (n : Nat) (k : I) (v : V)
  /-- `m.subtract({k, v})`, `m -= {k, v}` -/
  | subtract (k : I) (v : V)
  /-- `m.insert({k, v})` -/
  | insert (k : I) (v : V)
  /-- `m.insert(prior, {k, v})`; see `IMap.insertHint` for `n` and `b` -/
  | insertHint (n : Nat) (b : Bool) (k : I) (v : V)
  /-- `m.set({k, v})` -/
  | set (k : I) (v : V)
  /-- `m.erase({k, v})` -/
  | erase (k : I) (v : V)
  /-- `m.erase(k)`, `m -= k` -/
  | eraseKeys (k : I)
  /-- `m &= {k, v}` -/
  | inter (oracle : List (I × V) → I → Nat) (k : I) (v : V)
  /-- `m &= k` -/
  | interKeys (oracle : List (I × V) → I → Nat) (k : I)
  /-- `m.flip({k, v})`, `m ^= {k, v}` -/
  | flip (oracle : List (I × V) → I → Nat) (k : I) (v : V)
  /-- `m.add({x, v})`, `m += {x, v}` -/
  | addE (x : D) (v : V)
  /-- `m.subtract({x, v})`, `m -= {x, v}` -/
  | subE (x : D) (v : V)
  /-- `m.insert({x, v})` -/
  | insertE (x : D) (v : V)
  /-- `m.set({x, v})` -/
  | setE (x : D) (v : V)
  /-- `m.erase({x, v})` -/
  | eraseE (x : D) (v : V)
  /-- `m.erase(x)`, `m -= x` -/
  | eraseKey (x : D)
  /-- `m &= {x, v}` -/
  | interE (oracle : List (I × V) → I → Nat) (x : D) (v : V)
  /-- `m &= x` -/
  | interKey (x : D)
  /-- `m.flip({x, v})`, `m ^= {x, v}` -/
  | flipE (oracle : List (I × V) → I → Nat) (x : D) (v : V)
  /-- `m.clear()` -/
  | clear
  /-- `m.erase(first, past)`, and `m.erase(position)`: removes the nodes from position `i` to before
  position `j`; interval_base_map.hpp:404-407 -/
  | eraseRange (i j : Nat)
  /-- `erase_if(p, m)` -/
  | eraseIf (p : I × V → Bool)
  /-- `icl::join(m)` -/
  | join
  /-- `absorb_identities(m)` -/
  | absorbIdentities

/-- Operations on an interval map with an interval map operand of any type with the same values. -/
inductive MapOp2 (I V : Type)
  /-- `m += r` -/
  | add (oracle : List (I × V) → I → Nat)
  /-- `m -= r` -/
  | sub
  /-- `insert(m, r)` -/
  | insert (oracle : List (I × V) → I → Nat)
  /-- `erase(m, r)` -/
  | erase
  /-- `m &= r` -/
  | inter (oracle : List (I × V) → I → Nat)
  /-- `m ^= r` -/
  | flip (oracle : List (I × V) → I → Nat)

/-- Operations on an interval map with an interval set operand of any class. -/
inductive MapOp3 (I V : Type)
  /-- `m -= s`, `erase(m, s)` -/
  | erase
  /-- `m &= s` -/
  | inter (oracle : List (I × V) → I → Nat)

variable {D I V : Type} (o : IntervalOps D I) [DecidableEq I] [DecidableEq V]

/-- Execution of an operation. Element operations make a segment of the element,
`make_segment`, concept/interval_map.hpp:25-32, 152-157, 183-188, 208-213, 233-238, 253-258, 291-296,
305-311 and 474-479. -/
def MapOp.run (E : Option (ElemFns D I)) (t : MapType V) (l : List (I × V)) :
    MapOp D I V → Option (List (I × V))
  | .add k v => IMap.addSeg o t l k v
  | .addHint n k v => IMap.addHint o t n l k v
  | .subtract k v => IMap.subSeg o t l k v
  | .insert k v => IMap.insert o t.cfg l k v
  | .insertHint n b k v => IMap.insertHint o t.cfg n b l k v
  | .set k v => IMap.setAt o t.cfg l k v
  | .erase k v => IMap.eraseSeg o t.cfg l k v
  | .eraseKeys k => IMap.eraseItv o l k
  | .inter oracle k v => IMap.addInterSeg o t oracle [] l k v
  | .interKeys oracle k => IMap.addInterItv o t oracle [] l k
  | .flip oracle k v => IMap.flipSeg o t oracle l k v
  | .addE x v => E.bind fun e => IMap.addSeg o t l (e.sing x) v
  | .subE x v => E.bind fun e => IMap.subSeg o t l (e.sing x) v
  | .insertE x v => E.bind fun e => IMap.insert o t.cfg l (e.sing x) v
  | .setE x v => E.bind fun e => IMap.setAt o t.cfg l (e.sing x) v
  | .eraseE x v => E.bind fun e => IMap.eraseSeg o t.cfg l (e.sing x) v
  | .eraseKey x => E.bind fun e => IMap.eraseItv o l (e.sing x)
  | .interE oracle x v => E.bind fun e => IMap.addInterSeg o t oracle [] l (e.sing x) v
  | .interKey x => E.bind fun e => IMap.addInterKey o t e.sing e.lookup [] l x
  | .flipE oracle x v => E.bind fun e => IMap.flipSeg o t oracle l (e.sing x) v
  | .clear => some []
  | .eraseRange i j => some (l.take i ++ l.drop (max i j))
  | .eraseIf p => some (IMap.eraseIf p l)
  | .join => joinAll o mapSeg l
  | .absorbIdentities => some (IMap.absorbIdentities t l)

/-- Execution of an operation with an interval map `r`. -/
def MapOp2.run (t : MapType V) (l r : List (I × V)) : MapOp2 I V → Option (List (I × V))
  | .add oracle => IMap.addMap o t oracle l r
  | .sub => IMap.subMap o t l r
  | .insert oracle => IMap.insertMap o t oracle l r
  | .erase => IMap.eraseMap o t l r
  | .inter oracle => IMap.addInterMap o t oracle [] l r
  | .flip oracle => IMap.flipMap o t oracle l r

omit [DecidableEq I] in
/-- Execution of an operation with an interval set `r`. -/
def MapOp3.run (t : MapType V) (l : List (I × V)) (r : List I) : MapOp3 I V → Option (List (I × V))
  | .erase => IMap.eraseSet o l r
  | .inter oracle => IMap.addInterSet o t oracle [] l r

/-- The map types differ in nothing but the class, `interval_map` or `split_interval_map`. -/
def MapType.Alike (t t' : MapType V) : Prop :=
  t' = { t with cfg := { t.cfg with joining := t'.cfg.joining } }

/-- The operations that do not use `add` with a hint, by themselves or for the nodes of an operand. -/
def MapOp.plain {D I V : Type} (t : MapType V) : MapOp D I V → Bool
  | .addHint _ _ _ | .interKeys _ _ | .flip _ _ _ | .flipE _ _ _ => false
  | .inter _ _ _ | .interE _ _ _ => !t.cfg.total
  | _ => true

@[inherit_doc MapOp.plain] def MapOp2.plain {I V : Type} (t : MapType V) : MapOp2 I V → Bool
  | .add _ | .flip _ => false
  | .inter _ => !t.cfg.total
  | .sub | .insert _ | .erase => true

@[inherit_doc MapOp.plain] def MapOp3.plain {I V : Type} : MapOp3 I V → Bool
  | .erase => true
  | .inter _ => false

/-- The interval maps of type `t` that a program can produce. -/
inductive MReachable (E : Option (ElemFns D I)) : MapType V → List (I × V) → Prop
  | empty (t : MapType V) : MReachable E t []
  | op {t : MapType V} {l l' : List (I × V)} (c : MapOp D I V) : MReachable E t l →
      c.run o E t l = some l' → MReachable E t l'
  | op2 {t t' : MapType V} {l r l' : List (I × V)} (c : MapOp2 I V) : MReachable E t l → MReachable E t' r →
      c.run o t l r = some l' → MReachable E t l'
  | op3 {t : MapType V} {st : Style} {l : List (I × V)} {r : List I} {l' : List (I × V)} (c : MapOp3 I V) :
      MReachable E t l → Reachable o E st r → c.run o t l r = some l' → MReachable E t l'
  /-- `m = r`, `m.assign(r)` and construction from `r`, from the other class of interval map -/
  | assign {t t' : MapType V} {r l' : List (I × V)} (oracle : List (I × V) → I → Nat) : MReachable E t' r →
      t.Alike t' → IMap.assign o t oracle r = some l' → MReachable E t l'

/-- The interval maps of type `t` that a program can produce without calling `add` with a hint, directly or
by an operation that does so. -/
inductive MPlain (E : Option (ElemFns D I)) : MapType V → List (I × V) → Prop
  | empty (t : MapType V) : MPlain E t []
  | op {t : MapType V} {l l' : List (I × V)} (c : MapOp D I V) : c.plain t = true → MPlain E t l →
      c.run o E t l = some l' → MPlain E t l'
  | op2 {t t' : MapType V} {l r l' : List (I × V)} (c : MapOp2 I V) : c.plain t = true → MPlain E t l →
      MReachable o E t' r → c.run o t l r = some l' → MPlain E t l'
  | op3 {t : MapType V} {st : Style} {l : List (I × V)} {r : List I} {l' : List (I × V)} (c : MapOp3 I V) :
      c.plain = true → MPlain E t l → Reachable o E st r → c.run o t l r = some l' → MPlain E t l'

end ICL
