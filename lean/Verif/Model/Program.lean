import Verif.Model.SetHistory
import Verif.Model.MapHistory
import Verif.Model.Compare
import Verif.Model.MapQuery
import Verif.Model.Alias

/-!
# Programs that use several interval containers

A client has interval sets and interval maps in numbered variables, of classes fixed in advance. It calls operations
on them, among them operations of a container with itself, assignments, moves, swaps and the binary operators with
lvalues and rvalues, and asks questions. What it does next may depend on the answers that it got.
-/

namespace ICL

/-- The types of the variables. -/
structure VarTypes (V : Type) where
  set : Nat → Style
  map : Nat → MapType V

/-- The values of the variables. -/
@[ext] structure Store (I V : Type) where
  set : Nat → List I
  map : Nat → List (I × V)

/-- Replaces the value of one variable. -/
def Store.putSet {I V : Type} (σ : Store I V) (a : Nat) (l : List I) : Store I V :=
  { σ with set := fun n => if n = a then l else σ.set n }

@[inherit_doc Store.putSet] def Store.putMap {I V : Type} (σ : Store I V) (m : Nat) (l : List (I × V)) : Store I V :=
  { σ with map := fun n => if n = m then l else σ.map n }

/-- What is left in a container whose content has been moved away, interval_base_set.hpp:176-189 and
interval_base_map.hpp:223-236: the standard leaves it open what `std::set` and `std::map` hold then. -/
structure Remains (I V : Type) where
  set : Style → List I → List I
  map : MapType V → List (I × V) → List (I × V)

/-- The binary operators `+` (also `|`), `-`, `&` and `^` of interval containers. -/
inductive SetBin
  | add | sub | inter | flip
  deriving DecidableEq

/-- The operator that does it in place. -/
def SetBin.op {I : Type} (oracle : List I → I → Nat) : SetBin → SetOp2 I
  | .add => .add oracle
  | .sub => .sub
  | .inter => .inter oracle
  | .flip => .flip oracle

@[inherit_doc SetBin.op] def SetBin.mapOp {I V : Type} (oracle : List (I × V) → I → Nat) : SetBin → MapOp2 I V
  | .add => .add oracle
  | .sub => .sub
  | .inter => .inter oracle
  | .flip => .flip oracle

/-- Questions. -/
inductive Query (D I V : Type)
  /-- `contains(a, x)` -/
  | contains (a : Nat) (x : D)
  /-- `contains(a, k)` -/
  | containsItv (a : Nat) (k : I)
  /-- `contains(a, b)` -/
  | containsSet (a b : Nat)
  /-- `within(a, b)` -/
  | within (a b : Nat)
  /-- `intersects(a, k)` -/
  | intersectsItv (a : Nat) (k : I)
  /-- `intersects(a, b)` -/
  | intersects (a b : Nat) (oracle : List I → I → Nat)
  /-- `is_empty(a)` -/
  | isEmpty (a : Nat)
  /-- `is_element_equal(a, b)` -/
  | elementEqual (a b : Nat)
  /-- `a == b` -/
  | equal (a b : Nat)
  /-- `m(x)` -/
  | select (m : Nat) (x : D)
  /-- `contains(m, x)` -/
  | hasKey (m : Nat) (x : D)
  /-- `contains(m, {x, v})` -/
  | hasPair (m : Nat) (x : D) (v : V)
  /-- `contains(m, k)` -/
  | hasKeys (m : Nat) (k : I)
  /-- `contains(m, {k, v})` -/
  | hasSegment (m : Nat) (k : I) (v : V)
  /-- `contains(m, a)` for an interval set `a` -/
  | hasSet (m a : Nat)
  /-- `contains(m, n)` for an interval map `n` -/
  | hasMap (m n : Nat)
  /-- `is_empty(m)` -/
  | mapIsEmpty (m : Nat)
  /-- `is_element_equal(m, n)` -/
  | mapElementEqual (m n : Nat)
  /-- `m == n` -/
  | mapEqual (m n : Nat)

/-- What a client can do. -/
inductive Act (D I V : Type)
  /-- an operation on the set `a` -/
  | set (a : Nat) (c : SetOp D I)
  /-- an operation on the set `a` with the set `b` as operand, which may be the same -/
  | set2 (a b : Nat) (c : SetOp2 I)
  /-- `d = a ⊕ b`, `d = std::move(a) ⊕ b`, `d = a ⊕ std::move(b)` or `d = std::move(a) ⊕ std::move(b)` -/
  | setBin (d a b : Nat) (ra rb : Bool) (c : SetBin) (oracle : List I → I → Nat)
  /-- `a = std::move(b)` -/
  | setMove (a b : Nat)
  /-- `a.swap(b)` -/
  | setSwap (a b : Nat)
  /-- an operation on the map `m` -/
  | map (m : Nat) (c : MapOp D I V)
  /-- an operation on the map `m` with the map `n` as operand, which may be the same -/
  | map2 (m n : Nat) (c : MapOp2 I V)
  /-- an operation on the map `m` with the set `a` as operand -/
  | map3 (m a : Nat) (c : MapOp3 I V)
  /-- `d = m ⊕ n`, `d = std::move(m) ⊕ n`, `d = m ⊕ std::move(n)` or `d = std::move(m) ⊕ std::move(n)` -/
  | mapBin (d m n : Nat) (rm rn : Bool) (c : SetBin) (oracle : List (I × V) → I → Nat)
  /-- `m = n` -/
  | mapCopy (m n : Nat) (oracle : List (I × V) → I → Nat)
  /-- `m = std::move(n)` -/
  | mapMove (m n : Nat)
  /-- `m.swap(n)` -/
  | mapSwap (m n : Nat)
  /-- `domain(a, m)` -/
  | domain (a m : Nat) (oracle : List I → I → Nat)
  /-- `between(a, m)` -/
  | between (a m : Nat) (oracle : List I → I → Nat)
  /-- a question -/
  | ask (q : Query D I V)

/-- What a client gets back. -/
inductive Answer (V : Type)
  | done
  | bool (b : Bool)
  | value (v : V)
  deriving DecidableEq

section
variable {D I V : Type} (o : IntervalOps D I) [DecidableEq I] [DecidableEq V]

/-- An operation whose operand is the object itself. `&=` computes the intersection in a temporary,
concept/interval_associator.hpp:770-778. `assign`, `domain` and `between` clear the object first, which leaves nothing
to loop over: interval_set.hpp:120-128, split_interval_set.hpp:109-113, separate_interval_set.hpp:113-117,
concept/interval_set.hpp:297-331. `=` takes its operand by value, interval_set.hpp:149-154. -/
def SetOp2.runSelf (st : Style) (l : List I) : SetOp2 I → Option (List I)
  | .add _ => (ISet.addSelf o st l).toOption
  | .sub => (ISet.subSelf o l).toOption
  | .inter oracle => ISet.interSet o st oracle l l
  | .flip _ => (ISet.flipSelf o st l).toOption
  | .assign _ | .domain _ | .between _ => some []
  | .copy => some l

/-- An operation whose operand is the object itself. `&=` computes the intersection in a temporary,
concept/interval_associator.hpp:770-778. -/
def MapOp2.runSelf (t : MapType V) (l : List (I × V)) : MapOp2 I V → Option (List (I × V))
  | .add _ => (IMap.addSelf o t l).toOption
  | .sub => (IMap.subSelf o t l).toOption
  | .insert _ => (IMap.insertSelf o t l).toOption
  | .erase => (IMap.eraseSelf o t l).toOption
  | .inter oracle => IMap.addInterMap o t oracle [] l l
  | .flip oracle => (IMap.flipSelf o t oracle l).toOption

/-- `s ⊕= r`, where `s` and `r` are variables. -/
def applySet (τ : VarTypes V) (σ : Store I V) (a b : Nat) (c : SetOp2 I) : Option (List I) :=
  if a = b then c.runSelf o (τ.set a) (σ.set a) else c.run o (τ.set a) (τ.set b) (σ.set a) (σ.set b)

/-- `m ⊕= n`, where `m` and `n` are variables. -/
def applyMap (τ : VarTypes V) (σ : Store I V) (m n : Nat) (c : MapOp2 I V) : Option (List (I × V)) :=
  if m = n then c.runSelf o (τ.map m) (σ.map m) else c.run o (τ.map m) (σ.map m) (σ.map n)

/-- Answers to questions. The functions are those of `Verif.Model.SetFun`, `Verif.Model.MapQuery` and
`Verif.Model.Compare`, which cite the source. -/
def ask (E : Option (ElemFns D I)) (τ : VarTypes V) (σ : Store I V) : Query D I V → Option (Answer V)
  | .contains a x => E.bind fun e => (containsE o setSeg e.lookup (σ.set a) x).map .bool
  | .containsItv a k => (ISet.containsSeg o (σ.set a) k).map .bool
  | .containsSet a b => (containsC o setSeg setSeg (fun _ _ => .equal) (σ.set a) (σ.set b)).map .bool
  | .within a b => (withinC o setSeg setSeg (fun _ _ => .equal) (σ.set a) (σ.set b)).map .bool
  | .intersectsItv a k => (intersectsSeg o setSeg (σ.set a) k).map .bool
  | .intersects a b oracle => (ISet.intersects o (τ.set a) oracle (σ.set a) (σ.set b)).map .bool
  | .isEmpty a => some (.bool (σ.set a).isEmpty)
  | .elementEqual a b => (isElementEqual o setSeg setSeg (fun _ _ => .equal) (σ.set a) (σ.set b)).map .bool
  | .equal a b => some (.bool (eqC o setSeg (σ.set a) (σ.set b)))
  | .select m x => E.bind fun e => (IMap.select o e.lookup (τ.map m).cfg.ident (σ.map m) x).map .value
  | .hasKey m x => E.bind fun e => (IMap.containsKey o (τ.map m).cfg.total e.lookup (σ.map m) x).map .bool
  | .hasPair m x v => E.bind fun e => (IMap.containsPair o e.lookup (σ.map m) x v).map .bool
  | .hasKeys m k => (IMap.containsKeys o (τ.map m).cfg.total (σ.map m) k).map .bool
  | .hasSegment m k v => (IMap.containsSeg o (σ.map m) k v).map .bool
  | .hasSet m a => (withinC o setSeg mapSeg (fun _ _ => .equal) (σ.set a) (σ.map m)).map .bool
  | .hasMap m n => (withinC o mapSeg mapSeg atomicCompare (σ.map n) (σ.map m)).map .bool
  | .mapIsEmpty m => some (.bool (σ.map m).isEmpty)
  | .mapElementEqual m n => (isElementEqual o mapSeg mapSeg atomicCompare (σ.map m) (σ.map n)).map .bool
  | .mapEqual m n => some (.bool (eqC o mapSeg (σ.map m) (σ.map n)))

/-- One step of a program.

`d = a ⊕ b` for sets and maps, concept/interval_associator.hpp:414-441, 724-737, 853-880 and 1088-1115: the object is the right operand
for `+`, `&` and `^`, if that is an rvalue and the left operand is none. An object that is an rvalue is changed in
place and moved into the result; else a temporary copy is changed.
`m = n`, interval_map.hpp:97-107, 124-136, split_interval_map.hpp:82-88, 105-117: the nodes are copied if the classes are
the same.
Moves: interval_base_set.hpp:176-189, interval_base_map.hpp:223-236. The assignment takes its operand by value, so the
content is moved to a temporary first. `swap`: interval_base_set.hpp:203, interval_base_map.hpp:252. -/
def step (E : Option (ElemFns D I)) (τ : VarTypes V) (ρ : Remains I V) (σ : Store I V) :
    Act D I V → Option (Store I V × Answer V)
  | .set a c => (c.run o E (τ.set a) (σ.set a)).map fun l => (σ.putSet a l, .done)
  | .set2 a b c => (applySet o τ σ a b c).map fun l => (σ.putSet a l, .done)
  | .setBin d a b ra rb c oracle =>
    let right := c != .sub && !ra && rb
    let obj := if right then b else a
    let arg := if right then a else b
    if τ.set d = τ.set a ∧ τ.set a = τ.set b then
      if ra || right then
        (applySet o τ σ obj arg (c.op oracle)).map fun l =>
          ((σ.putSet obj (ρ.set (τ.set obj) l)).putSet d l, .done)
      else ((c.op oracle).run o (τ.set a) (τ.set b) (σ.set a) (σ.set b)).map fun l => (σ.putSet d l, .done)
    else none
  | .setMove a b =>
    if τ.set a = τ.set b then some ((σ.putSet b (ρ.set (τ.set b) (σ.set b))).putSet a (σ.set b), .done) else none
  | .setSwap a b =>
    if τ.set a = τ.set b then some ((σ.putSet a (σ.set b)).putSet b (σ.set a), .done) else none
  | .map m c => (c.run o E (τ.map m) (σ.map m)).map fun l => (σ.putMap m l, .done)
  | .map2 m n c => (applyMap o τ σ m n c).map fun l => (σ.putMap m l, .done)
  | .map3 m a c => (c.run o (τ.map m) (σ.map m) (σ.set a)).map fun l => (σ.putMap m l, .done)
  | .mapBin d m n rm rn c oracle =>
    let right := c != .sub && !rm && rn
    let obj := if right then n else m
    let arg := if right then m else n
    if rm || right then
      (applyMap o τ σ obj arg (c.mapOp oracle)).map fun l =>
        ((σ.putMap obj (ρ.map (τ.map obj) l)).putMap d l, .done)
    else ((c.mapOp oracle).run o (τ.map m) (σ.map m) (σ.map n)).map fun l => (σ.putMap d l, .done)
  | .mapCopy m n oracle =>
    if (τ.map m).cfg.joining = (τ.map n).cfg.joining then some (σ.putMap m (σ.map n), .done)
    else (IMap.assign o (τ.map m) oracle (σ.map n)).map fun l => (σ.putMap m l, .done)
  | .mapMove m n => some ((σ.putMap n (ρ.map (τ.map n) (σ.map n))).putMap m (σ.map n), .done)
  | .mapSwap m n => some ((σ.putMap m (σ.map n)).putMap n (σ.map m), .done)
  | .domain a m oracle => (IMap.domain o (τ.set a) oracle (σ.map m)).map fun l => (σ.putSet a l, .done)
  | .between a m oracle => (IMap.between o (τ.set a) oracle (σ.map m)).map fun l => (σ.putSet a l, .done)
  | .ask q => (ask o E τ σ q).map fun r => (σ, r)

end

/-- `n` steps of a client, which knows the answers it got so far. `next` executes a step. -/
def play {S D I V : Type} (next : S → Act D I V → Option (S × Answer V)) (client : List (Answer V) → Act D I V) :
    Nat → S → List (Answer V) → Option (S × List (Answer V))
  | 0, s, got => some (s, got)
  | n + 1, s, got => do
    let (s, r) ← next s (client got)
    play next client n s (got ++ [r])

end ICL
