import Verif.MapSpec
import Verif.Model.Program
import Verif.Theory.SetHistory

/-!
# Specification: the same programs over mathematical sets and functions

A variable holds a set of domain values, given by its membership predicate, or a partial function from domain values to
associated values, `none` being: not a key. After its content has been moved away, the content of a variable is
unspecified, until it gets a new one.

A step has no result (`none`) if the client does something that the library does not allow or does not specify:

* it uses a variable with unspecified content, other than to clear it or assign to it,
* it uses containers of different types where one type is required,
* it flips an empty interval in a set or a partial map,
* it calls a function for an element that has no one-element interval,
* it compares containers of classes that do not join by `==`, which compares segments, or erases segments by position
  or by a predicate on segments,
* it calls `assign`, `domain` or `between` of a container with itself, or `+=` (unless the functor is idempotent), `-=` or
  `^=` of an interval map with itself, or the operators `+`, `-`, `^` that do the same because the operand is moved,
* it moves the right operand `n`, but not the left one, into `m + n`, `m & n` or `m ^ n` for maps whose functors are not
  commutative,
* it asks a total map whether it contains a container.
-/

namespace ICL.Spec
open Classical

/-- The contents of the variables. -/
@[ext] structure Contents (D V : Type) where
  set : Nat → Option (D → Prop)
  map : Nat → Option (D → Option V)

section
variable {D I V : Type}

/-- Replaces the content of one variable. -/
noncomputable def Contents.putSet (α : Contents D V) (a : Nat) (S : Option (D → Prop)) : Contents D V :=
  { α with set := fun n => if n = a then S else α.set n }

@[inherit_doc Contents.putSet] noncomputable def Contents.putMap (α : Contents D V) (m : Nat)
    (f : Option (D → Option V)) : Contents D V :=
  { α with map := fun n => if n = m then f else α.map n }

/-- Everything is empty. -/
def Contents.empty : Contents D V := ⟨fun _ => some fun _ => False, fun _ => some fun _ => none⟩

/-- `some a` if the condition holds -/
noncomputable def allowed {A : Type} (P : Prop) (a : A) : Option A := if P then some a else none

/-- The function that is `g (f x)` for the values `x` in `P`, and `f x` elsewhere. -/
noncomputable def onPart (P : D → Prop) (g : Option V → Option V) (f : D → Option V) : D → Option V :=
  fun x => if P x then g (f x) else f x

/-- The function that is `g v (f x)` for the keys `x` of `r`, `v` being the value there, and `f x` elsewhere. -/
def onKeys (r : D → Option V) (g : V → Option V → Option V) (f : D → Option V) : D → Option V :=
  fun x => match r x with
    | none => f x
    | some v => g v (f x)

variable [LinearOrder D] (o : IntervalOps D I)

/-- Operations on a set. -/
noncomputable def setStep (E : Option (ElemFns D I)) (S : D → Prop) : SetOp D I → Option (D → Prop)
  | .add k | .addHint _ k => some fun x => S x ∨ In o x k
  | .subtract k => some fun x => S x ∧ ¬ In o x k
  | .inter _ k => some fun x => S x ∧ In o x k
  | .flip k => allowed (∃ x, In o x k) fun x => Xor (S x) (In o x k)
  | .addE a => allowed (HasElem o E a) fun x => S x ∨ x = a
  | .subE a => allowed (HasElem o E a) fun x => S x ∧ x ≠ a
  | .interE a => allowed (HasElem o E a) fun x => S x ∧ x = a
  | .flipE a => allowed (HasElem o E a) fun x => Xor (S x) (x = a)
  | .clear => some fun _ => False
  | .eraseRange _ _ => none
  | .join => some S

omit [LinearOrder D] in
/-- The binary operators. -/
def setBin (S T : D → Prop) : SetBin → D → Prop
  | .add => fun x => S x ∨ T x
  | .sub => fun x => S x ∧ ¬ T x
  | .inter => fun x => S x ∧ T x
  | .flip => fun x => Xor (S x) (T x)

/-- Operations on a set `S` with a set `T`; `same`: they are of the same class; `self`: they are the same variable. -/
noncomputable def setStep2 (same self : Prop) (S : Option (D → Prop)) (T : D → Prop) : SetOp2 I → Option (D → Prop)
  | .add _ => S.map fun S => setBin S T .add
  | .sub => S.map fun S => setBin S T .sub
  | .inter _ => S.map fun S => setBin S T .inter
  | .flip _ => S.map fun S => setBin S T .flip
  | .assign _ => allowed (¬ self) T
  | .copy => allowed same T
  | .domain _ => allowed (¬ self) T
  | .between _ => allowed (¬ self) fun x => ¬ T x ∧ ∃ y z, T y ∧ T z ∧ y < x ∧ x < z

section
variable [DecidableEq V] (t : MapType V)

omit [LinearOrder D] in
/-- Intersection with the values `P`, which are all associated to `v`. -/
noncomputable def interPart (P : D → Prop) (v : V) (f : D → Option V) : D → Option V :=
  if t.cfg.total = true then onPart P (added t v) f
  else fun x => if P x then (f x).bind fun u => sectioned t u v else none

omit [LinearOrder D] in
/-- The symmetric difference of the value `a` of a key and the value `v`, for a partial map. -/
def flippedWith (v : V) : Option V → Option V
  | none => added t v none
  | some u => flipped t u v

omit [LinearOrder D] in
/-- The symmetric difference of total maps: identity elements, or nothing if these are absorbed. -/
noncomputable def flipTotal (P : D → Prop) (f : D → Option V) : D → Option V :=
  fun x => if t.cfg.absorbs = false ∧ (f x ≠ none ∨ P x) then some t.cfg.ident else none

omit [LinearOrder D] in
/-- Symmetric difference with the values `P`, which are all associated to `v`. -/
noncomputable def flipPart (P : D → Prop) (v : V) (f : D → Option V) : Option (D → Option V) :=
  if t.cfg.total = true then some (flipTotal t P f)
  else allowed (∃ x, P x) (onPart P (flippedWith t v) f)

/-- Operations on a map. -/
noncomputable def mapStep (E : Option (ElemFns D I)) (f : D → Option V) : MapOp D I V → Option (D → Option V)
  | .add k v | .addHint _ k v => some (onPart (In o · k) (added t v) f)
  | .subtract k v => some (onPart (In o · k) (subtracted t v) f)
  | .insert k v | .insertHint _ _ k v => some (onPart (In o · k) (inserted t v) f)
  | .set k v => some (onPart (In o · k) (fun _ => stored t v) f)
  | .erase k v => some (onPart (In o · k) (erased t v) f)
  | .eraseKeys k => some (onPart (In o · k) (fun _ => none) f)
  | .inter _ k v => some (interPart t (In o · k) v f)
  | .interKeys _ k => some (onPart (¬ In o · k) (fun _ => none) f)
  | .flip _ k v => flipPart t (In o · k) v f
  | .addE a v => allowed (HasElem o E a) (onPart (· = a) (added t v) f)
  | .subE a v => allowed (HasElem o E a) (onPart (· = a) (subtracted t v) f)
  | .insertE a v => allowed (HasElem o E a) (onPart (· = a) (inserted t v) f)
  | .setE a v => allowed (HasElem o E a) (onPart (· = a) (fun _ => stored t v) f)
  | .eraseE a v => allowed (HasElem o E a) (onPart (· = a) (erased t v) f)
  | .eraseKey a => allowed (HasElem o E a) (onPart (· = a) (fun _ => none) f)
  | .interE _ a v => allowed (HasElem o E a) (interPart t (· = a) v f)
  | .interKey a => allowed (HasElem o E a) (onPart (· ≠ a) (fun _ => none) f)
  | .flipE _ a v => (allowed (HasElem o E a) ()).bind fun _ => flipPart t (· = a) v f
  | .clear => some fun _ => none
  | .eraseRange _ _ => none
  | .eraseIf _ => none
  | .join => some f
  | .absorbIdentities => some fun x => (f x).filter fun v => v ≠ t.cfg.ident

omit [LinearOrder D] in
/-- Operations on a map `f` with a map `g`; `self`: they are the same variable. -/
noncomputable def mapStep2 (self : Prop) (f g : D → Option V) : MapOp2 I V → Option (D → Option V)
  | .add _ => allowed (self → ∀ u, t.plus.apply u u = u) (onKeys g (added t) f)
  | .sub => allowed (¬ self) (onKeys g (subtracted t) f)
  | .insert _ => some (onKeys g (inserted t) f)
  | .erase => some (onKeys g (erased t) f)
  | .inter _ =>
    if t.cfg.total = true then some (onKeys g (added t) f)
    else some fun x => (f x).bind fun u => (g x).bind fun v => sectioned t u v
  | .flip _ => allowed (¬ self)
    (if t.cfg.total = true then flipTotal t (fun x => g x ≠ none) f else onKeys g (flippedWith t) f)

omit [LinearOrder D] [DecidableEq V] in
/-- Operations on a map `f` with a set `S`. -/
noncomputable def mapStep3 (f : D → Option V) (S : D → Prop) : MapOp3 I V → D → Option V
  | .erase => onPart S (fun _ => none) f
  | .inter _ => onPart (¬ S ·) (fun _ => none) f

omit [LinearOrder D] in
/-- The result of the operator does not depend on the order of its operands. -/
def Commutes : SetBin → Prop
  | .add => ∀ u v, t.plus.apply u v = t.plus.apply v u
  | .sub => False
  | .inter => if t.cfg.total = true then ∀ u v, t.plus.apply u v = t.plus.apply v u
    else ∀ u v, sectioned t u v = sectioned t v u
  | .flip => t.cfg.total = true ∨ ∀ u v, flipped t u v = flipped t v u

end

variable (E : Option (ElemFns D I)) [DecidableEq V] (τ : VarTypes V) (α : Contents D V)

omit [DecidableEq V] in
/-- Answers to questions. -/
noncomputable def answer : Query D I V → Option (Answer V)
  | .contains a x => do
    let S ← α.set a
    allowed (HasElem o E x) (.bool (decide (S x)))
  | .containsItv a k => do
    let S ← α.set a
    return .bool (decide (∀ x, In o x k → S x))
  | .containsSet a b => do
    let S ← α.set a
    let T ← α.set b
    return .bool (decide (∀ x, T x → S x))
  | .within a b => do
    let S ← α.set a
    let T ← α.set b
    return .bool (decide (∀ x, S x → T x))
  | .intersectsItv a k => do
    let S ← α.set a
    return .bool (decide (∃ x, S x ∧ In o x k))
  | .intersects a b _ => do
    let S ← α.set a
    let T ← α.set b
    return .bool (decide (∃ x, S x ∧ T x))
  | .isEmpty a => do
    let S ← α.set a
    return .bool (decide (∀ x, ¬ S x))
  | .elementEqual a b => do
    let S ← α.set a
    let T ← α.set b
    return .bool (decide (∀ x, S x ↔ T x))
  | .equal a b => do
    let S ← α.set a
    let T ← α.set b
    allowed (τ.set a = .joining ∧ τ.set b = .joining) (.bool (decide (∀ x, S x ↔ T x)))
  | .select m x => do
    let f ← α.map m
    allowed (HasElem o E x) (.value ((f x).getD (τ.map m).cfg.ident))
  | .hasKey m x => do
    let f ← α.map m
    allowed (HasElem o E x) (.bool (decide ((τ.map m).cfg.total = true ∨ f x ≠ none)))
  | .hasPair m x v => do
    let f ← α.map m
    allowed (HasElem o E x) (.bool (decide (f x = some v)))
  | .hasKeys m k => do
    let f ← α.map m
    return .bool (decide ((τ.map m).cfg.total = true ∨ ∀ x, In o x k → f x ≠ none))
  | .hasSegment m k v => do
    let f ← α.map m
    return .bool (decide (∀ x, In o x k → f x = some v))
  | .hasSet m a => do
    let f ← α.map m
    let S ← α.set a
    allowed ((τ.map m).cfg.total = false) (.bool (decide (∀ x, S x → f x ≠ none)))
  | .hasMap m n => do
    let f ← α.map m
    let g ← α.map n
    allowed ((τ.map m).cfg.total = false) (.bool (decide (∀ x v, g x = some v → f x = some v)))
  | .mapIsEmpty m => do
    let f ← α.map m
    return .bool (decide (∀ x, f x = none))
  | .mapElementEqual m n => do
    let f ← α.map m
    let g ← α.map n
    return .bool (decide (∀ x, f x = g x))
  | .mapEqual m n => do
    let f ← α.map m
    let g ← α.map n
    allowed ((τ.map m).cfg.joining = true ∧ (τ.map n).cfg.joining = true) (.bool (decide (∀ x, f x = g x)))

/-- The content is moved away from a variable that is passed as an rvalue. -/
noncomputable def Contents.moved (r : Bool) (a : Nat) : Contents D V := if r = true then α.putSet a none else α

@[inherit_doc Contents.moved] noncomputable def Contents.movedMap (r : Bool) (m : Nat) : Contents D V :=
  if r = true then α.putMap m none else α

/-- One step of a program. -/
noncomputable def specStep : Act D I V → Option (Contents D V × Answer V)
  | .set a .clear => some (α.putSet a (some fun _ => False), .done)
  | .set a c => do
    let S ← α.set a
    let S' ← setStep o E S c
    return (α.putSet a (some S'), .done)
  | .set2 a b c => do
    let T ← α.set b
    let S' ← setStep2 (τ.set a = τ.set b) (a = b) (α.set a) T c
    return (α.putSet a (some S'), .done)
  | .setBin d a b ra rb c _ => do
    let S ← α.set a
    let T ← α.set b
    allowed (τ.set d = τ.set a ∧ τ.set a = τ.set b)
      (((α.moved ra a).moved rb b).putSet d (some (setBin S T c)), .done)
  | .setMove a b => do
    let S ← α.set b
    allowed (τ.set a = τ.set b) ((α.putSet b none).putSet a (some S), .done)
  | .setSwap a b => do
    allowed (τ.set a = τ.set b) ((α.putSet a (α.set b)).putSet b (α.set a), .done)
  | .map m .clear => some (α.putMap m (some fun _ => none), .done)
  | .map m c => do
    let f ← α.map m
    let f' ← mapStep o (τ.map m) E f c
    return (α.putMap m (some f'), .done)
  | .map2 m n c => do
    let f ← α.map m
    let g ← α.map n
    let f' ← mapStep2 (τ.map m) (m = n) f g c
    return (α.putMap m (some f'), .done)
  | .map3 m a c => do
    let f ← α.map m
    let S ← α.set a
    return (α.putMap m (some (mapStep3 f S c)), .done)
  | .mapBin d m n rm rn c oracle => do
    let f ← α.map m
    let g ← α.map n
    let f' ← mapStep2 (τ.map m) (m = n ∧ (rm = true ∨ rn = true)) f g (c.mapOp oracle)
    allowed (τ.map d = τ.map m ∧ τ.map m = τ.map n ∧
        (rm = false → rn = true → c ≠ .sub → Commutes (τ.map m) c))
      (((α.movedMap rm m).movedMap rn n).putMap d (some f'), .done)
  | .mapCopy m n _ => do
    let f ← α.map n
    allowed ((τ.map m).Alike (τ.map n)) (α.putMap m (some f), .done)
  | .mapMove m n => do
    let f ← α.map n
    allowed (τ.map m = τ.map n) ((α.putMap n none).putMap m (some f), .done)
  | .mapSwap m n =>
    allowed (τ.map m = τ.map n) ((α.putMap m (α.map n)).putMap n (α.map m), .done)
  | .domain a m _ => do
    let f ← α.map m
    return (α.putSet a (some fun x => f x ≠ none), .done)
  | .between a m _ => do
    let f ← α.map m
    return (α.putSet a (some fun x => f x = none ∧ ∃ y z, f y ≠ none ∧ f z ≠ none ∧ y < x ∧ x < z), .done)
  | .ask q => (answer o E τ α q).map fun r => (α, r)

/-- Containers from which the content has been moved are valid. -/
structure LeavesValid (ρ : Remains I V) : Prop where
  set : ∀ st l, WellFormed o l → (st = .joining → FullyJoined o l) →
    WellFormed o (ρ.set st l) ∧ (st = .joining → FullyJoined o (ρ.set st l))
  map : ∀ t l, MapWellFormed o l → (t.cfg.joining = true → MapFullyJoined o l) → NoIdentity t l →
    MapWellFormed o (ρ.map t l) ∧ (t.cfg.joining = true → MapFullyJoined o (ρ.map t l)) ∧ NoIdentity t (ρ.map t l)

end

/-! ## What a program means does not depend on hints

An operation without its freedom of choice: no hints of the client, and always the same of the positions that the
library may take. -/

section
variable {D I V : Type}

def _root_.ICL.SetOp.plainly : SetOp D I → SetOp D I
  | .addHint _ k => .add k
  | .inter _ k => .inter (fun _ _ => 0) k
  | c => c

def _root_.ICL.SetOp2.plainly : SetOp2 I → SetOp2 I
  | .add _ => .add fun _ _ => 0
  | .inter _ => .inter fun _ _ => 0
  | .flip _ => .flip fun _ _ => 0
  | .assign _ => .assign fun _ _ => 0
  | .domain _ => .domain fun _ _ => 0
  | .between _ => .between fun _ _ => 0
  | c => c

def _root_.ICL.MapOp.plainly : MapOp D I V → MapOp D I V
  | .addHint _ k v => .add k v
  | .insertHint _ _ k v => .insert k v
  | .inter _ k v => .inter (fun _ _ => 0) k v
  | .interKeys _ k => .interKeys (fun _ _ => 0) k
  | .flip _ k v => .flip (fun _ _ => 0) k v
  | .interE _ x v => .interE (fun _ _ => 0) x v
  | .flipE _ x v => .flipE (fun _ _ => 0) x v
  | c => c

def _root_.ICL.MapOp2.plainly : MapOp2 I V → MapOp2 I V
  | .add _ => .add fun _ _ => 0
  | .insert _ => .insert fun _ _ => 0
  | .inter _ => .inter fun _ _ => 0
  | .flip _ => .flip fun _ _ => 0
  | c => c

def _root_.ICL.MapOp3.plainly : MapOp3 I V → MapOp3 I V
  | .inter _ => .inter fun _ _ => 0
  | c => c

def _root_.ICL.Query.plainly : Query D I V → Query D I V
  | .intersects a b _ => .intersects a b fun _ _ => 0
  | q => q

def _root_.ICL.Act.plainly : Act D I V → Act D I V
  | .set a c => .set a c.plainly
  | .set2 a b c => .set2 a b c.plainly
  | .setBin d a b ra rb c _ => .setBin d a b ra rb c fun _ _ => 0
  | .map m c => .map m c.plainly
  | .map2 m n c => .map2 m n c.plainly
  | .map3 m a c => .map3 m a c.plainly
  | .mapBin d m n rm rn c _ => .mapBin d m n rm rn c fun _ _ => 0
  | .mapCopy m n _ => .mapCopy m n fun _ _ => 0
  | .domain a m _ => .domain a m fun _ _ => 0
  | .between a m _ => .between a m fun _ _ => 0
  | .ask q => .ask q.plainly
  | c => c

end
end ICL.Spec
