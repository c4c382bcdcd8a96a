import Verif.Theory.MapHistory

/-!
# Specification: one program, two interval classes

`TwinSets` and `TwinMaps` relate the containers that a program computes with the interval class `o₁` to those that it
computes with the interval class `o₂`, where each operand of the one run has the same elements as the operand of
the other run.
-/

namespace ICL.Spec

variable {D I J V : Type} [LinearOrder D]

/-- Two intervals, of different classes, with the same elements. -/
def SameItv (o₁ : IntervalOps D I) (o₂ : IntervalOps D J) (i : I) (j : J) : Prop := ∀ x, In o₁ x i ↔ In o₂ x j

/-- Two interval sets whose segments have pairwise the same elements. -/
def TwinSegments (o₁ : IntervalOps D I) (o₂ : IntervalOps D J) (s : List I) (t : List J) : Prop :=
  List.Forall₂ (SameItv o₁ o₂) s t

/-- Two interval maps whose segments have pairwise the same elements and the same value. -/
def TwinMapSegments (o₁ : IntervalOps D I) (o₂ : IntervalOps D J) (m : List (I × V)) (n : List (J × V)) : Prop :=
  List.Forall₂ (fun a b => SameItv o₁ o₂ a.1 b.1 ∧ a.2 = b.2) m n

/-- The same operation on an interval set, with operands that have the same elements, and any hints. -/
inductive SameSetCall (o₁ : IntervalOps D I) (o₂ : IntervalOps D J) : SetOp D I → SetOp D J → Prop
  | add {k k'} : SameItv o₁ o₂ k k' → SameSetCall o₁ o₂ (.add k) (.add k')
  | addHint (n n' : Nat) {k k'} : SameItv o₁ o₂ k k' → SameSetCall o₁ o₂ (.addHint n k) (.addHint n' k')
  | subtract {k k'} : SameItv o₁ o₂ k k' → SameSetCall o₁ o₂ (.subtract k) (.subtract k')
  | inter (oracle oracle') {k k'} : SameItv o₁ o₂ k k' → SameSetCall o₁ o₂ (.inter oracle k) (.inter oracle' k')
  | flip {k k'} : SameItv o₁ o₂ k k' → SameSetCall o₁ o₂ (.flip k) (.flip k')
  | addE (x : D) : SameSetCall o₁ o₂ (.addE x) (.addE x)
  | subE (x : D) : SameSetCall o₁ o₂ (.subE x) (.subE x)
  | interE (x : D) : SameSetCall o₁ o₂ (.interE x) (.interE x)
  | flipE (x : D) : SameSetCall o₁ o₂ (.flipE x) (.flipE x)
  | clear : SameSetCall o₁ o₂ .clear .clear
  | eraseRange (i j : Nat) : SameSetCall o₁ o₂ (.eraseRange i j) (.eraseRange i j)
  | join : SameSetCall o₁ o₂ .join .join

/-- The same operation with a set operand. -/
inductive SameSetCall2 : SetOp2 I → SetOp2 J → Prop
  | add (oracle oracle') : SameSetCall2 (.add oracle) (.add oracle')
  | sub : SameSetCall2 .sub .sub
  | inter (oracle oracle') : SameSetCall2 (.inter oracle) (.inter oracle')
  | flip (oracle oracle') : SameSetCall2 (.flip oracle) (.flip oracle')
  | assign (oracle oracle') : SameSetCall2 (.assign oracle) (.assign oracle')
  | copy : SameSetCall2 .copy .copy
  | domain (oracle oracle') : SameSetCall2 (.domain oracle) (.domain oracle')
  | between (oracle oracle') : SameSetCall2 (.between oracle) (.between oracle')

/-- The sets that one program computes with the interval classes `o₁` and `o₂`. -/
inductive TwinSets [DecidableEq I] [DecidableEq J] (o₁ : IntervalOps D I) (o₂ : IntervalOps D J)
    (E₁ : Option (ElemFns D I)) (E₂ : Option (ElemFns D J)) : Style → List I → List J → Prop
  | empty (st : Style) : TwinSets o₁ o₂ E₁ E₂ st [] []
  | op {st s t s' t' c c'} : TwinSets o₁ o₂ E₁ E₂ st s t → SameSetCall o₁ o₂ c c' →
      c.Pre o₁ E₁ s → c'.Pre o₂ E₂ t → c.run o₁ E₁ st s = some s' → c'.run o₂ E₂ st t = some t' →
      TwinSets o₁ o₂ E₁ E₂ st s' t'
  | op2 {st st' s t u v s' t' c c'} : TwinSets o₁ o₂ E₁ E₂ st s t → TwinSets o₁ o₂ E₁ E₂ st' u v → SameSetCall2 c c' →
      c.run o₁ st st' s u = some s' → c'.run o₂ st st' t v = some t' → TwinSets o₁ o₂ E₁ E₂ st s' t'

/-- The same operation on an interval map, with operands that have the same elements and the same values, and any hints. -/
inductive SameMapCall (o₁ : IntervalOps D I) (o₂ : IntervalOps D J) :
    MapOp D I V → MapOp D J V → Prop
  | add {k k'} (v : V) : SameItv o₁ o₂ k k' → SameMapCall o₁ o₂ (.add k v) (.add k' v)
  | addHint (n n' : Nat) {k k'} (v : V) : SameItv o₁ o₂ k k' → SameMapCall o₁ o₂ (.addHint n k v) (.addHint n' k' v)
  | subtract {k k'} (v : V) : SameItv o₁ o₂ k k' → SameMapCall o₁ o₂ (.subtract k v) (.subtract k' v)
  | insert {k k'} (v : V) : SameItv o₁ o₂ k k' → SameMapCall o₁ o₂ (.insert k v) (.insert k' v)
  | insertHint (n n' : Nat) (b b' : Bool) {k k'} (v : V) : SameItv o₁ o₂ k k' →
      SameMapCall o₁ o₂ (.insertHint n b k v) (.insertHint n' b' k' v)
  | set {k k'} (v : V) : SameItv o₁ o₂ k k' → SameMapCall o₁ o₂ (.set k v) (.set k' v)
  | erase {k k'} (v : V) : SameItv o₁ o₂ k k' → SameMapCall o₁ o₂ (.erase k v) (.erase k' v)
  | eraseKeys {k k'} : SameItv o₁ o₂ k k' → SameMapCall o₁ o₂ (.eraseKeys k) (.eraseKeys k')
  | inter (oracle oracle') {k k'} (v : V) : SameItv o₁ o₂ k k' →
      SameMapCall o₁ o₂ (.inter oracle k v) (.inter oracle' k' v)
  | interKeys (oracle oracle') {k k'} : SameItv o₁ o₂ k k' →
      SameMapCall o₁ o₂ (.interKeys oracle k) (.interKeys oracle' k')
  | flip (oracle oracle') {k k'} (v : V) : SameItv o₁ o₂ k k' →
      SameMapCall o₁ o₂ (.flip oracle k v) (.flip oracle' k' v)
  | addE (x : D) (v : V) : SameMapCall o₁ o₂ (.addE x v) (.addE x v)
  | subE (x : D) (v : V) : SameMapCall o₁ o₂ (.subE x v) (.subE x v)
  | insertE (x : D) (v : V) : SameMapCall o₁ o₂ (.insertE x v) (.insertE x v)
  | setE (x : D) (v : V) : SameMapCall o₁ o₂ (.setE x v) (.setE x v)
  | eraseE (x : D) (v : V) : SameMapCall o₁ o₂ (.eraseE x v) (.eraseE x v)
  | eraseKey (x : D) : SameMapCall o₁ o₂ (.eraseKey x) (.eraseKey x)
  | interE (oracle oracle') (x : D) (v : V) : SameMapCall o₁ o₂ (.interE oracle x v) (.interE oracle' x v)
  | interKey (x : D) : SameMapCall o₁ o₂ (.interKey x) (.interKey x)
  | flipE (oracle oracle') (x : D) (v : V) : SameMapCall o₁ o₂ (.flipE oracle x v) (.flipE oracle' x v)
  | clear : SameMapCall o₁ o₂ .clear .clear
  | eraseRange (i j : Nat) : SameMapCall o₁ o₂ (.eraseRange i j) (.eraseRange i j)
  | eraseIf (p : I × V → Bool) (q : J × V → Bool) :
      (∀ i j v, SameItv o₁ o₂ i j → p (i, v) = q (j, v)) → SameMapCall o₁ o₂ (.eraseIf p) (.eraseIf q)
  | join : SameMapCall o₁ o₂ .join .join
  | absorbIdentities : SameMapCall o₁ o₂ .absorbIdentities .absorbIdentities

/-- The same operation with a map operand. -/
inductive SameMapCall2 : MapOp2 I V → MapOp2 J V → Prop
  | add (oracle oracle') : SameMapCall2 (.add oracle) (.add oracle')
  | sub : SameMapCall2 .sub .sub
  | insert (oracle oracle') : SameMapCall2 (.insert oracle) (.insert oracle')
  | erase : SameMapCall2 .erase .erase
  | inter (oracle oracle') : SameMapCall2 (.inter oracle) (.inter oracle')
  | flip (oracle oracle') : SameMapCall2 (.flip oracle) (.flip oracle')

/-- The same operation of a map with a set operand. -/
inductive SameMapCall3 : MapOp3 I V → MapOp3 J V → Prop
  | erase : SameMapCall3 .erase .erase
  | inter (oracle oracle') : SameMapCall3 (.inter oracle) (.inter oracle')

/-- The maps that one program computes with the interval classes `o₁` and `o₂`. -/
inductive TwinMaps [DecidableEq I] [DecidableEq J] [DecidableEq V] (o₁ : IntervalOps D I) (o₂ : IntervalOps D J)
    (E₁ : Option (ElemFns D I)) (E₂ : Option (ElemFns D J)) : MapType V → List (I × V) → List (J × V) → Prop
  | empty (t : MapType V) : TwinMaps o₁ o₂ E₁ E₂ t [] []
  | op {t m n m' n' c c'} : TwinMaps o₁ o₂ E₁ E₂ t m n → SameMapCall o₁ o₂ c c' →
      c.Pre o₁ E₁ t m → c'.Pre o₂ E₂ t n → c.run o₁ E₁ t m = some m' → c'.run o₂ E₂ t n = some n' →
      TwinMaps o₁ o₂ E₁ E₂ t m' n'
  | op2 {t t' m n u v m' n' c c'} : TwinMaps o₁ o₂ E₁ E₂ t m n → TwinMaps o₁ o₂ E₁ E₂ t' u v → Neutral t' →
      SameMapCall2 c c' → c.run o₁ t m u = some m' → c'.run o₂ t n v = some n' → TwinMaps o₁ o₂ E₁ E₂ t m' n'
  | op3 {t st m n u v m' n' c c'} : TwinMaps o₁ o₂ E₁ E₂ t m n → TwinSets o₁ o₂ E₁ E₂ st u v →
      SameMapCall3 c c' → c.run o₁ t m u = some m' → c'.run o₂ t n v = some n' → TwinMaps o₁ o₂ E₁ E₂ t m' n'
  | assign {t t' u v m' n'} (oracle oracle') : TwinMaps o₁ o₂ E₁ E₂ t' u v → t.Alike t' →
      IMap.assign o₁ t oracle u = some m' → IMap.assign o₂ t oracle' v = some n' → TwinMaps o₁ o₂ E₁ E₂ t m' n'

end ICL.Spec
