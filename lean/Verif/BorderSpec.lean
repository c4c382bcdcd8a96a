import Verif.Spec
import Verif.Model.MapHistory

/-!
# Borders

The borders of an interval, as places in the domain and apart from the way the interval is represented: a border
is given by the set of the values on its left.  `[1, 3)` and `[1, 2]` over the integers have the same borders.
-/

namespace ICL.Spec

variable {D I : Type} [LinearOrder D]

/-- The values on the left of the lower border of `i`: those below all elements. -/
def LowerBorder (o : IntervalOps D I) (i : I) : Set D := {x | ∀ y, In o y i → x < y}

/-- The values on the left of the upper border of `i`: the elements and what is below one of them. -/
def UpperBorder (o : IntervalOps D I) (i : I) : Set D := {x | ∃ y, In o y i ∧ x ≤ y}

/-- The borders of the non-empty intervals of a list. -/
def Borders (o : IntervalOps D I) (l : List I) : Set (Set D) :=
  {c | ∃ i ∈ l, (∃ x, In o x i) ∧ (c = LowerBorder o i ∨ c = UpperBorder o i)}

/-- The intervals of a map. -/
def keys {V : Type} (m : List (I × V)) : List I := m.map Prod.fst

end ICL.Spec

namespace ICL

variable {D I V : Type}

/-- The intervals an operation of a history is called with; an element stands for its one-element interval. -/
def SetOp.operands (E : Option (ElemFns D I)) : SetOp D I → List I
  | .add k | .addHint _ k | .subtract k | .inter _ k | .flip k => [k]
  | .addE x | .subE x | .interE x | .flipE x => (E.map fun e => e.sing x).toList
  | .clear | .eraseRange _ _ | .join => []

/-- The intervals an operation of a history is called with; an element stands for its one-element interval. -/
def MapOp.operands (E : Option (ElemFns D I)) : MapOp D I V → List I
  | .add k _ | .addHint _ k _ | .subtract k _ | .insert k _ | .insertHint _ _ k _ | .set k _ | .erase k _
  | .eraseKeys k | .inter _ k _ | .interKeys _ k | .flip _ k _ => [k]
  | .addE x _ | .subE x _ | .insertE x _ | .setE x _ | .eraseE x _ | .eraseKey x | .interE _ x _ | .interKey x
  | .flipE _ x _ => (E.map fun e => e.sing x).toList
  | .clear | .eraseRange _ _ | .eraseIf _ | .join | .absorbIdentities => []

variable (o : IntervalOps D I) [DecidableEq I] [DecidableEq V]

/-- The interval sets that a program can make, by any number of operations, which hands over intervals of `K` only. -/
inductive MadeFrom (E : Option (ElemFns D I)) (K : List I) : Style → List I → Prop
  | empty (st : Style) : MadeFrom E K st []
  | op {st : Style} {l l' : List I} (c : SetOp D I) : MadeFrom E K st l → (∀ k ∈ c.operands E, k ∈ K) →
      c.run o E st l = some l' → MadeFrom E K st l'
  | op2 {st st' : Style} {l r l' : List I} (c : SetOp2 I) : MadeFrom E K st l → MadeFrom E K st' r →
      c.run o st st' l r = some l' → MadeFrom E K st l'

/-- The interval maps that a program can make, by any number of operations, which hands over intervals of `K` only. -/
inductive MMadeFrom (E : Option (ElemFns D I)) (K : List I) : MapType V → List (I × V) → Prop
  | empty (t : MapType V) : MMadeFrom E K t []
  | op {t : MapType V} {l l' : List (I × V)} (c : MapOp D I V) : MMadeFrom E K t l → (∀ k ∈ c.operands E, k ∈ K) →
      c.run o E t l = some l' → MMadeFrom E K t l'
  | op2 {t t' : MapType V} {l r l' : List (I × V)} (c : MapOp2 I V) : MMadeFrom E K t l → MMadeFrom E K t' r →
      c.run o t l r = some l' → MMadeFrom E K t l'
  | op3 {t : MapType V} {st : Style} {l : List (I × V)} {r : List I} {l' : List (I × V)} (c : MapOp3 I V) :
      MMadeFrom E K t l → MadeFrom o E K st r → c.run o t l r = some l' → MMadeFrom E K t l'
  | assign {t t' : MapType V} {r l' : List (I × V)} (oracle : List (I × V) → I → Nat) : MMadeFrom E K t' r →
      t.Alike t' → IMap.assign o t oracle r = some l' → MMadeFrom E K t l'

end ICL
