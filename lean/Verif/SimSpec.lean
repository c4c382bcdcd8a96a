import Verif.ElementSpec
import Verif.IterSpec
import Verif.Model.ElementHistory
import Verif.Model.MapHistory

/-!
# Specification vocabulary: interval containers and containers of elements with the same content

The same program can be written for an interval map and for an `icl::map`: where the first one calls an operation with
the segment `(k, v)`, the second one calls it with `(x, v)` for all `x` in `k`, in a loop.
-/

namespace ICL.Spec

variable {D I V : Type} [LinearOrder D] (o : IntervalOps D I)

/-- The interval set `s` is well-formed and `e` lists its elements in ascending order. -/
def SetRep (s : List I) (e : List D) : Prop := WellFormed o s ∧ Enumerates e (Elem o s)

/-- The interval map `m` is well-formed, `e` is sorted, and they consist of the same associations. -/
def MapRep (m : List (I × V)) (e : List (D × V)) : Prop :=
  MapWellFormed o m ∧ Ascending Prod.fst e ∧ ∀ x v, Assoc o m x v ↔ (x, v) ∈ e

/-- `xs` lists the elements of the interval `k` in ascending order. -/
abbrev ElementsOf (k : I) (xs : List D) : Prop := Enumerates xs fun x => In o x k

/-- Conditions on the functors of a map type. Sums of numbers, unions of sets and of bit sets satisfy them, maxima do
not. -/
structure Faithful [DecidableEq V] (t : MapType V) : Prop extends Neutral t where
  /-- where there is no value yet, adding `v` stores `v` -/
  version : ∀ v, t.plus.version v = v
  /-- subtracting the identity element changes nothing -/
  minus_ident : ∀ u, t.minus.apply u t.cfg.ident = u
  /-- the symmetric difference is commutative -/
  unsect_comm : t.setLike = true → ∀ u v, t.unsect u v = t.unsect v u

variable [DecidableEq I]

/-- The results of a program that works on interval sets of class `st`, and of the same program on sets of elements. -/
inductive SetPrograms (st : Style) : List I → List D → Prop
  | empty : SetPrograms st [] []
  /-- `s.add(k)`, and `e.insert(x)` for all `x` in `k` -/
  | add {s s' : List I} {e : List D} (k : I) (xs : List D) : SetPrograms st s e → ElementsOf o k xs →
      ISet.add o st s k = some s' → SetPrograms st s' (xs.foldl ESet.add e)
  /-- `s.subtract(k)`, and `e.erase(x)` for all `x` in `k` -/
  | subtract {s s' : List I} {e : List D} (k : I) (xs : List D) : SetPrograms st s e → ElementsOf o k xs →
      ISet.subtract o s k = some s' → SetPrograms st s' (xs.foldl ESet.subtract e)
  /-- `s.flip(k)`, and `flip(e, x)` for all `x` in `k` -/
  | flip {s s' : List I} {e : List D} (k : I) (xs : List D) : SetPrograms st s e → ElementsOf o k xs →
      ISet.flipSeg o st s k = some s' → SetPrograms st s' (xs.foldl ESet.flip e)
  /-- `s &= k`, and `e &= { x | x in k }` -/
  | inter {s s' : List I} {e : List D} (oracle : List I → I → Nat) (k : I) (xs : List D) : SetPrograms st s e →
      ElementsOf o k xs → ISet.interSeg o st oracle s k = some s' → SetPrograms st s' (ESet.andSet e xs)
  /-- `s += r` -/
  | addSet {s r s' : List I} {e f : List D} (oracle : List I → I → Nat) : SetPrograms st s e → SetPrograms st r f →
      ISet.addSet o st oracle s r = some s' → SetPrograms st s' (ESet.addSet e f)
  /-- `s -= r` -/
  | subSet {s r s' : List I} {e f : List D} : SetPrograms st s e → SetPrograms st r f →
      ISet.subSet o s r = some s' → SetPrograms st s' (ESet.subSet e f)
  /-- `s &= r` -/
  | interSet {s r s' : List I} {e f : List D} (oracle : List I → I → Nat) : SetPrograms st s e → SetPrograms st r f →
      ISet.interSet o st oracle s r = some s' → SetPrograms st s' (ESet.andSet e f)
  /-- `s ^= r` -/
  | flipSet {s r s' : List I} {e f : List D} (oracle : List I → I → Nat) : SetPrograms st s e → SetPrograms st r f →
      ISet.flipSet o st oracle s r = some s' → SetPrograms st s' (ESet.flipSet e f)

/-- The results of a program that works on interval maps of type `t`, and of the same program on maps of elements with
the same functors and traits. -/
inductive MapPrograms [DecidableEq V] (t : MapType V) : List (I × V) → List (D × V) → Prop
  | empty : MapPrograms t [] []
  /-- `m.add({k, v})`, and `e.add({x, v})` for all `x` in `k` -/
  | add {m m' : List (I × V)} {e : List (D × V)} (k : I) (v : V) (xs : List D) : MapPrograms t m e →
      ElementsOf o k xs → IMap.addSeg o t m k v = some m' →
      MapPrograms t m' (xs.foldl (fun e x => EMap.add t e x v) e)
  /-- `m.subtract({k, v})`, and `e.subtract({x, v})` for all `x` in `k` -/
  | subtract {m m' : List (I × V)} {e : List (D × V)} (k : I) (v : V) (xs : List D) : MapPrograms t m e →
      ElementsOf o k xs → IMap.subSeg o t m k v = some m' →
      MapPrograms t m' (xs.foldl (fun e x => EMap.subtract t e x v) e)
  /-- `m.insert({k, v})`, and `e.insert({x, v})` for all `x` in `k` -/
  | insert {m m' : List (I × V)} {e : List (D × V)} (k : I) (v : V) (xs : List D) : MapPrograms t m e →
      ElementsOf o k xs → IMap.insert o t.cfg m k v = some m' →
      MapPrograms t m' (xs.foldl (fun e x => (EMap.insert t e x v).1) e)
  /-- `m.erase({k, v})`, and `e.erase({x, v})` for all `x` in `k` -/
  | erase {m m' : List (I × V)} {e : List (D × V)} (k : I) (v : V) (xs : List D) : MapPrograms t m e →
      ElementsOf o k xs → IMap.eraseSeg o t.cfg m k v = some m' →
      MapPrograms t m' (xs.foldl (fun e x => (EMap.erasePair t e x v).1) e)
  /-- `m.erase(k)`, and `e.erase(x)` for all `x` in `k` -/
  | eraseKeys {m m' : List (I × V)} {e : List (D × V)} (k : I) (xs : List D) : MapPrograms t m e →
      ElementsOf o k xs → IMap.eraseItv o m k = some m' → MapPrograms t m' (xs.foldl EMap.eraseKey e)
  /-- `m.set({k, v})`, and `e[x] = v` for all `x` in `k`, if the maps do not absorb `v` -/
  | set {m m' : List (I × V)} {e : List (D × V)} (k : I) (v : V) (xs : List D) : MapPrograms t m e →
      ElementsOf o k xs → ¬ Ignored t v → IMap.setAt o t.cfg m k v = some m' →
      MapPrograms t m' (xs.foldl (fun e x => EMap.bracket t e x v) e)
  /-- `m.flip({k, v})`, and `e.flip({x, v})` for all `x` in `k`, if `k` is not empty and the maps do not absorb `v` -/
  | flip {m m' : List (I × V)} {e : List (D × V)} (oracle : List (I × V) → I → Nat) (k : I) (v : V) (xs : List D) :
      MapPrograms t m e → ElementsOf o k xs → xs ≠ [] → ¬ Ignored t v → IMap.flipSeg o t oracle m k v = some m' →
      MapPrograms t m' (xs.foldl (fun e x => EMap.flip t e x v) e)
  /-- `m &= {k, v}`, and `e &= { (x, v) | x in k }` -/
  | inter {m m' : List (I × V)} {e : List (D × V)} (oracle : List (I × V) → I → Nat) (k : I) (v : V) (xs : List D) :
      MapPrograms t m e → ElementsOf o k xs → IMap.addInterSeg o t oracle [] m k v = some m' →
      MapPrograms t m' (EMap.andMap t e (xs.map fun x => (x, v)))
  /-- `m &= k`, and `e &= { x | x in k }` -/
  | interKeys {m m' : List (I × V)} {e : List (D × V)} (oracle : List (I × V) → I → Nat) (k : I) (xs : List D) :
      MapPrograms t m e → ElementsOf o k xs → IMap.addInterItv o t oracle [] m k = some m' →
      MapPrograms t m' (EMap.andSet t e xs)
  /-- `m += r` -/
  | addMap {m r m' : List (I × V)} {e f : List (D × V)} (oracle : List (I × V) → I → Nat) : MapPrograms t m e →
      MapPrograms t r f → IMap.addMap o t oracle m r = some m' → MapPrograms t m' (EMap.addMap t e f)
  /-- `m -= r` -/
  | subMap {m r m' : List (I × V)} {e f : List (D × V)} : MapPrograms t m e →
      MapPrograms t r f → IMap.subMap o t m r = some m' → MapPrograms t m' (EMap.subMap t e f)
  /-- `insert(m, r)` -/
  | insertMap {m r m' : List (I × V)} {e f : List (D × V)} (oracle : List (I × V) → I → Nat) : MapPrograms t m e →
      MapPrograms t r f → IMap.insertMap o t oracle m r = some m' → MapPrograms t m' (EMap.insertMap t e f)
  /-- `erase(m, r)` -/
  | eraseMap {m r m' : List (I × V)} {e f : List (D × V)} : MapPrograms t m e →
      MapPrograms t r f → IMap.eraseMap o t m r = some m' → MapPrograms t m' (EMap.eraseMap t e f)
  /-- `m &= r` -/
  | interMap {m r m' : List (I × V)} {e f : List (D × V)} (oracle : List (I × V) → I → Nat) : MapPrograms t m e →
      MapPrograms t r f → IMap.addInterMap o t oracle [] m r = some m' → MapPrograms t m' (EMap.andMap t e f)
  /-- `m ^= r` -/
  | flipMap {m r m' : List (I × V)} {e f : List (D × V)} (oracle : List (I × V) → I → Nat) : MapPrograms t m e →
      MapPrograms t r f → IMap.flipMap o t oracle m r = some m' → MapPrograms t m' (EMap.flipMap t e f)
  /-- `m -= s`, and `e -= f` for a set `f` -/
  | eraseSet {m m' : List (I × V)} {e : List (D × V)} {st : Style} {s : List I} {f : List D} : MapPrograms t m e →
      SetPrograms o st s f → IMap.eraseSet o m s = some m' → MapPrograms t m' (EMap.subSet e f)
  /-- `m &= s`, and `e &= f` for a set `f` -/
  | interSet {m m' : List (I × V)} {e : List (D × V)} {st : Style} {s : List I} {f : List D}
      (oracle : List (I × V) → I → Nat) : MapPrograms t m e → SetPrograms o st s f →
      IMap.addInterSet o t oracle [] m s = some m' → MapPrograms t m' (EMap.andSet t e f)

end ICL.Spec
