import Verif.Model.Aggregate
import Verif.Props.Maps
import Verif.Props.MapOps
import Verif.Props.ElementMap
import Verif.Props.MapLaws
import Verif.Props.SubsetOrder

/-!
# C58: aggregation functors

doc/concepts.qbk, "Addability, Subtractability and Aggregation on Overlap" and "Map Traits": which functors have a
functor that inverts them, for which of them the identity element is neutral, and that `insert` and `erase` are the
addition and subtraction of the functors `inplace_identity` and `inplace_erasure`.
-/

set_option linter.unusedSectionVars false
set_option linter.unusedVariables false

namespace ICL.Props
open Spec

/-! ## The table of inverse functors -/

/-- The documented table. -/
theorem C58_inverse_table :
    Functor.plus.inverse = .minus ∧ Functor.et.inverse = .caret ∧ Functor.star.inverse = .slash ∧
    Functor.max.inverse = .min ∧ Functor.identity.inverse = .erasure ∧ Functor.insert.inverse = .erasure := by decide

/-- The inverse of the inverse is the functor itself, except for `inplace_identity` and the functors that get the
default. The documentation claims it for `inplace_identity` as well. -/
theorem C58_inverse_involution (f : Functor) :
    f.inverse.inverse = f ↔ f ≠ .identity ∧ f ≠ .insert ∧ f ≠ .erase := by cases f <;> decide

/-- What the functor `g` does undoes what `f` does, for operands that are not zero. -/
def Inverts {n : Nat} (f g : Combiner (BitVec n)) : Prop := ∀ u v, v ≠ 0 → g.apply (f.apply u v) v = u

theorem one_ne_zero' {n : Nat} (hn : 2 ≤ n) : (1 : BitVec n) ≠ 0 := by
  intro h
  have := congrArg BitVec.toNat h
  have h4 : 2 ^ 2 ≤ 2 ^ n := Nat.pow_le_pow_right (by omega) hn
  simp at this
  omega

theorem two_pow' {n : Nat} (hn : 2 ≤ n) : 4 ≤ 2 ^ n := Nat.pow_le_pow_right (by omega : 0 < 2) hn

/-- Of all functors for unsigned integers only `inplace_plus` and `inplace_minus` have an inverse functor that undoes
their effect. -/
theorem C58_inverts {n : Nat} (hn : 2 ≤ n) (f : Functor) {p q : Combiner (BitVec n)} (hp : f.combiner n = some p)
    (hq : f.inverse.combiner n = some q) : Inverts p q ↔ f = .plus ∨ f = .minus := by
  have h4 := two_pow' hn
  have h1 := one_ne_zero' hn
  have t1 : (1 : BitVec n).toNat = 1 := by simp; omega
  have t2 : (2 : BitVec n).toNat = 2 := by
    change 2 % 2 ^ n = 2
    exact Nat.mod_eq_of_lt (by omega)
  have n2 : (2 : BitVec n) ≠ 0 := fun h => by have := congrArg BitVec.toNat h; rw [t2] at this; simp at this
  have n12 : (1 : BitVec n) ≠ 2 := fun h => by have := congrArg BitVec.toNat h; rw [t1, t2] at this; omega
  constructor
  · intro h
    cases f <;> simp only [Functor.combiner, Functor.inverse, Option.some.injEq, reduceCtorEq] at hp hq <;>
      subst hp <;> try subst hq
    · exact absurd (h 1 1 h1) (by simpa [Combiner.identity, Combiner.erasure] using h1.symm)
    · exact absurd (h 1 1 h1) (by simpa [Combiner.erasure, h1.symm] using h1.symm)
    · exact .inl rfl
    · exact .inr rfl
    · exact absurd (h 1 1 h1) (by simpa [Combiner.bitAdd, Combiner.bitSubtract] using h1.symm)
    · exact absurd (h 0 1 h1) (by simpa [Combiner.bitAdd, Combiner.bitSubtract] using h1)
    · exact absurd (h 0 1 h1) (by simpa [Combiner.bitAnd, Combiner.bitXor] using h1)
    · exact absurd (h 1 1 h1) (by simpa [Combiner.bitAnd, Combiner.bitXor] using h1.symm)
    · exact absurd (h 0 1 h1) (by simpa [Combiner.bitAnd, Combiner.bitXor] using h1)
    · exact absurd (h 1 1 h1) (by simpa [Combiner.bitAnd, Combiner.bitXor] using h1.symm)
    · have := congrArg BitVec.toNat (h (BitVec.ofNat n (2 ^ (n - 1))) 2 n2)
      have hp : 2 ^ n = 2 ^ (n - 1) * 2 := by rw [← Nat.pow_succ]; congr 1; omega
      have hlt : 2 ^ (n - 1) < 2 ^ n := Nat.pow_lt_pow_right (by omega) (by omega)
      have hpos : 0 < 2 ^ (n - 1) := Nat.pow_pos (by omega)
      simp only [Combiner.star, BitVec.udiv_eq, BitVec.toNat_udiv, BitVec.toNat_mul, BitVec.toNat_ofNat, t2,
        Nat.mod_eq_of_lt hlt] at this
      rw [← hp, Nat.mod_self] at this
      simp at this
      omega
    · have := congrArg BitVec.toNat (h 1 2 n2)
      simp only [Combiner.star, BitVec.udiv_eq, BitVec.toNat_udiv, BitVec.toNat_mul, t1, t2] at this
      simp at this
    · have := h 0 1 h1
      simp only [Combiner.max, Combiner.min] at this
      have hlt : (0 : BitVec n) < 1 := by rw [BitVec.lt_def, t1]; simp
      rw [if_pos hlt, if_neg (by rw [BitVec.lt_def]; omega)] at this
      exact absurd this h1
    · have := h 2 1 h1
      simp only [Combiner.max, Combiner.min] at this
      have hlt : (1 : BitVec n) < 2 := by rw [BitVec.lt_def, t1, t2]; omega
      rw [if_pos hlt, if_neg (by rw [BitVec.lt_def]; omega)] at this
      exact absurd this n12
  · rintro (rfl | rfl) u v - <;>
      simp only [Functor.combiner, Functor.inverse, Option.some.injEq] at hp hq <;> subst hp <;> subst hq
    · exact BitVec.add_sub_cancel u v
    · exact BitVec.sub_add_cancel u v

/-- Where `inplace_max` and `inplace_min` have been applied in turn, the operand is left; nothing of the object is. -/
theorem C58_max_min {n : Nat} (u v : BitVec n) :
    (Combiner.min (V := BitVec n)).apply (Combiner.max.apply u v) v = v ∧
    (Combiner.max (V := BitVec n)).apply (Combiner.min.apply u v) v = v := by
  simp only [Combiner.max, Combiner.min, BitVec.lt_def, BitVec.toNat_eq]
  constructor <;> split_ifs <;> omega

/-- `inplace_slash` undoes `inplace_star` if the product does not exceed the range of the type. -/
theorem C58_star_slash {n : Nat} (u v : BitVec n) (hv : v ≠ 0) (hm : u.toNat * v.toNat < 2 ^ n) {p q : Combiner (BitVec n)}
    (hp : Functor.star.combiner n = some p) (hq : Functor.star.inverse.combiner n = some q) :
    q.apply (p.apply u v) v = u := by
  simp only [Functor.combiner, Functor.inverse, Option.some.injEq] at hp hq
  subst hp; subst hq
  have : v.toNat ≠ 0 := fun h => hv (BitVec.eq_of_toNat_eq (by simpa using h))
  apply BitVec.eq_of_toNat_eq
  simp only [Combiner.star, BitVec.udiv_eq, BitVec.toNat_udiv, BitVec.toNat_mul, Nat.mod_eq_of_lt hm]
  exact Nat.mul_div_cancel _ (Nat.pos_of_ne_zero this)

/-! ## Neutral elements -/

/-- The identity element is neutral for `f`: what is added where there is nothing is what is combined with it. -/
def NeutralFor {n : Nat} (f : Combiner (BitVec n)) : Prop := ∀ v, f.apply 0 v = v

/-- `Combiner::identity_element()` is neutral for exactly these functors. For the product, the documentation claims an
identity element 1. -/
theorem C58_neutral {n : Nat} (hn : 2 ≤ n) (f : Functor) {p : Combiner (BitVec n)} (hp : f.combiner n = some p) :
    NeutralFor p ↔ f = .plus ∨ f = .bitAdd ∨ f = .bitXor ∨ f = .caret ∨ f = .max := by
  have h4 := two_pow' hn
  have h1 := one_ne_zero' hn
  have t1 : (1 : BitVec n).toNat = 1 := by simp; omega
  constructor
  · intro h
    have h := h 1
    cases f <;> simp only [Functor.combiner, Option.some.injEq, reduceCtorEq] at hp <;> try subst hp
    · exact absurd h (by simpa [Combiner.identity] using h1.symm)
    · exact absurd h (by simpa [Combiner.erasure] using h1.symm)
    · simp
    · have := congrArg BitVec.toNat h
      simp only [Combiner.minus, BitVec.toNat_sub, t1] at this
      have z : (0 : BitVec n).toNat = 0 := by simp
      rw [z, Nat.add_zero, Nat.mod_eq_of_lt (by omega)] at this
      omega
    · simp
    · exact absurd h (by simpa [Combiner.bitSubtract] using h1.symm)
    · exact absurd h (by simpa [Combiner.bitAnd] using h1.symm)
    · simp
    · exact absurd h (by simpa [Combiner.bitAnd] using h1.symm)
    · simp
    · exact absurd h (by simpa [Combiner.star] using h1.symm)
    · have := congrArg BitVec.toNat h
      simp only [BitVec.udiv_eq, BitVec.toNat_udiv, t1] at this
      simp at this
    · simp
    · simp only [Combiner.min] at h
      rw [if_neg (by rw [BitVec.lt_def]; simp)] at h
      exact absurd h h1.symm
  · rintro (rfl | rfl | rfl | rfl | rfl) v <;> simp only [Functor.combiner, Option.some.injEq] at hp <;> subst hp
    · simp [Combiner.plus]
    · simp [Combiner.bitAdd]
    · simp [Combiner.bitXor]
    · simp [Combiner.bitXor]
    · simp only [Combiner.max]
      split_ifs with hlt
      · rfl
      · rw [BitVec.lt_def] at hlt
        exact BitVec.eq_of_toNat_eq (by simp at hlt ⊢; omega)

/-- Where `inplace_max` and `inplace_min` of unsigned 8-bit numbers do not undo each other, and where the identity element
is not neutral. -/
example : ∃ p q, Functor.max.combiner 8 = some p ∧ Functor.max.inverse.combiner 8 = some q ∧
    q.apply (p.apply 5 3) 3 = 3 ∧ p.apply 0 7 = 7 ∧ q.apply 0 7 = 0 :=
  ⟨_, _, rfl, rfl, by decide⟩

/-- The product of 7 and 3 is undone, the product of 200 and 2 is not. -/
example : ∃ p q, Functor.star.combiner 8 = some p ∧ Functor.star.inverse.combiner 8 = some q ∧
    q.apply (p.apply 7 3) 3 = 7 ∧ q.apply (p.apply 200 2) 2 = 72 ∧ p.apply 0 7 = 0 :=
  ⟨_, _, rfl, rfl, by decide⟩

/-! ## Maps of unsigned integers with these functors -/

/-- Every functor for integers makes a map type that satisfies what the theorems about maps assume of a functor where there
is no value yet. -/
theorem C58_versions {n : Nat} (f : Functor) {joining absorbs total : Bool} {t : MapType (BitVec n)}
    (ht : f.mapType n joining absorbs total = some t) : Versions t := by
  have key : ∀ g : Functor, ∀ p : Combiner (BitVec n), g.combiner n = some p → ∀ v, v ≠ 0 → p.version v ≠ 0 := by
    intro g p hp v hv
    cases g <;> simp only [Functor.combiner, Option.some.injEq, reduceCtorEq] at hp <;> subst hp <;> try exact hv
    intro h
    apply hv
    change 0 - v = 0 at h
    have := congrArg (fun w => w + v) h
    simpa [BitVec.sub_add_cancel] using this.symm
  unfold Functor.mapType at ht
  simp only [Option.bind_eq_bind, Option.bind_eq_some_iff, Option.pure_def, Option.some.injEq] at ht
  obtain ⟨p, hp, q, hq, rfl⟩ := ht
  exact ⟨key f p hp, fun _ h => (by cases h), key f p hp⟩

/-- The map types for which the identity element is neutral, so that an addition does the same with and without a hint. -/
theorem C58_neutral_maps {n : Nat} (hn : 2 ≤ n) (f : Functor) {joining absorbs total : Bool} {t : MapType (BitVec n)}
    (ht : f.mapType n joining absorbs total = some t) :
    Neutral t ↔ f = .plus ∨ f = .minus ∨ f = .bitAdd ∨ f = .bitXor ∨ f = .caret ∨ f = .max := by
  have hv := C58_versions f ht
  unfold Functor.mapType at ht
  simp only [Option.bind_eq_bind, Option.bind_eq_some_iff, Option.pure_def, Option.some.injEq] at ht
  obtain ⟨p, hp, q, hq, rfl⟩ := ht
  have hN := C58_neutral hn f hp
  by_cases hm : f = .minus
  · subst hm
    simp only [Functor.combiner, Option.some.injEq] at hp
    subst hp
    exact ⟨fun _ => .inr (.inl rfl), fun _ => ⟨hv, fun v => rfl⟩⟩
  · have hver : ∀ v, p.version v = v := by
      intro v
      cases f <;> simp only [Functor.combiner, Option.some.injEq, reduceCtorEq] at hp <;> subst hp <;>
        first | rfl | exact absurd rfl hm
    constructor
    · intro h
      have := hN.1 fun v => (h.plus_ident v).trans (hver v)
      tauto
    · intro h
      exact ⟨hv, fun v => (hN.2 (by tauto) v).trans (hver v).symm⟩

/-- The map types that are monoids, in fact commutative ones, so that the laws of C27 hold for them. -/
theorem C58_monoids {n : Nat} (hn : 2 ≤ n) (f : Functor) {joining absorbs total : Bool} {t : MapType (BitVec n)}
    (ht : f.mapType n joining absorbs total = some t) :
    (MonoidValues t ↔ f = .plus ∨ f = .bitAdd ∨ f = .bitXor ∨ f = .caret ∨ f = .max) ∧
    (MonoidValues t ↔ CommMonoidValues t) := by
  have hv := C58_versions f ht
  unfold Functor.mapType at ht
  simp only [Option.bind_eq_bind, Option.bind_eq_some_iff, Option.pure_def, Option.some.injEq] at ht
  obtain ⟨p, hp, q, hq, htt⟩ := ht
  have hN := C58_neutral hn f hp
  have tp : t.plus = p := by rw [← htt]
  have ti : t.cfg.ident = 0 := by rw [← htt]
  have h1 : MonoidValues t → f = .plus ∨ f = .bitAdd ∨ f = .bitXor ∨ f = .caret ∨ f = .max :=
    fun h => hN.1 fun v => by rw [← tp, ← ti]; exact h.ident_left v
  have h2 : f = .plus ∨ f = .bitAdd ∨ f = .bitXor ∨ f = .caret ∨ f = .max → CommMonoidValues t := by
    intro h
    have hl := hN.2 h
    have hc : ∀ u v, p.apply u v = p.apply v u := by
      rcases h with rfl | rfl | rfl | rfl | rfl <;> simp only [Functor.combiner, Option.some.injEq] at hp <;>
        subst hp <;> intro u v
      · exact BitVec.add_comm u v
      · exact BitVec.or_comm u v
      · exact BitVec.xor_comm u v
      · exact BitVec.xor_comm u v
      · simp only [Combiner.max, BitVec.lt_def, BitVec.toNat_eq]
        split_ifs <;> omega
    have ha : ∀ u v w, p.apply (p.apply u v) w = p.apply u (p.apply v w) := by
      rcases h with rfl | rfl | rfl | rfl | rfl <;> simp only [Functor.combiner, Option.some.injEq] at hp <;>
        subst hp <;> intro u v w
      · exact BitVec.add_assoc u v w
      · exact BitVec.or_assoc u v w
      · exact BitVec.xor_assoc u v w
      · exact BitVec.xor_assoc u v w
      · simp only [Combiner.max, BitVec.lt_def]
        split_ifs <;> first | rfl | (exfalso; omega)
    have hw : ∀ v, p.version v = v := by
      rcases h with rfl | rfl | rfl | rfl | rfl <;> simp only [Functor.combiner, Option.some.injEq] at hp <;>
        subst hp <;> intro v <;> rfl
    rw [← tp] at ha hl hc hw
    unfold NeutralFor at hl
    rw [← ti] at hl
    exact ⟨⟨ha, hl, fun v => (hc v _).trans (hl v), hw⟩, hc⟩
  exact ⟨⟨h1, fun h => (h2 h).toMonoidValues⟩, fun h => h2 (h1 h), fun h => h.toMonoidValues⟩

/-- Map types of these functors for 8 bits -/
example : (Functor.mapType 8 true true false .max).isSome ∧ (Functor.mapType 8 true true false .insert).isNone := by
  decide

/-! ## `insert` and `erase` as additions and subtractions -/

variable {D I V : Type} [LinearOrder D] [DecidableEq V] {o : IntervalOps D I}

/-- `add` of a map with `Combine = inplace_identity` is `insert`: both end with the same values, and the maps are equal if
the map type joins. -/
theorem C58_insert (h : IntervalClass o) (joining absorbs total invertible : Bool) (i : V) {m : List (I × V)}
    (hm : MapWellFormed o m) (hi : NoIdentity (.inserting joining absorbs total invertible i) m) (k : I) (v : V) :
    ∃ a b, IMap.addSeg o (.inserting joining absorbs total invertible i) m k v = some a ∧
      IMap.insert o (MapType.inserting joining absorbs total invertible i).cfg m k v = some b ∧
      (∀ x, valueAt o a x = valueAt o b x) ∧
      (joining = true → MapFullyJoined o m → eqC o mapSeg a b = true) := by
  set t : MapType V := .inserting joining absorbs total invertible i with ht
  obtain ⟨a, ea, wa, ja, va⟩ := IMap.addC_at h.lawful t.cfg t.plus (mapWellFormed_iff.1 hm) k v
  obtain ⟨b, eb, wb, jb, vb⟩ := IMap.insert_at h.lawful t.cfg (mapWellFormed_iff.1 hm) k v
  have hv : ∀ x, valueAt o a x = valueAt o b x := by
    intro x
    rw [va, vb]
    simp only [IMap.on]
    split_ifs with hx
    · rw [← added_eq, ← inserted_eq]
      cases hmx : valueAt o m x with
      | none => rfl
      | some u =>
        have hu : ¬ Ignored t u := by
          obtain ⟨s, hs, -, rfl⟩ := (valueAt_assoc hm x u).1 hmx
          exact hi s hs
        have : t.plus.apply u v = u := rfl
        simp only [added, combined, inserted, stored, this, hu]
        simp
    · rfl
  refine ⟨a, b, ea, eb, hv, fun hj jm => ?_⟩
  have jm' := (mapFullyJoined_iff h.lawful (mapWellFormed_iff.1 hm)).1 jm
  refine (eqC_joined h.lawful wa wb (ja hj jm') (jb hj jm')).2 fun x w => ?_
  change Assoc o a x w ↔ Assoc o b x w
  rw [← valueAt_assoc (mapWellFormed_iff.2 wa), ← valueAt_assoc (mapWellFormed_iff.2 wb), hv]

/-- `subtract` of an absorbing map with `Combine = inplace_identity` is `erase` of a segment, unless the map is total and
its values have inverses: both end with the same values, and the maps are equal if the map type joins. -/
theorem C58_erase (h : IntervalClass o) (joining total invertible : Bool) (hn : (total && invertible) = false) (i : V)
    {m : List (I × V)} (hm : MapWellFormed o m) (hi : NoIdentity (.inserting joining true total invertible i) m)
    (k : I) (v : V) :
    ∃ a b, IMap.subSeg o (.inserting joining true total invertible i) m k v = some a ∧
      IMap.eraseSeg o (MapType.inserting joining true total invertible i).cfg m k v = some b ∧
      (∀ x, valueAt o a x = valueAt o b x) ∧
      (joining = true → MapFullyJoined o m → eqC o mapSeg a b = true) := by
  set t : MapType V := .inserting joining true total invertible i with ht
  obtain ⟨a, ea, wa, ja, va⟩ := subSeg_at h.lawful t (mapWellFormed_iff.1 hm) k v
  obtain ⟨b, eb, wb, jb, vb⟩ := IMap.eraseSeg_at h.lawful t.cfg (mapWellFormed_iff.1 hm) k v
  have hv : ∀ x, valueAt o a x = valueAt o b x := by
    intro x
    rw [va, vb]
    simp only [IMap.on]
    split_ifs with hx
    · rw [← subtracted_eq, ← erased_eq]
      cases hmx : valueAt o m x with
      | none =>
        have : ¬ (t.cfg.total = true ∧ t.invertible = true) := by
          rintro ⟨h1, h2⟩
          have h1' : total = true := h1
          have h2' : invertible = true := h2
          rw [h1', h2'] at hn; cases hn
        simp only [subtracted, erased, this, if_false]
      | some u =>
        have hu : ¬ Ignored t u := by
          obtain ⟨s, hs, -, rfl⟩ := (valueAt_assoc hm x u).1 hmx
          exact hi s hs
        have e1 : t.minus.apply u v = if u = v then i else u := rfl
        have e2 : Ignored t i := ⟨rfl, rfl⟩
        simp only [subtracted, combined, erased, stored, e1]
        by_cases huv : u = v
        · simp only [huv, if_true, e2]
        · simp only [huv, if_false, hu]
    · rfl
  refine ⟨a, b, ea, eb, hv, fun hj jm => ?_⟩
  have jm' := (mapFullyJoined_iff h.lawful (mapWellFormed_iff.1 hm)).1 jm
  refine (eqC_joined h.lawful wa wb (ja hj jm') (jb jm')).2 fun x w => ?_
  change Assoc o a x w ↔ Assoc o b x w
  rw [← valueAt_assoc (mapWellFormed_iff.2 wa), ← valueAt_assoc (mapWellFormed_iff.2 wb), hv]

/-- The same for `icl::map`. -/
theorem C58_element_insert (joining absorbs total invertible : Bool) (i : V) {m : List (D × V)}
    (hm : Ascending Prod.fst m) (hi : NoIdentity (.inserting joining absorbs total invertible i) m) (x : D) (v : V) :
    EMap.add (.inserting joining absorbs total invertible i) m x v =
      (EMap.insert (.inserting joining absorbs total invertible i) m x v).1 := by
  set t : MapType V := .inserting joining absorbs total invertible i with ht
  obtain ⟨a1, a2, a3⟩ := C33_add t hm x v
  obtain ⟨b1, b2, b3, -⟩ := C33_insert t hm x v
  refine (C33_ext a1 b1).2 fun y => ?_
  by_cases hy : y = x
  · subst hy
    rw [a2, b2]
    cases hmx : valueOf m y with
    | none => rfl
    | some u =>
      have hu : ¬ Ignored t u := hi (y, u) ((valueOf_eq_some hm).1 hmx)
      have : t.plus.apply u v = u := rfl
      simp only [added, combined, inserted, stored, this, hu]
      simp
  · rw [a3 y hy, b3 y hy]

/-- The same for `icl::map`. -/
theorem C58_element_erase (joining total invertible : Bool) (hn : (total && invertible) = false) (i : V)
    {m : List (D × V)} (hm : Ascending Prod.fst m) (hi : NoIdentity (.inserting joining true total invertible i) m)
    (x : D) (v : V) :
    EMap.subtract (.inserting joining true total invertible i) m x v =
      (EMap.erasePair (.inserting joining true total invertible i) m x v).1 := by
  set t : MapType V := .inserting joining true total invertible i with ht
  obtain ⟨a1, a2, a3⟩ := C33_subtract t hm x v
  obtain ⟨b1, b2, b3, -⟩ := C33_erase t hm x v
  refine (C33_ext a1 b1).2 fun y => ?_
  by_cases hy : y = x
  · subst hy
    rw [a2, b2]
    have hf : ¬ (t.cfg.total = true ∧ t.invertible = true) := by
      rintro ⟨h1, h2⟩
      have h1' : total = true := h1
      have h2' : invertible = true := h2
      rw [h1', h2'] at hn; cases hn
    simp only [subtractedElem, hf, if_false]
    cases hmx : valueOf m y with
    | none => rfl
    | some u =>
      have hu : ¬ Ignored t u := hi (y, u) ((valueOf_eq_some hm).1 hmx)
      have e1 : t.minus.apply u v = if u = v then i else u := rfl
      have e2 : Ignored t i := ⟨rfl, rfl⟩
      simp only [Option.bind_some, erased, stored, e1]
      by_cases huv : u = v
      · subst huv; simp only [if_true, e2, hu, if_false]
      · simp only [huv, if_false, hu, ite_self]
  · rw [a3 y hy, b3 y hy]

/-- Inserting `[2, 6) -> 5` into, and erasing `[2, 6) -> 1` from, a map of a segment and a second one -/
example : MapWellFormed Ex.ro exN ∧ NoIdentity (.inserting true true false true (0 : ℤ)) exN ∧
    IMap.addSeg Ex.ro (.inserting true true false true (0 : ℤ)) exN (Ex.r 2 6) 5 =
      some [(Ex.r 0 4, 1), (Ex.r 4 5, 5), (Ex.r 5 9, 2)] ∧
    IMap.subSeg Ex.ro (.inserting true true false true (0 : ℤ)) exN (Ex.r 2 6) 1 =
      some [(Ex.r 0 2, 1), (Ex.r 5 9, 2)] :=
  ⟨exM_wf.2, by unfold NoIdentity; decide, by decide, by decide⟩

/-! ## What does not hold -/

/-- A split map: `subtract` cuts segments where `erase` does not, if nothing is erased. -/
theorem C58_counterexample_split :
    IMap.subSeg Ex.ro (.inserting false true false true (0 : ℤ)) [(Ex.r 0 4, 1)] (Ex.r 2 9) 5 =
      some [(Ex.r 0 2, 1), (Ex.r 2 4, 1)] ∧
    IMap.eraseSeg Ex.ro (MapType.inserting false true false true (0 : ℤ)).cfg [(Ex.r 0 4, 1)] (Ex.r 2 9) 5 =
      some [(Ex.r 0 4, 1)] := by decide

/-- An enricher: `subtract` leaves the identity element where `erase` leaves nothing. -/
theorem C58_counterexample_enricher :
    IMap.subSeg Ex.ro (.inserting true false false true (0 : ℤ)) [(Ex.r 0 4, 1)] (Ex.r 2 9) 1 =
      some [(Ex.r 0 2, 1), (Ex.r 2 4, 0)] ∧
    IMap.eraseSeg Ex.ro (MapType.inserting true false false true (0 : ℤ)).cfg [(Ex.r 0 4, 1)] (Ex.r 2 9) 1 =
      some [(Ex.r 0 2, 1)] := by decide

/-- A total map of numbers that have inverses: `subtract` inserts what it should erase. -/
theorem C58_counterexample_total :
    IMap.subSeg Ex.ro (.inserting true true true true (0 : ℤ)) [(Ex.r 0 4, 1)] (Ex.r 2 9) 1 =
      some [(Ex.r 0 2, 1), (Ex.r 4 9, 1)] ∧
    IMap.eraseSeg Ex.ro (MapType.inserting true true true true (0 : ℤ)).cfg [(Ex.r 0 4, 1)] (Ex.r 2 9) 1 =
      some [(Ex.r 0 2, 1)] := by decide

/-- Addition of a whole map, which adds segments with a hint, does not insert: with `inplace_identity` it stores identity
elements, even in an absorbing map, in place of the values of the operand. -/
theorem C58_counterexample_map :
    IMap.addMap Ex.ro (.inserting true true false true (0 : ℤ)) (fun _ _ => 0) [(Ex.r 0 4, 1)] [(Ex.r 6 9, 5)] =
      some [(Ex.r 0 4, 1), (Ex.r 6 9, 0)] ∧
    IMap.insertMap Ex.ro (MapType.inserting true true false true (0 : ℤ)) (fun _ _ => 0) [(Ex.r 0 4, 1)] [(Ex.r 6 9, 5)] =
      some [(Ex.r 0 4, 1), (Ex.r 6 9, 5)] := by decide

end ICL.Props
