import Verif.Props.MapLaws
import Verif.Props.SetLaws
import Verif.Props.Sets

/-!
# Containers as associated values

The codomain of an interval map may be a container itself: `interval_map<D, interval_set<E> >`,
`interval_map<D, interval_map<E, V> >`, to any depth (doc/semantics.qbk:744-758, "Concept Induction"). The functors of the
outer map then call `+=`, `-=`, `&=` and `^=` of the inner containers, functors.hpp:70-92, 149-171.

Simplification: values are containers up to `==`, since nothing in the outer map can tell apart inner containers that are
`==`: it copies and combines them and compares them by `==`. Of the inner containers only those that join are considered;
for these `==` is a congruence, as the definitions need.
-/

set_option linter.unusedSectionVars false

namespace ICL
open Spec Props

variable {D I V : Type} [LinearOrder D] [DecidableEq I] [DecidableEq V] {o : IntervalOps D I}

/-! ## Interval sets -/

/-- An `interval_set` object. -/
abbrev SetObj (o : IntervalOps D I) : Type := { s : List I // WellFormed o s ∧ FullyJoined o s }

theorem setObj_eq (h : IntervalClass o) (a b : SetObj o) :
    eqC o setSeg a.1 b.1 = true ↔ ∀ x, Elem o a.1 x ↔ Elem o b.1 x := by
  have wa := wellFormed_iff.1 a.2.1
  have wb := wellFormed_iff.1 b.2.1
  rw [eqC_joined h.lawful wa wb ((fullyJoined_iff h.lawful wa).1 a.2.2) ((fullyJoined_iff h.lawful wb).1 b.2.2)]
  simp only [elem_maps]
  exact ⟨fun hh x => hh x (), fun hh x _ => hh x⟩

/-- `operator ==` of interval sets, concept/interval_associator.hpp:40-45 -/
def setObjSetoid (h : IntervalClass o) : Setoid (SetObj o) where
  r a b := eqC o setSeg a.1 b.1 = true
  iseqv := by
    constructor
    · intro a; exact (setObj_eq h a a).2 fun _ => Iff.rfl
    · intro a b hab; exact (setObj_eq h b a).2 fun x => ((setObj_eq h a b).1 hab x).symm
    · intro a b c hab hbc
      exact (setObj_eq h a c).2 fun x => ((setObj_eq h a b).1 hab x).trans ((setObj_eq h b c).1 hbc x)

/-- Interval sets as values -/
def SetVal (h : IntervalClass o) : Type := Quotient (setObjSetoid h)

instance (h : IntervalClass o) : DecidableEq (SetVal h) :=
  @Quotient.decidableEq _ (setObjSetoid h) fun a b => inferInstanceAs (Decidable (eqC o setSeg a.1 b.1 = true))

namespace SetVal
variable (h : IntervalClass o)

/-- The value of an object. -/
def mk (a : SetObj o) : SetVal h := Quotient.mk (setObjSetoid h) a

/-- `x` is an element of the interval set. -/
def Mem (x : D) (v : SetVal h) : Prop :=
  Quotient.lift (s := setObjSetoid h) (fun a : SetObj o => Elem o a.1 x)
    (fun a b hab => propext ((setObj_eq h a b).1 hab x)) v

/-- A function on interval sets that does not fail and whose elements depend on the elements of the operands. -/
structure Op (f : List I → List I → Option (List I)) (P : Prop → Prop → Prop) : Prop where
  run : ∀ a b, WellFormed o a ∧ FullyJoined o a → WellFormed o b ∧ FullyJoined o b →
    ∃ c, f a b = some c ∧ (WellFormed o c ∧ FullyJoined o c) ∧ ∀ x, Elem o c x ↔ P (Elem o a x) (Elem o b x)

variable {h}

/-- The function on values. -/
def Op.lift {f : List I → List I → Option (List I)} {P : Prop → Prop → Prop} (hf : Op (o := o) f P) :
    SetVal h → SetVal h → SetVal h :=
  Quotient.map₂ (sa := setObjSetoid h) (sb := setObjSetoid h) (sc := setObjSetoid h)
    (fun a b => ⟨(f a.1 b.1).getD [], by
      obtain ⟨c, e, hc, -⟩ := hf.run a.1 b.1 a.2 b.2
      rw [e]; exact hc⟩)
    (by
      intro a a' ha b b' hb
      refine (setObj_eq h _ _).2 fun x => ?_
      obtain ⟨c, e, -, hc⟩ := hf.run a.1 b.1 a.2 b.2
      obtain ⟨c', e', -, hc'⟩ := hf.run a'.1 b'.1 a'.2 b'.2
      simp only [e, e', Option.getD_some]
      rw [hc, hc', (setObj_eq h a a').1 ha x, (setObj_eq h b b').1 hb x])

theorem Op.mem_lift {f : List I → List I → Option (List I)} {P : Prop → Prop → Prop} (hf : Op (o := o) f P)
    (u v : SetVal h) (x : D) : Mem h x (hf.lift u v) ↔ P (Mem h x u) (Mem h x v) := by
  induction u using Quotient.inductionOn with | _ a
  induction v using Quotient.inductionOn with | _ b
  obtain ⟨c, e, -, hc⟩ := hf.run a.1 b.1 a.2 b.2
  show Elem o ((f a.1 b.1).getD []) x ↔ _
  rw [e]
  exact hc x

/-- All four operators are such functions. -/
theorem op_of (h : IntervalClass o) (oracle : List I → I → Nat) {f : List I → List I → Option (List I)}
    {P : Prop → Prop → Prop} (g : SetExpr I → SetExpr I → SetExpr I) (hl : ∀ a b, (g (.leaf false a) (.leaf false b)).Leaves (SetValue o .joining) ↔
      SetValue o .joining a ∧ SetValue o .joining b)
    (hg : ∀ a b, (g (.leaf false a) (.leaf false b)).eval o .joining oracle = f a b)
    (hf : ∀ a b, WellFormed o a → WellFormed o b → ∃ c, f a b = some c ∧ WellFormed o c ∧
      ∀ x, Elem o c x ↔ P (Elem o a x) (Elem o b x)) : Op (o := o) f P := by
  constructor
  intro a b ha hb
  obtain ⟨c, e, -, hc⟩ := hf a b ha.1 hb.1
  obtain ⟨c', e', hc'⟩ := eval_good h.lawful (oracle := oracle) _
    (leaves_good h ((hl a b).2 ⟨⟨ha.1, fun _ => ha.2⟩, ⟨hb.1, fun _ => hb.2⟩⟩))
  rw [hg, e] at e'
  cases e'
  have hv := (setValue_iff h).2 hc'
  exact ⟨c, e, ⟨hv.1, hv.2 rfl⟩, hc⟩

/-- `object += operand`, concept/interval_associator.hpp:317-327 -/
theorem add_op (h : IntervalClass o) (oracle : List I → I → Nat) :
    Op (o := o) (ISet.addSet o .joining oracle) (fun p q => p ∨ q) :=
  op_of h oracle (· + ·) (fun _ _ => Iff.rfl) (fun _ _ => rfl) fun _ _ ha hb => C08_union h .joining _ ha hb

/-- `object -= operand`, concept/interval_associator.hpp:669-678 -/
theorem sub_op (h : IntervalClass o) : Op (o := o) (ISet.subSet o) (fun p q => p ∧ ¬ q) :=
  op_of h (fun _ _ => 0) (· - ·) (fun _ _ => Iff.rfl) (fun _ _ => rfl) fun _ _ ha hb => C09_difference h ha hb

/-- `object &= operand`, concept/interval_associator.hpp:770-778 -/
theorem inter_op (h : IntervalClass o) (oracle : List I → I → Nat) :
    Op (o := o) (ISet.interSet o .joining oracle) (fun p q => p ∧ q) :=
  op_of h oracle (· &&& ·) (fun _ _ => Iff.rfl) (fun _ _ => rfl) fun _ _ ha hb => C10_intersection h .joining _ ha hb

/-- `object ^= operand`, concept/interval_associator.hpp:998-1003 -/
theorem flip_op (h : IntervalClass o) (oracle : List I → I → Nat) :
    Op (o := o) (ISet.flipSet o .joining oracle) (fun p q => (p ∧ ¬ q) ∨ (q ∧ ¬ p)) :=
  op_of h oracle (· ^^^ ·) (fun _ _ => Iff.rfl) (fun _ _ => rfl) fun _ _ ha hb => C11_symmetric_difference h .joining _ ha hb

/-- The empty interval set, `identity_element<interval_set>::value()`, type_traits/identity_element.hpp:18-24 -/
def empty (h : IntervalClass o) : SetVal h :=
  mk h ⟨[], wellFormed_iff.2 wf_nil, (fullyJoined_iff h.lawful wf_nil).2 joined_nil⟩

end SetVal

/-- Interval maps to interval sets: `has_set_semantics` holds, type_traits/has_set_semantics.hpp:19-29, and `has_inverse` does
not, type_traits/has_inverse.hpp:17-23; functors as in `MapType.collector`. -/
def MapType.ofSets (h : IntervalClass o) (joining absorbs total : Bool) : MapType (SetVal h) where
  cfg := ⟨joining, absorbs, total, .empty h⟩
  plus := ⟨(SetVal.add_op h fun _ _ => 0).lift, fun v => v⟩
  minus := ⟨(SetVal.sub_op h).lift, fun v => (SetVal.sub_op h).lift (.empty h) v⟩
  sect := ⟨(SetVal.inter_op h fun _ _ => 0).lift, fun v => v⟩
  unsect := (SetVal.flip_op h fun _ _ => 0).lift
  setLike := true
  invertible := false

/-! ## Interval maps -/

/-- An `interval_map` object. -/
abbrev MapObj (o : IntervalOps D I) (t : MapType V) : Type := { m : List (I × V) // MapValue o t m }

section
variable {t : MapType V} (h : IntervalClass o) (hj : t.cfg.joining = true)

theorem mapObj_eq (h : IntervalClass o) (hj : t.cfg.joining = true) (a b : MapObj o t) :
    eqC o mapSeg a.1 b.1 = true ↔ ∀ x, valueAt o a.1 x = valueAt o b.1 x := by
  have va := (mapValue_iff h).1 a.2
  have vb := (mapValue_iff h).1 b.2
  rw [eqC_joined h.lawful va.wf vb.wf (va.joined hj) (vb.joined hj)]
  simp only [← valueAt_some va.wf, ← valueAt_some vb.wf]
  exact ⟨fun hh x => Option.ext fun v => hh x v, fun hh x v => by rw [hh]⟩

/-- `operator ==` of interval maps, concept/interval_associator.hpp:40-45 -/
def mapObjSetoid (h : IntervalClass o) (hj : t.cfg.joining = true) : Setoid (MapObj o t) where
  r a b := eqC o mapSeg a.1 b.1 = true
  iseqv := by
    constructor
    · intro a; exact (mapObj_eq h hj a a).2 fun _ => rfl
    · intro a b hab; exact (mapObj_eq h hj b a).2 fun x => ((mapObj_eq h hj a b).1 hab x).symm
    · intro a b c hab hbc
      exact (mapObj_eq h hj a c).2 fun x => ((mapObj_eq h hj a b).1 hab x).trans ((mapObj_eq h hj b c).1 hbc x)

/-- Interval maps as values -/
def MapVal (h : IntervalClass o) (hj : t.cfg.joining = true) : Type := Quotient (mapObjSetoid h hj)

instance : DecidableEq (MapVal h hj) :=
  @Quotient.decidableEq _ (mapObjSetoid h hj) fun a b => inferInstanceAs (Decidable (eqC o mapSeg a.1 b.1 = true))

namespace MapVal

/-- The value of an object. -/
def mk (a : MapObj o t) : MapVal h hj := Quotient.mk (mapObjSetoid h hj) a

variable {h hj}

/-- The value of the key `x` in the interval map. -/
def at_ (v : MapVal h hj) (x : D) : Option V :=
  Quotient.lift (s := mapObjSetoid h hj) (fun a : MapObj o t => valueAt o a.1 x)
    (fun a b hab => (mapObj_eq h hj a b).1 hab x) v

theorem at_mk (a : MapObj o t) (x : D) : (mk h hj a).at_ x = valueAt o a.1 x := rfl

theorem ext {u v : MapVal h hj} (huv : ∀ x, u.at_ x = v.at_ x) : u = v := by
  induction u using Quotient.inductionOn with | _ a
  induction v using Quotient.inductionOn with | _ b
  exact Quotient.sound (s := mapObjSetoid h hj) ((mapObj_eq h hj a b).2 huv)

theorem norm (v : MapVal h hj) (x : D) : Norm t (v.at_ x) := by
  induction v using Quotient.inductionOn with | _ a
  exact ((mapValue_iff h).1 a.2).norm x

/-- A function on interval maps that does not fail and whose values depend on the values of the operands. -/
structure Op (o : IntervalOps D I) (t : MapType V) (f : List (I × V) → List (I × V) → Option (List (I × V)))
    (F : Option V → Option V → Option V) : Prop where
  run : ∀ a b, MapValue o t a → MapValue o t b → ∃ c, f a b = some c ∧ MapValue o t c ∧
    ∀ x, valueAt o c x = F (valueAt o a x) (valueAt o b x)

variable {f : List (I × V) → List (I × V) → Option (List (I × V))} {F : Option V → Option V → Option V}

/-- The function on values. -/
def Op.lift (hf : Op o t f F) : MapVal h hj → MapVal h hj → MapVal h hj :=
  Quotient.map₂ (sa := mapObjSetoid h hj) (sb := mapObjSetoid h hj) (sc := mapObjSetoid h hj)
    (fun a b => ⟨(f a.1 b.1).getD [], by
      obtain ⟨c, e, hc, -⟩ := hf.run a.1 b.1 a.2 b.2
      rw [e]; exact hc⟩)
    (by
      intro a a' ha b b' hb
      refine (mapObj_eq h hj _ _).2 fun x => ?_
      obtain ⟨c, e, -, hc⟩ := hf.run a.1 b.1 a.2 b.2
      obtain ⟨c', e', -, hc'⟩ := hf.run a'.1 b'.1 a'.2 b'.2
      simp only [e, e', Option.getD_some]
      rw [hc, hc', (mapObj_eq h hj a a').1 ha x, (mapObj_eq h hj b b').1 hb x])

theorem Op.at_lift (hf : Op o t f F) (u v : MapVal h hj) (x : D) : (hf.lift u v).at_ x = F (u.at_ x) (v.at_ x) := by
  induction u using Quotient.inductionOn with | _ a
  induction v using Quotient.inductionOn with | _ b
  obtain ⟨c, e, -, hc⟩ := hf.run a.1 b.1 a.2 b.2
  show valueAt o ((f a.1 b.1).getD []) x = _
  rw [e]
  exact hc x

/-- `object += operand`, concept/interval_associator.hpp:317-327 -/
theorem add_op (h : IntervalClass o) (hN : Neutral t) (oracle : List (I × V) → I → Nat) : Op o t (IMap.addMap o t oracle) (pAdd t) where
  run a b ha hb := by
    obtain ⟨c, e, hc⟩ := addMap_op h.lawful hN oracle ((mapValue_iff h).1 ha) ((mapValue_iff h).1 hb)
    exact ⟨c, e, (mapValue_iff h).2 hc.good, hc.val⟩

/-- `object -= operand`, concept/interval_associator.hpp:669-678 -/
theorem sub_op (h : IntervalClass o) (hN : Neutral t) : Op o t (IMap.subMap o t) (pSub t) where
  run a b ha hb := by
    obtain ⟨c, e, hc⟩ := subMap_op h.lawful hN.toVersions ((mapValue_iff h).1 ha) ((mapValue_iff h).1 hb)
    exact ⟨c, e, (mapValue_iff h).2 hc.good, hc.val⟩

/-- `object &= operand`, concept/interval_associator.hpp:770-778 -/
theorem inter_op (h : IntervalClass o) (hN : Neutral t) (oracle : List (I × V) → I → Nat) : Op o t (IMap.addInterMap o t oracle []) (pInter t) where
  run a b ha hb := by
    obtain ⟨c, e, hc⟩ := interMap_op h.lawful hN oracle ((mapValue_iff h).1 ha) ((mapValue_iff h).1 hb)
    exact ⟨c, e, (mapValue_iff h).2 hc.good, hc.val⟩

/-- `object ^= operand`, concept/interval_associator.hpp:998-1003, concept/interval_map.hpp:484-561 -/
theorem flip_op (h : IntervalClass o) (hN : Neutral t) (oracle : List (I × V) → I → Nat) : Op o t (IMap.flipMap o t oracle) (pFlip t) where
  run a b ha hb := by
    obtain ⟨c, e, h1, h2⟩ := flipMap_val h.lawful hN oracle ((mapValue_iff h).1 ha) ((mapValue_iff h).1 hb)
    exact ⟨c, e, (mapValue_iff h).2 h1, h2⟩

/-- The empty interval map, `identity_element<interval_map>::value()`, type_traits/identity_element.hpp:18-24 -/
def empty (h : IntervalClass o) (hj : t.cfg.joining = true) : MapVal h hj :=
  mk h hj ⟨[], (mapValue_iff h).2 (mv_nil t)⟩

theorem at_empty (x : D) : (empty h hj).at_ x = none := rfl

end MapVal
end

/-- Interval maps to interval maps of type `t` with the default functors `inplace_plus` and `inplace_minus`,
functors.hpp:70-92, 282-288. Maps have set semantics iff their values have, type_traits/has_set_semantics.hpp:19-29; then
`Section` is `&=` with the inverse `^=`, functors.hpp:261-275 and 347-365, else it is `Combine`, interval_base_map.hpp:118-132.
`has_inverse` holds for no container, type_traits/has_inverse.hpp:17-23. -/
def MapType.ofMaps {t : MapType V} (h : IntervalClass o) (hj : t.cfg.joining = true) (hN : Neutral t)
    (joining absorbs total : Bool) : MapType (MapVal h hj) where
  cfg := ⟨joining, absorbs, total, .empty h hj⟩
  plus := ⟨(MapVal.add_op h hN fun _ _ => 0).lift, fun v => v⟩
  minus := ⟨(MapVal.sub_op h hN).lift, fun v => (MapVal.sub_op h hN).lift (.empty h hj) v⟩
  sect := if t.setLike then ⟨(MapVal.inter_op h hN fun _ _ => 0).lift, fun v => v⟩ else ⟨(MapVal.add_op h hN fun _ _ => 0).lift, fun v => v⟩
  unsect := if t.setLike then (MapVal.flip_op h hN fun _ _ => 0).lift else (MapVal.sub_op h hN).lift
  setLike := t.setLike
  invertible := false

end ICL
