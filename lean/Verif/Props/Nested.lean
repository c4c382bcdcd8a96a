import Verif.Model.Nest
import Verif.Props.SetMaps
import Verif.Props.Collectors

/-!
# C60: maps whose associated values are containers themselves

The values of `MapType.ofSets` are the interval sets of `SetVal`, those of `MapType.ofMaps` the interval maps of `MapVal`.
-/

set_option linter.unusedSectionVars false
set_option linter.unusedVariables false

namespace ICL.Props
open Spec IMap

variable {D I V α : Type} [LinearOrder D] {o : IntervalOps D I} [DecidableEq I] [DecidableEq V]

/-! ## The operations on the values are those of the library -/

section
variable (h : IntervalClass o)

/-- Two interval sets are the same value iff they are `==`, iff they have the same elements. -/
theorem C60_set_value (a b : SetObj o) :
    (SetVal.mk h a = SetVal.mk h b ↔ eqC o setSeg a.1 b.1 = true) ∧
    (SetVal.mk h a = SetVal.mk h b ↔ ∀ x, Elem o a.1 x ↔ Elem o b.1 x) := by
  have : SetVal.mk h a = SetVal.mk h b ↔ eqC o setSeg a.1 b.1 = true :=
    ⟨fun e => Quotient.exact (s := setObjSetoid h) e, fun e => Quotient.sound (s := setObjSetoid h) e⟩
  exact ⟨this, this.trans (setObj_eq h a b)⟩

/-- The functors of a map of interval sets call the operators of interval sets: with whatever hints. -/
theorem C60_set_functors (j ab tot : Bool) (oracle : List I → I → Nat) (a b c : SetObj o) :
    (ISet.addSet o .joining oracle a.1 b.1 = some c.1 →
      (MapType.ofSets h j ab tot).plus.apply (.mk h a) (.mk h b) = .mk h c) ∧
    (ISet.subSet o a.1 b.1 = some c.1 → (MapType.ofSets h j ab tot).minus.apply (.mk h a) (.mk h b) = .mk h c) ∧
    (ISet.interSet o .joining oracle a.1 b.1 = some c.1 →
      (MapType.ofSets h j ab tot).sect.apply (.mk h a) (.mk h b) = .mk h c) ∧
    (ISet.flipSet o .joining oracle a.1 b.1 = some c.1 →
      (MapType.ofSets h j ab tot).unsect (.mk h a) (.mk h b) = .mk h c) := by
  have key : ∀ {f g : List I → List I → Option (List I)} {P : Prop → Prop → Prop} (hf : SetVal.Op (o := o) f P)
      (hg : SetVal.Op (o := o) g P), g a.1 b.1 = some c.1 → hf.lift (.mk h a) (.mk h b) = .mk h c := by
    intro f g P hf hg e
    obtain ⟨c1, e1, hc1, x1⟩ := hf.run a.1 b.1 a.2 b.2
    obtain ⟨c2, e2, hc2, x2⟩ := hg.run a.1 b.1 a.2 b.2
    rw [e] at e2; cases e2
    have hl : hf.lift (.mk h a) (.mk h b) = .mk h ⟨c1, hc1⟩ := by
      refine congrArg (SetVal.mk h) (Subtype.ext ?_)
      show (f a.1 b.1).getD [] = c1
      rw [e1]; rfl
    rw [hl, (C60_set_value h _ _).2]
    exact fun x => (x1 x).trans (x2 x).symm
  exact ⟨key (SetVal.add_op h fun _ _ => 0) (SetVal.add_op h oracle), key (SetVal.sub_op h) (SetVal.sub_op h),
    key (SetVal.inter_op h fun _ _ => 0) (SetVal.inter_op h oracle),
    key (SetVal.flip_op h fun _ _ => 0) (SetVal.flip_op h oracle)⟩

/-- Interval sets are sets. -/
theorem C60_sets (j ab tot : Bool) : SetValues (MapType.ofSets h j ab tot) (SetVal.Mem h) where
  ext u v huv := by
    induction u using Quotient.inductionOn with | _ a
    induction v using Quotient.inductionOn with | _ b
    exact (C60_set_value h a b).2.2 huv
  ident e := by
    rintro ⟨i, hi, _⟩; cases hi
  plus u v e := SetVal.Op.mem_lift (SetVal.add_op h fun _ _ => 0) u v e
  minus u v e := SetVal.Op.mem_lift (SetVal.sub_op h) u v e
  sect u v e := SetVal.Op.mem_lift (SetVal.inter_op h fun _ _ => 0) u v e
  unsect u v e := SetVal.Op.mem_lift (SetVal.flip_op h fun _ _ => 0) u v e
  plus_version _ := rfl
  sect_version _ := rfl
  setLike := rfl
  invertible := rfl

end

section
variable {t : MapType V} (h : IntervalClass o) (hj : t.cfg.joining = true) (hN : Neutral t)

/-- Two interval maps are the same value iff they are `==`, iff they associate the same values with the same keys. -/
theorem C60_map_value (a b : MapObj o t) :
    (MapVal.mk h hj a = MapVal.mk h hj b ↔ eqC o mapSeg a.1 b.1 = true) ∧
    (MapVal.mk h hj a = MapVal.mk h hj b ↔ ∀ x v, Assoc o a.1 x v ↔ Assoc o b.1 x v) := by
  have : MapVal.mk h hj a = MapVal.mk h hj b ↔ eqC o mapSeg a.1 b.1 = true :=
    ⟨fun e => Quotient.exact (s := mapObjSetoid h hj) e, fun e => Quotient.sound (s := mapObjSetoid h hj) e⟩
  refine ⟨this, this.trans ((mapObj_eq h hj a b).trans ?_)⟩
  simp only [← valueAt_assoc a.2.1, ← valueAt_assoc b.2.1]
  exact ⟨fun hh x v => by rw [hh], fun hh x => Option.ext fun v => hh x v⟩

/-- The functors of a map of interval maps call the operators of interval maps: with whatever hints. -/
theorem C60_map_functors (j ab tot : Bool) (oracle : List (I × V) → I → Nat) (a b c : MapObj o t) :
    (addMap o t oracle a.1 b.1 = some c.1 →
      (MapType.ofMaps h hj hN j ab tot).plus.apply (.mk h hj a) (.mk h hj b) = .mk h hj c) ∧
    (subMap o t a.1 b.1 = some c.1 →
      (MapType.ofMaps h hj hN j ab tot).minus.apply (.mk h hj a) (.mk h hj b) = .mk h hj c) ∧
    (t.setLike = true → addInterMap o t oracle [] a.1 b.1 = some c.1 →
      (MapType.ofMaps h hj hN j ab tot).sect.apply (.mk h hj a) (.mk h hj b) = .mk h hj c) ∧
    (t.setLike = true → flipMap o t oracle a.1 b.1 = some c.1 →
      (MapType.ofMaps h hj hN j ab tot).unsect (.mk h hj a) (.mk h hj b) = .mk h hj c) ∧
    (t.setLike = false → (MapType.ofMaps h hj hN j ab tot).sect = (MapType.ofMaps h hj hN j ab tot).plus ∧
      (MapType.ofMaps h hj hN j ab tot).unsect = (MapType.ofMaps h hj hN j ab tot).minus.apply) := by
  have key : ∀ {f g : List (I × V) → List (I × V) → Option (List (I × V))} {F : Option V → Option V → Option V}
      (hf : MapVal.Op o t f F) (hg : MapVal.Op o t g F), g a.1 b.1 = some c.1 →
      hf.lift (.mk h hj a) (.mk h hj b) = .mk h hj c := by
    intro f g F hf hg e
    obtain ⟨c2, e2, hc2, x2⟩ := hg.run a.1 b.1 a.2 b.2
    rw [e] at e2; cases e2
    refine MapVal.ext fun x => ?_
    rw [MapVal.Op.at_lift, MapVal.at_mk, MapVal.at_mk, MapVal.at_mk, x2]
  refine ⟨key (MapVal.add_op h hN fun _ _ => 0) (MapVal.add_op h hN oracle),
    key (MapVal.sub_op h hN) (MapVal.sub_op h hN), fun hs e => ?_, fun hs e => ?_, fun hs => ?_⟩
  · simp only [MapType.ofMaps, hs, if_true]; exact key _ (MapVal.inter_op h hN oracle) e
  · simp only [MapType.ofMaps, hs, if_true]; exact key _ (MapVal.flip_op h hN oracle) e
  · simp [MapType.ofMaps, hs]

end

/-! ## `Map<D, Set>` is a set -/

section
variable {t : MapType V} {mem : α → V → Prop} (h : IntervalClass o) (hj : t.cfg.joining = true)

/-- The map has the pair of `x` and an element `e` of the set that is associated with `x`. -/
def MapVal.Pair (mem : α → V → Prop) (p : D × α) (v : MapVal h hj) : Prop := HasE mem (v.at_ p.1) p.2

theorem C60_pair_mk (p : D × α) (a : MapObj o t) :
    MapVal.Pair h hj mem p (.mk h hj a) ↔ HasPairOf o mem a.1 p.1 p.2 :=
  (hasPairOf_iff (mapWellFormed_iff.1 a.2.1) p.1 p.2).symm

/-- Partial absorbing interval maps of sets are sets of pairs, and so can be the values of such maps again: at any depth
all laws of this property hold. -/
theorem C60_maps (hS : SetValues t mem) (ha : t.cfg.absorbs = true) (ht : t.cfg.total = false) (j ab tot : Bool) :
    SetValues (MapType.ofMaps h hj hS.neutral j ab tot) (MapVal.Pair h hj mem) where
  ext u v huv := MapVal.ext fun x => sets_ext hS (u.norm x) (v.norm x) (fun e => huv (x, e)) (by simp [ha])
  ident p := by simp [MapVal.Pair, MapType.ofMaps, MapVal.at_empty, HasE]
  plus u v p := by
    simp only [MapVal.Pair, MapType.ofMaps, MapVal.Op.at_lift, hasE_add hS]
  minus u v p := by
    simp only [MapVal.Pair, MapType.ofMaps, MapVal.Op.at_lift, hasE_sub hS ht (v.norm p.1)]
  sect u v p := by
    simp only [MapVal.Pair, MapType.ofMaps, hS.setLike, if_true, MapVal.Op.at_lift, hasE_inter hS ht (u.norm p.1) (v.norm p.1)]
  unsect u v p := by
    simp only [MapVal.Pair, MapType.ofMaps, hS.setLike, if_true, MapVal.Op.at_lift, hasE_flip hS ht (u.norm p.1) (v.norm p.1)]
  plus_version _ := rfl
  sect_version v := by simp [MapType.ofMaps, hS.setLike]
  setLike := hS.setLike
  invertible := rfl

end

/-! ## `Map<D, Monoid>` is a monoid -/

section
variable {t : MapType V} (h : IntervalClass o) (hj : t.cfg.joining = true) (hN : Neutral t)

/-- Interval maps of the elements of a monoid are a monoid. -/
theorem C60_monoid (hM : MonoidValues t) (j ab tot : Bool) : MonoidValues (MapType.ofMaps h hj hN j ab tot) where
  assoc u v w := MapVal.ext fun x => by
    simp only [MapType.ofMaps, MapVal.Op.at_lift]
    exact (add_assoc' hM hN.toVersions (u.norm x) (v.norm x) (w.norm x)).symm
  ident_left v := MapVal.ext fun x => by
    simp only [MapType.ofMaps, MapVal.Op.at_lift]
    exact add_zero_left hM hN.toVersions (v.norm x)
  ident_right v := MapVal.ext fun x => by
    simp only [MapType.ofMaps, MapVal.Op.at_lift]
    rfl
  version _ := rfl

/-- If the monoid is commutative, the maps are a commutative monoid. -/
theorem C60_comm_monoid (hM : CommMonoidValues t) (j ab tot : Bool) :
    CommMonoidValues (MapType.ofMaps h hj hN j ab tot) where
  toMonoidValues := C60_monoid h hj hN hM.toMonoidValues j ab tot
  comm u v := MapVal.ext fun x => by
    simp only [MapType.ofMaps, MapVal.Op.at_lift]
    exact add_comm' hM hN.toVersions _ _ (u.norm x) (v.norm x)

/-- What the laws of C27 require of the functors passes from the values to the maps, too. -/
theorem C60_neutral (hM : MonoidValues t) (j ab tot : Bool) : Neutral (MapType.ofMaps h hj hN j ab tot) where
  plus_ne v hv := hv
  minus_ne _ hh := by cases hh
  sect_ne v hv := by
    simp only [MapType.ofMaps]
    split <;> exact hv
  plus_ident v := (C60_monoid h hj hN hM j ab tot).ident_left v

/-- Where values do not cancel each other, maps do not. -/
theorem C60_noCancel (hM : MonoidValues t) (hc : t.cfg.absorbs = false ∨ NoCancel t) (j ab tot : Bool) :
    NoCancel (MapType.ofMaps h hj hN j ab tot) := by
  intro u v he
  have := fun x => add_none hM hN.toVersions hc (u.norm x) (v.norm x) (by
    have := congrArg (fun w => MapVal.at_ w x) he
    simp only [MapType.ofMaps, MapVal.Op.at_lift] at this
    exact this)
  exact ⟨MapVal.ext fun x => (this x).1, MapVal.ext fun x => (this x).2⟩

/-! ## Two keys -/

variable {E J : Type} [LinearOrder E] [DecidableEq J] {o' : IntervalOps E J}

/-- The value of the pair of keys `(x, y)` in a map of maps. -/
def valueAt₂ (o' : IntervalOps E J) (m : List (J × MapVal h hj)) (x : E) (y : D) : Option V :=
  (valueAt o' m x).bind fun v => v.at_ y

/-- The value of the key `x`, and then of the key `y`, in a map. -/
theorem C60_valueAt₂ {m : List (J × MapVal h hj)} (hm : MapWellFormed o' m) (x : E) (y : D) (u : V) :
    valueAt₂ h hj o' m x y = some u ↔ ∃ a : MapObj o t, Assoc o' m x (.mk h hj a) ∧ Assoc o a.1 y u := by
  unfold valueAt₂
  rw [Option.bind_eq_some_iff]
  constructor
  · rintro ⟨v, hv, hy⟩
    induction v using Quotient.inductionOn with | _ a
    exact ⟨a, (valueAt_assoc hm x _).1 hv, (valueAt_assoc a.2.1 y u).1 hy⟩
  · rintro ⟨a, h1, h2⟩
    exact ⟨_, (valueAt_assoc hm x _).2 h1, (valueAt_assoc a.2.1 y u).2 h2⟩

theorem at_keep {j ab tot : Bool} (v : MapVal h hj) (y : D) :
    (keep (MapType.ofMaps h hj hN j ab tot).cfg v).bind (fun v => v.at_ y) = v.at_ y := by
  unfold keep
  split
  · rename_i hc
    simp only [absorbable, Bool.and_eq_true, decide_eq_true_eq] at hc
    rw [hc.2]; rfl
  · rfl

theorem at_norm (v : Option (MapVal h hj)) (y : D) : Norm t (v.bind fun v => v.at_ y) := by
  cases v with
  | none => exact norm_none
  | some v => exact v.norm y

/-- `a += b` for maps of maps adds the values of every pair of keys, as `+=` for maps adds the values of every key. -/
theorem C60_add₂ (h' : IntervalClass o') (hM : MonoidValues t) {j ab tot : Bool}
    (oracle : List (J × MapVal h hj) → J → Nat) {a b : List (J × MapVal h hj)}
    (ha : MapValue o' (MapType.ofMaps h hj hN j ab tot) a) (hb : MapValue o' (MapType.ofMaps h hj hN j ab tot) b) :
    ∃ m, addMap o' (MapType.ofMaps h hj hN j ab tot) oracle a b = some m ∧
      ∀ x y, valueAt₂ h hj o' m x y =
        match valueAt₂ h hj o' b x y with
        | none => valueAt₂ h hj o' a x y
        | some v => added t v (valueAt₂ h hj o' a x y) := by
  obtain ⟨m, em, hm⟩ := addMap_op h'.lawful (C60_neutral h hj hN hM j ab tot) oracle ((mapValue_iff h').1 ha)
    ((mapValue_iff h').1 hb)
  refine ⟨m, em, fun x y => ?_⟩
  have hp : ∀ p q : Option V, (match q with | none => p | some v => added t v p) = pAdd t p q := by
    intro p q
    cases q with
    | none => rfl
    | some v => exact added_eq t v p
  rw [hp]
  unfold valueAt₂
  rw [hm.val]
  cases hbx : valueAt o' b x with
  | none => rfl
  | some v =>
    have hb' : absorbable (MapType.ofMaps h hj hN j ab tot).cfg v = false := ((mapValue_iff h').1 hb).norm x v hbx
    cases hax : valueAt o' a x with
    | none =>
      simp only [pAdd, addF, hb', Bool.false_eq_true, if_false, Option.bind_some, Option.bind_none]
      exact (add_zero_left hM hN.toVersions (v.norm y)).symm
    | some u =>
      simp only [pAdd, addF, hb', Bool.false_eq_true, if_false, Option.bind_some, at_keep]
      simp only [MapType.ofMaps, MapVal.Op.at_lift]
      rfl

/-- `a -= b` for maps of maps subtracts the values of every pair of keys, as `-=` for maps subtracts the values of every
key, unless the inner maps are total and their values have inverses. -/
theorem C60_sub₂ (h' : IntervalClass o') (hM : MonoidValues t) (hi : t.cfg.total = false ∨ t.invertible = false)
    {j ab tot : Bool} {a b : List (J × MapVal h hj)}
    (ha : MapValue o' (MapType.ofMaps h hj hN j ab tot) a) (hb : MapValue o' (MapType.ofMaps h hj hN j ab tot) b) :
    ∃ m, subMap o' (MapType.ofMaps h hj hN j ab tot) a b = some m ∧
      ∀ x y, valueAt₂ h hj o' m x y =
        match valueAt₂ h hj o' b x y with
        | none => valueAt₂ h hj o' a x y
        | some v => subtracted t v (valueAt₂ h hj o' a x y) := by
  obtain ⟨m, em, hm⟩ := subMap_op h'.lawful (C60_neutral h hj hN hM j ab tot).toVersions ((mapValue_iff h').1 ha)
    ((mapValue_iff h').1 hb)
  refine ⟨m, em, fun x y => ?_⟩
  have hp : ∀ p q : Option V, (match q with | none => p | some v => subtracted t v p) = pSub t p q := by
    intro p q
    cases q with
    | none => rfl
    | some v => exact subtracted_eq t v p
  rw [hp]
  unfold valueAt₂
  rw [hm.val]
  cases hax : valueAt o' a x with
  | none =>
    rw [sub_none_left (Or.inr rfl)]
    exact (sub_none_left hi _).symm
  | some u =>
    cases hbx : valueAt o' b x with
    | none => rfl
    | some v =>
      have hb' : absorbable (MapType.ofMaps h hj hN j ab tot).cfg v = false := ((mapValue_iff h').1 hb).norm x v hbx
      rw [sub_some, hb']
      simp only [Bool.false_eq_true, if_false, Option.bind_some, at_keep]
      simp only [MapType.ofMaps, MapVal.Op.at_lift]

end

/-! ## `Map<D, CommutativeGroup>` -/

section
variable {W : Type} [DecidableEq W] [AddCommGroup W]

/-- Total absorbing interval maps of the elements of an abelian group are an abelian group: beside `C60_comm_monoid`,
`(0 - v) + v` is `0`. -/
theorem C60_group (h : IntervalClass o) (hj : (MapType.numeric (V := W) true true true true).cfg.joining = true)
    (j ab tot : Bool) (v : MapVal (o := o) h hj) :
    let t := MapType.ofMaps h hj (numeric_neutral ..) j ab tot
    t.plus.apply (t.minus.apply t.cfg.ident v) v = t.cfg.ident := by
  have hN := numeric_neutral (W := W) true true true true
  have hM := numeric_comm (W := W) true true true true
  refine MapVal.ext fun x => ?_
  simp only [MapType.ofMaps, MapVal.Op.at_lift, MapVal.at_empty]
  rw [gv_none rfl (norm_add hN.toVersions (norm_sub hN.toVersions norm_none)), gv_add hM.toMonoidValues rfl, numeric_gv_sub]
  exact sub_add_cancel (0 : W) _

/-- What the documentation says of total maps of an abelian group, `(M() - a) + a == M()`, does not hold in a type of maps
whose values the trait `has_inverse` does not know to have inverses, as it is for all types but built-in numbers: there
`M() - a` is empty and `(M() - a) + a` is `a`. -/
theorem C60_no_inverse {t : MapType V} (h : IntervalClass o) (hN : Neutral t) (hM : CommMonoidValues t)
    (hi : t.invertible = false) {oracle : List (I × V) → I → Nat} {A : MapExpr I V} (hA : A.Leaves (MapValue o t)) :
    MapElemEq o t oracle (∅ - A) ∅ ∧ MapElemEq o t oracle ((∅ - A) + A) A := by
  obtain ⟨a, e1, ha⟩ := meval_mv h.lawful hN (oracle := oracle) A (leaves_mv h hA)
  obtain ⟨r, er, hr⟩ := meval_sub h.lawful hN.toVersions (mv_nil _) ha (A := ∅) rfl e1
  obtain ⟨m, em, hm⟩ := meval_add h.lawful hN (add_comm' hM hN.toVersions) hr.good ha er e1
  have hv : ∀ x, valueAt o r x = none := fun x => by
    rw [hr.val, valueAt_nil, sub_none_left (Or.inr hi)]
  refine ⟨elemEq_of hr.good (mv_nil _) er rfl hv, elemEq_of hm.good ha em e1 fun x => ?_⟩
  rw [hm.val, hv, add_zero_left hM.toMonoidValues hN.toVersions (ha.norm x)]

end

/-! ## Examples -/

/-- A value `{[1,3)}` of the type `interval_set<int>` -/
def exS1 : SetVal Ex.ro_cls := .mk Ex.ro_cls ⟨[Ex.r 1 3], by
  have : WF Ex.ro setSeg [Ex.r 1 3] := wellFormed_iff.1 (wellFormed_ro _ (by decide) (by decide))
  exact ⟨wellFormed_iff.2 this, (fullyJoined_iff Ex.ro_cls.lawful this).2 (joined_of (by decide))⟩⟩

/-- A value `{[2,5)}` of the type `interval_set<int>` -/
def exS2 : SetVal Ex.ro_cls := .mk Ex.ro_cls ⟨[Ex.r 2 5], by
  have : WF Ex.ro setSeg [Ex.r 2 5] := wellFormed_iff.1 (wellFormed_ro _ (by decide) (by decide))
  exact ⟨wellFormed_iff.2 this, (fullyJoined_iff Ex.ro_cls.lawful this).2 (joined_of (by decide))⟩⟩

/-- `interval_map<int, interval_set<int> >` -/
abbrev exT1 : MapType (SetVal Ex.ro_cls) := .ofSets Ex.ro_cls true true false

theorem exJ1 : exT1.cfg.joining = true := rfl
theorem exT1_sets : SetValues exT1 (SetVal.Mem Ex.ro_cls) := C60_sets ..

/-- `interval_map<int, interval_map<int, interval_set<int> > >` -/
abbrev exT2 : MapType (MapVal Ex.ro_cls exJ1) := .ofMaps Ex.ro_cls exJ1 exT1_sets.neutral true true false

theorem exJ2 : exT2.cfg.joining = true := rfl
theorem exT2_sets : SetValues exT2 (MapVal.Pair Ex.ro_cls exJ1 (SetVal.Mem Ex.ro_cls)) :=
  C60_maps Ex.ro_cls exJ1 exT1_sets rfl rfl ..

/-- `interval_map<int, interval_map<int, interval_map<int, interval_set<int> > > >` -/
abbrev exT3 : MapType (MapVal Ex.ro_cls exJ2) := .ofMaps Ex.ro_cls exJ2 exT2_sets.neutral true true false

theorem exT3_sets : SetValues exT3 (MapVal.Pair Ex.ro_cls exJ2 (MapVal.Pair Ex.ro_cls exJ1 (SetVal.Mem Ex.ro_cls))) :=
  C60_maps Ex.ro_cls exJ2 exT2_sets rfl rfl ..

theorem ex_nested {t : MapType V} {v : V} (x y : ℤ) (hxy : x < y) (hv : v ≠ t.cfg.ident) :
    MapValue Ex.ro t [(Ex.r x y, v)] := by
  rw [mapValue_iff Ex.ro_cls]
  refine ⟨mapWellFormed_iff.1 (wellFormed_ro _ (by simp [Ex.r, hxy]) (by simp)), fun _ => joined_of ?_, ?_⟩
  · intro s hs s' hs'
    simp only [List.mem_singleton] at hs hs'
    subst hs; subst hs'
    have : ¬ y = x := by omega
    simp [joinable, rightOpenOps, Ex.r, Ex.ro, mapSeg, Asym.touches, this]
  · intro s hs
    simp only [List.mem_singleton] at hs
    subst hs
    simp [absorbable, hv]

theorem exS1_ne : exS1 ≠ exT1.cfg.ident := by decide
theorem exS2_ne : exS2 ≠ exT1.cfg.ident := by decide

/-- `{[0,4)->{[1,3)}}` -/
def exM1 : MapVal Ex.ro_cls exJ1 := .mk _ _ ⟨_, ex_nested 0 4 (by decide) exS1_ne⟩
/-- `{[2,6)->{[2,5)}}` -/
def exM2 : MapVal Ex.ro_cls exJ1 := .mk _ _ ⟨_, ex_nested 2 6 (by decide) exS2_ne⟩

theorem exM1_ne : exM1 ≠ exT2.cfg.ident := by decide
theorem exM2_ne : exM2 ≠ exT2.cfg.ident := by decide

/-- `{[1,3)} & {[2,5)}` is `{[2,3)}` -/
example : SetVal.Mem Ex.ro_cls 2 (exT1.sect.apply exS1 exS2) ∧ ¬ SetVal.Mem Ex.ro_cls 3 (exT1.sect.apply exS1 exS2) := by
  rw [exT1_sets.sect, exT1_sets.sect]
  constructor
  · refine ⟨⟨_, List.mem_singleton.2 rfl, ?_⟩, ⟨_, List.mem_singleton.2 rfl, ?_⟩⟩ <;> (unfold In; decide)
  · rintro ⟨⟨i, hi, h1⟩, -⟩
    rw [List.mem_singleton.1 hi] at h1
    exact absurd h1 (by decide : ¬ Ex.ro.contains _ _ = true)

/-- The laws of this property at depth three -/
example (oracle) :
    MapLexEq Ex.ro exT2 oracle ((obj [(Ex.r 0 9, exM1)] + obj [(Ex.r 5 7, exM2)]) -
        (obj [(Ex.r 0 9, exM1)] &&& obj [(Ex.r 5 7, exM2)]))
      ((obj [(Ex.r 0 9, exM1)] - obj [(Ex.r 5 7, exM2)]) + (obj [(Ex.r 5 7, exM2)] - obj [(Ex.r 0 9, exM1)])) :=
  C60_symmetric_difference Ex.ro_cls exT2_sets rfl (ex_nested 0 9 (by decide) exM1_ne) (ex_nested 5 7 (by decide) exM2_ne)

/-- and what the intersection is: `{[5,7)->{[2,4)->{[2,3)}}}` -/
example : addInterMap Ex.ro exT2 (fun _ _ => 0) [] [(Ex.r 0 9, exM1)] [(Ex.r 5 7, exM2)] =
    some [(Ex.r 5 7, exT2.sect.apply exM1 exM2)] ∧ exT2.sect.apply exM1 exM2 ≠ exT2.cfg.ident := by
  decide

/-! ### Maps of maps of numbers -/

/-- `interval_map<int, int, total_absorber>` -/
abbrev exQ1 : MapType ℤ := .numeric true true true true

theorem exK1 : exQ1.cfg.joining = true := rfl

/-- `interval_map<int, interval_map<int, int, total_absorber>, total_absorber>` -/
abbrev exQ2 : MapType (MapVal (o := Ex.ro) Ex.ro_cls exK1) :=
  .ofMaps Ex.ro_cls exK1 (numeric_neutral ..) true true true

/-- `{[0,4)->1}` -/
def exN1 : MapVal (o := Ex.ro) Ex.ro_cls exK1 := .mk _ _ ⟨_, ex_nested 0 4 (by decide) (by decide : (1 : ℤ) ≠ 0)⟩

theorem exN1_ne : exN1 ≠ exQ2.cfg.ident := by decide

/-- The documentation concludes that a total quantifier of total quantifiers is a total quantifier again, with inverses. Its
values are a group indeed, but the maps are not: `(M() - a) + a` is `a` for `a = {[5,7)->{[0,4)->1}}`. -/
theorem C60_counterexample_group :
    (∀ v, exQ2.plus.apply (exQ2.minus.apply exQ2.cfg.ident v) v = exQ2.cfg.ident) ∧
    MapValue Ex.ro exQ2 [(Ex.r 5 7, exN1)] ∧
    ((∅ - obj [(Ex.r 5 7, exN1)]) + obj [(Ex.r 5 7, exN1)]).eval Ex.ro exQ2 (fun _ _ => 0) =
      some [(Ex.r 5 7, exN1)] := by
  refine ⟨fun v => C60_group Ex.ro_cls exK1 _ _ _ v, ex_nested 5 7 (by decide) exN1_ne, ?_⟩
  decide

/-- The hypotheses of the theorems on monoids, groups and pairs of keys -/
example (oracle) : (∃ m, addMap Ex.ro exQ2 oracle [(Ex.r 5 7, exN1)] [(Ex.r 6 9, exN1)] = some m) ∧
    MapElemEq Ex.ro exQ2 oracle ((∅ - obj [(Ex.r 5 7, exN1)]) + obj [(Ex.r 5 7, exN1)]) (obj [(Ex.r 5 7, exN1)]) :=
  ⟨(C60_add₂ Ex.ro_cls exK1 (numeric_neutral ..) Ex.ro_cls (numeric_comm ..).toMonoidValues oracle
      (ex_nested 5 7 (by decide) exN1_ne) (ex_nested 6 9 (by decide) exN1_ne)).imp fun _ h => h.1,
    (C60_no_inverse Ex.ro_cls (C60_neutral _ _ _ (numeric_comm ..).toMonoidValues _ _ _)
      (C60_comm_monoid _ _ _ (numeric_comm ..) _ _ _) rfl (A := obj [(Ex.r 5 7, exN1)])
      (ex_nested 5 7 (by decide) exN1_ne)).2⟩

/-- `{[5,7)->{[0,4)->1}} += {[6,9)->{[0,4)->1}}` is `{[5,6)->{[0,4)->1}, [6,7)->{[0,4)->2}, [7,9)->{[0,4)->1}}` -/
example : addMap Ex.ro exQ2 (fun _ _ => 0) [(Ex.r 5 7, exN1)] [(Ex.r 6 9, exN1)] =
    some [(Ex.r 5 6, exN1), (Ex.r 6 7, .mk _ _ ⟨_, ex_nested 0 4 (by decide) (by decide : (2 : ℤ) ≠ 0)⟩), (Ex.r 7 9, exN1)] := by
  decide

/-- `-=` with a partial inner map -/
example : let t : MapType ℤ := .numeric true true false true
    ∀ (hj : t.cfg.joining = true) (u v : MapVal (o := Ex.ro) Ex.ro_cls hj)
      (hu : u ≠ .empty Ex.ro_cls hj) (hv : v ≠ .empty Ex.ro_cls hj),
    ∃ m, subMap Ex.ro (MapType.ofMaps Ex.ro_cls hj (numeric_neutral ..) true true true) [(Ex.r 5 7, u)] [(Ex.r 6 9, v)] =
      some m := fun hj u v hu hv =>
  (C60_sub₂ Ex.ro_cls hj (numeric_neutral ..) Ex.ro_cls (numeric_comm ..).toMonoidValues (Or.inl rfl)
    (ex_nested 5 7 (by decide) hu) (ex_nested 6 9 (by decide) hv)).imp fun _ h => h.1

end ICL.Props
