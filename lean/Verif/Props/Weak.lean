import Mathlib.Order.Antisymmetrization
import Verif.WeakSpec
import Verif.Props.Independence

/-!
# Domain types with a strict weak ordering: C63

Intervals and interval containers treat equivalent values of the domain type alike.
-/

set_option linter.unusedSectionVars false

namespace ICL.Props
open Spec

/-! ## Every strict weak ordering is the order of the keys -/

section
variable {E : Type} {lt : E → E → Prop}

/-- The order of a domain type is that of the classes of equivalent values. -/
theorem C63_keys (h : WeakOrder lt) : ∃ (D : Type) (_ : LinearOrder D) (key : E → D) (rep : D → E),
    (∀ x, key (rep x) = x) ∧ (∀ a b, lt a b ↔ key a < key b) ∧ ∀ a b, Tied lt a b ↔ key a = key b := by
  classical
  have le_trans' : ∀ a b c, ¬ lt b a → ¬ lt c b → ¬ lt c a := by
    intro a b c h1 h2 h3
    by_cases h4 : lt a b
    · exact h2 (h.trans _ _ _ h3 h4)
    · by_cases h5 : lt b c
      · exact h1 (h.trans _ _ _ h5 h3)
      · exact (h.equiv_trans _ _ _ h4 h1 h5 h2).2 h3
  have asymm : ∀ a b, lt a b → ¬ lt b a := fun a b h1 h2 => h.irrefl _ (h.trans _ _ _ h1 h2)
  let _ : Preorder E :=
    { le := fun a b => ¬ lt b a
      lt := lt
      le_refl := h.irrefl
      le_trans := le_trans'
      lt_iff_le_not_ge := fun a b => ⟨fun h1 => ⟨asymm _ _ h1, not_not.2 h1⟩, fun h1 => not_not.1 h1.2⟩ }
  have : @Std.Total E (· ≤ ·) := ⟨fun a b => by
    by_cases h1 : lt b a
    · exact Or.inr (asymm _ _ h1)
    · exact Or.inl h1⟩
  refine ⟨Antisymmetrization E (· ≤ ·), inferInstance, toAntisymmetrization (· ≤ ·), ofAntisymmetrization (· ≤ ·),
    toAntisymmetrization_ofAntisymmetrization _, fun a b => ?_, fun a b => ?_⟩
  · exact (toAntisymmetrization_lt_toAntisymmetrization_iff (a := a) (b := b)).symm
  · rw [le_antisymm_iff, toAntisymmetrization_le_toAntisymmetrization_iff, toAntisymmetrization_le_toAntisymmetrization_iff]
    exact and_comm

/-- `++` and `--` of a discrete domain type are steps of the classes of equivalent values. -/
theorem C63_steps (h : WeakOrder lt) {inc dec : E → E} (hs : StepsOf lt inc dec) : ∃ (D : Type) (_ : LinearOrder D)
    (key : E → D) (rep : D → E) (s : Steps D) (w : WeakSteps key s), (∀ x, key (rep x) = x) ∧
      (∀ a b, lt a b ↔ key a < key b) ∧ w.inc = inc ∧ w.dec = dec := by
  classical
  obtain ⟨D, _, key, rep, hr, hlt, heq⟩ := C63_keys h
  have hi : ∀ e, key (inc e) = key (inc (rep (key e))) := fun e => (heq _ _).1 (hs.inc_alike _ _ ((heq _ _).2 (hr _).symm))
  have hd : ∀ e, key (dec e) = key (dec (rep (key e))) := fun e => (heq _ _).1 (hs.dec_alike _ _ ((heq _ _).2 (hr _).symm))
  refine ⟨D, inferInstance, key, rep,
    ⟨fun x => key (inc (rep x)), fun x => key (dec (rep x)), fun x => decide (∃ y, x < y), fun x => decide (∃ y, y < x),
      fun x => decide_eq_true_iff, fun x => decide_eq_true_iff, fun x y hxy => ?_, fun x y hxy => ?_⟩,
    ⟨inc, dec, hi, hd⟩, hr, hlt, rfl, rfl⟩
  · have := hs.inc_next (rep x) (rep y) ((hlt _ _).2 (by rwa [hr, hr]))
    rwa [hlt, hlt, hr, hr, not_lt] at this
  · have := hs.dec_prior (rep x) (rep y) ((hlt _ _).2 (by rwa [hr, hr]))
    rwa [hlt, hlt, hr, hr, not_lt] at this

end

/-! ## Intervals -/

section
variable {E D I J : Type} [LinearOrder D] {key : E → D} {ow : IntervalOps D I} {o : IntervalOps D J} {v : I → J}

/-- The classes of the library over such domain types are interval classes: what holds for all interval classes holds for
them. -/
theorem C63_class (h : WeakClass key ow o v) : IntervalClass ow := .weak h

/-- An interval holds the values with the same keys as the interval of the keys of its bounds. -/
theorem C63_elements (h : WeakClass key ow o v) (i : I) (e : E) : In ow (key e) i ↔ In o (key e) (v i) :=
  h.sim.mem i (key e)

/-- The functions do not tell intervals with equivalent bounds apart. -/
theorem C63_comparisons (h : WeakClass key ow o v) {i i' j j' : I} (hi : v i = v i') (hj : v j = v j') :
    ow.isEmpty i = ow.isEmpty i' ∧ ow.exclusiveLess i j = ow.exclusiveLess i' j' ∧
    ow.lowerLess i j = ow.lowerLess i' j' ∧ ow.upperLess i j = ow.upperLess i' j' ∧
    ow.lowerEqual i j = ow.lowerEqual i' j' ∧ ow.upperEqual i j = ow.upperEqual i' j' ∧
    ow.touches i j = ow.touches i' j' ∧ (∀ x, ow.contains i x = ow.contains i' x) := by
  have H := h.iso
  simp only [H.isEmpty, H.exclusiveLess, H.lowerLess, H.upperLess, H.lowerEqual, H.upperEqual, H.touches, H.contains, hi, hj,
    implies_true, and_self]

/-- Their results have equivalent bounds if the operands have; they are those of the intervals of the keys. -/
theorem C63_functions (h : WeakClass key ow o v) (i j : I) :
    v (ow.hull i j) = o.hull (v i) (v j) ∧ v (ow.inter i j) = o.inter (v i) (v j) ∧
    v (ow.leftSubtract i j) = o.leftSubtract (v i) (v j) ∧ v (ow.rightSubtract i j) = o.rightSubtract (v i) (v j) ∧
    v (ow.innerComplement i j) = o.innerComplement (v i) (v j) :=
  ⟨h.iso.hull i j, h.iso.inter i j, h.iso.leftSubtract i j, h.iso.rightSubtract i j, h.iso.innerComplement i j⟩

/-- So are those of the functions of elements, whichever of the equivalent values are given to them. -/
theorem C63_element_functions {rep : D → E} {ew : ElementOps D I} {e : ElementOps D J}
    (h : WeakDiscrete key rep ow ew o e v) (hr : ∀ x, key (rep x) = x) (x y : D) (i : I) :
    v (ew.singleton x) = e.singleton x ∧ v (ew.unitTrail x) = e.unitTrail x ∧ v (ew.hullE x y) = e.hullE x y ∧
    ew.first i = e.first (v i) ∧ ew.last i = e.last (v i) ∧ ew.lastNext i = e.lastNext (v i) ∧
    ew.contains i x = e.contains (v i) x :=
  have H := h.iso hr
  ⟨H.singleton x, H.unitTrail x, H.hullE x y, H.first i, H.last i, H.lastNext i, H.contains i x⟩

theorem C63_element_class {rep : D → E} {ew : ElementOps D I} {e : ElementOps D J}
    (h : WeakDiscrete key rep ow ew o e v) (hr : ∀ x, key (rep x) = x) : DiscreteClass ow ew := .weak hr h

/-- `find` with equivalent values finds the same segment. -/
theorem C63_find {V S : Type} {g : SegOps I V S} {lk lk' : Lookup D I} (h : LookupClass ow lk) (h' : LookupClass ow lk')
    {l : List S} (hl : WF ow g l) {x : D} (hx : ow.isEmpty (lk.key x) = false) (hx' : ow.isEmpty (lk'.key x) = false) :
    findE ow g lk l x = findE ow g lk' l x := by
  obtain ⟨r, e, hs⟩ := findE_spec h.cls.lawful (h.lawfulAt hx) hl
  obtain ⟨r', e', hs'⟩ := findE_spec h'.cls.lawful (h'.lawfulAt hx') hl
  rw [e, e']
  congr 1
  exact Option.ext fun s => (hs s).trans (hs' s).symm

/-! ## Containers -/

variable [DecidableEq I] [DecidableEq J] {E₁ E₁' : Option (ElemFns D I)} {E₂ : Option (ElemFns D J)}

/-- Intervals whose bounds are equivalent have the same elements. -/
theorem C63_same (h : WeakClass key ow o v) {i i' : I} (hi : v i = v i') : SameItv ow ow i i' := fun x =>
  (h.sim.mem i x).trans (hi ▸ (h.sim.mem i' x).symm)

/-- An interval has the elements of the interval of the keys of its bounds. -/
theorem C63_same_keys (h : WeakClass key ow o v) (i : I) : SameItv ow o i (v i) := fun x => h.sim.mem i x

/-- Two runs of a program whose operands are equivalent compute sets with the same segments. -/
theorem C63_sets (h : SetClass ow E₁) (h' : SetClass ow E₁') {st : Style} {s t : List I}
    (hr : TwinSets ow ow E₁ E₁' st s t) : TwinSegments ow ow s t ∧ (∀ x, Elem ow s x ↔ Elem ow t x) ∧ s.length = t.length :=
  ⟨C62_sets h h' hr, C62_elements h h' hr⟩

/-- Such sets are equal (`==`). -/
theorem C63_sets_equal (h : SetClass ow E₁) (h' : SetClass ow E₁') {st : Style} {s t : List I}
    (hr : TwinSets ow ow E₁ E₁' st s t) : eqC ow setSeg s t = true := by
  have g := TwinSets.good h h' hr
  refine (eqC_forall2 h.cls.lawful g.1.1 g.2.1.1).2 ?_
  exact g.2.2.imp fun a b hab => ⟨hab, rfl⟩

/-- With static bounds, the segments have equivalent bounds. -/
theorem C63_set_bounds {ow : IntervalOps D (SItv E)} {o : IntervalOps D (SItv D)} [DecidableEq E] (hw : WeakStatic key ow o)
    {E₁ E₁' : Option (ElemFns D (SItv E))} (h : SetClass ow E₁) (h' : SetClass ow E₁') {st : Style} {s t : List (SItv E)}
    (hr : TwinSets ow ow E₁ E₁' st s t) :
    List.Forall₂ (fun i j => key i.lo = key j.lo ∧ key i.up = key j.up) s t := by
  have g := TwinSets.good h h' hr
  have n := g.1.1.nonempty
  have H := g.2.2
  clear g hr
  unfold TwinSegments at H
  induction H with
  | nil => exact .nil
  | cons a _ ih =>
    have := hw.view_eq (n _ (by simp)) a
    exact .cons ⟨congrArg SItv.lo this, congrArg SItv.up this⟩ (ih fun s hs => n s (by simp [hs]))

/-- A program computes with values what it computes with their keys. -/
theorem C63_translate (hw : WeakClass key ow o v) (h : SetClass ow E₁) (h' : SetClass o E₂)
    (hE : E₁ = none ∨ ∀ x, HasElem ow E₁ x ∧ HasElem o E₂ x) {st : Style} {s : List I} (hr : Reachable ow E₁ st s) :
    ∃ t, TwinSets ow o E₁ E₂ st s t ∧ TwinSegments ow o s t := by
  obtain ⟨t, ht⟩ := C62_translate h h' v (C63_same_keys hw) hE hr
  exact ⟨t, ht, C62_sets h h' ht⟩

section
variable {V : Type} [DecidableEq V]

/-- The same for maps: two runs with equivalent operands compute maps with the same segments and values. -/
theorem C63_maps (h : SetClass ow E₁) (h' : SetClass ow E₁') {t : MapType V} (hN : Neutral t) {m n : List (I × V)}
    (hr : TwinMaps ow ow E₁ E₁' t m n) : TwinMapSegments ow ow m n ∧ ∀ x, valueAt ow m x = valueAt ow n x :=
  ⟨C62_map_segments h h' hN hr, C62_maps h h' hN hr⟩

theorem C63_map_bounds {ow : IntervalOps D (SItv E)} {o : IntervalOps D (SItv D)} [DecidableEq E] (hw : WeakStatic key ow o)
    {E₁ E₁' : Option (ElemFns D (SItv E))} (h : SetClass ow E₁) (h' : SetClass ow E₁') {t : MapType V} (hN : Neutral t)
    {m n : List (SItv E × V)} (hr : TwinMaps ow ow E₁ E₁' t m n) :
    List.Forall₂ (fun a b => (key a.1.lo = key b.1.lo ∧ key a.1.up = key b.1.up) ∧ a.2 = b.2) m n := by
  have g := TwinMaps.good h h' hr
  have n := g.1.wf.nonempty
  have H := g.2.2 hN
  clear g hr
  unfold TwinMapSegments at H
  induction H with
  | nil => exact .nil
  | cons a _ ih =>
    have := hw.view_eq (n _ (by simp)) a.1
    exact .cons ⟨⟨congrArg SItv.lo this, congrArg SItv.up this⟩, a.2⟩ (ih fun s hs => n s (by simp [hs]))

/-- Values and keys: the values of the map at each element are those of the map that the program computes with keys. -/
theorem C63_map_keys (h : SetClass ow E₁) (h' : SetClass o E₂) {t : MapType V} (hN : Neutral t)
    {m : List (I × V)} {n : List (J × V)} (hr : TwinMaps ow o E₁ E₂ t m n) (e : E) :
    valueAt ow m (key e) = valueAt o n (key e) := C62_maps h h' hN hr (key e)

end
end

/-! ## Examples -/

/-- Numbers with a mark, compared by the number -/
abbrev Marked := ℤ × Bool

theorem marked_weak : WeakOrder fun a b : Marked => a.1 < b.1 :=
  ⟨fun a => by simp, fun a b c => lt_trans, fun a b c h1 h2 h3 h4 => by omega⟩

/-- `++` and `--` keep the mark. -/
theorem marked_steps_of : StepsOf (fun a b : Marked => a.1 < b.1) (fun a => (a.1 + 1, a.2)) fun a => (a.1 - 1, a.2) :=
  ⟨fun a b h => by simp only [Tied] at *; omega, fun a b h => by simp only [Tied] at *; omega,
    fun a b h => by omega, fun a b h => by omega⟩

def markedSteps : WeakSteps (Prod.fst : Marked → ℤ) stepsInt :=
  ⟨fun a => (a.1 + 1, a.2), fun a => (a.1 - 1, a.2), fun _ => rfl, fun _ => rfl⟩

/-- `right_open_interval<Marked>` -/
abbrev mro : IntervalOps ℤ (SItv Marked) := Weak.rightOpenOps Prod.fst (0, false)

abbrev mroFns (b : Bool) : ElemFns ℤ (SItv Marked) :=
  ⟨(Weak.rightOpenE markedSteps fun x => (x, b)).singleton, .exact (Weak.rightOpenE markedSteps fun x => (x, b)).unitTrail⟩

theorem mro_discrete (b : Bool) : DiscreteClass mro (Weak.rightOpenE markedSteps fun x => (x, b)) :=
  C63_element_class (.rightOpen markedSteps (0, false)) fun _ => rfl

theorem mro_class (b : Bool) : SetClass mro (some (mroFns b)) :=
  ⟨C63_class (.rightOpen (0, false)), fun e he => by
    cases he; exact ⟨.discrete (mro_discrete b), .discrete (mro_discrete b)⟩⟩

/-- `[a,b)` with marked bounds -/
abbrev mr (a b : ℤ) (p q : Bool) : SItv Marked := ⟨(a, p), (b, q)⟩

example : mro.hull (mr 0 3 false false) (mr 0 5 true true) = mr 0 5 false true ∧
    mro.inter (mr 0 3 false false) (mr 0 3 true true) = mr 0 3 false false := by decide

theorem mro_elem (b : Bool) (x : ℤ) : HasElem mro (some (mroFns b)) x := by
  refine ⟨mroFns b, rfl, ?_, ?_⟩ <;>
    simp [Weak.rightOpenOps, Weak.rightOpenE, Weak.view, Asym.isEmpty, markedSteps, Lookup.key]

theorem mr_same (a b : ℤ) (p q p' q' : Bool) : SameItv mro mro (mr a b p q) (mr a b p' q') :=
  C63_same (key := Prod.fst) (.rightOpen (0, false)) rfl

/-- `{} += [0,5)`, `-= [2,3)`, `+= 7`, with different marks. -/
example : TwinSets mro mro (some (mroFns false)) (some (mroFns true)) .joining
    [mr 0 2 false false, mr 3 5 false false, mr 7 8 false false] [mr 0 2 true true, mr 3 5 false true, mr 7 8 true true] := by
  refine .op (.op (.op (.empty _) (.add (k := mr 0 5 false false) (k' := mr 0 5 true true) (mr_same 0 5 _ _ _ _)) trivial trivial
      (s' := [mr 0 5 false false]) (t' := [mr 0 5 true true]) (by decide) (by decide))
    (.subtract (k := mr 2 3 false false) (k' := mr 2 3 true false) (mr_same 2 3 _ _ _ _)) trivial trivial
      (s' := [mr 0 2 false false, mr 3 5 false false]) (t' := [mr 0 2 true true, mr 3 5 false true]) (by decide) (by decide))
    (.addE 7) (mro_elem _ 7) (mro_elem _ 7) (by decide) (by decide)

/-- Every set of intervals of marked numbers is computed with plain numbers. -/
example {st : Style} {s : List (SItv Marked)} (hr : Reachable mro (some (mroFns true)) st s) :
    ∃ t, TwinSets mro Ex.ro (some (mroFns true)) (some exE) st s t ∧ TwinSegments mro Ex.ro s t :=
  C63_translate (key := Prod.fst) (.rightOpen (0, false)) (mro_class true) ex_cls
    (.inr fun x => ⟨mro_elem true x, (ex_elem x).1⟩) hr

/-- Which of the equivalent values the containers keep depends on the order of the operations: `{} += i += j` and
`{} += j += i` are equal but have different bounds, and those of `{} += i += i'` need not be those of `i`. -/
theorem C63_counterexample_kept : ∃ (i j : SItv Marked) (s t : List (SItv Marked)),
    ((ISet.add mro .joining [] i).bind fun l => ISet.add mro .joining l j) = some s ∧
    ((ISet.add mro .joining [] j).bind fun l => ISet.add mro .joining l i) = some t ∧
    eqC mro setSeg s t = true ∧ s ≠ t ∧ s = [j] ∧ t = [i] :=
  ⟨mr 0 3 false false, mr 0 3 true true, [mr 0 3 true true], [mr 0 3 false false], by decide, by decide, by decide,
    by decide, rfl, rfl⟩

end ICL.Props
