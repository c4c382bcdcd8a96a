import Verif.Theory.ElementLaws
import Verif.Props.ElementMap
import Verif.Props.Collectors

/-!
# C56: laws on sets and maps of elements

The laws of doc/semantics.qbk ("Sets", "Collectors", "Quantifiers", "Concept Induction") for `icl::set` and
`icl::map`. On containers of elements all of them hold for `operator ==`. The infix operators take the first operand
by value and apply the compound assignment to the copy (element_associator.hpp:206-208, 242-244, 346-348, 427-429,
459-461), so that `a + b` is `ESet.addSet a b` or `EMap.addMap t a b`.
-/

set_option linter.unusedSectionVars false
set_option linter.unusedVariables false

namespace ICL.Props
open Spec

variable {D V : Type} [LinearOrder D] [DecidableEq V]

/-! ## Sets -/

section
variable {a b c : List D}

/-- Both sides of a law on sets: `==` if they have the same elements. -/
theorem eset_law (h1 : Ascending (fun x => x) a) (h2 : Ascending (fun x => x) b) (h : ∀ x, x ∈ a ↔ x ∈ b) :
    ESet.eq a b = true := (C38_eq h1 h2).2 h

theorem addSet_asc (ha : Ascending (fun x => x) a) : Ascending (fun x => x) (ESet.addSet a b) := (ESet.addSet_spec ha b).1
theorem subSet_asc (ha : Ascending (fun x => x) a) : Ascending (fun x => x) (ESet.subSet a b) := (ESet.subSet_spec ha b).1
theorem andSet_asc (ha : Ascending (fun x => x) a) (hb : Ascending (fun x => x) b) :
    Ascending (fun x => x) (ESet.andSet a b) := (ESet.andSet_spec ha hb).1
theorem flipSet_asc (ha : Ascending (fun x => x) a) (hb : Ascending (fun x => x) b) :
    Ascending (fun x => x) (ESet.flipSet a b) := (ESet.flipSet_spec ha hb).1

theorem mem_addSet (ha : Ascending (fun x => x) a) (x : D) : x ∈ ESet.addSet a b ↔ x ∈ a ∨ x ∈ b := (ESet.addSet_spec ha b).2 x
theorem mem_subSet (ha : Ascending (fun x => x) a) (x : D) : x ∈ ESet.subSet a b ↔ x ∈ a ∧ x ∉ b := (ESet.subSet_spec ha b).2 x
theorem mem_andSet (ha : Ascending (fun x => x) a) (hb : Ascending (fun x => x) b) (x : D) :
    x ∈ ESet.andSet a b ↔ x ∈ a ∧ x ∈ b := (ESet.andSet_spec ha hb).2 x
theorem mem_flipSet (ha : Ascending (fun x => x) a) (hb : Ascending (fun x => x) b) (x : D) :
    x ∈ ESet.flipSet a b ↔ (x ∈ a ∧ x ∉ b) ∨ (x ∈ b ∧ x ∉ a) := (ESet.flipSet_spec ha hb).2 x

/-- The set is in ascending order. -/
local macro "asc" : tactic =>
  `(tactic| solve_by_elim (maxDepth := 12) only [addSet_asc, subSet_asc, andSet_asc, flipSet_asc, StdTree.asc_nil, *])

/-- A law holds if it holds for all elements. -/
local macro "set_law" : tactic => `(tactic| (
  refine eset_law (by asc) (by asc) fun x => ?_
  simp (disch := asc) only [mem_addSet, mem_subSet, mem_andSet, mem_flipSet, List.not_mem_nil]
  try tauto))

/-- `a + (b + c) == (a + b) + c`, `a + S() == a`, `S() + a == a`, `a + b == b + a` -/
theorem C56_set_union (ha : Ascending (fun x => x) a) (hb : Ascending (fun x => x) b) (hc : Ascending (fun x => x) c) :
    ESet.eq (ESet.addSet a (ESet.addSet b c)) (ESet.addSet (ESet.addSet a b) c) = true ∧
    ESet.eq (ESet.addSet a []) a = true ∧ ESet.eq (ESet.addSet [] a) a = true ∧
    ESet.eq (ESet.addSet a b) (ESet.addSet b a) = true := by
  refine ⟨?_, ?_, ?_, ?_⟩ <;> set_law

/-- `a & (b & c) == (a & b) & c`, `a & b == b & a` -/
theorem C56_set_intersection (ha : Ascending (fun x => x) a) (hb : Ascending (fun x => x) b)
    (hc : Ascending (fun x => x) c) :
    ESet.eq (ESet.andSet a (ESet.andSet b c)) (ESet.andSet (ESet.andSet a b) c) = true ∧
    ESet.eq (ESet.andSet a b) (ESet.andSet b a) = true := by
  refine ⟨?_, ?_⟩ <;> set_law

/-- `a - S() == a`, `a - a == S()` -/
theorem C56_set_difference (ha : Ascending (fun x => x) a) :
    ESet.eq (ESet.subSet a []) a = true ∧ ESet.eq (ESet.subSet a a) [] = true := by
  refine ⟨?_, ?_⟩ <;> set_law

/-- `a + (b & c) == (a + b) & (a + c)`, `a & (b + c) == (a & b) + (a & c)`, `(a + b) - c == (a - c) + (b - c)`,
`(a & b) - c == (a - c) & (b - c)` -/
theorem C56_set_distributivity (ha : Ascending (fun x => x) a) (hb : Ascending (fun x => x) b)
    (hc : Ascending (fun x => x) c) :
    ESet.eq (ESet.addSet a (ESet.andSet b c)) (ESet.andSet (ESet.addSet a b) (ESet.addSet a c)) = true ∧
    ESet.eq (ESet.andSet a (ESet.addSet b c)) (ESet.addSet (ESet.andSet a b) (ESet.andSet a c)) = true ∧
    ESet.eq (ESet.subSet (ESet.addSet a b) c) (ESet.addSet (ESet.subSet a c) (ESet.subSet b c)) = true ∧
    ESet.eq (ESet.subSet (ESet.andSet a b) c) (ESet.andSet (ESet.subSet a c) (ESet.subSet b c)) = true := by
  refine ⟨?_, ?_, ?_, ?_⟩ <;> set_law

/-- `a - (b + c) == (a - b) & (a - c)`, `a - (b & c) == (a - b) + (a - c)` -/
theorem C56_set_de_morgan (ha : Ascending (fun x => x) a) (hb : Ascending (fun x => x) b)
    (hc : Ascending (fun x => x) c) :
    ESet.eq (ESet.subSet a (ESet.addSet b c)) (ESet.andSet (ESet.subSet a b) (ESet.subSet a c)) = true ∧
    ESet.eq (ESet.subSet a (ESet.andSet b c)) (ESet.addSet (ESet.subSet a b) (ESet.subSet a c)) = true := by
  refine ⟨?_, ?_⟩ <;> set_law

/-- `(a + b) - (a & b) == (a - b) + (b - a) == a ^ b`, `a ^ (b ^ c) == (a ^ b) ^ c`, `a ^ b == b ^ a` -/
theorem C56_set_symmetric_difference (ha : Ascending (fun x => x) a) (hb : Ascending (fun x => x) b)
    (hc : Ascending (fun x => x) c) :
    ESet.eq (ESet.subSet (ESet.addSet a b) (ESet.andSet a b)) (ESet.addSet (ESet.subSet a b) (ESet.subSet b a)) = true ∧
    ESet.eq (ESet.addSet (ESet.subSet a b) (ESet.subSet b a)) (ESet.flipSet a b) = true ∧
    ESet.eq (ESet.flipSet a (ESet.flipSet b c)) (ESet.flipSet (ESet.flipSet a b) c) = true ∧
    ESet.eq (ESet.flipSet a b) (ESet.flipSet b a) = true := by
  refine ⟨?_, ?_, ?_, ?_⟩ <;> set_law

example : Ascending (fun x => x) [(1 : ℤ), 4, 6] ∧ Ascending (fun x => x) [(0 : ℤ), 4, 7] ∧
    Ascending (fun x => x) [(4 : ℤ), 6, 7] ∧
    ESet.subSet [(1 : ℤ), 4, 6] (ESet.andSet [0, 4, 7] [4, 6, 7]) = [1, 6] ∧
    ESet.flipSet [(1 : ℤ), 4, 6] (ESet.flipSet [0, 4, 7] [4, 6, 7]) = [0, 1, 4] := by
  refine ⟨?_, ?_, ?_, by decide⟩ <;> · unfold Ascending; decide

end

/-! ## Maps -/

/-- What a map of elements satisfies unless `m[x] = v` or the constructor from a range have stored identity elements
in it (C33). -/
def EMapValue (t : MapType V) (m : List (D × V)) : Prop := Ascending Prod.fst m ∧ NoIdentity t m

/-- Every map that any history without these two operations produces is a value the laws range over. For enrichers
every reachable map is one. -/
theorem C56_reachable {t : MapType V} (hv : Versions t) {m : List (D × V)} :
    (EAbsorbing t m → EMapValue t m) ∧ (t.cfg.absorbs = false → EReachable t m → EMapValue t m) :=
  ⟨fun h => ⟨h.reachable.asc, h.noIdentity hv⟩, fun ha h => ⟨h.asc, fun s _ hi => by simp [Ignored, ha] at hi⟩⟩

theorem emapValue_iff {t : MapType V} {m : List (D × V)} : EMapValue t m ↔ EV t m :=
  ⟨fun h => ⟨h.1, h.2⟩, fun h => ⟨h.1, h.2⟩⟩

theorem emap_eq {l r : List (D × V)} (h : l = r) : EMap.eq l r = true := (zip_all_eq l r).2 h

section
variable {t : MapType V} {a b c : List (D × V)} (hN : Neutral t)
include hN

/-- `a + (b + c) == (a + b) + c`, `a + M() == a`, `M() + a == a` if the values are a monoid. -/
theorem C56_map_monoid (hM : MonoidValues t) (ha : EMapValue t a) (hb : EMapValue t b) (hc : EMapValue t c) :
    EMap.eq (EMap.addMap t a (EMap.addMap t b c)) (EMap.addMap t (EMap.addMap t a b) c) = true ∧
    EMap.eq (EMap.addMap t a []) a = true ∧ EMap.eq (EMap.addMap t [] a) a = true := by
  rw [emapValue_iff] at ha hb hc
  obtain ⟨g1, v1⟩ := EV.add hN hb hc
  obtain ⟨g2, v2⟩ := EV.add hN ha g1
  obtain ⟨g3, v3⟩ := EV.add hN ha hb
  obtain ⟨g4, v4⟩ := EV.add hN g3 hc
  obtain ⟨g5, v5⟩ := EV.add hN ev_nil ha
  refine ⟨emap_eq (g2.ext g4 fun x => ?_), emap_eq rfl, emap_eq (g5.ext ha fun x => ?_)⟩
  · rw [v2, v1, v4, v3, add_assoc' hM hN.toVersions (ha.norm x) (hb.norm x) (hc.norm x)]
  · rw [v5]; exact add_zero_left hM hN.toVersions (ha.norm x)

/-- `a + b == b + a` if moreover the values commute. -/
theorem C56_map_add_comm (hM : CommMonoidValues t) (ha : EMapValue t a) (hb : EMapValue t b) :
    EMap.eq (EMap.addMap t a b) (EMap.addMap t b a) = true := by
  rw [emapValue_iff] at ha hb
  obtain ⟨g1, v1⟩ := EV.add hN ha hb
  obtain ⟨g2, v2⟩ := EV.add hN hb ha
  exact emap_eq (g1.ext g2 fun x => by rw [v1, v2, add_comm' hM hN.toVersions _ _ (ha.norm x) (hb.norm x)])

/-- `a & b == b & a` for maps of numbers -/
theorem C56_map_inter_comm (hM : CommMonoidValues t) (hs : t.sect = t.plus) (ha : EMapValue t a)
    (hb : EMapValue t b) : EMap.eq (EMap.andMap t a b) (EMap.andMap t b a) = true := by
  rw [emapValue_iff] at ha hb
  obtain ⟨g1, v1⟩ := EV.inter hN hM.toMonoidValues ha hb
  obtain ⟨g2, v2⟩ := EV.inter hN hM.toMonoidValues hb ha
  exact emap_eq (g1.ext g2 fun x => by rw [v1, v2, inter_comm' hM hN.toVersions hs _ _ (ha.norm x) (hb.norm x)])

/-- `a & (b & c) == (a & b) & c` for maps of numbers that are total or enrichers, and for values that do not cancel
each other. -/
theorem C56_map_inter_assoc (hM : MonoidValues t) (hs : t.sect = t.plus)
    (hx : t.cfg.total = true ∨ t.cfg.absorbs = false ∨ NoCancel t) (ha : EMapValue t a) (hb : EMapValue t b)
    (hc : EMapValue t c) :
    EMap.eq (EMap.andMap t a (EMap.andMap t b c)) (EMap.andMap t (EMap.andMap t a b) c) = true := by
  rw [emapValue_iff] at ha hb hc
  obtain ⟨g1, v1⟩ := EV.inter hN hM hb hc
  obtain ⟨g2, v2⟩ := EV.inter hN hM ha g1
  obtain ⟨g3, v3⟩ := EV.inter hN hM ha hb
  obtain ⟨g4, v4⟩ := EV.inter hN hM g3 hc
  exact emap_eq (g2.ext g4 fun x => by
    rw [v2, v1, v4, v3, inter_assoc' hM hN.toVersions hs hx (ha.norm x) (hb.norm x) (hc.norm x)])

/-- `a - M() == a`; `a - a == M()` for absorbers, `a - a =d= M()` for all maps. -/
theorem C56_map_difference (hm : ∀ u, t.minus.apply u u = t.cfg.ident) (ha : EMapValue t a) :
    EMap.eq (EMap.subMap t a []) a = true ∧ (t.cfg.absorbs = true → EMap.eq (EMap.subMap t a a) [] = true) ∧
    EMap.isDistinctEqual t (EMap.subMap t a a) [] = true := by
  rw [emapValue_iff] at ha
  obtain ⟨g1, v1⟩ := EV.sub hN.toVersions ha ha
  have hv : ∀ x, valueOf (EMap.subMap t a a) x = (valueOf a x).bind fun _ => IMap.keep t.cfg t.cfg.ident := fun x => by
    rw [v1, sub_self' hm (ha.norm x)]
  refine ⟨emap_eq rfl, fun hab => emap_eq (g1.ext ev_nil fun x => ?_), ?_⟩
  · rw [hv]
    have : IMap.keep t.cfg t.cfg.ident = none := by simp [IMap.keep, IMap.absorbable, hab]
    cases valueOf a x <;> simp [this, valueOf]
  · rw [C38_distinct_equal t g1.asc StdTree.asc_nil]
    intro x
    rw [hv]
    cases valueOf a x with
    | none => rfl
    | some u =>
      show (IMap.keep t.cfg t.cfg.ident).getD _ = t.cfg.ident
      unfold IMap.keep
      split <;> rfl

end

section
variable {W : Type} [DecidableEq W] [AddCommGroup W] {joining absorbs total signed : Bool} {a b : List (D × W)}

/-- `(a + b) - (a & b) == (a - b) + (b - a)` for partial maps of numbers, and for total maps of signed numbers. -/
theorem C56_map_symmetric_difference (hs : total = false ∨ signed = true)
    (ha : EMapValue (.numeric joining absorbs total signed) a) (hb : EMapValue (.numeric joining absorbs total signed) b) :
    EMap.eq (EMap.subMap (.numeric joining absorbs total signed) (EMap.addMap (.numeric joining absorbs total signed) a b)
        (EMap.andMap (.numeric joining absorbs total signed) a b))
      (EMap.addMap (.numeric joining absorbs total signed) (EMap.subMap (.numeric joining absorbs total signed) a b)
        (EMap.subMap (.numeric joining absorbs total signed) b a)) = true := by
  have hN := numeric_neutral (W := W) joining absorbs total signed
  have hM := numeric_comm (W := W) joining absorbs total signed
  rw [emapValue_iff] at ha hb
  obtain ⟨g1, v1⟩ := EV.add hN ha hb
  obtain ⟨g2, v2⟩ := EV.inter hN hM.toMonoidValues ha hb
  obtain ⟨g3, v3⟩ := EV.sub hN.toVersions g1 g2
  obtain ⟨g4, v4⟩ := EV.sub hN.toVersions ha hb
  obtain ⟨g5, v5⟩ := EV.sub hN.toVersions hb ha
  obtain ⟨g6, v6⟩ := EV.add hN g4 g5
  exact emap_eq (g3.ext g6 fun x => by
    rw [v3, v1, v2, v6, v4, v5]; exact numeric_symm hM hN.toVersions hs (ha.norm x) (hb.norm x))

/-- Total absorbers over an abelian group are an abelian group: `(M() - a) + a == M()`, `a - b == a + (M() - b)`. -/
theorem C56_map_inverse (ha : EMapValue (.numeric joining true true true) a)
    (hb : EMapValue (.numeric joining true true true) b) :
    EMap.eq (EMap.addMap (.numeric joining true true true) (EMap.subMap (.numeric joining true true true) [] a) a) [] = true ∧
    EMap.eq (EMap.subMap (.numeric joining true true true) a b) (EMap.addMap (.numeric joining true true true) a
      (EMap.subMap (.numeric joining true true true) [] b)) = true := by
  have hN := numeric_neutral (W := W) joining true true true
  have hM := (numeric_comm (W := W) joining true true true).toMonoidValues
  rw [emapValue_iff] at ha hb
  obtain ⟨g1, v1⟩ := EV.sub hN.toVersions ev_nil ha
  obtain ⟨g2, v2⟩ := EV.add hN g1 ha
  obtain ⟨g3, v3⟩ := EV.sub hN.toVersions ev_nil hb
  obtain ⟨g4, v4⟩ := EV.add hN ha g3
  obtain ⟨g5, v5⟩ := EV.sub hN.toVersions ha hb
  refine ⟨emap_eq (g2.ext ev_nil fun x => gv_inj rfl (g2.norm x) (ev_nil.norm x) ?_),
    emap_eq (g5.ext g4 fun x => gv_inj rfl (g5.norm x) (g4.norm x) ?_)⟩
  · rw [v2, v1, gv_add hM rfl, numeric_gv_sub]
    exact sub_add_cancel (0 : W) _
  · rw [v5, v4, v3, gv_add hM rfl, numeric_gv_sub, numeric_gv_sub]
    show _ - _ = _ + ((0 : W) - _)
    rw [zero_sub, sub_eq_add_neg]

end

/-! ## Maps of sets -/

section
variable {α : Type} [DecidableEq α] {joining absorbs : Bool} {a b c : List (D × Finset α)}

local notation "T" => Coll α joining absorbs

theorem evc_add (ha : EV T a) (hb : EV T b) : EV T (EMap.addMap T a b) := (EV.add collN ha hb).1
theorem evc_sub (ha : EV T a) (hb : EV T b) : EV T (EMap.subMap T a b) := (EV.sub collV ha hb).1
theorem evc_inter (ha : EV T a) (hb : EV T b) : EV T (EMap.andMap T a b) :=
  (EV.inter collN collM.toMonoidValues ha hb).1
theorem evc_flip (ha : EV T a) (hb : EV T b) : EV T (EMap.flipMap T a b) := (EV.flip rfl ha hb).1

theorem valc_add (ha : EV T a) (hb : EV T b) (x : D) :
    valueOf (EMap.addMap T a b) x = pAdd T (valueOf a x) (valueOf b x) := (EV.add collN ha hb).2 x
theorem valc_sub (ha : EV T a) (hb : EV T b) (x : D) :
    valueOf (EMap.subMap T a b) x = pSub T (valueOf a x) (valueOf b x) := (EV.sub collV ha hb).2 x
theorem valc_inter (ha : EV T a) (hb : EV T b) (x : D) :
    valueOf (EMap.andMap T a b) x = pInter T (valueOf a x) (valueOf b x) :=
  (EV.inter collN collM.toMonoidValues ha hb).2 x
theorem valc_flip (ha : EV T a) (hb : EV T b) (x : D) :
    valueOf (EMap.flipMap T a b) x = pFlip T (valueOf a x) (valueOf b x) := by
  rw [(EV.flip rfl ha hb).2 x, coll_eFlip (ha.norm x) (hb.norm x)]

/-- The map is one the laws are about. -/
local macro "ev" : tactic =>
  `(tactic| solve_by_elim (maxDepth := 12) only [evc_add, evc_sub, evc_inter, evc_flip, *])

/-- A law holds if it holds for the values of all keys. -/
local macro "map_law" h:term : tactic => `(tactic| (
  refine emap_eq (EV.ext (t := T) (by ev) (by ev) fun x => ?_)
  simp (disch := ev) only [valc_add, valc_sub, valc_inter, valc_flip]
  exact $h x))

/-- `a & (b & c) == (a & b) & c`, `a & b == b & a` -/
theorem C56_collector_intersection (ha : EMapValue T a) (hb : EMapValue T b) (hc : EMapValue T c) :
    EMap.eq (EMap.andMap T a (EMap.andMap T b c)) (EMap.andMap T (EMap.andMap T a b) c) = true ∧
    EMap.eq (EMap.andMap T a b) (EMap.andMap T b a) = true := by
  rw [emapValue_iff] at ha hb hc
  constructor
  · map_law fun x => coll_inter_assoc collV (ha.norm x) (hb.norm x) (hc.norm x)
  · map_law fun x => coll_inter_comm collV (ha.norm x) (hb.norm x)

/-- `a + (b & c) == (a + b) & (a + c)`, `a & (b + c) == (a & b) + (a & c)`, `(a + b) - c == (a - c) + (b - c)`,
`(a & b) - c == (a - c) & (b - c)` -/
theorem C56_collector_distributivity (ha : EMapValue T a) (hb : EMapValue T b) (hc : EMapValue T c) :
    EMap.eq (EMap.addMap T a (EMap.andMap T b c)) (EMap.andMap T (EMap.addMap T a b) (EMap.addMap T a c)) = true ∧
    EMap.eq (EMap.andMap T a (EMap.addMap T b c)) (EMap.addMap T (EMap.andMap T a b) (EMap.andMap T a c)) = true ∧
    EMap.eq (EMap.subMap T (EMap.addMap T a b) c) (EMap.addMap T (EMap.subMap T a c) (EMap.subMap T b c)) = true ∧
    EMap.eq (EMap.subMap T (EMap.andMap T a b) c) (EMap.andMap T (EMap.subMap T a c) (EMap.subMap T b c)) = true := by
  rw [emapValue_iff] at ha hb hc
  refine ⟨?_, ?_, ?_, ?_⟩
  · map_law fun x => coll_add_inter collV (ha.norm x) (hb.norm x) (hc.norm x)
  · map_law fun x => coll_inter_add collV (ha.norm x) (hb.norm x) (hc.norm x)
  · map_law fun x => coll_add_sub collV (ha.norm x) (hb.norm x) (hc.norm x)
  · map_law fun x => coll_inter_sub collV (ha.norm x) (hb.norm x) (hc.norm x)

/-- `a - (b + c) == (a - b) & (a - c)`, `a - (b & c) == (a - b) + (a - c)` -/
theorem C56_collector_de_morgan (ha : EMapValue T a) (hb : EMapValue T b) (hc : EMapValue T c) :
    EMap.eq (EMap.subMap T a (EMap.addMap T b c)) (EMap.andMap T (EMap.subMap T a b) (EMap.subMap T a c)) = true ∧
    EMap.eq (EMap.subMap T a (EMap.andMap T b c)) (EMap.addMap T (EMap.subMap T a b) (EMap.subMap T a c)) = true := by
  rw [emapValue_iff] at ha hb hc
  constructor
  · map_law fun x => coll_sub_add collV (ha.norm x) (hb.norm x) (hc.norm x)
  · map_law fun x => coll_sub_inter collV (ha.norm x) (hb.norm x) (hc.norm x)

/-- `(a + b) - (a & b) == (a - b) + (b - a)`, `a ^ b == (a + b) - (a & b)`, `a ^ b == b ^ a` -/
theorem C56_collector_symmetric_difference (ha : EMapValue T a) (hb : EMapValue T b) :
    EMap.eq (EMap.subMap T (EMap.addMap T a b) (EMap.andMap T a b)) (EMap.addMap T (EMap.subMap T a b) (EMap.subMap T b a))
      = true ∧
    EMap.eq (EMap.flipMap T a b) (EMap.subMap T (EMap.addMap T a b) (EMap.andMap T a b)) = true ∧
    EMap.eq (EMap.flipMap T a b) (EMap.flipMap T b a) = true := by
  rw [emapValue_iff] at ha hb
  refine ⟨?_, ?_, ?_⟩
  · map_law fun x => coll_symm collV (ha.norm x) (hb.norm x)
  · map_law fun x => coll_flip_eq collV (ha.norm x) (hb.norm x)
  · map_law fun x => coll_flip_comm collV (ha.norm x) (hb.norm x)

/-- Union, neutral element and difference: the laws on maps above apply. -/
theorem C56_collector_union (ha : EMapValue T a) (hb : EMapValue T b) (hc : EMapValue T c) :
    EMap.eq (EMap.addMap T a (EMap.addMap T b c)) (EMap.addMap T (EMap.addMap T a b) c) = true ∧
    EMap.eq (EMap.addMap T a []) a = true ∧ EMap.eq (EMap.addMap T [] a) a = true ∧
    EMap.eq (EMap.addMap T a b) (EMap.addMap T b a) = true ∧ EMap.eq (EMap.subMap T a []) a = true ∧
    (absorbs = true → EMap.eq (EMap.subMap T a a) [] = true) ∧ EMap.isDistinctEqual T (EMap.subMap T a a) [] = true := by
  obtain ⟨h1, h2, h3⟩ := C56_map_monoid collN collM.toMonoidValues ha hb hc
  exact ⟨h1, h2, h3, C56_map_add_comm collN collM ha hb,
    C56_map_difference collN (fun u => Finset.sdiff_self u) ha⟩

/-- The pairs `(x, e)`, `e` in the set of the key `x`: the operators on maps are the operators on the sets of
pairs. -/
theorem C56_collector_pairs (ha : EMapValue T a) (hb : EMapValue T b) (x : D) (e : α) :
    ((∃ u, (x, u) ∈ EMap.addMap T a b ∧ e ∈ u) ↔ (∃ u, (x, u) ∈ a ∧ e ∈ u) ∨ ∃ u, (x, u) ∈ b ∧ e ∈ u) ∧
    ((∃ u, (x, u) ∈ EMap.subMap T a b ∧ e ∈ u) ↔ (∃ u, (x, u) ∈ a ∧ e ∈ u) ∧ ¬ ∃ u, (x, u) ∈ b ∧ e ∈ u) ∧
    ((∃ u, (x, u) ∈ EMap.andMap T a b ∧ e ∈ u) ↔ (∃ u, (x, u) ∈ a ∧ e ∈ u) ∧ ∃ u, (x, u) ∈ b ∧ e ∈ u) ∧
    ((∃ u, (x, u) ∈ EMap.flipMap T a b ∧ e ∈ u) ↔ Xor (∃ u, (x, u) ∈ a ∧ e ∈ u) (∃ u, (x, u) ∈ b ∧ e ∈ u)) := by
  rw [emapValue_iff] at ha hb
  have key : ∀ {m : List (D × Finset α)}, EV T m → ((∃ u, (x, u) ∈ m ∧ e ∈ u) ↔ Has (valueOf m x) e) := fun hm => by
    unfold Has; simp only [valueOf_eq_some hm.asc]
  rw [key ha, key hb, key (evc_add ha hb), key (evc_sub ha hb), key (evc_inter ha hb), key (evc_flip ha hb),
    valc_add ha hb, valc_sub ha hb, valc_inter ha hb, valc_flip ha hb]
  exact ⟨has_add e, has_sub (hb.norm x) e, has_inter (ha.norm x) (hb.norm x) e, has_flip (ha.norm x) (hb.norm x) e⟩

end

/-! ## What does not hold -/

/-- In partial absorbers of signed numbers `&` is not associative, as the documentation says: the intermediate result
loses the keys whose values cancel each other. -/
theorem C56_counterexample_inter_assoc :
    EMap.andMap (exMap true true false) [((1 : ℤ), (1 : ℤ))] (EMap.andMap (exMap true true false) [(1, 1)] [(1, -1)]) = [] ∧
    EMap.andMap (exMap true true false) (EMap.andMap (exMap true true false) [((1 : ℤ), (1 : ℤ))] [(1, 1)]) [(1, -1)] =
      [(1, 1)] := by decide

/-- In enrichers `a - a == M()` does not hold. -/
theorem C56_counterexample_sub_self :
    EMap.eq (EMap.subMap (exMap true false false) exEM exEM) [] = false := by decide

/-- With an identity element that `m[1] = 0` has stored in an absorber, `+` does not commute, and `M() + m == m` does
not hold. -/
theorem C56_counterexample_identity :
    EReachable (exMap true true false) [((1 : ℤ), 0)] ∧ ¬ EMapValue (exMap true true false) [((1 : ℤ), 0)] ∧
    EMap.addMap (exMap true true false) [((1 : ℤ), 0)] [] = [(1, 0)] ∧
    EMap.addMap (exMap true true false) [] [((1 : ℤ), 0)] = [] := by
  refine ⟨.range _ [(1, 0)], fun h => h.2 _ (List.mem_singleton.2 rfl) ⟨rfl, rfl⟩, by decide, by decide⟩

/-- For functors whose neutral element is not the identity element of the values, `M() + a == a` does not hold: a map
of maxima loses negative values. -/
theorem C56_counterexample_neutral :
    EMap.addMap (.maxima true true false) [] [((1 : ℤ), -2)] = [] ∧
    EMap.addMap (.maxima true false false) [] [((1 : ℤ), -2)] = [(1, 0)] := by decide

/-! ## Examples: the hypotheses of the laws can be met -/

example (j ab tot sg : Bool) : EMapValue (.numeric j ab tot sg) exEM ∧ EMapValue (.numeric j ab tot sg) exEN ∧
    CommMonoidValues (MapType.numeric (V := ℤ) j ab tot sg) ∧ Neutral (MapType.numeric (V := ℤ) j ab tot sg) ∧
    (MapType.numeric (V := ℤ) j ab tot sg).sect = (MapType.numeric (V := ℤ) j ab tot sg).plus := by
  refine ⟨⟨exEM_asc.1, ?_⟩, ⟨exEM_asc.2.1, ?_⟩, numeric_comm _ _ _ _, numeric_neutral _ _ _ _, rfl⟩ <;>
  · unfold NoIdentity Ignored
    revert j ab tot sg
    decide

example (j ab : Bool) : EMapValue (Coll ℤ j ab) exEC ∧ EMapValue (Coll ℤ j ab) [((1 : ℤ), ({2, 5} : Finset ℤ))] ∧
    EMap.subMap (Coll ℤ true true) exEC [(1, {2, 5})] = [(1, {1}), (4, {3})] ∧
    EMap.flipMap (Coll ℤ true true) exEC [(1, {2, 5})] = [(1, {1, 5}), (4, {3})] := by
  refine ⟨⟨exEM_asc.2.2, ?_⟩, ⟨by unfold Ascending; decide, ?_⟩, by decide, by decide⟩ <;>
  · unfold NoIdentity Ignored
    revert j ab
    decide

end ICL.Props
