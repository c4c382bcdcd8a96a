import Verif.Theory.BordersMap
import Verif.Props.Maps

/-!
# C42: no border is invented, and containers grow by what they are given

`Borders` are the borders of a list of intervals as places in the domain, see `Verif/BorderSpec.lean`.
-/

set_option linter.unusedSectionVars false

namespace ICL.Props
open Spec

variable {D I V : Type} [LinearOrder D] {o : IntervalOps D I} [DecidableEq I] [DecidableEq V]

theorem borders_append {a b : List I} : Borders o (a ++ b) = Borders o a ∪ Borders o b := by
  ext c
  simp only [Borders, List.mem_append, Set.mem_ofPred_eq, Set.mem_union, or_and_right, exists_or]

theorem borders_mono {a b : List I} (hs : ∀ i ∈ a, i ∈ b) : Borders o a ⊆ Borders o b :=
  fun _ ⟨i, hi, h⟩ => ⟨i, hs i hi, h⟩

/-- Every operation on an interval set with an interval or element, or no operand: the borders of the result are
borders of the set or of the operand. -/
theorem C42_set_op {E : Option (ElemFns D I)} (h : IntervalClass o) {st : Style} {s s' : List I}
    (hs : WellFormed o s) (hj : st = .joining → FullyJoined o s) (c : SetOp D I) (hc : c.run o E st s = some s') :
    Borders o s' ⊆ Borders o s ∪ Borders o (c.operands E) := by
  have hw := wellFormed_iff.1 hs
  rw [← borders_append]
  refine (SetOp.run_fits h.lawful ⟨hw, fun hst => (fullyJoined_iff h.lawful hw).1 (hj hst)⟩ c hc
    (fits_of_subset fun i hi => by simp [hi]) fun k hk => respects_of_mem (by simp [hk])).borders h.lawful

/-- Every operation on an interval set with an interval set as operand. -/
theorem C42_set_op2 (h : IntervalClass o) {st st' : Style} {s r s' : List I}
    (hs : WellFormed o s) (hj : st = .joining → FullyJoined o s) (hr : WellFormed o r)
    (hj' : st' = .joining → FullyJoined o r) (c : SetOp2 I) (hc : c.run o st st' s r = some s') :
    Borders o s' ⊆ Borders o s ∪ Borders o r := by
  have hw := wellFormed_iff.1 hs
  have hw' := wellFormed_iff.1 hr
  rw [← borders_append]
  exact (SetOp2.run_fits h.lawful ⟨hw, fun hst => (fullyJoined_iff h.lawful hw).1 (hj hst)⟩
    ⟨hw', fun hst => (fullyJoined_iff h.lawful hw').1 (hj' hst)⟩ c hc
    (fits_of_subset fun i hi => by simp [hi]) (fits_of_subset fun i hi => by simp [hi])).borders h.lawful

/-- Every operation on an interval map with a segment, interval or element, or no operand. -/
theorem C42_map_op {E : Option (ElemFns D I)} (h : IntervalClass o) {t : MapType V} {m m' : List (I × V)}
    (hm : MapWellFormed o m) (hj : t.cfg.joining = true → MapFullyJoined o m) (c : MapOp D I V)
    (hc : c.run o E t m = some m') : Borders o (keys m') ⊆ Borders o (keys m) ∪ Borders o (c.operands E) := by
  have hw := mapWellFormed_iff.1 hm
  rw [← borders_append]
  refine Fits.borders h.lawful (fits_keys.2 (MapOp.run_fits h.lawful
    ⟨hw, fun ht => (mapFullyJoined_iff h.lawful hw).1 (hj ht), fits_of_keys fun s hs => ?_⟩ c hc
    fun k hk => respects_of_mem (by simp [hk])).fits)
  exact List.mem_append_left _ (List.mem_map.2 ⟨s, hs, rfl⟩)

/-- Every operation on an interval map with an interval map as operand. -/
theorem C42_map_op2 (h : IntervalClass o) {t : MapType V} {m r m' : List (I × V)}
    (hm : MapWellFormed o m) (hj : t.cfg.joining = true → MapFullyJoined o m) (hr : MapWellFormed o r)
    (c : MapOp2 I V) (hc : c.run o t m r = some m') :
    Borders o (keys m') ⊆ Borders o (keys m) ∪ Borders o (keys r) := by
  have hw := mapWellFormed_iff.1 hm
  rw [← borders_append]
  refine Fits.borders h.lawful (fits_keys.2 (MapOp2.run_fits h.lawful
    ⟨hw, fun ht => (mapFullyJoined_iff h.lawful hw).1 (hj ht), fits_of_keys fun s hs => ?_⟩
    (mapWellFormed_iff.1 hr) (fits_of_keys fun s hs => ?_) c hc).fits)
  · exact List.mem_append_left _ (List.mem_map.2 ⟨s, hs, rfl⟩)
  · exact List.mem_append_right _ (List.mem_map.2 ⟨s, hs, rfl⟩)

/-- Every operation on an interval map with an interval set as operand. -/
theorem C42_map_op3 (h : IntervalClass o) {t : MapType V} {m m' : List (I × V)} {r : List I}
    (hm : MapWellFormed o m) (hj : t.cfg.joining = true → MapFullyJoined o m) (hr : WellFormed o r)
    (c : MapOp3 I V) (hc : c.run o t m r = some m') :
    Borders o (keys m') ⊆ Borders o (keys m) ∪ Borders o r := by
  have hw := mapWellFormed_iff.1 hm
  rw [← borders_append]
  refine Fits.borders h.lawful (fits_keys.2 (MapOp3.run_fits h.lawful
    ⟨hw, fun ht => (mapFullyJoined_iff h.lawful hw).1 (hj ht), fits_of_keys fun s hs => ?_⟩
    (wellFormed_iff.1 hr) (fits_of_subset fun i hi => by simp [hi]) c hc).fits)
  exact List.mem_append_left _ (List.mem_map.2 ⟨s, hs, rfl⟩)

/-- `domain(s, m)` -/
theorem C42_map_domain (h : IntervalClass o) (st : Style) (oracle : List I → I → Nat) {m : List (I × V)} {s : List I}
    (hc : IMap.domain o st oracle m = some s) : Borders o s ⊆ Borders o (keys m) := by
  obtain ⟨s2, e2, u⟩ := ISet.addSet_spec h.lawful st oracle (wf_nil (o := o) (g := setSeg)) (m.map Prod.fst)
  rw [show ISet.addSet o st oracle [] (m.map Prod.fst) = some s from hc] at e2
  obtain rfl := Option.some.inj e2
  exact (u.fits h.lawful (fun _ => joined_nil) fits_nil (fits_of_subset fun _ hi => hi)).borders h.lawful

/-- `between(s, m)` -/
theorem C42_map_between (h : IntervalClass o) (st : Style) (oracle : List I → I → Nat) {m : List (I × V)} {s : List I}
    (hc : IMap.between o st oracle m = some s) : Borders o s ⊆ Borders o (keys m) := by
  obtain ⟨s2, e2, u⟩ := ISet.addSet_spec h.lawful st oracle (wf_nil (o := o) (g := setSeg))
    (ISet.gaps o (m.map Prod.fst))
  rw [show ISet.addSet o st oracle [] (ISet.gaps o (m.map Prod.fst)) = some s from hc] at e2
  obtain rfl := Option.some.inj e2
  exact (u.fits h.lawful (fun _ => joined_nil) fits_nil
    (fits_gaps h.lawful (fits_of_subset fun _ hi => hi))).borders h.lawful

/-! ### Any number of operations -/

theorem MadeFrom.reachable {E : Option (ElemFns D I)} {K : List I} {st : Style} {s : List I}
    (hs : MadeFrom o E K st s) : Reachable o E st s := by
  induction hs with
  | empty st => exact .empty st
  | op c _ _ e ih => exact .op c ih e
  | op2 c _ _ e ih1 ih2 => exact .op2 c ih1 ih2 e

theorem MadeFrom.fits {E : Option (ElemFns D I)} (h : SetClass o E) {K : List I} {st : Style} {s : List I}
    (hs : MadeFrom o E K st s) : Fits o setSeg K s := by
  induction hs with
  | empty st => exact fits_nil
  | op c hs hk e ih =>
    exact SetOp.run_fits h.cls.lawful ((MadeFrom.reachable hs).good h) c e ih fun k hk' => respects_of_mem (hk k hk')
  | op2 c hs hr e ih1 ih2 =>
    exact SetOp2.run_fits h.cls.lawful ((MadeFrom.reachable hs).good h) ((MadeFrom.reachable hr).good h) c e ih1 ih2

/-- The interval sets that a program makes out of the intervals of a list `K` — by any number of operations, with each
other too — have no borders but those of `K`. -/
theorem C42_set_history {E : Option (ElemFns D I)} (h : SetClass o E) {K : List I} {st : Style} {s : List I}
    (hs : MadeFrom o E K st s) : Borders o s ⊆ Borders o K :=
  (MadeFrom.fits h hs).borders h.cls.lawful

/-- Therefore they have less than twice as many segments as `K` has intervals, however many operations have been
done. -/
theorem C42_set_history_size {E : Option (ElemFns D I)} (h : SetClass o E) {K : List I} {st : Style} {s : List I}
    (hs : MadeFrom o E K st s) : s = [] ∨ s.length < 2 * K.length :=
  length_le_of_borders h.cls.lawful ((MadeFrom.reachable hs).good h).1 (C42_set_history h hs)

theorem MMadeFrom.fits {E : Option (ElemFns D I)} (h : SetClass o E) {K : List I} {t : MapType V} {m : List (I × V)}
    (hm : MMadeFrom o E K t m) : MFit o t.cfg K m := by
  induction hm with
  | empty t => exact mfit_nil _
  | op c _ hk e ih => exact MapOp.run_fits h.cls.lawful ih c e fun k hk' => respects_of_mem (hk k hk')
  | op2 c _ _ e ih1 ih2 => exact MapOp2.run_fits h.cls.lawful ih1 ih2.wf ih2.fits c e
  | op3 c _ hr e ih =>
    exact MapOp3.run_fits h.cls.lawful ih ((MadeFrom.reachable hr).good h).1 (MadeFrom.fits h hr) c e
  | assign oracle _ _ e ih => exact assign_fits h.cls.lawful ih.wf ih.fits e

/-- The interval maps that a program makes out of the intervals of a list `K` have no borders but those of `K`. -/
theorem C42_map_history {E : Option (ElemFns D I)} (h : SetClass o E) {K : List I} {t : MapType V} {m : List (I × V)}
    (hm : MMadeFrom o E K t m) : Borders o (keys m) ⊆ Borders o K :=
  (fits_keys.2 (MMadeFrom.fits h hm).fits).borders h.cls.lawful

/-- Therefore they have less than twice as many segments as `K` has intervals. -/
theorem C42_map_history_size {E : Option (ElemFns D I)} (h : SetClass o E) {K : List I} {t : MapType V}
    {m : List (I × V)} (hm : MMadeFrom o E K t m) : m = [] ∨ m.length < 2 * K.length := by
  have := length_le_of_borders h.cls.lawful (wf_keys.2 (MMadeFrom.fits h hm).wf) (C42_map_history h hm)
  simpa [List.map_eq_nil_iff] using this

/-! ### Sizes after a single operation -/

/-- Adding an interval to an `interval_set` or a `separate_interval_set` makes at most one segment more. -/
theorem C42_set_add_size (h : IntervalClass o) {st : Style} (hst : st ≠ .splitting) {s s' : List I}
    (hs : WellFormed o s) (hj : st = .joining → FullyJoined o s) {k : I} (hc : ISet.add o st s k = some s') :
    s'.length ≤ s.length + 1 := by
  have hw := wellFormed_iff.1 hs
  obtain ⟨s2, e2, a⟩ := ISet.add_spec h.lawful st hw k
  rw [hc] at e2; obtain rfl := Option.some.inj e2
  exact a.length_le h.lawful hst fun ht => (fullyJoined_iff h.lawful hw).1 (hj ht)

/-- Adding a set makes at most as many segments as both had. -/
theorem C42_set_union_size (h : IntervalClass o) {st : Style} (hst : st ≠ .splitting) (oracle : List I → I → Nat)
    {s r s' : List I} (hs : WellFormed o s) (hj : st = .joining → FullyJoined o s)
    (hc : ISet.addSet o st oracle s r = some s') : s'.length ≤ s.length + r.length := by
  have hw := wellFormed_iff.1 hs
  obtain ⟨s2, e2, a⟩ := ISet.addSet_spec h.lawful st oracle hw r
  rw [hc] at e2; obtain rfl := Option.some.inj e2
  exact a.length_le h.lawful hst fun ht => (fullyJoined_iff h.lawful hw).1 (hj ht)

/-- Subtracting an interval from any interval set makes at most one segment more. -/
theorem C42_set_subtract_size (h : IntervalClass o) {s s' : List I} (hs : WellFormed o s) {k : I}
    (hc : ISet.subtract o s k = some s') : s'.length ≤ s.length + 1 := by
  have hw := wellFormed_iff.1 hs
  obtain ⟨s2, e2, a⟩ := ISet.subtract_spec h.lawful hw k
  rw [hc] at e2; obtain rfl := Option.some.inj e2
  exact a.length_le h.lawful hw

/-- Any operation with an interval on any interval set at most doubles the number of segments, plus one; so does adding
to a `split_interval_set`. -/
theorem C42_set_op_size {E : Option (ElemFns D I)} (h : SetClass o E) {st : Style} {s s' : List I}
    (hs : WellFormed o s) (hj : st = .joining → FullyJoined o s) (c : SetOp D I) (hc : c.run o E st s = some s') :
    s'.length ≤ 2 * s.length + 1 := by
  have hw := wellFormed_iff.1 hs
  have hb := C42_set_op h.cls hs hj c hc
  rw [← borders_append] at hb
  have hg := SetOp.run_good h ⟨hw, fun hst => (fullyJoined_iff h.cls.lawful hw).1 (hj hst)⟩ hc
  have hl : (c.operands E).length ≤ 1 := by
    cases c <;> cases E <;> simp [SetOp.operands]
  rcases length_le_of_borders h.cls.lawful hg.1 hb with rfl | h1
  · simp
  · rw [List.length_append] at h1; omega

/-- The same for interval maps. -/
theorem C42_map_op_size {E : Option (ElemFns D I)} (h : SetClass o E) {t : MapType V} {m m' : List (I × V)}
    (hm : MapWellFormed o m) (hj : t.cfg.joining = true → MapFullyJoined o m) (c : MapOp D I V)
    (hc : c.run o E t m = some m') : m'.length ≤ 2 * m.length + 1 := by
  have hw := mapWellFormed_iff.1 hm
  have hb := C42_map_op h.cls hm hj c hc
  rw [← borders_append] at hb
  have hg := (MapOp.keeps_of_run h hw c hc).wf
  have hl : (c.operands E).length ≤ 1 := by
    cases c <;> cases E <;> simp [MapOp.operands]
  rcases length_le_of_borders h.cls.lawful (wf_keys.2 hg) hb with h1 | h1
  · rw [List.map_eq_nil_iff] at h1; subst h1; simp
  · simp only [List.length_append, List.length_map, keys] at h1; omega

/-! ### Examples -/

/-- The bounds are reached. -/
example : ISet.add Ex.ro .splitting [Ex.r 1 2, Ex.r 3 4] (Ex.r 0 9) =
      some [Ex.r 0 1, Ex.r 1 2, Ex.r 2 3, Ex.r 3 4, Ex.r 4 9] ∧
    ISet.subtract Ex.ro [Ex.r 0 9] (Ex.r 3 4) = some [Ex.r 0 3, Ex.r 4 9] ∧
    ISet.add Ex.ro .joining [Ex.r 0 1] (Ex.r 3 4) = some [Ex.r 0 1, Ex.r 3 4] := by decide

theorem ex_madeFrom : MadeFrom Ex.ro (some exE) [Ex.r 0 5, Ex.r 2 3, Ex.r 7 8, Ex.r 1 8] .joining
    [Ex.r 0 1, Ex.r 2 3, Ex.r 5 7] :=
  .op (.flip (Ex.r 1 8)) (.op (.addE 7) (.op (.subtract (Ex.r 2 3)) (.op (.add (Ex.r 0 5)) (.empty _) (by decide)
    (l' := [Ex.r 0 5]) (by decide)) (by decide) (l' := [Ex.r 0 2, Ex.r 3 5]) (by decide))
    (by decide) (l' := [Ex.r 0 2, Ex.r 3 5, Ex.r 7 8]) (by decide)) (by decide) (by decide)

example : ([Ex.r 0 1, Ex.r 2 3, Ex.r 5 7] = []) ∨ 3 < 2 * 4 := C42_set_history_size ex_cls ex_madeFrom

theorem ex_mmadeFrom : MMadeFrom Ex.ro (some exE) [Ex.r 0 5, Ex.r 3 8, Ex.r 1 2] (exMap true true false)
    [(Ex.r 0 1, 1), (Ex.r 2 3, 1), (Ex.r 3 5, 3), (Ex.r 5 8, 2)] :=
  .op (.subtract (Ex.r 1 2) 1) (.op (.add (Ex.r 3 8) 2) (.op (.add (Ex.r 0 5) 1) (.empty _) (by decide)
    (l' := [(Ex.r 0 5, 1)]) (by decide)) (by decide) (l' := [(Ex.r 0 3, 1), (Ex.r 3 5, 3), (Ex.r 5 8, 2)]) (by decide))
    (by decide) (by decide)

example : Borders Ex.ro [Ex.r 0 1, Ex.r 2 3, Ex.r 3 5, Ex.r 5 8] ⊆ Borders Ex.ro [Ex.r 0 5, Ex.r 3 8, Ex.r 1 2] :=
  C42_map_history ex_cls ex_mmadeFrom

/-- Operands and results as in the theorems about one operation. -/
example : SetOp.run Ex.ro (some exE) .joining [Ex.r 0 5] (.flip (Ex.r 3 8)) = some [Ex.r 0 3, Ex.r 5 8] ∧
    SetOp2.run Ex.ro .splitting .joining [Ex.r 0 5] [Ex.r 3 8] (.add fun _ _ => 0) =
      some [Ex.r 0 3, Ex.r 3 5, Ex.r 5 8] ∧
    MapOp2.run Ex.ro (exMap true true false) [(Ex.r 0 5, 1)] [(Ex.r 3 8, 2)] (.add fun _ _ => 0) =
      some [(Ex.r 0 3, 1), (Ex.r 3 5, 3), (Ex.r 5 8, 2)] ∧
    MapOp3.run Ex.ro (exMap true true false) [(Ex.r 0 5, 1)] [Ex.r 3 8] .erase = some [(Ex.r 0 3, 1)] ∧
    IMap.domain Ex.ro .joining (fun _ _ => 0) [(Ex.r 0 5, 1), (Ex.r 5 7, 2), (Ex.r 8 9, 2)] =
      some [Ex.r 0 7, Ex.r 8 9] ∧
    IMap.between Ex.ro .joining (fun _ _ => 0) [(Ex.r 0 5, 1), (Ex.r 5 7, 2), (Ex.r 8 9, 2)] = some [Ex.r 7 8] :=
  ⟨by decide, by decide, by decide, by decide, by decide, by decide⟩

/-- Borders are places: `2` is the end of `[0, 2)` and the beginning of `[2, 5)`, `3` is none of these borders. -/
example : LowerBorder Ex.ro (Ex.r 2 5) ∈ Borders Ex.ro [Ex.r 0 2] := by
  refine ⟨Ex.r 0 2, by simp, ⟨0, by simp [In, Ex.ro, Ex.r, rightOpenOps]⟩, Or.inr ?_⟩
  ext x
  simp only [LowerBorder, UpperBorder, In, Ex.ro, Ex.r, rightOpenOps, Set.mem_ofPred_eq]
  constructor
  · intro h; exact ⟨1, by decide, by have := h 2 (by decide); omega⟩
  · rintro ⟨y, hy, hxy⟩ z hz
    simp at hy hz
    omega

end ICL.Props
