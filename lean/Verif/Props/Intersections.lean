import Verif.Theory.CostInter
import Verif.InterSpec
import Verif.Props.Complexity

/-!
# C55: complexity of intersections and symmetric differences

`n` is the number of segments of the object, `m` that of the operand; `overlapped` is the number of segments of the object that
share elements with an operand that is an interval.
-/

set_option linter.unusedSectionVars false
set_option linter.unusedVariables false

namespace ICL.Props
open Spec

theorem rebuilds {S : Type} {t t' : Tree S} {m : List S → CostM S Unit} {l : Option (List S)} {b : Work}
    (hm : Cost.Took (m t.segs) ⟨[], t.fresh⟩ () t' b) (hl : l = some t'.segs) :
    Rebuilds t (Cost.intersect m) l b := by
  obtain ⟨w, e, ⟨h1, h2, h3, h4⟩, h5, h6⟩ := Cost.intersect_new hm
  exact ⟨t', w, e, hl, h1, h2, h3, h4, h5, h6⟩

section sets
variable {D I : Type} [LinearOrder D] {o : IntervalOps D I}

/-! ## Interval sets -/

/-- `s &= k`: one search and a hinted insertion, which succeeds, for each overlapped segment; and `s` is destroyed. -/
theorem C55_set_intersection_interval (h : IntervalClass o) (st : Style) (oracle : List I → I → Nat) {t : Tree I}
    (hw : WellFormed o t.segs) (k : I) :
    Rebuilds t (Cost.Sets.interSeg o st oracle k) (ISet.interSeg o st oracle t.segs k)
      { searches := 1, hinted := overlapped o t.segs k, steps := 20 * overlapped o t.segs k,
        allocated := overlapped o t.segs k } := by
  cases hk : o.isEmpty k with
  | true =>
    refine rebuilds (t' := ⟨[], t.fresh⟩) ?_ (by simp [ISet.interSeg, ISet.addInterSeg, hk, Tree.segs])
    unfold Cost.Sets.addInterSeg
    rw [if_pos hk]
    exact (Cost.took_pure () _).mono (by simp [Cost.Le])
  | false =>
    obtain ⟨t', k1, r1, -⟩ := Cost.Sets.addInterSeg_took h.lawful st oracle (wellFormed_iff.1 hw)
      ((nonempty_iff h.lawful).2 hk) (Cost.sec_nil t.fresh) (Cost.ahead_nil k)
    refine rebuilds (k1.mono ?_) r1
    simp only [Cost.Le, Cost.times, Cost.add_searches, Cost.add_hinted, Cost.add_steps, Cost.add_allocated]
    omega

/-- `s &= r`: a search for each segment of `r`, and no more than `n + m` hinted insertions, which succeed. -/
theorem C55_set_intersection (h : IntervalClass o) (st : Style) (oracle : List I → I → Nat) {t : Tree I}
    (hw : WellFormed o t.segs) {r : List I} (hr : WellFormed o r) :
    let n := t.nodes.length
    let m := r.length
    Rebuilds t (Cost.Sets.interSet o st oracle r) (ISet.interSet o st oracle t.segs r)
      { searches := m + 2, hinted := n + m, steps := 20 * n + 22 * m + 4, allocated := n + m } := by
  obtain ⟨t', k1, r1⟩ := Cost.Sets.addInter_took h.lawful st oracle (wellFormed_iff.1 hw) (wellFormed_iff.1 hr) t.fresh
  have hl : t.segs.length = t.nodes.length := by simp [Tree.segs]
  rw [hl] at k1
  exact rebuilds k1 r1

/-- `s &= x` for an element: a constant number of searches, insertions and steps; but `s` is destroyed. -/
theorem C55_set_intersection_element {e : ElemFns D I} (h : SetClass o (some e)) (st : Style) {t : Tree I}
    (hw : WellFormed o t.segs) (x : D) (hx : o.isEmpty (e.lookup.key x) = false) :
    Rebuilds t (Cost.Sets.interE o st e.sing e.lookup x) (ISet.addInterE o st e.sing e.lookup [] t.segs x)
      { searches := 5, hinted := 3, steps := 25, allocated := 4 } := by
  obtain ⟨t', k1, r1⟩ := Cost.Sets.addInterE_took h.cls.lawful st ((h.elem e rfl).2.lawfulAt hx) e.sing (wellFormed_iff.1 hw) t.fresh
  exact rebuilds k1 r1

/-- `intersects(s, r)` and `disjoint(s, r)`. -/
theorem C55_set_intersects (h : IntervalClass o) (st : Style) (oracle : List I → I → Nat) {s r : List I}
    (hs : WellFormed o s) (hr : WellFormed o r) :
    let n := s.length
    let m := r.length
    Tests (Cost.Sets.intersects o st oracle s r) (ISet.intersects o st oracle s r)
      { searches := m + 2, hinted := n + m, steps := 20 * n + 22 * m + 4, allocated := n + m } := by
  obtain ⟨b, w, e, r1, ⟨h1, h2, h3, h4⟩, h5⟩ :=
    Cost.Sets.intersects_took h.lawful st oracle (wellFormed_iff.1 hs) (wellFormed_iff.1 hr)
  exact ⟨b, w, e, r1, h1, h2, h3, h4, h5⟩

/-- `s ^= r`, for sets that do not split. -/
theorem C55_set_symmetric_difference [DecidableEq I] (h : IntervalClass o) {st : Style} (hst : st ≠ .splitting)
    (oracle : List I → I → Nat) {t : Tree I} (ht : Proper t) (hw : WellFormed o t.segs)
    (hj : st = .joining → FullyJoined o t.segs) {r : List I} (hr : WellFormed o r) :
    let n := t.nodes.length
    let m := r.length
    Yields t (Cost.Sets.flipSet o st oracle r) (ISet.flipSet o st oracle t.segs r)
      { searches := 16 * n + 21 * m + 2, hinted := m, steps := 56 * n + 79 * m + 4, allocated := 6 * n + 7 * m } := by
  have hw' := wellFormed_iff.1 hw
  obtain ⟨t', ⟨w, e, ⟨h1, h2, h3, h4⟩, b⟩, r1⟩ := Cost.Sets.flipSet_took h.lawful st oracle hst (proper_iff.1 ht) hw'
    (fun hc => (fullyJoined_iff h.lawful hw').1 (hj hc)) (wellFormed_iff.1 hr)
  exact ⟨t', w, e, r1, h1, h2, h3, h4, b⟩

/-! `{[0,2) [3,5) [6,8) [20,30)}` with `[1,7)`, with `{[1,7) [25,40)}` and with `6`. -/

example : workOf (Cost.Sets.interSeg Ex.ro .joining (fun _ _ => 0) (Ex.r 1 7) exTree) =
      some { searches := 1, hinted := 3, steps := 21, erased := 4, allocated := 3 } ∧
    workOf (Cost.Sets.interSet Ex.ro .splitting (fun _ _ => 0) [Ex.r 1 7, Ex.r 25 40] exTree) =
      some { searches := 4, hinted := 4, steps := 20, erased := 4, allocated := 4 } ∧
    workOf (Cost.Sets.interE Ex.ro .joining exE.sing exE.lookup 6 exTree) =
      some { searches := 2, hinted := 0, steps := 4, erased := 4, allocated := 1 } ∧
    workOf (Cost.Sets.flipSet Ex.ro .joining (fun _ _ => 0) [Ex.r 1 7, Ex.r 25 40] exTree) =
      some { searches := 18, hinted := 0, steps := 43, erased := 4, allocated := 6 } ∧
    Cost.Sets.intersects Ex.ro .joining (fun _ _ => 0) exTree.segs [Ex.r 1 7, Ex.r 25 40] =
      some (true, { searches := 3, hinted := 3, steps := 27, erased := 3, allocated := 3 }) :=
  ⟨by decide +kernel, by decide +kernel, by decide +kernel, by decide +kernel, by decide +kernel⟩

example : Proper exTree ∧ WellFormed Ex.ro exTree.segs ∧ FullyJoined Ex.ro exTree.segs ∧ SetClass Ex.ro (some exE) ∧
    WellFormed Ex.ro [Ex.r 1 7, Ex.r 25 40] :=
  ⟨exTree_ok.1, exTree_ok.2.1, exTree_ok.2.2.1, ex_cls, wellFormed_ro _ (by decide) (by decide)⟩

/-! ### The documentation of `&=`

It promises `O(m log (n + m))` for containers, `O(log n)` for elements, where `n` is the size of the object and `m` that of the
operand. -/

theorem ro_mem (a b x : ℤ) : Ex.ro.Mem x (Ex.r a b) ↔ a ≤ x ∧ x < b := by
  simp [IntervalOps.Mem, Ex.ro, Ex.r, rightOpenOps]

/-- What lies on the comb only has as many segments as it has teeth. -/
theorem comb_teeth {n : Nat} {l : List (SItv ℤ)} (hl : WF Ex.ro setSeg l)
    (hd : ∀ x, Dom Ex.ro setSeg l x ↔ Dom Ex.ro setSeg (comb n).segs x) : n ≤ l.length := by
  have hc : ∀ x, Dom Ex.ro setSeg (comb n).segs x ↔ ∃ i : Nat, i < n ∧ x = 2 * i := by
    intro x
    rw [comb_segs]
    constructor
    · rintro ⟨s, hs, hx⟩
      obtain ⟨i, hi, rfl⟩ := List.mem_map.1 hs
      have := (ro_mem _ _ _).1 hx
      exact ⟨i, List.mem_range.1 hi, by omega⟩
    · rintro ⟨i, hi, rfl⟩
      exact ⟨_, List.mem_map.2 ⟨i, List.mem_range.2 hi, rfl⟩, (ro_mem _ _ _).2 (by omega)⟩
  refine Cost.length_ge (o := Ex.ro) (g := setSeg) (fun i => 2 * (i : ℤ)) (fun i hi => (hd _).2 ((hc _).2 ⟨i, hi, rfl⟩)) ?_
  rintro i j hij hj ⟨s, hs, h1, h2⟩
  have h3 : Ex.ro.Mem (2 * (i : ℤ) + 1) (setSeg.key s) := by
    obtain ⟨a, b⟩ := s
    have h1 := (ro_mem a b _).1 h1
    have h2 := (ro_mem a b _).1 h2
    exact (ro_mem a b _).2 (by omega)
  obtain ⟨k, -, hk⟩ := (hc _).1 ((hd _).1 ⟨s, hs, h3⟩)
  omega

theorem one_wf {n : Nat} (hn : 0 < n) : WellFormed Ex.ro [Ex.r 0 (2 * n)] := by
  rw [wellFormed_iff]
  refine ⟨?_, by simp⟩
  simp only [List.mem_singleton, forall_eq]
  exact ⟨0, (ro_mem _ _ _).2 (by omega)⟩

theorem comb_inside {n : Nat} {x : ℤ} (hx : Dom Ex.ro setSeg (comb n).segs x) : Ex.ro.Mem x (Ex.r 0 (2 * n)) := by
  rw [comb_segs] at hx
  obtain ⟨s, hs, hx⟩ := hx
  obtain ⟨i, hi, rfl⟩ := List.mem_map.1 hs
  have := (ro_mem _ _ _).1 hx
  have := List.mem_range.1 hi
  exact (ro_mem _ _ _).2 (by omega)

/-- However many segments there are, `&=` with a single segment may allocate a node for each, and erases them all. -/
theorem C55_counterexample_intersection (n : Nat) (hn : 0 < n) (st : Style) (oracle : List (SItv ℤ) → SItv ℤ → Nat) :
    Proper (comb n) ∧ WellFormed Ex.ro (comb n).segs ∧ (comb n).nodes.length = n ∧ WellFormed Ex.ro [Ex.r 0 (2 * n)] ∧
      ∃ t' w, Cost.Sets.interSet Ex.ro st oracle [Ex.r 0 (2 * n)] (comb n) = some (((), t'), w) ∧
        n ≤ w.allocated ∧ n ≤ w.erased := by
  have hl : (comb n).nodes.length = n := by simp [comb]
  refine ⟨comb_proper n, comb_wf n, hl, one_wf hn, ?_⟩
  obtain ⟨t', w, e, r1, -, -, -, -, h5, h6⟩ := C55_set_intersection Ex.ro_cls st oracle (comb_wf n) (one_wf hn)
  obtain ⟨s', e', hw', hd⟩ := C10_intersection Ex.ro_cls st oracle (comb_wf n) (one_wf hn)
  rw [r1] at e'
  obtain rfl := Option.some.inj e'
  have := comb_teeth (n := n) (wellFormed_iff.1 hw') fun x => (hd x).trans ⟨And.left, fun hx =>
    ⟨hx, ⟨_, List.mem_singleton.2 rfl, comb_inside hx⟩⟩⟩
  have hl' : t'.segs.length = t'.nodes.length := by simp [Tree.segs]
  exact ⟨t', w, e, by omega, by omega⟩

/-- However many segments there are, `&=` with an element erases them all. -/
theorem C55_counterexample_intersection_element (n : Nat) (st : Style) (x : ℤ) :
    Proper (comb n) ∧ WellFormed Ex.ro (comb n).segs ∧ (comb n).nodes.length = n ∧
      ∃ t' w, Cost.Sets.interE Ex.ro st exE.sing exE.lookup x (comb n) = some (((), t'), w) ∧ n ≤ w.erased := by
  have hl : (comb n).nodes.length = n := by simp [comb]
  refine ⟨comb_proper n, comb_wf n, hl, ?_⟩
  obtain ⟨t', w, e, -, -, -, -, -, h5, -⟩ := C55_set_intersection_element (e := exE) ex_cls st (comb_wf n) x
    (by simp [Lookup.key, Ex.roE, Ex.ro, rightOpenOps, rightOpenE, rightOpenSingleton, stepsInt, Asym.isEmpty])
  exact ⟨t', w, e, by omega⟩

/-- However many segments there are, `intersects` with a single segment may allocate a node for each. -/
theorem C55_counterexample_intersects (n : Nat) (hn : 0 < n) (st : Style) (oracle : List (SItv ℤ) → SItv ℤ → Nat) :
    WellFormed Ex.ro (comb n).segs ∧ (comb n).segs.length = n ∧ WellFormed Ex.ro [Ex.r 0 (2 * n)] ∧
      ∃ w, Cost.Sets.intersects Ex.ro st oracle (comb n).segs [Ex.r 0 (2 * n)] = some (true, w) ∧ n ≤ w.allocated := by
  refine ⟨comb_wf n, by simp [comb, Tree.segs], one_wf hn, ?_⟩
  have h := Ex.ro_cls.lawful
  have hl := wellFormed_iff.1 (comb_wf n)
  have hr := wellFormed_iff.1 (one_wf hn)
  have h0 : Dom Ex.ro setSeg (comb n).segs 0 := by
    rw [comb_segs]
    exact ⟨_, List.mem_map.2 ⟨0, List.mem_range.2 hn, rfl⟩, (ro_mem _ _ _).2 (by simp)⟩
  have h0' : Dom Ex.ro setSeg [Ex.r 0 (2 * n)] 0 := ⟨_, List.mem_singleton.2 rfl, comb_inside h0⟩
  obtain ⟨cr, e1, k0, -⟩ := Cost.common_took h hr hl (⟨[], 0⟩ : Tree (SItv ℤ))
  obtain ⟨cr', e1', g1, g2⟩ := commonRange_spec h hr hl
  rw [e1] at e1'
  obtain rfl := Option.some.inj e1'
  have hcr : cr = some ([], [Ex.r 0 (2 * n)], []) := by
    cases cr with
    | none => exact absurd h0 (g1 rfl 0 h0')
    | some abc =>
      obtain ⟨a, b, c⟩ := abc
      obtain ⟨g3, g4, g5⟩ := g2 a b c rfl
      have ha : a = [] := by
        by_contra hne
        obtain ⟨i, a, rfl⟩ := List.exists_cons_of_ne_nil hne
        obtain rfl : Ex.r 0 (2 * n) = i := by simpa using congrArg List.head? g3
        exact lt_irrefl _ (g4 0 0 ⟨_, by simp, comb_inside h0⟩ h0)
      have hc : c = [] := by
        by_contra hne
        obtain ⟨c, i, rfl⟩ := List.eq_nil_or_concat c |>.resolve_left hne
        obtain rfl : Ex.r 0 (2 * n) = i := by simpa using congrArg List.getLast? g3
        exact lt_irrefl _ (g5 0 0 h0 ⟨_, by simp, comb_inside h0⟩)
      subst ha hc
      simp only [List.nil_append, List.append_nil] at g3
      rw [g3]
  subst hcr
  obtain ⟨t1, k1, r1, -⟩ := Cost.Sets.addInterSeg_took h st oracle hl (hr.nonempty _ (List.mem_singleton.2 rfl))
    (Cost.sec_nil 0) (Cost.ahead_nil _)
  obtain ⟨s', e', hw', hd⟩ := C10_intersection_interval Ex.ro_cls st oracle (comb_wf n) (Ex.r 0 (2 * n))
  have r1' : ISet.interSeg Ex.ro st oracle (comb n).segs (Ex.r 0 (2 * n)) = some t1.segs := r1
  rw [e'] at r1'
  obtain rfl := Option.some.inj r1'
  have hn1 := comb_teeth (n := n) (wellFormed_iff.1 hw') fun x => (hd x).trans ⟨And.left, fun hx => ⟨hx, comb_inside hx⟩⟩
  have hne : t1.segs.isEmpty = false := by
    cases hs : t1.segs with
    | nil => rw [hs] at hn1; simp at hn1; omega
    | cons _ _ => rfl
  have k2 : Cost.Took (if t1.segs.isEmpty = true then
      Cost.intersectsLoop (Cost.Sets.addInterSeg Ex.ro st oracle (comb n).segs) [] else pure true) t1 true t1 {} := by
    rw [hne]; exact Cost.took_pure true t1
  have k2' : Cost.Took (Cost.intersectsLoop (Cost.Sets.addInterSeg Ex.ro st oracle (comb n).segs) [Ex.r 0 (2 * n)])
      ⟨[], 0⟩ true t1 _ :=
    (Cost.took_look { steps := 2 } rfl rfl _).bind (f := fun _ => _) (k1.bind (f := fun _ => _) ((Cost.took_get t1).bind k2))
  have k3 : Cost.Took (Cost.Sets.intersectsBody Ex.ro st oracle (comb n).segs [Ex.r 0 (2 * n)]) ⟨[], 0⟩ true t1 _ :=
    k0.bind k2'
  obtain ⟨w, e, -, b⟩ := k3
  have hl' : t1.segs.length = t1.nodes.length := by simp [Tree.segs]
  refine ⟨w + { erased := t1.nodes.length }, ?_, ?_⟩
  · unfold Cost.Sets.intersects Cost.temporary
    rw [e]
    rfl
  · simp only [Cost.Balance, List.length_nil, Cost.add_allocated] at b ⊢
    omega

end sets

section maps
variable {D I V : Type} [LinearOrder D] {o : IntervalOps D I} [DecidableEq V]

/-! ## Interval maps -/

/-- `a &= k`: restriction to an interval. -/
theorem C55_map_intersection_interval (h : IntervalClass o) (m : MapType V) (oracle : List (I × V) → I → Nat)
    {t : Tree (I × V)} (hw : MapWellFormed o t.segs) (k : I) :
    let q := overlapped o (t.segs.map Prod.fst) k
    Rebuilds t (Cost.Maps.interItv o m oracle k) (IMap.addInterItv o m oracle [] t.segs k)
      { searches := 1, hinted := q, steps := 21 * q, allocated := q } := by
  cases hk : o.isEmpty k with
  | true =>
    refine rebuilds (t' := ⟨[], t.fresh⟩) ?_ (by simp [IMap.addInterItv, hk, Tree.segs])
    unfold Cost.Maps.addInterItv
    rw [if_pos hk]
    exact (Cost.took_pure () _).mono (by simp [Cost.Le])
  | false =>
    obtain ⟨t', k1, r1, -⟩ := Cost.Maps.addInterItv_took h.lawful m oracle (mapWellFormed_iff.1 hw)
      ((nonempty_iff h.lawful).2 hk) (Cost.sec_nil t.fresh) (Cost.ahead_nil k)
    refine rebuilds (k1.mono ?_) r1
    simp only [Cost.Le, Cost.times, Cost.add_searches, Cost.add_hinted, Cost.add_steps, Cost.add_allocated]
    omega

/-- `a &= (k, v)`, for partial maps. -/
theorem C55_map_intersection_segment (h : IntervalClass o) (m : MapType V) (hm : m.cfg.total = false)
    (oracle : List (I × V) → I → Nat) {t : Tree (I × V)} (hw : MapWellFormed o t.segs) (k : I) (v : V) :
    let q := overlapped o (t.segs.map Prod.fst) k
    Rebuilds t (Cost.Maps.interSeg o m k v) (IMap.addInterSeg o m oracle [] t.segs k v)
      { searches := 6 * q + 1, hinted := 8 * q, steps := 138 * q, allocated := 10 * q } := by
  cases hk : o.isEmpty k with
  | true =>
    refine rebuilds (t' := ⟨[], t.fresh⟩) ?_ (by simp [IMap.addInterSeg, hm, hk, Tree.segs])
    unfold Cost.Maps.addInterSeg
    rw [if_pos hk]
    exact (Cost.took_pure () _).mono (by simp [Cost.Le])
  | false =>
    have hn := (nonempty_iff h.lawful).2 hk
    obtain ⟨t', k1, r1, -⟩ := Cost.Maps.addInterSeg_took h.lawful m (mapWellFormed_iff.1 hw) (R := [k]) (k := k)
      ⟨by simpa [setSeg] using hn, by simp⟩ (by simp) hm oracle v (Cost.ok_nil t.fresh) (mfit_nil _)
    refine rebuilds (k1.mono ?_) r1
    simp only [Cost.Le, Cost.times, Cost.add_searches, Cost.add_hinted, Cost.add_steps, Cost.add_allocated]
    omega

/-- `a &= r` for an interval set `r`. -/
theorem C55_map_intersection_set (h : IntervalClass o) (m : MapType V) (oracle : List (I × V) → I → Nat)
    {t : Tree (I × V)} (hw : MapWellFormed o t.segs) {r : List I} (hr : WellFormed o r) :
    let n := t.nodes.length
    let m' := r.length
    Rebuilds t (Cost.Maps.interSet o m oracle r) (IMap.addInterSet o m oracle [] t.segs r)
      { searches := m' + 2, hinted := n + m', steps := 21 * n + 23 * m' + 4, allocated := n + m' } := by
  obtain ⟨t', k1, r1⟩ := Cost.Maps.addInterSet_took h.lawful m oracle (mapWellFormed_iff.1 hw) (wellFormed_iff.1 hr) t.fresh
  have hl : t.segs.length = t.nodes.length := by simp [Tree.segs]
  rw [hl] at k1
  exact rebuilds k1 r1

/-- `a &= r` for an interval map `r`, for partial maps. -/
theorem C55_map_intersection (h : IntervalClass o) (m : MapType V) (hm : m.cfg.total = false)
    (oracle : List (I × V) → I → Nat) {t : Tree (I × V)} (hw : MapWellFormed o t.segs) {r : List (I × V)}
    (hr : MapWellFormed o r) :
    let n := t.nodes.length
    let m' := r.length
    Rebuilds t (Cost.Maps.interMap o m oracle r) (IMap.addInterMap o m oracle [] t.segs r)
      { searches := 6 * n + 7 * m' + 2, hinted := 8 * n + 8 * m', steps := 138 * n + 140 * m' + 4,
        allocated := 10 * n + 10 * m' } := by
  obtain ⟨t', k1, r1⟩ := Cost.Maps.addInterMap_took h.lawful m hm oracle (mapWellFormed_iff.1 hw) (mapWellFormed_iff.1 hr)
    t.fresh
  have hl : t.segs.length = t.nodes.length := by simp [Tree.segs]
  rw [hl] at k1
  exact rebuilds k1 r1

/-- `a &= r` for an interval map `r`, for total maps. -/
theorem C55_map_intersection_total (h : IntervalClass o) (m : MapType V) (hm : m.cfg.total = true)
    (oracle : List (I × V) → I → Nat) {t : Tree (I × V)} (hw : MapWellFormed o t.segs) {r : List (I × V)}
    (hr : MapWellFormed o r) :
    let n := t.nodes.length
    let m' := r.length
    Rebuilds t (Cost.Maps.interMap o m oracle r) (IMap.addInterMap o m oracle [] t.segs r)
      { searches := n + m', hinted := 15 * n + 5 * m', steps := 300 * n + 70 * m', allocated := 15 * n + 5 * m' } := by
  obtain ⟨t', k1, r1⟩ := Cost.Maps.addInterMap_total_took h.lawful m hm oracle (mapWellFormed_iff.1 hw)
    (mapWellFormed_iff.1 hr) t.fresh
  have hl : t.segs.length = t.nodes.length := by simp [Tree.segs]
  rw [hl] at k1
  exact rebuilds k1 r1

/-- `a &= x` for a key: a constant number of searches, insertions and steps; but `a` is destroyed. -/
theorem C55_map_intersection_key {e : ElemFns D I} (h : SetClass o (some e)) (m : MapType V) {t : Tree (I × V)}
    (hw : MapWellFormed o t.segs) (x : D) (hx : o.isEmpty (e.lookup.key x) = false) :
    Rebuilds t (Cost.Maps.interKey o m e.sing e.lookup x) (IMap.addInterKey o m e.sing e.lookup [] t.segs x)
      { searches := 4, hinted := 3, steps := 47, allocated := 4 } := by
  obtain ⟨t', k1, r1⟩ := Cost.Maps.addInterKey_took h.cls.lawful m ((h.elem e rfl).2.lawfulAt hx) e.sing (mapWellFormed_iff.1 hw)
    t.fresh
  exact rebuilds k1 r1

/-- `intersects(a, r)` and `disjoint(a, r)` for an interval set `r`. -/
theorem C55_map_intersects_set (h : IntervalClass o) (m : MapType V) (oracle : List (I × V) → I → Nat)
    {a : List (I × V)} {r : List I} (ha : MapWellFormed o a) (hr : WellFormed o r) :
    let n := a.length
    let m' := r.length
    Tests (Cost.Maps.intersectsSet o m oracle a r) (IMap.intersectsSet o m oracle a r)
      { searches := m' + 2, hinted := n + m', steps := 21 * n + 23 * m' + 4, allocated := n + m' } := by
  obtain ⟨b, w, e, r1, ⟨h1, h2, h3, h4⟩, h5⟩ :=
    Cost.Maps.intersectsSet_took h.lawful m oracle (mapWellFormed_iff.1 ha) (wellFormed_iff.1 hr)
  exact ⟨b, w, e, r1, h1, h2, h3, h4, h5⟩

/-- `intersects(a, r)` and `disjoint(a, r)` for an interval map `r`, for partial maps. -/
theorem C55_map_intersects (h : IntervalClass o) (m : MapType V) (hm : m.cfg.total = false)
    (oracle : List (I × V) → I → Nat) {a r : List (I × V)} (ha : MapWellFormed o a) (hr : MapWellFormed o r) :
    let n := a.length
    let m' := r.length
    Tests (Cost.Maps.intersectsMap o m false a r) (IMap.intersectsMap o m false oracle a r)
      { searches := 6 * n + 7 * m' + 2, hinted := 8 * n + 8 * m', steps := 138 * n + 140 * m' + 4,
        allocated := 10 * n + 10 * m' } := by
  obtain ⟨b, w, e, r1, ⟨h1, h2, h3, h4⟩, h5⟩ :=
    Cost.Maps.intersectsMap_took h.lawful m hm oracle (mapWellFormed_iff.1 ha) (mapWellFormed_iff.1 hr)
  exact ⟨b, w, e, r1, h1, h2, h3, h4, h5⟩

/-- If one of the maps is total, `intersects(a, r)` looks at neither. -/
theorem C55_map_intersects_total (m : MapType V) (totalR : Bool) (hm : m.cfg.total = true ∨ totalR = true)
    (oracle : List (I × V) → I → Nat) (a r : List (I × V)) :
    Cost.Maps.intersectsMap o m totalR a r = some (true, {}) ∧ IMap.intersectsMap o m totalR oracle a r = some true := by
  have : (m.cfg.total || totalR) = true := by simpa using hm
  simp [Cost.Maps.intersectsMap, IMap.intersectsMap, this]

/-! `{[0,2)→1 [3,5)→2 [5,8)→1 [20,30)→4}` with the same. -/

example : let P := exMap true true false
    workOf (Cost.Maps.interItv Ex.ro P (fun _ _ => 0) (Ex.r 1 7) exMTree) =
      some { searches := 1, hinted := 3, steps := 24, erased := 4, allocated := 3 } ∧
    workOf (Cost.Maps.interSeg Ex.ro P (Ex.r 1 7) 3 exMTree) =
      some { searches := 13, hinted := 0, steps := 50, erased := 4, allocated := 3 } ∧
    workOf (Cost.Maps.interSet Ex.ro P (fun _ _ => 0) [Ex.r 1 7, Ex.r 25 40] exMTree) =
      some { searches := 4, hinted := 4, steps := 41, erased := 4, allocated := 4 } ∧
    workOf (Cost.Maps.interMap Ex.ro P (fun _ _ => 0) [(Ex.r 1 7, 3), (Ex.r 25 40, 1)] exMTree) =
      some { searches := 20, hinted := 0, steps := 77, erased := 4, allocated := 4 } ∧
    workOf (Cost.Maps.interMap Ex.ro (exMap true true true) (fun _ _ => 0) [(Ex.r 1 7, 3), (Ex.r 25 40, 1)] exMTree) =
      some { searches := 2, hinted := 11, steps := 93, erased := 4, allocated := 9 } ∧
    workOf (Cost.Maps.interKey Ex.ro P exE.sing exE.lookup 6 exMTree) =
      some { searches := 2, hinted := 0, steps := 4, erased := 4, allocated := 1 } ∧
    Cost.Maps.intersectsSet Ex.ro P (fun _ _ => 0) exMTree.segs [Ex.r 2 3, Ex.r 25 40] =
      some (true, { searches := 4, hinted := 1, steps := 14, erased := 1, allocated := 1 }) ∧
    Cost.Maps.intersectsMap Ex.ro P false exMTree.segs [(Ex.r 2 3, 1), (Ex.r 25 40, 1)] =
      some (true, { searches := 8, hinted := 0, steps := 20, erased := 1, allocated := 1 }) :=
  ⟨by decide +kernel, by decide +kernel, by decide +kernel, by decide +kernel, by decide +kernel, by decide +kernel,
    by decide +kernel, by decide +kernel⟩

example : MapWellFormed Ex.ro exMTree.segs ∧ MapWellFormed Ex.ro [(Ex.r 1 7, 3), (Ex.r 25 40, (1 : ℤ))] :=
  ⟨exMTree_ok.2.1, wellFormed_ro _ (by decide) (by decide)⟩

end maps
end ICL.Props
