import Verif.Theory.CostFlip
import Verif.Props.Intersections

/-!
# C55: complexity of symmetric differences

`n` is the number of segments of the object, `m` that of the operand; `overlapped` is the number of segments of the object that
share elements with an operand that is an interval.
-/

set_option linter.unusedSectionVars false
set_option linter.unusedVariables false

namespace ICL.Props
open Spec

section sets
variable {D I : Type} [LinearOrder D] [DecidableEq I] {o : IntervalOps D I}

/-- `flip(k)` in a `split_interval_set`: linear in the number of segments that `k` overlaps. -/
theorem C55_split_set_flip (h : IntervalClass o) {t : Tree I} (ht : Proper t) (hw : WellFormed o t.segs) (k : I)
    (hk : o.isEmpty k = false) :
    let q := overlapped o t.segs k
    Takes t (Cost.Sets.flipSeg o .splitting k) (Tree.Sets.flipSeg o .splitting k)
      { searches := 7 * q + 4, hinted := 3 * q + 3, steps := 28 * q + 20, allocated := 6 * q + 4 } := by
  have hw' := wellFormed_iff.1 hw
  have hn := (nonempty_iff h.lawful).2 hk
  obtain ⟨l, el, -⟩ := ISet.flipSeg_spec h.lawful .splitting hw' hn
  obtain ⟨A, B, C, he, hb⟩ := Cost.overlapped_range h.lawful hw' hn
  simp only [setSeg, List.map_id] at hb
  intro q
  obtain ⟨t', q', r⟩ := Cost.Sets.flipSeg_splits h.lawful (proper_iff.1 ht) hw' hn el he
  rw [show B.length = q from hb] at q'
  exact q'.takes r

/-- `s ^= r` for `split_interval_set`s. -/
theorem C55_split_set_symmetric_difference (h : IntervalClass o) (oracle : List I → I → Nat) {t : Tree I} (ht : Proper t)
    (hw : WellFormed o t.segs) {r : List I} (hr : WellFormed o r) :
    let n := t.nodes.length
    let m := r.length
    Yields t (Cost.Sets.flipSet o .splitting oracle r) (ISet.flipSet o .splitting oracle t.segs r)
      { searches := 14 * n + 11 * m + 2, hinted := 6 * n + 6 * m, steps := 56 * n + 48 * m + 4,
        allocated := 12 * n + 10 * m } := by
  obtain ⟨t', ⟨w, e, ⟨h1, h2, h3, h4⟩, b⟩, r1⟩ := Cost.Sets.flipSet_splits h.lawful oracle (proper_iff.1 ht)
    (wellFormed_iff.1 hw) (wellFormed_iff.1 hr)
  exact ⟨t', w, e, r1, h1, h2, h3, h4, b⟩

/-! `{[0,2) [3,5) [6,8) [20,30)}` with `[1,7)` and with `{[1,7) [25,40)}`. -/

example : workOf (Cost.Sets.flipSeg Ex.ro .splitting (Ex.r 1 7) exTree) =
      some { searches := 11, hinted := 0, steps := 15, erased := 3, allocated := 4 } ∧
    workOf (Cost.Sets.flipSet Ex.ro .splitting (fun _ _ => 0) [Ex.r 1 7, Ex.r 25 40] exTree) =
      some { searches := 18, hinted := 0, steps := 24, erased := 4, allocated := 6 } ∧
    Proper exTree ∧ WellFormed Ex.ro exTree.segs ∧ Ex.ro.isEmpty (Ex.r 1 7) = false ∧
    WellFormed Ex.ro [Ex.r 1 7, Ex.r 25 40] :=
  ⟨by decide +kernel, by decide +kernel, exTree_ok.1, exTree_ok.2.1, by decide, wellFormed_ro _ (by decide) (by decide)⟩

/-! ### The documentation of `^=`

It promises `O(m log (n + m))` for containers, where `n` is the size of the object and `m` that of the operand, and `O(log n)`
for elements. -/

/-- The segments `[0, 1)`, `[1, 2)`, …, `n` of them. -/
def blocks (n : Nat) : Tree (SItv ℤ) := ⟨(List.range n).map fun i => (i, Ex.r i (i + 1)), n⟩

theorem blocks_proper (n : Nat) : Proper (blocks n) := by
  rw [proper_iff]
  refine ⟨?_, ?_⟩
  · simp [blocks, Function.comp_def, List.nodup_range]
  · simp [blocks]

theorem blocks_segs (n : Nat) : (blocks n).segs = (List.range n).map fun i : Nat => Ex.r i (i + 1) := by
  simp [blocks, Tree.segs]

theorem blocks_wf (n : Nat) : WellFormed Ex.ro (blocks n).segs := by
  rw [wellFormed_iff, blocks_segs]
  refine ⟨?_, ?_⟩
  · intro s hs
    obtain ⟨i, -, rfl⟩ := List.mem_map.1 hs
    exact ⟨i, by simp [IntervalOps.Mem, setSeg, Ex.ro, Ex.r, rightOpenOps]⟩
  · rw [List.pairwise_map]
    refine List.pairwise_lt_range.imp fun {a b} hab x y hx hy => ?_
    simp [IntervalOps.Mem, setSeg, Ex.ro, Ex.r, rightOpenOps] at hx hy
    omega

theorem blocks_dom (n : Nat) (x : ℤ) : Elem Ex.ro (blocks n).segs x ↔ Elem Ex.ro [Ex.r 0 n] x := by
  rw [blocks_segs]
  constructor
  · rintro ⟨s, hs, hx⟩
    obtain ⟨i, hi, rfl⟩ := List.mem_map.1 hs
    have := (ro_mem _ _ _).1 hx
    have := List.mem_range.1 hi
    exact ⟨_, List.mem_singleton.2 rfl, (ro_mem _ _ _).2 (by omega)⟩
  · rintro ⟨s, hs, hx⟩
    obtain rfl := List.mem_singleton.1 hs
    have := (ro_mem _ _ _).1 hx
    exact ⟨_, List.mem_map.2 ⟨x.toNat, List.mem_range.2 (by omega), rfl⟩, (ro_mem _ _ _).2 (by omega)⟩

/-- However many segments there are, `^=` with a single segment may erase them all, if the set does not join. -/
theorem C55_counterexample_symmetric_difference (n : Nat) (hn : 0 < n) {st : Style} (hst : st ≠ .joining)
    (oracle : List (SItv ℤ) → SItv ℤ → Nat) :
    Proper (blocks n) ∧ WellFormed Ex.ro (blocks n).segs ∧ (blocks n).nodes.length = n ∧ WellFormed Ex.ro [Ex.r 0 n] ∧
      ∃ t' w, Cost.Sets.flipSet Ex.ro st oracle [Ex.r 0 n] (blocks n) = some (((), t'), w) ∧ n ≤ w.erased := by
  have hl : (blocks n).nodes.length = n := by simp [blocks]
  have hr : WellFormed Ex.ro [Ex.r 0 n] := by
    rw [wellFormed_iff]
    refine ⟨?_, by simp⟩
    simp only [List.mem_singleton, forall_eq]
    exact ⟨0, (ro_mem _ _ _).2 (by omega)⟩
  refine ⟨blocks_proper n, blocks_wf n, hl, hr, ?_⟩
  have hY : ∃ b, Yields (blocks n) (Cost.Sets.flipSet Ex.ro st oracle [Ex.r 0 n])
      (ISet.flipSet Ex.ro st oracle (blocks n).segs [Ex.r 0 n]) b := by
    by_cases hs : st = .splitting
    · subst hs
      exact ⟨_, C55_split_set_symmetric_difference Ex.ro_cls oracle (blocks_proper n) (blocks_wf n) hr⟩
    · exact ⟨_, C55_set_symmetric_difference Ex.ro_cls hs oracle (blocks_proper n) (blocks_wf n) (fun h => absurd h hst) hr⟩
  obtain ⟨b, t', w, e, r1, -, -, -, -, h5⟩ := hY
  obtain ⟨s', e', hw', hd⟩ := C11_symmetric_difference Ex.ro_cls st oracle (blocks_wf n) hr
  rw [r1] at e'
  obtain rfl := Option.some.inj e'
  have hnil : t'.segs = [] := by
    rw [List.eq_nil_iff_forall_not_mem]
    intro s hs
    obtain ⟨x, hx⟩ := (wellFormed_iff.1 hw').nonempty s hs
    have := (hd x).1 ⟨s, hs, hx⟩
    rw [blocks_dom] at this
    tauto
  have hl' : t'.segs.length = t'.nodes.length := by simp [Tree.segs]
  rw [hnil] at hl'
  exact ⟨t', w, e, by simp at hl'; omega⟩

example : workOf (Cost.Sets.flipSet Ex.ro .separating (fun _ _ => 0) [Ex.r 0 3] (blocks 3)) =
      some { searches := 9, hinted := 0, steps := 19, erased := 3, allocated := 0 } := by decide +kernel

end sets

section maps
variable {D I V : Type} [LinearOrder D] [DecidableEq I] {o : IntervalOps D I} [DecidableEq V]

/-- `a.flip(k, v)` in a partial map: linear in the number of segments that `k` overlaps. -/
theorem C55_map_flip (h : IntervalClass o) (m : MapType V) (hm : m.cfg.total = false) (oracle : List (I × V) → I → Nat)
    {t : Tree (I × V)} (ht : Proper t) (hw : MapWellFormed o t.segs) (k : I) (v : V) (hk : o.isEmpty k = false) :
    let q := overlapped o (t.segs.map Prod.fst) k
    Yields t (Cost.Maps.flipSeg o m oracle k v) (IMap.flipSeg o m oracle t.segs k v)
      { searches := 8 * q + 4, hinted := 2 * q, steps := 84 * q + 21, allocated := 5 * q + 1 } := by
  intro q
  obtain ⟨A, B, C, he, hb⟩ := map_range h hw hk
  obtain ⟨t', ⟨w, e, ⟨h1, h2, h3, h4⟩, b⟩, r1, -⟩ := Cost.Maps.flipSeg_took h.lawful m hm oracle (proper_iff.1 ht)
    (mapWellFormed_iff.1 hw) ((nonempty_iff h.lawful).2 hk) v he
  have hb : B.length = q := hb
  rw [hb] at h1 h2 h3 h4
  exact ⟨t', w, e, r1, h1, h2, h3, h4, b⟩

/-- `a ^= r` for partial maps. -/
theorem C55_map_symmetric_difference (h : IntervalClass o) (m : MapType V) (hm : m.cfg.total = false)
    (oracle : List (I × V) → I → Nat) {t : Tree (I × V)} (ht : Proper t) (hw : MapWellFormed o t.segs)
    (hj : m.cfg.joining = true → MapFullyJoined o t.segs) {r : List (I × V)} (hr : MapWellFormed o r) :
    let n := t.nodes.length
    let m' := r.length
    Yields t (Cost.Maps.flipMap o m oracle r) (IMap.flipMap o m oracle t.segs r)
      { searches := 16 * n + 12 * m' + 2, hinted := 4 * n + 5 * m', steps := 168 * n + 105 * m' + 4,
        allocated := 10 * n + 6 * m' } := by
  have hw' := mapWellFormed_iff.1 hw
  obtain ⟨t', ⟨w, e, ⟨h1, h2, h3, h4⟩, b⟩, r1⟩ := Cost.Maps.flipMap_took h.lawful m hm oracle (proper_iff.1 ht) hw'
    (fun hc => (mapFullyJoined_iff h.lawful hw').1 (hj hc)) (mapWellFormed_iff.1 hr)
  exact ⟨t', w, e, r1, h1, h2, h3, h4, b⟩

/-- `a.flip(k, v)` in a total map that does not absorb identities visits every segment. -/
theorem C55_map_flip_total (h : IntervalClass o) (m : MapType V) (hm : m.cfg.total = true) (ha : m.cfg.absorbs = false)
    (oracle : List (I × V) → I → Nat) {t : Tree (I × V)} (ht : Proper t) (hw : MapWellFormed o t.segs) (k : I) (v : V) :
    let n := t.nodes.length
    let q := overlapped o (t.segs.map Prod.fst) k
    Yields t (Cost.Maps.flipSeg o m oracle k v) (IMap.flipSeg o m oracle t.segs k v)
      { searches := n + q + 7, hinted := q + 3, steps := 13 * n + 36 * q + 98, allocated := q + 4 } := by
  obtain ⟨t', ⟨w, e, ⟨h1, h2, h3, h4⟩, b⟩, r1⟩ := Cost.Maps.flipSeg_total h.lawful m hm ha oracle (proper_iff.1 ht)
    (mapWellFormed_iff.1 hw) k v
  exact ⟨t', w, e, r1, h1, h2, h3, h4, b⟩

/-- `a ^= r` for total maps that do not absorb identities. -/
theorem C55_map_symmetric_difference_total (h : IntervalClass o) (m : MapType V) (hm : m.cfg.total = true)
    (ha : m.cfg.absorbs = false) (oracle : List (I × V) → I → Nat) {t : Tree (I × V)} (ht : Proper t)
    (hw : MapWellFormed o t.segs) (hj : m.cfg.joining = true → MapFullyJoined o t.segs) {r : List (I × V)}
    (hr : MapWellFormed o r) :
    let n := t.nodes.length
    let m' := r.length
    Yields t (Cost.Maps.flipMap o m oracle r) (IMap.flipMap o m oracle t.segs r)
      { searches := 3 * n + 6 * m', hinted := 2 * n + 5 * m', steps := 85 * n + 135 * m' + 1,
        allocated := 2 * n + 5 * m' } := by
  have hw' := mapWellFormed_iff.1 hw
  obtain ⟨t', ⟨w, e, ⟨h1, h2, h3, h4⟩, b⟩, r1⟩ := Cost.Maps.flipMap_total h.lawful m hm ha oracle (proper_iff.1 ht) hw'
    (fun hc => (mapFullyJoined_iff h.lawful hw').1 (hj hc)) (mapWellFormed_iff.1 hr)
  exact ⟨t', w, e, r1, h1, h2, h3, h4, b⟩

/-- A total map that absorbs identities is cleared by either: no search for a segment, but all nodes are erased. -/
theorem C55_map_flip_absorber (m : MapType V) (hm : m.cfg.total = true) (ha : m.cfg.absorbs = true)
    (oracle : List (I × V) → I → Nat) {t : Tree (I × V)} (ht : Proper t) (k : I) (v : V) (r : List (I × V)) :
    Rebuilds t (Cost.Maps.flipSeg o m oracle k v) (IMap.flipSeg o m oracle t.segs k v) { searches := 1, steps := 1 } ∧
    Rebuilds t (Cost.Maps.flipMap o m oracle r) (IMap.flipMap o m oracle t.segs r) { searches := 1, steps := 1 } := by
  obtain ⟨t', ⟨w, e, ⟨h1, h2, h3, h4⟩, b⟩, r1⟩ := Cost.Maps.clear_took (proper_iff.1 ht)
  have hl : t'.nodes.length = 0 := by simpa [Tree.segs] using congrArg List.length r1
  have b' : t'.nodes.length + w.erased = t.nodes.length + w.allocated := b
  constructor
  · refine ⟨t', w, ?_, ?_, h1, h2, h3, h4, by omega, b⟩
    · unfold Cost.Maps.flipSeg
      rw [if_pos hm, if_pos ha]
      exact e
    · unfold IMap.flipSeg
      rw [if_pos hm, if_pos ha, r1]
  · refine ⟨t', w, ?_, ?_, h1, h2, h3, h4, by omega, b⟩
    · unfold Cost.Maps.flipMap
      rw [if_pos hm, if_pos ha]
      exact e
    · unfold IMap.flipMap
      rw [if_pos hm, if_pos ha, r1]

/-- `a &= (k, v)` for total maps: `a` is copied segment by segment, and destroyed. -/
theorem C55_map_intersection_segment_total (h : IntervalClass o) (m : MapType V) (hm : m.cfg.total = true)
    (oracle : List (I × V) → I → Nat) {t : Tree (I × V)} (hw : MapWellFormed o t.segs) (k : I) (v : V) :
    let n := t.nodes.length
    Rebuilds t (Cost.Maps.interSegTotal o m oracle k v) (IMap.addInterSeg o m oracle [] t.segs k v)
      { searches := n + 3, hinted := 10 * n + 3, steps := 185 * n + 45, allocated := 10 * n + 4 } := by
  obtain ⟨t', k1, r1⟩ := Cost.Maps.addInterSegTotal_took h.lawful m hm oracle (mapWellFormed_iff.1 hw) k v t.fresh
  have hl : t.segs.length = t.nodes.length := by simp [Tree.segs]
  rw [hl] at k1
  exact rebuilds k1 r1

/-- The segments `[0, 1)→1`, `[1, 2)→1`, …, `n` of them. -/
def mapBlocks (n : Nat) : Tree (SItv ℤ × ℤ) := ⟨(List.range n).map fun i => (i, (Ex.r i (i + 1), 1)), n⟩

/-- However many segments there are, `flip` with a segment of a single element erases them all in a total map that absorbs
identities. -/
theorem C55_counterexample_map_flip (n : Nat) (joining : Bool) (oracle : List (SItv ℤ × ℤ) → SItv ℤ → Nat) (x v : ℤ) :
    Proper (mapBlocks n) ∧ MapWellFormed Ex.ro (mapBlocks n).segs ∧ (mapBlocks n).nodes.length = n ∧
      ∃ t' w, Cost.Maps.flipSeg Ex.ro (exMap joining true true) oracle (Ex.r x (x + 1)) v (mapBlocks n) =
          some (((), t'), w) ∧ n ≤ w.erased := by
  have hl : (mapBlocks n).nodes.length = n := by simp [mapBlocks]
  have hp : Proper (mapBlocks n) := by
    rw [proper_iff]
    refine ⟨?_, ?_⟩
    · simp [mapBlocks, Function.comp_def, List.nodup_range]
    · simp [mapBlocks]
  have hs : (mapBlocks n).segs.map Prod.fst = (blocks n).segs := by
    simp [mapBlocks, blocks, Tree.segs, Function.comp_def]
  refine ⟨hp, ?_, hl, ?_⟩
  · rw [mapWellFormed_iff, ← wf_keys, hs]
    exact wellFormed_iff.1 (blocks_wf n)
  · obtain ⟨⟨t', w, e, -, -, -, -, -, h5, -⟩, -⟩ := C55_map_flip_absorber (o := Ex.ro) (exMap joining true true) rfl rfl oracle hp
      (Ex.r x (x + 1)) v []
    exact ⟨t', w, e, by omega⟩

/-! `{[0,2)→1 [3,5)→2 [5,8)→1 [20,30)→4}` with `[1,7)→3` and with `{[1,7)→3 [25,40)→1}`. -/

example :
    workOf (Cost.Maps.flipSeg Ex.ro (exMap true true false) (fun _ _ => 0) (Ex.r 1 7) 3 exMTree) =
      some { searches := 10, hinted := 0, steps := 43, erased := 4, allocated := 4 } ∧
    workOf (Cost.Maps.flipSeg Ex.ro (exMap false false false) (fun _ _ => 0) (Ex.r 1 7) 3 exMTree) =
      some { searches := 13, hinted := 3, steps := 42, erased := 7, allocated := 10 } ∧
    workOf (Cost.Maps.flipMap Ex.ro (exMap true true false) (fun _ _ => 0) [(Ex.r 1 7, 3), (Ex.r 25 40, 1)] exMTree) =
      some { searches := 18, hinted := 0, steps := 64, erased := 5, allocated := 6 } ∧
    workOf (Cost.Maps.flipSeg Ex.ro (exMap true false true) (fun _ _ => 0) (Ex.r 1 7) 3 exMTree) =
      some { searches := 4, hinted := 3, steps := 88, erased := 5, allocated := 3 } ∧
    workOf (Cost.Maps.flipMap Ex.ro (exMap true false true) (fun _ _ => 0) [(Ex.r 1 7, 3), (Ex.r 25 40, 1)] exMTree) =
      some { searches := 4, hinted := 7, steps := 125, erased := 7, allocated := 5 } ∧
    workOf (Cost.Maps.flipSeg Ex.ro (exMap true true true) (fun _ _ => 0) (Ex.r 1 2) 3 exMTree) =
      some { searches := 1, hinted := 0, steps := 1, erased := 4, allocated := 0 } ∧
    workOf (Cost.Maps.interSegTotal Ex.ro (exMap true true true) (fun _ _ => 0) (Ex.r 1 7) 3 exMTree) =
      some { searches := 3, hinted := 7, steps := 71, erased := 4, allocated := 7 } :=
  ⟨by decide +kernel, by decide +kernel, by decide +kernel, by decide +kernel, by decide +kernel, by decide +kernel,
    by decide +kernel⟩

example : Proper exMTree ∧ MapWellFormed Ex.ro exMTree.segs ∧ MapFullyJoined Ex.ro exMTree.segs ∧
    Ex.ro.isEmpty (Ex.r 1 7) = false ∧ MapWellFormed Ex.ro [(Ex.r 1 7, 3), (Ex.r 25 40, (1 : ℤ))] ∧
    (exMap true true false).cfg.total = false ∧ (exMap true false true).cfg.total = true ∧
    (exMap true false true).cfg.absorbs = false ∧ (exMap true true true).cfg.absorbs = true :=
  ⟨exMTree_ok.1, exMTree_ok.2.1,
    (mapFullyJoined_iff Ex.ro_cls.lawful (mapWellFormed_iff.1 exMTree_ok.2.1)).2 (joined_of (by decide)), by decide, wellFormed_ro _ (by decide) (by decide), rfl, rfl, rfl, rfl⟩

end maps
end ICL.Props
