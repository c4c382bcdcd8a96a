import Verif.IteratorSpec
import Verif.Theory.TreeFun
import Verif.Props.MapOps

/-!
# C41: iterators

The functions of the containers, as far as they work with iterators, on nodes that have addresses.
Any use of an iterator to an erased node would end with `none`.
-/

set_option linter.unusedSectionVars false
set_option linter.unusedVariables false

namespace ICL.Props
open Spec

section common
variable {S : Type}

theorem proper_iff {t : Tree S} : Proper t ↔ t.Ok := ⟨fun h => ⟨h.1, h.2⟩, fun h => ⟨h.nodup, h.fresh⟩⟩

theorem usable_iff {t : Tree S} {it : It} : Usable t it ↔ t.Valid it := by
  constructor
  · rintro (rfl | ⟨s, i, rfl, hi⟩)
    · exact Tree.valid_none
    · intro j hj
      obtain rfl := Option.some.inj hj
      exact List.mem_map.2 ⟨_, hi, rfl⟩
  · intro hv
    cases it with
    | none => exact .inl rfl
    | some i =>
      obtain ⟨n, hn, rfl⟩ := List.mem_map.1 (hv i rfl)
      exact .inr ⟨n.2, n.1, rfl, hn⟩

end common

section sets
variable {D I : Type} [LinearOrder D] {o : IntervalOps D I}

/-! ## Interval sets -/

theorem added_refers {st : Style} (hst : st ≠ .splitting) {t t' : Tree I} {k : I} (hk : o.isEmpty k = false) {it : It}
    (hq : Tree.Sets.Added o st k t it t') : ∃ s, RefersTo t' it s ∧ ∀ x, In o x k → In o x s := by
  rcases hq with ⟨he, -⟩ | ⟨-, A, B, C, L, i, s, R, -, rfl, ha, -, -, hc⟩
  · rw [hk] at he; cases he
  · exact ⟨s, ⟨i, rfl, by rw [ha.eq]; simp⟩, (hc (.inl hst)).1⟩

/-- `add(k)` and `insert(k)` use no iterator to an erased node, leave a well-formed set with the right elements, and
return `end()` if `k` is empty; otherwise, unless the set splits, an iterator to the segment that contains `k`. -/
theorem C41_set_add (h : IntervalClass o) (st : Style) (pick : Nat) {t : Tree I} (ht : Proper t)
    (hw : WellFormed o t.segs) (k : I) :
    ∃ it t', Tree.Sets.add o st pick k t = some (it, t') ∧ Proper t' ∧ ISet.add o st t.segs k = some t'.segs ∧
      WellFormed o t'.segs ∧ (∀ x, Elem o t'.segs x ↔ Elem o t.segs x ∨ In o x k) ∧ Usable t' it ∧
      (o.isEmpty k = true → it = none) ∧
      (o.isEmpty k = false → st ≠ .splitting → ∃ s, RefersTo t' it s ∧ ∀ x, In o x k → In o x s) := by
  obtain ⟨it, t', r, o1, s1, e1, sp, q⟩ := Tree.Sets.add_added h.lawful (st := st) (proper_iff.1 ht)
    (wellFormed_iff.1 hw) k pick
  refine ⟨it, t', r, proper_iff.2 o1, s1, wellFormed_iff.2 sp.wf, sp.dom, ?_, e1, fun hk hs => added_refers hs hk q⟩
  rcases q with ⟨he, -⟩ | ⟨-, A, B, C, L, i, s, R, -, rfl, ha, -⟩
  · exact .inl (e1 he)
  · exact usable_iff.2 ha.valid

/-- `add(prior, k)` and `insert(prior, k)` likewise, for every iterator `prior` of the set; `prior` is returned if `k` is
empty. -/
theorem C41_set_add_hint (h : IntervalClass o) (st : Style) (pick : Nat) {t : Tree I} (ht : Proper t)
    (hw : WellFormed o t.segs) {prior : It} (hp : Usable t prior) (k : I) :
    ∃ it t', Tree.Sets.addHint o st pick prior k t = some (it, t') ∧ Proper t' ∧
      ISet.addHint o st pick t.segs k = some t'.segs ∧ WellFormed o t'.segs ∧
      (∀ x, Elem o t'.segs x ↔ Elem o t.segs x ∨ In o x k) ∧ Usable t' it ∧ (o.isEmpty k = true → it = prior) ∧
      (o.isEmpty k = false → st ≠ .splitting → ∃ s, RefersTo t' it s ∧ ∀ x, In o x k → In o x s) := by
  obtain ⟨it, t', r, o1, s1, e1, sp, q⟩ := Tree.Sets.addHint_added h.lawful (st := st) (proper_iff.1 ht)
    (wellFormed_iff.1 hw) k pick (usable_iff.1 hp)
  refine ⟨it, t', r, proper_iff.2 o1, s1, wellFormed_iff.2 sp.wf, sp.dom, ?_, e1, fun hk hs => added_refers hs hk q⟩
  rcases q with ⟨he, rfl⟩ | ⟨-, A, B, C, L, i, s, R, -, rfl, ha, -⟩
  · rw [e1 he]; exact hp
  · exact usable_iff.2 ha.valid

/-- Iterators to segments that are apart from `k` stay valid, and refer to the same segments, when `k` is added to a set;
if the set does not join neighbours, so do iterators to segments that have no elements of `k`. -/
theorem C41_set_add_stable (h : IntervalClass o) (st : Style) (pick : Nat) {t t' : Tree I} (ht : Proper t)
    (hw : WellFormed o t.segs) (hj : st = .joining → FullyJoined o t.segs) {k : I} {it : It}
    (e : Tree.Sets.add o st pick k t = some (it, t') ∨
      ∃ prior, Usable t prior ∧ Tree.Sets.addHint o st pick prior k t = some (it, t'))
    {old : It} {s : I} (hs : RefersTo t old s) (hd : Apart o s k ∨ st ≠ .joining ∧ Disjoint o s k) :
    RefersTo t' old s := by
  have hw' := wellFormed_iff.1 hw
  obtain ⟨i, rfl, hi⟩ := hs
  have hq : AddSpec o st t.segs k t'.segs ∧ Tree.Sets.Added o st k t it t' := by
    rcases e with e | ⟨prior, hp, e⟩
    · obtain ⟨it1, t1, r, -, -, -, sp, q⟩ := Tree.Sets.add_added h.lawful (st := st) (proper_iff.1 ht) hw' k pick
      rw [e] at r
      simp only [Option.some.injEq, Prod.mk.injEq] at r
      obtain ⟨rfl, rfl⟩ := r
      exact ⟨sp, q⟩
    · obtain ⟨it1, t1, r, -, -, -, sp, q⟩ := Tree.Sets.addHint_added h.lawful (st := st) (proper_iff.1 ht) hw' k pick
        (usable_iff.1 hp)
      rw [e] at r
      simp only [Option.some.injEq, Prod.mk.injEq] at r
      obtain ⟨rfl, rfl⟩ := r
      exact ⟨sp, q⟩
  refine ⟨i, rfl, ?_⟩
  rcases hd with hd | ⟨hst, hd⟩
  · exact Tree.Sets.Added.keeps_apart h.lawful hw' hq.1 hq.2 (fun e => (fullyJoined_iff h.lawful hw').1 (hj e)) hi hd
  · exact Tree.Sets.Added.keeps h.lawful hw' hq.1.wf hq.2 hi hd fun e => absurd e hst

/-- `subtract(k)` and `erase(k)` use no iterator to an erased node, and leave a well-formed set with the right elements.
Iterators to segments that have no elements of `k` stay valid and refer to the same segments. -/
theorem C41_set_subtract (h : IntervalClass o) {t : Tree I} (ht : Proper t) (hw : WellFormed o t.segs) (k : I) :
    ∃ t', Tree.Sets.subtract o k t = some ((), t') ∧ Proper t' ∧ ISet.subtract o t.segs k = some t'.segs ∧
      WellFormed o t'.segs ∧ (∀ x, Elem o t'.segs x ↔ Elem o t.segs x ∧ ¬ In o x k) ∧
      ∀ old s, RefersTo t old s → Disjoint o s k → RefersTo t' old s := by
  have hw' := wellFormed_iff.1 hw
  obtain ⟨l, el, sp⟩ := ISet.subtract_spec h.lawful hw' k
  obtain ⟨t', r, o1, rfl, -⟩ := Tree.Sets.subtract_run (proper_iff.1 ht) el
  refine ⟨t', r, proper_iff.2 o1, el, wellFormed_iff.2 sp.wf, sp.dom, ?_⟩
  rintro old s ⟨i, rfl, hi⟩ hd
  exact ⟨i, rfl, Tree.Sets.subtract_keeps h.lawful (proper_iff.1 ht) hw' r hi hd⟩

/-- `flip(k)` for an interval that is not empty uses no iterator to an erased node, and leaves a well-formed set with the
right elements. -/
theorem C41_set_flip [DecidableEq I] (h : IntervalClass o) (st : Style) {t : Tree I} (ht : Proper t)
    (hw : WellFormed o t.segs) (k : I) (hk : o.isEmpty k = false) :
    ∃ t', Tree.Sets.flipSeg o st k t = some ((), t') ∧ Proper t' ∧ ISet.flipSeg o st t.segs k = some t'.segs ∧
      WellFormed o t'.segs ∧ ∀ x, Elem o t'.segs x ↔ (Elem o t.segs x ∧ ¬ In o x k) ∨ (In o x k ∧ ¬ Elem o t.segs x) := by
  obtain ⟨l, el, sp⟩ := ISet.flipSeg_spec h.lawful st (wellFormed_iff.1 hw) ((nonempty_iff h.lawful).2 hk)
  obtain ⟨t', r, o1, rfl⟩ := Tree.Sets.flipSeg_run h.lawful st (proper_iff.1 ht) (wellFormed_iff.1 hw) el
  exact ⟨t', r, proper_iff.2 o1, el, wellFormed_iff.2 sp.wf, sp.dom⟩

/-- `+= r`, which hands the iterator that `add` returns for one segment on to the next, and `std::copy` of `r` to an `adder`
or an `inserter` at any iterator use no iterator to an erased node. They have the same result, which has the right
elements. -/
theorem C41_set_union (h : IntervalClass o) (st : Style) (oracle : List I → I → Nat) {t : Tree I} (ht : Proper t)
    (hw : WellFormed o t.segs) {prior : It} (hp : Usable t prior) (r : List I) :
    ∃ l, WellFormed o l ∧ (∀ x, Elem o l x ↔ Elem o t.segs x ∨ Elem o r x) ∧
      (∃ t', Tree.Sets.addSet o st oracle r t = some ((), t') ∧ Proper t' ∧ t'.segs = l) ∧
      ∃ it t', Tree.Sets.output o st oracle prior r t = some (it, t') ∧ Proper t' ∧ t'.segs = l ∧ Usable t' it := by
  obtain ⟨l, el, sp⟩ := ISet.addSet_spec h.lawful st oracle (wellFormed_iff.1 hw) r
  obtain ⟨t1, r1, o1, e1⟩ := Tree.Sets.addSet_run h.lawful st oracle (proper_iff.1 ht) el
  obtain ⟨it, t2, r2, o2, e2, v2⟩ := Tree.Sets.output_run h.lawful st oracle (proper_iff.1 ht) (usable_iff.1 hp) el
  exact ⟨l, wellFormed_iff.2 sp.wf, sp.dom, ⟨t1, r1, proper_iff.2 o1, e1⟩, it, t2, r2, proper_iff.2 o2, e2,
    usable_iff.2 v2⟩

/-- `-= r` and `erase(object, r)` use no iterator to an erased node. -/
theorem C41_set_difference (h : IntervalClass o) {t : Tree I} (ht : Proper t) (hw : WellFormed o t.segs) {r : List I}
    (hr : WellFormed o r) :
    ∃ t', Tree.Sets.subSet o r t = some ((), t') ∧ Proper t' ∧ ISet.subSet o t.segs r = some t'.segs ∧
      WellFormed o t'.segs ∧ ∀ x, Elem o t'.segs x ↔ Elem o t.segs x ∧ ¬ Elem o r x := by
  obtain ⟨l, el, sp⟩ := ISet.subSet_spec h.lawful (wellFormed_iff.1 hw) (wellFormed_iff.1 hr)
  obtain ⟨t', r1, o1, rfl⟩ := Tree.Sets.subSet_run h.lawful (proper_iff.1 ht) el
  exact ⟨t', r1, proper_iff.2 o1, el, wellFormed_iff.2 sp.wf, sp.dom⟩

/-- `join` uses no iterator to an erased node, and leaves a fully joined set with the same elements. -/
theorem C41_set_join (h : IntervalClass o) {t : Tree I} (ht : Proper t) (hw : WellFormed o t.segs) :
    ∃ t', Tree.join o setSeg t = some ((), t') ∧ Proper t' ∧ WellFormed o t'.segs ∧ FullyJoined o t'.segs ∧
      ∀ x, Elem o t'.segs x ↔ Elem o t.segs x := by
  obtain ⟨l, el, w, d, j⟩ := joinAll_spec h.lawful setSeg_lawful (wellFormed_iff.1 hw)
  obtain ⟨t', r, o1, rfl⟩ := Tree.join_run (proper_iff.1 ht) el
  refine ⟨t', r, proper_iff.2 o1, wellFormed_iff.2 w, (fullyJoined_iff h.lawful w).2 j, fun x => ?_⟩
  have := d x ()
  rw [setMaps_iff h.lawful, setMaps_iff h.lawful] at this
  exact this

/-- No history of calls, whatever iterators it hands on, uses an iterator to an erased node: all calls succeed, and the set
stays well-formed. (An empty interval may not be flipped.) -/
theorem C41_set_history [DecidableEq I] (h : IntervalClass o) (st : Style) (cs : List (Tree.Sets.Cmd I))
    (hf : ∀ k, .flip k ∈ cs → o.isEmpty k = false) {t : Tree I} (ht : Proper t) (hw : WellFormed o t.segs) :
    ∃ t', Tree.runAll (Tree.Sets.Cmd.run o st) cs t = some ((), t') ∧ Proper t' ∧ WellFormed o t'.segs := by
  induction cs generalizing t with
  | nil => exact ⟨t, rfl, ht, hw⟩
  | cons c cs ih =>
    have hc : ∃ t', Tree.Sets.Cmd.run o st c t = some ((), t') ∧ Proper t' ∧ WellFormed o t'.segs := by
      have hv : ∀ pos : Nat, Usable t (t.nodes[pos]?.map Prod.fst) := by
        intro pos
        cases hn : t.nodes[pos]? with
        | none => exact .inl rfl
        | some n => exact .inr ⟨n.2, n.1, rfl, List.mem_of_getElem? hn⟩
      cases c with
      | add pick k =>
        obtain ⟨it, t', r, p, -, w, -⟩ := C41_set_add h st pick ht hw k
        exact ⟨t', by rw [Tree.Sets.Cmd.run, Tree.run_bind r]; rfl, p, w⟩
      | addHint pick pos k =>
        obtain ⟨it, t', r, p, -, w, -⟩ := C41_set_add_hint h st pick ht hw (hv pos) k
        refine ⟨t', ?_, p, w⟩
        rw [Tree.Sets.Cmd.run, Tree.run_bind (show Tree.iter pos t = some (_, t) from rfl), Tree.run_bind r]; rfl
      | subtract k =>
        obtain ⟨t', r, p, -, w, -⟩ := C41_set_subtract h ht hw k
        exact ⟨t', r, p, w⟩
      | flip k =>
        obtain ⟨t', r, p, -, w, -⟩ := C41_set_flip h st ht hw k (hf k (by simp))
        exact ⟨t', r, p, w⟩
      | addSet oracle r =>
        obtain ⟨l, w, -, ⟨t', r, p, rfl⟩, -⟩ := C41_set_union h st oracle ht hw (.inl rfl) r
        exact ⟨t', r, p, w⟩
      | output oracle pos r =>
        obtain ⟨l, w, -, -, it, t', r, p, rfl, -⟩ := C41_set_union h st oracle ht hw (hv pos) r
        refine ⟨t', ?_, p, w⟩
        rw [Tree.Sets.Cmd.run, Tree.run_bind (show Tree.iter pos t = some (_, t) from rfl), Tree.run_bind r]; rfl
      | join =>
        obtain ⟨t', r, p, w, -⟩ := C41_set_join h ht hw
        exact ⟨t', r, p, w⟩
    obtain ⟨t1, r1, p1, w1⟩ := hc
    obtain ⟨t2, r2, p2, w2⟩ := ih (fun k hk => hf k (by simp [hk])) p1 w1
    exact ⟨t2, by rw [Tree.runAll, Tree.run_bind r1, r2], p2, w2⟩

/-! A set with nodes at the addresses 4, 0, 7 and 5. -/

def exTree : Tree (SItv ℤ) := ⟨[(4, Ex.r 0 2), (0, Ex.r 3 5), (7, Ex.r 6 8), (5, Ex.r 20 30)], 9⟩

/-- The nodes of a result. -/
def nodesOf {S α : Type} (x : Option (α × Tree S)) : Option (α × List (Nat × S)) := x.map fun p => (p.1, p.2.nodes)

theorem exTree_ok : Proper exTree ∧ WellFormed Ex.ro exTree.segs ∧ FullyJoined Ex.ro exTree.segs ∧ Usable exTree (some 5) := by
  have hw : WellFormed Ex.ro exTree.segs := wellFormed_ro _ (by decide) (by decide)
  exact ⟨⟨by decide, by decide⟩, hw, (fullyJoined_iff Ex.ro_cls.lawful (wellFormed_iff.1 hw)).2 (joined_of (by decide)),
    .inr ⟨Ex.r 20 30, 5, rfl, by decide⟩⟩

example : nodesOf (Tree.Sets.add Ex.ro .joining 0 (Ex.r 5 7) exTree) =
      some (some 0, [(4, Ex.r 0 2), (0, Ex.r 3 8), (5, Ex.r 20 30)]) ∧
    nodesOf (Tree.Sets.addHint Ex.ro .splitting 1 (some 5) (Ex.r 1 7) exTree) =
      some (some 12, [(9, Ex.r 0 1), (4, Ex.r 1 2), (10, Ex.r 2 3), (0, Ex.r 3 5), (11, Ex.r 5 6), (7, Ex.r 6 7),
        (12, Ex.r 7 8), (5, Ex.r 20 30)]) ∧
    nodesOf (Tree.Sets.subtract Ex.ro (Ex.r 1 7) exTree) =
      some ((), [(9, Ex.r 0 1), (10, Ex.r 7 8), (5, Ex.r 20 30)]) ∧
    nodesOf (Tree.Sets.flipSeg Ex.ro .joining (Ex.r 1 7) exTree) =
      some ((), [(9, Ex.r 0 1), (10, Ex.r 2 3), (12, Ex.r 5 6), (11, Ex.r 7 8), (5, Ex.r 20 30)]) ∧
    nodesOf (Tree.Sets.output Ex.ro .joining (fun _ _ => 0) (some 5) [Ex.r 2 3, Ex.r 8 9] exTree) =
      some (some 5, [(4, Ex.r 0 5), (7, Ex.r 6 9), (5, Ex.r 20 30)]) :=
  ⟨by decide, by decide, by decide, by decide, by decide⟩

/-- The segments `[0,2)` and `[20,30)` are apart from `[5,7)`. -/
example : Apart Ex.ro (Ex.r 0 2) (Ex.r 5 7) ∧ Apart Ex.ro (Ex.r 20 30) (Ex.r 5 7) := by
  have hm : ∀ (a b x : ℤ), In Ex.ro x (Ex.r a b) ↔ a ≤ x ∧ x < b := by
    intro a b x; simp [In, Ex.ro, Ex.r, rightOpenOps]
  simp only [Apart, hm]
  exact ⟨⟨3, .inl ⟨by omega, by omega⟩⟩, 10, .inr ⟨by omega, by omega⟩⟩

/-- Iterators to segments that touch `k` do not stay valid: here that to the node 7 does not, which is joined with the
node 0. -/
theorem C41_set_touching_joined : ∃ it t', Tree.Sets.add Ex.ro .joining 0 (Ex.r 5 6) exTree = some (it, t') ∧
    RefersTo exTree (some 7) (Ex.r 6 8) ∧ Disjoint Ex.ro (Ex.r 6 8) (Ex.r 5 6) ∧ ¬ Usable t' (some 7) := by
  refine ⟨some 0, ⟨[(4, Ex.r 0 2), (0, Ex.r 3 8), (5, Ex.r 20 30)], 10⟩, by decide, ⟨7, rfl, by decide⟩, ?_, ?_⟩
  · have hm : ∀ (a b x : ℤ), In Ex.ro x (Ex.r a b) ↔ a ≤ x ∧ x < b := by
      intro a b x; simp [In, Ex.ro, Ex.r, rightOpenOps]
    simp only [Spec.Disjoint, hm]
    omega
  · rw [usable_iff]; decide

example : (nodesOf (Tree.runAll (Tree.Sets.Cmd.run Ex.ro .joining) [.addHint 0 0 (Ex.r 7 9),
    .output (fun _ _ => 0) 0 [Ex.r 0 5], .subtract (Ex.r 2 3)] ⟨[], 0⟩)) =
      some ((), [(2, Ex.r 0 2), (3, Ex.r 3 5), (0, Ex.r 7 9)]) := by decide

end sets

section maps
variable {D I V : Type} [LinearOrder D] {o : IntervalOps D I} [DecidableEq V]

/-! ## Interval maps -/

theorem ran_stable (h : IntervalClass o) {c : MapCfg V} {t t' : Tree (I × V)} (hw : MapWellFormed o t.segs) {k : I}
    {it : It} (hr : Tree.Maps.Ran c o t k it t') : Usable t' it ∧ ∀ old s, RefersTo t old s → Disjoint o s.1 k →
      (c.joining = true → Sheltered o (t.segs.map Prod.fst) s.1 k) → RefersTo t' old s := by
  refine ⟨usable_iff.2 hr.1, ?_⟩
  rintro old s ⟨i, rfl, hi⟩ hd hs
  refine ⟨i, rfl, hr.keeps h.lawful (mapWellFormed_iff.1 hw) hi hd fun hj => ?_⟩
  obtain ⟨j, hj, hb⟩ := hs hj
  obtain ⟨s', hs', rfl⟩ := List.mem_map.1 hj
  exact ⟨s', hs', hb⟩

theorem left_stable (h : IntervalClass o) {t t' : Tree (I × V)} (hw : MapWellFormed o t.segs) {k : I}
    (hr : Tree.Maps.Left o t k t') : ∀ old s, RefersTo t old s → Disjoint o s.1 k → RefersTo t' old s := by
  rintro old s ⟨i, rfl, hi⟩ hd
  exact ⟨i, rfl, hr.keeps h.lawful (mapWellFormed_iff.1 hw) hi hd⟩

/-- `add(k, v)` uses no iterator to an erased node, leaves a well-formed map with the right values, and returns a usable
iterator. Iterators to segments that have no elements of `k` stay valid and refer to the same segments; if the map joins
neighbours, not necessarily those to the nearest segments on both sides of `k`. -/
theorem C41_map_add (h : IntervalClass o) (m : MapType V) (pick : Nat) {t : Tree (I × V)} (ht : Proper t)
    (hw : MapWellFormed o t.segs) (k : I) (v : V) :
    ∃ it t', Tree.Maps.addC o m.cfg m.plus pick k v t = some (it, t') ∧ Proper t' ∧
      IMap.addSeg o m t.segs k v = some t'.segs ∧ MapWellFormed o t'.segs ∧
      (∀ x, valueAt o t'.segs x = if o.contains k x then added m v (valueAt o t.segs x) else valueAt o t.segs x) ∧
      Usable t' it ∧ ∀ old s, RefersTo t old s → Disjoint o s.1 k →
        (m.cfg.joining = true → Sheltered o (t.segs.map Prod.fst) s.1 k) → RefersTo t' old s := by
  obtain ⟨l, e, w, -, a⟩ := IMap.addC_at h.lawful m.cfg m.plus (mapWellFormed_iff.1 hw) k v
  obtain ⟨it, t', r, o1, rfl, q⟩ := Tree.Maps.addC_run h.lawful (proper_iff.1 ht) e pick
  simp only [added_eq]
  exact ⟨it, t', r, proper_iff.2 o1, e, mapWellFormed_iff.2 w, a, ran_stable h hw q⟩

/-- `add(prior, (k, v))` likewise, for every iterator `prior` of the map; the values are right if the identity element is
neutral and the map stores none (see `C24_add_hint_partial`). -/
theorem C41_map_add_hint (h : IntervalClass o) (m : MapType V) (pick : Nat) {t : Tree (I × V)} (ht : Proper t)
    (hw : MapWellFormed o t.segs) {prior : It} (hp : Usable t prior) (k : I) (v : V) :
    ∃ it t', Tree.Maps.addHintC o m.cfg m.plus pick prior k v t = some (it, t') ∧ Proper t' ∧
      IMap.addHint o m pick t.segs k v = some t'.segs ∧ MapWellFormed o t'.segs ∧
      (Neutral m → NoIdentity m t.segs → ∀ x, valueAt o t'.segs x =
        if o.contains k x then added m v (valueAt o t.segs x) else valueAt o t.segs x) ∧
      Usable t' it ∧ ∀ old s, RefersTo t old s → Disjoint o s.1 k →
        (m.cfg.joining = true → Sheltered o (t.segs.map Prod.fst) s.1 k) → RefersTo t' old s := by
  obtain ⟨l, e, a⟩ := IMap.addHint_pt h.lawful m pick (mapWellFormed_iff.1 hw) k v
  obtain ⟨it, t', r, o1, rfl, q⟩ := Tree.Maps.addHintC_run h.lawful (proper_iff.1 ht) e (usable_iff.1 hp)
  simp only [added_eq]
  exact ⟨it, t', r, proper_iff.2 o1, e, mapWellFormed_iff.2 a.wf,
    fun hN hi => a.at_ hN (noIdentity_iff.1 hi), ran_stable h hw q⟩

/-- `subtract(k, v)` likewise. -/
theorem C41_map_subtract (h : IntervalClass o) (m : MapType V) {t : Tree (I × V)} (ht : Proper t)
    (hw : MapWellFormed o t.segs) (k : I) (v : V) :
    ∃ t', Tree.Maps.subtract o m k v t = some ((), t') ∧ Proper t' ∧ IMap.subSeg o m t.segs k v = some t'.segs ∧
      MapWellFormed o t'.segs ∧
      (∀ x, valueAt o t'.segs x = if o.contains k x then subtracted m v (valueAt o t.segs x) else valueAt o t.segs x) ∧
      ∀ old s, RefersTo t old s → Disjoint o s.1 k →
        (m.cfg.joining = true → Sheltered o (t.segs.map Prod.fst) s.1 k) → RefersTo t' old s := by
  obtain ⟨l, e, w, -, a⟩ := subSeg_at h.lawful m (mapWellFormed_iff.1 hw) k v
  simp only [subtracted_eq]
  have e' := e
  unfold Tree.Maps.subtract
  unfold IMap.subSeg at e
  split at e
  · rename_i hc
    rw [if_pos hc]
    obtain ⟨it, t', r, o1, rfl, q⟩ := Tree.Maps.addC_run h.lawful (proper_iff.1 ht) e 0
    exact ⟨t', by rw [Tree.run_bind r]; rfl, proper_iff.2 o1, e', mapWellFormed_iff.2 w, a, (ran_stable h hw q).2⟩
  · rename_i hc
    rw [if_neg hc]
    obtain ⟨t', r, o1, rfl, q⟩ := Tree.Maps.subC_run h.lawful (proper_iff.1 ht) e
    exact ⟨t', r, proper_iff.2 o1, e', mapWellFormed_iff.2 w, a, (ran_stable h hw q).2⟩

/-- `insert(k, v)` likewise. -/
theorem C41_map_insert (h : IntervalClass o) (m : MapType V) (pick : Nat) {t : Tree (I × V)} (ht : Proper t)
    (hw : MapWellFormed o t.segs) (k : I) (v : V) :
    ∃ it t', Tree.Maps.insert o m.cfg pick k v t = some (it, t') ∧ Proper t' ∧
      IMap.insert o m.cfg t.segs k v = some t'.segs ∧ MapWellFormed o t'.segs ∧
      (∀ x, valueAt o t'.segs x = if o.contains k x then inserted m v (valueAt o t.segs x) else valueAt o t.segs x) ∧
      Usable t' it ∧ ∀ old s, RefersTo t old s → Disjoint o s.1 k →
        (m.cfg.joining = true → Sheltered o (t.segs.map Prod.fst) s.1 k) → RefersTo t' old s := by
  obtain ⟨l, e, w, -, a⟩ := IMap.insert_at h.lawful m.cfg (mapWellFormed_iff.1 hw) k v
  obtain ⟨it, t', r, o1, rfl, q⟩ := Tree.Maps.insert_run h.lawful (proper_iff.1 ht) e pick
  simp only [inserted_eq]
  exact ⟨it, t', r, proper_iff.2 o1, e, mapWellFormed_iff.2 w, a, ran_stable h hw q⟩

/-- `insert(prior, (k, v))` likewise, for every iterator `prior` of the map. -/
theorem C41_map_insert_hint (h : IntervalClass o) (m : MapType V) (pick : Nat) {t : Tree (I × V)} (ht : Proper t)
    (hw : MapWellFormed o t.segs) {prior : It} (hp : Usable t prior) (k : I) (v : V) :
    ∃ it t', Tree.Maps.insertHint o m.cfg pick prior k v t = some (it, t') ∧ Proper t' ∧ MapWellFormed o t'.segs ∧
      (∀ x, valueAt o t'.segs x = if o.contains k x then inserted m v (valueAt o t.segs x) else valueAt o t.segs x) ∧
      Usable t' it ∧ ∀ old s, RefersTo t old s → Disjoint o s.1 k →
        (m.cfg.joining = true → Sheltered o (t.segs.map Prod.fst) s.1 k) → RefersTo t' old s := by
  have hb := fun b => IMap.insertHint_at h.lawful m.cfg pick b (mapWellFormed_iff.1 hw) k v
  choose l e w _ a using hb
  obtain ⟨b, it, t', r, o1, s1, q, -⟩ := Tree.Maps.insertHint_run h.lawful (proper_iff.1 ht) e (usable_iff.1 hp)
  have wb := w b
  have ab := a b
  rw [← s1] at wb ab
  simp only [inserted_eq]
  exact ⟨it, t', r, proper_iff.2 o1, mapWellFormed_iff.2 wb, ab, ran_stable h hw q⟩

/-- `erase(k, v)` and `erase(k)` use no iterator to an erased node, and leave well-formed maps with the right values.
Iterators to segments that have no elements of `k` stay valid and refer to the same segments. -/
theorem C41_map_erase (h : IntervalClass o) (m : MapType V) {t : Tree (I × V)} (ht : Proper t)
    (hw : MapWellFormed o t.segs) (k : I) (v : V) :
    (∃ t', Tree.Maps.eraseSeg o m.cfg k v t = some ((), t') ∧ Proper t' ∧
      IMap.eraseSeg o m.cfg t.segs k v = some t'.segs ∧ MapWellFormed o t'.segs ∧
      (∀ x, valueAt o t'.segs x = if o.contains k x then erased m v (valueAt o t.segs x) else valueAt o t.segs x) ∧
      ∀ old s, RefersTo t old s → Disjoint o s.1 k → RefersTo t' old s) ∧
    ∃ t', Tree.Maps.eraseItv o k t = some ((), t') ∧ Proper t' ∧ IMap.eraseItv o t.segs k = some t'.segs ∧
      MapWellFormed o t'.segs ∧
      (∀ x, valueAt o t'.segs x = if o.contains k x then none else valueAt o t.segs x) ∧
      ∀ old s, RefersTo t old s → Disjoint o s.1 k → RefersTo t' old s := by
  constructor
  · obtain ⟨l, e, w, -, a⟩ := IMap.eraseSeg_at h.lawful m.cfg (mapWellFormed_iff.1 hw) k v
    obtain ⟨t', r, o1, rfl, q⟩ := Tree.Maps.eraseSeg_run h.lawful (proper_iff.1 ht) e
    simp only [erased_eq]
    exact ⟨t', r, proper_iff.2 o1, e, mapWellFormed_iff.2 w, a, left_stable h hw q⟩
  · obtain ⟨l, e, w, -, a⟩ := IMap.eraseItv_at h.lawful (mapWellFormed_iff.1 hw) k
    obtain ⟨t', r, o1, rfl, q⟩ := Tree.Maps.eraseItv_run h.lawful (proper_iff.1 ht) e
    exact ⟨t', r, proper_iff.2 o1, e, mapWellFormed_iff.2 w, a, left_stable h hw q⟩

/-- `flip(k, v)` uses no iterator to an erased node, and leaves a well-formed map, if `k` is not empty or the map is
total; the values are those of `C23_flip_segment` and `C23_flip_segment_total`. -/
theorem C41_map_flip [DecidableEq I] (h : IntervalClass o) (m : MapType V) (oracle : List (I × V) → I → Nat)
    {t : Tree (I × V)} (ht : Proper t) (hw : MapWellFormed o t.segs) (k : I) (v : V)
    (hk : m.cfg.total = true ∨ o.isEmpty k = false) :
    ∃ t', Tree.Maps.flipSeg o m oracle k v t = some ((), t') ∧ Proper t' ∧
      IMap.flipSeg o m oracle t.segs k v = some t'.segs ∧ MapWellFormed o t'.segs := by
  have hw' := mapWellFormed_iff.1 hw
  have hl : ∃ l, IMap.flipSeg o m oracle t.segs k v = some l ∧ WF o mapSeg l := by
    cases hm : m.cfg.total with
    | true =>
      obtain ⟨l, e, p⟩ := IMap.flipSeg_total_pt h.lawful m hm oracle hw' k v
      exact ⟨l, e, p.wf⟩
    | false =>
      obtain ⟨l, e, p⟩ := IMap.flipSeg_pt h.lawful m hm oracle hw'
        ((nonempty_iff h.lawful).2 (hk.resolve_left (by simp [hm]))) v
      exact ⟨l, e, p.wf⟩
  obtain ⟨l, e, w⟩ := hl
  obtain ⟨t', r, o1, rfl⟩ := Tree.Maps.flipSeg_run h.lawful m oracle (proper_iff.1 ht) hw' e
  exact ⟨t', r, proper_iff.2 o1, e, mapWellFormed_iff.2 w⟩

/-- `+= r`, which hands the iterator that `add` returns for one segment on to the next, and `std::copy` of `r` to an `adder`
at any iterator use no iterator to an erased node, and have the same result, which is that of `C23_add` if `r` is a
well-formed map. -/
theorem C41_map_union (h : IntervalClass o) (m : MapType V) (oracle : List (I × V) → I → Nat) {t : Tree (I × V)}
    (ht : Proper t) (hw : MapWellFormed o t.segs) {prior : It} (hp : Usable t prior) (r : List (I × V)) :
    ∃ l, MapWellFormed o l ∧ IMap.addMap o m oracle t.segs r = some l ∧
      (∃ t', Tree.Maps.addMap o m oracle r t = some ((), t') ∧ Proper t' ∧ t'.segs = l) ∧
      ∃ it t', Tree.Maps.output o m oracle prior r t = some (it, t') ∧ Proper t' ∧ t'.segs = l ∧ Usable t' it := by
  have hl : ∀ (r l : List (I × V)), WF o mapSeg l → ∃ l', IMap.addMap o m oracle l r = some l' ∧ WF o mapSeg l' := by
    intro r
    induction r with
    | nil => exact fun l hl => ⟨l, rfl, hl⟩
    | cons s r ih =>
      intro l hl
      obtain ⟨l1, e1, p1⟩ := IMap.addHint_pt h.lawful m (oracle l s.1) hl s.1 s.2
      obtain ⟨l2, e2, w2⟩ := ih l1 p1.wf
      exact ⟨l2, Option.bind_eq_some_iff.2 ⟨l1, e1, e2⟩, w2⟩
  obtain ⟨l, el, w⟩ := hl r t.segs (mapWellFormed_iff.1 hw)
  obtain ⟨t1, r1, o1, e1⟩ := Tree.Maps.addMap_run h.lawful m oracle (proper_iff.1 ht) el
  obtain ⟨it, t2, r2, o2, e2, v2⟩ := Tree.Maps.output_run h.lawful m oracle (proper_iff.1 ht) (usable_iff.1 hp) el
  exact ⟨l, mapWellFormed_iff.2 w, el, ⟨t1, r1, proper_iff.2 o1, e1⟩, it, t2, r2, proper_iff.2 o2, e2,
    usable_iff.2 v2⟩

/-- `insert(object, r)` uses no iterator to an erased node; the result is that of `C23_insert` if `r` is a well-formed
map. -/
theorem C41_map_insert_all (h : IntervalClass o) (m : MapType V) (oracle : List (I × V) → I → Nat) {t : Tree (I × V)}
    (ht : Proper t) (hw : MapWellFormed o t.segs) (r : List (I × V)) :
    ∃ t', Tree.Maps.insertMap o m oracle r t = some ((), t') ∧ Proper t' ∧ MapWellFormed o t'.segs ∧
      IMap.insertMap o m oracle t.segs r = some t'.segs := by
  have hl : ∀ (r l : List (I × V)), WF o mapSeg l →
      ∃ l', IMap.insertMap o m oracle l r = some l' ∧ WF o mapSeg l' := by
    intro r
    induction r with
    | nil => exact fun l hl => ⟨l, rfl, hl⟩
    | cons s r ih =>
      intro l hl
      obtain ⟨l1, e1, w1, -⟩ := IMap.insertHint_at h.lawful m.cfg (oracle l s.1) false hl s.1 s.2
      obtain ⟨l2, e2, w2⟩ := ih l1 w1
      exact ⟨l2, Option.bind_eq_some_iff.2 ⟨l1, e1, e2⟩, w2⟩
  obtain ⟨l, el, w⟩ := hl r t.segs (mapWellFormed_iff.1 hw)
  obtain ⟨t', r1, o1, rfl⟩ := Tree.Maps.insertMap_run h.lawful m oracle r (proper_iff.1 ht) (mapWellFormed_iff.1 hw) el
  exact ⟨t', r1, proper_iff.2 o1, mapWellFormed_iff.2 w, el⟩

/-- `std::copy` of `r` to an `inserter` at any iterator uses no iterator to an erased node, and inserts the segments one
after the other. -/
theorem C41_map_inserter (h : IntervalClass o) (m : MapType V) (oracle : List (I × V) → I → Nat) {t : Tree (I × V)}
    (ht : Proper t) (hw : MapWellFormed o t.segs) {prior : It} (hp : Usable t prior) (r : List (I × V)) :
    ∃ it t', Tree.Maps.insertOutput o m oracle prior r t = some (it, t') ∧ Proper t' ∧ MapWellFormed o t'.segs ∧
      Usable t' it ∧ ∀ x, valueAt o t'.segs x =
        r.foldl (fun a s => if o.contains s.1 x then inserted m s.2 a else a) (valueAt o t.segs x) := by
  obtain ⟨it, t', r1, o1, v1, w1, -, a⟩ := Tree.Maps.insertOutput_run h.lawful m oracle r (proper_iff.1 ht)
    (usable_iff.1 hp) (mapWellFormed_iff.1 hw)
  simp only [inserted_eq]
  exact ⟨it, t', r1, proper_iff.2 o1, mapWellFormed_iff.2 w1, usable_iff.2 v1, a⟩

/-- `-= r` and `erase(object, r)` for a set `r` use no iterator to an erased node; the result is that of `C23_erase_set`. -/
theorem C41_map_erase_set (h : IntervalClass o) {t : Tree (I × V)} (ht : Proper t) (hw : MapWellFormed o t.segs)
    {r : List I} (hr : WellFormed o r) :
    ∃ t', Tree.Maps.eraseSet o r t = some ((), t') ∧ Proper t' ∧ IMap.eraseSet o t.segs r = some t'.segs ∧
      MapWellFormed o t'.segs ∧ (∀ x, Elem o r x → valueAt o t'.segs x = none) ∧
      ∀ x, ¬ Elem o r x → valueAt o t'.segs x = valueAt o t.segs x := by
  obtain ⟨l, el, w, a⟩ := C23_erase_set h hw hr
  obtain ⟨t', r1, o1, rfl⟩ := Tree.Maps.eraseSet_run h.lawful (proper_iff.1 ht) el
  exact ⟨t', r1, proper_iff.2 o1, el, w, a⟩

/-- `-= r` for a map `r` uses no iterator to an erased node; the result is that of `C23_subtract`. -/
theorem C41_map_subtract_map (h : IntervalClass o) (m : MapType V) {t : Tree (I × V)} (ht : Proper t)
    (hw : MapWellFormed o t.segs) {r : List (I × V)} (hr : MapWellFormed o r) :
    ∃ t', Tree.Maps.subMap o m r t = some ((), t') ∧ Proper t' ∧ IMap.subMap o m t.segs r = some t'.segs ∧
      MapWellFormed o t'.segs ∧
      (∀ x v, valueAt o r x = some v → valueAt o t'.segs x = subtracted m v (valueAt o t.segs x)) ∧
      ∀ x, valueAt o r x = none → valueAt o t'.segs x = valueAt o t.segs x := by
  obtain ⟨l, el, w, a⟩ := C23_subtract h m hw hr
  obtain ⟨t', r1, o1, rfl⟩ := Tree.Maps.subMap_run h.lawful m (proper_iff.1 ht) el
  exact ⟨t', r1, proper_iff.2 o1, el, w, a⟩

/-- `erase(object, r)` for a map `r` uses no iterator to an erased node; the result is that of `C23_erase`. -/
theorem C41_map_erase_map (h : IntervalClass o) (m : MapType V) {t : Tree (I × V)} (ht : Proper t)
    (hw : MapWellFormed o t.segs) {r : List (I × V)} (hr : MapWellFormed o r) :
    ∃ t', Tree.Maps.eraseMap o m r t = some ((), t') ∧ Proper t' ∧ IMap.eraseMap o m t.segs r = some t'.segs ∧
      MapWellFormed o t'.segs ∧
      (∀ x v, valueAt o r x = some v → valueAt o t'.segs x = erased m v (valueAt o t.segs x)) ∧
      ∀ x, valueAt o r x = none → valueAt o t'.segs x = valueAt o t.segs x := by
  obtain ⟨l, el, w, a⟩ := C23_erase h m hw hr
  obtain ⟨t', r1, o1, rfl⟩ := Tree.Maps.eraseMap_run h.lawful m (proper_iff.1 ht) el
  exact ⟨t', r1, proper_iff.2 o1, el, w, a⟩

/-- `join` uses no iterator to an erased node, and leaves a fully joined map with the same values. -/
theorem C41_map_join (h : IntervalClass o) {t : Tree (I × V)} (ht : Proper t) (hw : MapWellFormed o t.segs) :
    ∃ t', Tree.join o mapSeg t = some ((), t') ∧ Proper t' ∧ MapWellFormed o t'.segs ∧ MapFullyJoined o t'.segs ∧
      ∀ x, valueAt o t'.segs x = valueAt o t.segs x := by
  obtain ⟨l, el, w, d, j⟩ := joinAll_spec h.lawful mapSeg_lawful (mapWellFormed_iff.1 hw)
  obtain ⟨t', r, o1, rfl⟩ := Tree.join_run (proper_iff.1 ht) el
  exact ⟨t', r, proper_iff.2 o1, mapWellFormed_iff.2 w, (mapFullyJoined_iff h.lawful w).2 j,
    (maps_valueAt (mapWellFormed_iff.2 w) hw).1 d⟩

/-- `erase_if(predicate, object)` uses no iterator to an erased node; it erases the segments that satisfy the predicate, and
iterators to all others stay valid. -/
theorem C41_map_erase_if (h : IntervalClass o) (p : I × V → Bool) {t : Tree (I × V)} (ht : Proper t)
    (hw : MapWellFormed o t.segs) :
    ∃ t', Tree.eraseIf p t = some ((), t') ∧ Proper t' ∧ MapWellFormed o t'.segs ∧
      (∀ s, s ∈ t'.segs ↔ s ∈ t.segs ∧ p s = false) ∧
      ∀ old s, RefersTo t' old s ↔ RefersTo t old s ∧ p s = false := by
  obtain ⟨t', r, o1, e⟩ := Tree.eraseIf_run p (proper_iff.1 ht)
  have es : t'.segs = t.segs.filter fun s => !p s := by
    rw [Tree.segs, Tree.segs, e, List.filter_map]; rfl
  refine ⟨t', r, proper_iff.2 o1, ?_, fun s => ?_, fun old s => ?_⟩
  · rw [es]; exact mapWellFormed_iff.2 (wf_filter _ (mapWellFormed_iff.1 hw))
  · rw [es]; simp
  · simp only [RefersTo, e, List.mem_filter, Bool.not_eq_true']
    constructor
    · rintro ⟨i, rfl, hi, hp⟩; exact ⟨⟨i, rfl, hi⟩, hp⟩
    · rintro ⟨⟨i, rfl, hi⟩, hp⟩; exact ⟨i, rfl, hi, hp⟩

/-- No history of calls, whatever iterators it hands on, uses an iterator to an erased node: all calls succeed, and the map
stays well-formed. (An empty interval may not be flipped in a partial map.) -/
theorem C41_map_history [DecidableEq I] (h : IntervalClass o) (m : MapType V) (cs : List (Tree.Maps.Cmd I V))
    (hf : m.cfg.total = false → ∀ oracle k v, .flip oracle k v ∈ cs → o.isEmpty k = false) {t : Tree (I × V)}
    (ht : Proper t) (hw : MapWellFormed o t.segs) :
    ∃ t', Tree.runAll (Tree.Maps.Cmd.run o m) cs t = some ((), t') ∧ Proper t' ∧ MapWellFormed o t'.segs := by
  induction cs generalizing t with
  | nil => exact ⟨t, rfl, ht, hw⟩
  | cons c cs ih =>
    have hc : ∃ t', Tree.Maps.Cmd.run o m c t = some ((), t') ∧ Proper t' ∧ MapWellFormed o t'.segs := by
      have hv : ∀ pos : Nat, Usable t (t.nodes[pos]?.map Prod.fst) := by
        intro pos
        cases hn : t.nodes[pos]? with
        | none => exact .inl rfl
        | some n => exact .inr ⟨n.2, n.1, rfl, List.mem_of_getElem? hn⟩
      cases c with
      | add pick k v =>
        obtain ⟨it, t', r, p, -, w, -⟩ := C41_map_add h m pick ht hw k v
        exact ⟨t', by rw [Tree.Maps.Cmd.run, Tree.run_bind r]; rfl, p, w⟩
      | addHint pick pos k v =>
        obtain ⟨it, t', r, p, -, w, -⟩ := C41_map_add_hint h m pick ht hw (hv pos) k v
        refine ⟨t', ?_, p, w⟩
        rw [Tree.Maps.Cmd.run, Tree.run_bind (show Tree.iter pos t = some (_, t) from rfl), Tree.run_bind r]; rfl
      | subtract k v =>
        obtain ⟨t', r, p, -, w, -⟩ := C41_map_subtract h m ht hw k v
        exact ⟨t', r, p, w⟩
      | insert pick k v =>
        obtain ⟨it, t', r, p, -, w, -⟩ := C41_map_insert h m pick ht hw k v
        exact ⟨t', by rw [Tree.Maps.Cmd.run, Tree.run_bind r]; rfl, p, w⟩
      | insertHint pick pos k v =>
        obtain ⟨it, t', r, p, w, -⟩ := C41_map_insert_hint h m pick ht hw (hv pos) k v
        refine ⟨t', ?_, p, w⟩
        rw [Tree.Maps.Cmd.run, Tree.run_bind (show Tree.iter pos t = some (_, t) from rfl), Tree.run_bind r]; rfl
      | erase k v =>
        obtain ⟨⟨t', r, p, -, w, -⟩, -⟩ := C41_map_erase h m ht hw k v
        exact ⟨t', r, p, w⟩
      | eraseItv k =>
        obtain ⟨l, e, w, -⟩ := C21_erase_interval h hw k
        obtain ⟨t', r, o1, rfl, -⟩ := Tree.Maps.eraseItv_run h.lawful (proper_iff.1 ht) e
        exact ⟨t', r, proper_iff.2 o1, w⟩
      | flip oracle k v =>
        obtain ⟨t', r, p, -, w⟩ := C41_map_flip h m oracle ht hw k v (by
          cases hm : m.cfg.total with
          | true => exact .inl rfl
          | false => exact .inr (hf hm oracle k v (by simp)))
        exact ⟨t', r, p, w⟩
      | addMap oracle r =>
        obtain ⟨l, w, -, ⟨t', r, p, rfl⟩, -⟩ := C41_map_union h m oracle ht hw (.inl rfl) r
        exact ⟨t', r, p, w⟩
      | insertMap oracle r =>
        obtain ⟨t', r, p, w, -⟩ := C41_map_insert_all h m oracle ht hw r
        exact ⟨t', r, p, w⟩
      | output oracle pos r =>
        obtain ⟨l, w, -, -, it, t', r, p, rfl, -⟩ := C41_map_union h m oracle ht hw (hv pos) r
        refine ⟨t', ?_, p, w⟩
        rw [Tree.Maps.Cmd.run, Tree.run_bind (show Tree.iter pos t = some (_, t) from rfl), Tree.run_bind r]; rfl
      | insertOutput oracle pos r =>
        obtain ⟨it, t', r, p, w, -⟩ := C41_map_inserter h m oracle ht hw (hv pos) r
        refine ⟨t', ?_, p, w⟩
        rw [Tree.Maps.Cmd.run, Tree.run_bind (show Tree.iter pos t = some (_, t) from rfl), Tree.run_bind r]; rfl
      | join =>
        obtain ⟨t', r, p, w, -⟩ := C41_map_join h ht hw
        exact ⟨t', r, p, w⟩
      | eraseIf q =>
        obtain ⟨t', r, p, w, -⟩ := C41_map_erase_if h q ht hw
        exact ⟨t', r, p, w⟩
    obtain ⟨t1, r1, p1, w1⟩ := hc
    obtain ⟨t2, r2, p2, w2⟩ := ih (fun hm oracle k v hk => hf hm oracle k v (by simp [hk])) p1 w1
    exact ⟨t2, by rw [Tree.runAll, Tree.run_bind r1, r2], p2, w2⟩

/-! A map with nodes at the addresses 4, 0, 7 and 5. -/

def exMTree : Tree (SItv ℤ × ℤ) := ⟨[(4, Ex.r 0 2, 1), (0, Ex.r 3 5, 2), (7, Ex.r 5 8, 1), (5, Ex.r 20 30, 4)], 9⟩

theorem exMTree_ok : Proper exMTree ∧ MapWellFormed Ex.ro exMTree.segs ∧ Usable exMTree (some 5) :=
  ⟨⟨by decide, by decide⟩, wellFormed_ro _ (by decide) (by decide), .inr ⟨(Ex.r 20 30, 4), 5, rfl, by decide⟩⟩

example : nodesOf (Tree.Maps.addC Ex.ro (exMap true true false).cfg (exMap true true false).plus 0 (Ex.r 1 6) 1 exMTree) =
      some (some 7, [(9, Ex.r 0 1, 1), (4, Ex.r 1 2, 2), (10, Ex.r 2 3, 1), (0, Ex.r 3 5, 3), (7, Ex.r 5 6, 2),
        (11, Ex.r 6 8, 1), (5, Ex.r 20 30, 4)]) ∧
    nodesOf (Tree.Maps.addHintC Ex.ro (exMap true true false).cfg (exMap true true false).plus 0 (some 5) (Ex.r 2 3) 1
        exMTree) =
      some (some 4, [(4, Ex.r 0 3, 1), (0, Ex.r 3 5, 2), (7, Ex.r 5 8, 1), (5, Ex.r 20 30, 4)]) ∧
    nodesOf (Tree.Maps.subtract Ex.ro (exMap true true false) (Ex.r 4 6) 1 exMTree) =
      some ((), [(4, Ex.r 0 2, 1), (9, Ex.r 3 4, 2), (0, Ex.r 4 5, 1), (10, Ex.r 6 8, 1), (5, Ex.r 20 30, 4)]) ∧
    nodesOf (Tree.Maps.insertHint Ex.ro (exMap true true false).cfg 0 (some 7) (Ex.r 1 6) 1 exMTree) =
      some (some 7, [(4, Ex.r 0 3, 1), (0, Ex.r 3 5, 2), (7, Ex.r 5 8, 1), (5, Ex.r 20 30, 4)]) ∧
    nodesOf (Tree.Maps.eraseSeg Ex.ro (exMap true true false).cfg (Ex.r 1 6) 1 exMTree) =
      some ((), [(4, Ex.r 0 1, 1), (0, Ex.r 3 5, 2), (7, Ex.r 6 8, 1), (5, Ex.r 20 30, 4)]) ∧
    nodesOf (Tree.Maps.flipSeg Ex.ro (exMap true true false) (fun _ _ => 0) (Ex.r 1 6) 1 exMTree) =
      some ((), [(4, Ex.r 0 1, 1), (10, Ex.r 2 3, 1), (7, Ex.r 6 8, 1), (5, Ex.r 20 30, 4)]) :=
  ⟨by decide, by decide, by decide, by decide, by decide, by decide⟩

/-- The segment `[0,2)` is sheltered from `[6,7)`. -/
example : Sheltered Ex.ro (exMTree.segs.map Prod.fst) (Ex.r 0 2) (Ex.r 6 7) := by
  have hm : ∀ (a b x : ℤ), In Ex.ro x (Ex.r a b) ↔ a ≤ x ∧ x < b := by
    intro a b x; simp [In, Ex.ro, Ex.r, rightOpenOps]
  refine ⟨Ex.r 3 5, by decide, .inl ?_⟩
  simp only [Ahead, hm]
  constructor <;> omega

example : (nodesOf (Tree.runAll (Tree.Maps.Cmd.run Ex.ro (exMap true true false)) [.addHint 0 0 (Ex.r 7 9) 1,
    .insertOutput (fun _ _ => 0) 0 [(Ex.r 0 5, 2)], .erase (Ex.r 2 3) 2] ⟨[], 0⟩)) =
      some ((), [(1, Ex.r 0 2, 2), (2, Ex.r 3 5, 2), (0, Ex.r 7 9, 1)]) := by decide

end maps
end ICL.Props
