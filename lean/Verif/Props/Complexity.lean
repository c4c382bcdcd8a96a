import Verif.CostSpec
import Verif.Theory.CostUnion
import Verif.Props.Iterators

/-!
# C43: complexity

What the functions of the containers do with the `std::set` or `std::map` inside, counted. `n` segments of the
container share elements with the operand in `overlapped`; a one-element interval overlaps at most one segment, so that
the work is a constant number of searches and steps for elements, and at most linear for segments.
-/

set_option linter.unusedSectionVars false
set_option linter.unusedVariables false

namespace ICL.Props
open Spec

section sets
variable {D I : Type} [LinearOrder D] {o : IntervalOps D I}

/-- An interval overlaps at most all segments. -/
theorem C43_overlapped_size (l : List I) (k : I) : overlapped o l k ≤ l.length := Cost.overlapped_le l k

/-- An interval of one element overlaps at most one segment. -/
theorem C43_overlapped_element {l : List I} (hw : WellFormed o l) {k : I} (hk : ∀ x y, In o x k → In o y k → x = y) :
    overlapped o l k ≤ 1 := Cost.overlapped_le_one (wellFormed_iff.1 hw) hk

/-! ## Interval sets -/

/-- `add(k)` to an `interval_set` or a `separate_interval_set`: a constant number of searches and steps, however many
segments `k` overlaps; only the nodes of these segments have to be erased. -/
theorem C43_set_add (h : IntervalClass o) {st : Style} (hst : st ≠ .splitting) (pick : Nat) {t : Tree I} (ht : Proper t)
    (hw : WellFormed o t.segs) (k : I) :
    Takes t (Cost.Sets.add o st pick k) (Tree.Sets.add o st pick k) { searches := 4, steps := 23, allocated := 1 } := by
  obtain ⟨it, t', r, -⟩ := C41_set_add h st pick ht hw k
  exact ((Cost.costs_Sets_add hst _ _).took r).takes r

/-- `add(prior, k)` likewise, for every iterator `prior` of the set. -/
theorem C43_set_add_hint (h : IntervalClass o) {st : Style} (hst : st ≠ .splitting) (pick : Nat) {t : Tree I}
    (ht : Proper t) (hw : WellFormed o t.segs) {prior : It} (hp : Usable t prior) (k : I) :
    Takes t (Cost.Sets.addHint o st pick prior k) (Tree.Sets.addHint o st pick prior k)
      { searches := 3, hinted := 1, steps := 24, allocated := 1 } := by
  obtain ⟨it, t', r, -⟩ := C41_set_add_hint h st pick ht hw hp k
  exact ((Cost.costs_Sets_addHint hst _ _ _).took r).takes r

/-- `subtract(k)` from any interval set likewise. -/
theorem C43_set_subtract (h : IntervalClass o) {t : Tree I} (ht : Proper t) (hw : WellFormed o t.segs) (k : I) :
    Takes t (Cost.Sets.subtract o k) (Tree.Sets.subtract o k) { searches := 4, steps := 3, allocated := 2 } := by
  obtain ⟨t', r, -⟩ := C41_set_subtract h ht hw k
  exact ((Cost.costs_Sets_subtract _).took r).takes r

/-- `add(k)` to a `split_interval_set`: linear in the number of segments that `k` overlaps. -/
theorem C43_split_set_add (h : IntervalClass o) (pick : Nat) {t : Tree I} (ht : Proper t) (hw : WellFormed o t.segs)
    (k : I) : Takes t (Cost.Sets.add o .splitting pick k) (Tree.Sets.add o .splitting pick k)
      { searches := 3, hinted := overlapped o t.segs k + 3, steps := 5 * overlapped o t.segs k + 20,
        allocated := overlapped o t.segs k + 4 } := by
  obtain ⟨it, t', r, -, el, -⟩ := C41_set_add h .splitting pick ht hw k
  refine (Cost.Within.took (Cost.Sets.erases_add _ _ _) ?_ r).takes r
  cases hk : o.isEmpty k with
  | true =>
    unfold Cost.Sets.add
    exact .pos hk (((Cost.Costs.pure _).within t).mono (by simp [Cost.Le]))
  | false =>
    obtain ⟨A, B, C, he, hb⟩ := Cost.overlapped_range h.lawful (wellFormed_iff.1 hw) ((nonempty_iff h.lawful).2 hk)
    simp only [setSeg, List.map_id] at hb
    rw [← hb]
    exact Cost.Sets.add_within h.lawful (proper_iff.1 ht) el pick he

/-- `add(prior, k)` likewise, for every iterator `prior` of the set. -/
theorem C43_split_set_add_hint (h : IntervalClass o) (pick : Nat) {t : Tree I} (ht : Proper t)
    (hw : WellFormed o t.segs) {prior : It} (hp : Usable t prior) (k : I) :
    Takes t (Cost.Sets.addHint o .splitting pick prior k) (Tree.Sets.addHint o .splitting pick prior k)
      { searches := 2, hinted := overlapped o t.segs k + 4, steps := 5 * overlapped o t.segs k + 20,
        allocated := overlapped o t.segs k + 4 } := by
  obtain ⟨it, t', r, -, el, -⟩ := C41_set_add_hint h .splitting pick ht hw hp k
  refine (Cost.Within.took (Cost.Sets.erases_addHint _ _ _ _) ?_ r).takes r
  cases hk : o.isEmpty k with
  | true =>
    unfold Cost.Sets.addHint
    exact .pos hk (((Cost.Costs.pure _).within t).mono (by simp [Cost.Le]))
  | false =>
    obtain ⟨A, B, C, he, hb⟩ := Cost.overlapped_range h.lawful (wellFormed_iff.1 hw) ((nonempty_iff h.lawful).2 hk)
    simp only [setSeg, List.map_id] at hb
    rw [← hb]
    exact Cost.Sets.addHint_within h.lawful (proper_iff.1 ht) el (usable_iff.1 hp) he

/-- `flip(k)` in an `interval_set` or a `separate_interval_set`: linear in the number of segments that `k` overlaps. -/
theorem C43_set_flip [DecidableEq I] (h : IntervalClass o) {st : Style} (hst : st ≠ .splitting) {t : Tree I}
    (ht : Proper t) (hw : WellFormed o t.segs) (k : I) (hk : o.isEmpty k = false) :
    Takes t (Cost.Sets.flipSeg o st k) (Tree.Sets.flipSeg o st k)
      { searches := 8 * overlapped o t.segs k + 13, steps := 28 * overlapped o t.segs k + 51,
        allocated := 3 * overlapped o t.segs k + 4 } := by
  have hw' := wellFormed_iff.1 hw
  obtain ⟨l, el, -⟩ := ISet.flipSeg_spec h.lawful st hw' ((nonempty_iff h.lawful).2 hk)
  obtain ⟨A, B, C, he, hb⟩ := Cost.overlapped_range h.lawful hw' ((nonempty_iff h.lawful).2 hk)
  simp only [setSeg, List.map_id] at hb
  rw [← hb]
  obtain ⟨t', q, r⟩ := Cost.Sets.flipSeg_took hst h.lawful (proper_iff.1 ht) hw' el he
  exact q.takes r

/-- Adding and subtracting `n` segments, one by one or as containers, with `interval_set` or `separate_interval_set`, in
any order, takes time for `5 n` searches and `27 n` steps, and for erasing the nodes, no more than there were or have been
allocated. So the time for one segment is logarithmic on an average. -/
theorem C43_set_amortized [DecidableEq I] (h : IntervalClass o) {st : Style} (hst : st ≠ .splitting)
    (cs : List (Tree.Sets.Cmd I)) (hc : ∀ c ∈ cs, (calls c).isSome) {t : Tree I} (ht : Proper t)
    (hw : WellFormed o t.segs) :
    ∃ t' w, Cost.runAll (Cost.Sets.run o st) cs t = some (((), t'), w) ∧
      Tree.runAll (Tree.Sets.Cmd.run o st) cs t = some ((), t') ∧
      ∀ lg, time lg w ≤ (cs.map fun c => (calls c).getD 0).sum * (5 * lg + 29) + t.nodes.length := by
  obtain ⟨t', r, -⟩ := C41_set_history h st cs (fun k hk => by simpa [calls] using hc _ hk) ht hw
  have hcost : ∀ cs : List (Tree.Sets.Cmd I), (∀ c ∈ cs, (calls c).isSome) →
      Cost.Costs (Cost.runAll (Cost.Sets.run o st) cs) (Tree.runAll (Tree.Sets.Cmd.run o st) cs)
        (Cost.times (cs.map fun c => (calls c).getD 0).sum { searches := 4, hinted := 1, steps := 25, allocated := 2 }) := by
    intro cs
    induction cs with
    | nil => exact fun _ => (Cost.Costs.pure ()).mono (by simp [Cost.Le])
    | cons c cs ih =>
      intro hc
      obtain ⟨n, hn⟩ := Option.isSome_iff_exists.1 (hc c (by simp))
      refine ((Cost.Sets.costs_run hst hn).bind fun _ => ih fun c h' => hc c (by simp [h'])).mono ?_
      rw [List.map_cons, List.sum_cons, hn, Option.getD_some]
      exact Cost.le_times_add _ _ _
  obtain ⟨w, e, ⟨l1, l2, l3, l4⟩, b⟩ := (hcost cs hc).took r
  refine ⟨t', w, e, r, fun lg => ?_⟩
  generalize (cs.map fun c => (calls c).getD 0).sum = n at *
  simp only [Cost.times] at l1 l2 l3 l4
  simp only [Cost.Balance] at b
  unfold time
  have := Nat.mul_le_mul_right lg (Nat.add_le_add l1 l2)
  have e1 : (n * 4 + n * 1) * lg = n * (5 * lg) := by
    rw [← Nat.mul_add, Nat.mul_assoc]
  rw [Nat.mul_add]
  omega

/-- `+= r` for a `split_interval_set` with `n` and an operand with `m` segments: linear in `n + m`, and a logarithm for each
hinted insertion with a bad hint. -/
theorem C43_split_set_union (h : IntervalClass o) (oracle : List I → I → Nat) {t : Tree I} (ht : Proper t)
    (hw : WellFormed o t.segs) {r : List I} (hr : WellFormed o r) :
    Takes t (Cost.Sets.addSet o .splitting oracle r) (Tree.Sets.addSet o .splitting oracle r)
      { searches := 2 * r.length, hinted := 2 * t.nodes.length + 5 * r.length,
        steps := 10 * t.nodes.length + 25 * r.length, allocated := 2 * t.nodes.length + 5 * r.length } := by
  obtain ⟨t', k, e⟩ := Cost.Sets.addSet_took h.lawful oracle (proper_iff.1 ht) (wellFormed_iff.1 hw) (wellFormed_iff.1 hr)
  exact k.takes e

/-- `-= r` for any interval set: a constant number of searches and steps for each segment of the operand. -/
theorem C43_set_difference (h : IntervalClass o) {t : Tree I} (ht : Proper t) (hw : WellFormed o t.segs) {r : List I}
    (hr : WellFormed o r) :
    Takes t (Cost.Sets.subSet o r) (Tree.Sets.subSet o r)
      { searches := 4 * r.length + 2, steps := 3 * r.length + 4, allocated := 2 * r.length } := by
  obtain ⟨t', k, e⟩ := Cost.Sets.subSet_took h.lawful (proper_iff.1 ht) (wellFormed_iff.1 hw) (wellFormed_iff.1 hr)
  exact k.takes e

/-- `join` takes time linear in the number of segments, in addition to a search for each row of segments that are joined. -/
theorem C43_set_join (h : IntervalClass o) {t : Tree I} (ht : Proper t) (hw : WellFormed o t.segs) :
    Takes t (Cost.join o setSeg) (Tree.join o setSeg)
      { searches := t.nodes.length, steps := 11 * t.nodes.length + 1 } := by
  obtain ⟨l, el, -⟩ := joinAll_spec h.lawful setSeg_lawful (wellFormed_iff.1 hw)
  obtain ⟨t', r, -⟩ := Tree.join_run (proper_iff.1 ht) el
  exact (Cost.Within.took Cost.erases_join (Cost.join_within (proper_iff.1 ht) el) r).takes r

/-! An interval that overlaps three of four segments, in sets that join and that split. -/

/-- The costs of a result. -/
def workOf {S α : Type} (x : Option ((α × Tree S) × Work)) : Option Work := x.map Prod.snd

example : workOf (Cost.Sets.add Ex.ro .joining 0 (Ex.r 1 7) exTree) =
      some { searches := 4, hinted := 0, steps := 10, erased := 2, allocated := 0 } ∧
    workOf (Cost.Sets.add Ex.ro .splitting 0 (Ex.r 1 7) exTree) =
      some { searches := 3, hinted := 4, steps := 18, erased := 0, allocated := 4 } ∧
    workOf (Cost.Sets.subtract Ex.ro (Ex.r 1 7) exTree) =
      some { searches := 4, hinted := 0, steps := 3, erased := 3, allocated := 2 } ∧
    workOf (Cost.join Ex.ro setSeg ⟨[(4, Ex.r 0 2), (0, Ex.r 2 5), (7, Ex.r 5 8), (5, Ex.r 20 30)], 9⟩) =
      some { searches := 1, hinted := 0, steps := 16, erased := 2, allocated := 0 } :=
  ⟨by decide +kernel, by decide +kernel, by decide +kernel, by decide +kernel⟩

example : workOf (Cost.Sets.addSet Ex.ro .splitting (fun _ _ => 0) [Ex.r 1 7, Ex.r 25 40] exTree) =
      some { searches := 4, hinted := 8, steps := 28, erased := 0, allocated := 6 } ∧
    workOf (Cost.Sets.subSet Ex.ro [Ex.r 1 7, Ex.r 25 40, Ex.r 50 60] exTree) =
      some { searches := 9, hinted := 0, steps := 10, erased := 4, allocated := 3 } ∧
    WellFormed Ex.ro [Ex.r 1 7, Ex.r 25 40, Ex.r 50 60] :=
  ⟨by decide +kernel, by decide +kernel, wellFormed_ro _ (by decide) (by decide)⟩

/-! The documentation has `O(m log (n + m))` for all these operators with containers as operands. A `split_interval_set`
cannot do that: one segment as the operand may have to become as many segments as there are gaps. -/

/-- The segments `[0, 1)`, `[2, 3)`, …, `n` of them. -/
def comb (n : Nat) : Tree (SItv ℤ) := ⟨(List.range n).map fun i => (i, Ex.r (2 * i) (2 * i + 1)), n⟩

theorem comb_proper (n : Nat) : Proper (comb n) := by
  rw [proper_iff]
  refine ⟨?_, ?_⟩
  · simp [comb, Function.comp_def, List.nodup_range]
  · simp [comb]

theorem comb_segs (n : Nat) : (comb n).segs = (List.range n).map fun i : Nat => Ex.r (2 * i) (2 * i + 1) := by
  simp [comb, Tree.segs]

theorem comb_wf (n : Nat) : WellFormed Ex.ro (comb n).segs := by
  rw [wellFormed_iff, comb_segs]
  refine ⟨?_, ?_⟩
  · intro s hs
    obtain ⟨i, -, rfl⟩ := List.mem_map.1 hs
    exact ⟨2 * i, by simp [IntervalOps.Mem, setSeg, Ex.ro, Ex.r, rightOpenOps]⟩
  · rw [List.pairwise_map]
    refine List.pairwise_lt_range.imp fun {a b} hab x y hx hy => ?_
    simp [IntervalOps.Mem, setSeg, Ex.ro, Ex.r, rightOpenOps] at hx hy
    omega

/-- However many segments there are, one more with all of them inside makes `+=` allocate as many nodes again. -/
theorem C43_counterexample_split_set_union (n : Nat) (hn : 0 < n) (oracle : List (SItv ℤ) → SItv ℤ → Nat) :
    Proper (comb n) ∧ WellFormed Ex.ro (comb n).segs ∧ (comb n).nodes.length = n ∧
      ∃ t' w, Cost.Sets.addSet Ex.ro .splitting oracle [Ex.r 0 (2 * n)] (comb n) = some (((), t'), w) ∧ n ≤ w.allocated := by
  have hl : (comb n).nodes.length = n := by simp [comb]
  refine ⟨comb_proper n, comb_wf n, hl, ?_⟩
  have hm : ∀ a b x : ℤ, Ex.ro.Mem x (Ex.r a b) ↔ a ≤ x ∧ x < b := by
    intro a b x; simp [IntervalOps.Mem, Ex.ro, Ex.r, rightOpenOps]
  have hw := wellFormed_iff.1 (comb_wf n)
  have ht := proper_iff.1 (comb_proper n)
  have hr : WF Ex.ro setSeg [Ex.r 0 (2 * n)] := by
    refine ⟨?_, by simp⟩
    simp only [List.mem_singleton, forall_eq]
    exact ⟨0, (hm _ _ _).2 (by omega)⟩
  obtain ⟨t', ⟨w, k, -, b⟩, e⟩ := Cost.Sets.addSet_took Ex.ro_cls.lawful oracle ht hw hr
  refine ⟨t', w, k, ?_⟩
  obtain ⟨l, el, sp⟩ := ISet.addHint_spec Ex.ro_cls.lawful .splitting (oracle (comb n).segs (Ex.r 0 (2 * n))) hw
    (Ex.r 0 (2 * n))
  have el' : ISet.addSet Ex.ro .splitting oracle (comb n).segs [Ex.r 0 (2 * n)] = some l := by
    simp [ISet.addSet, ISet.fold, el]
  obtain ⟨t2, e2, -, s2⟩ := Tree.Sets.addSet_run Ex.ro_cls.lawful .splitting oracle ht el'
  rw [e] at e2
  obtain rfl : t' = t2 := by simpa using e2
  have hge : 2 * n ≤ t'.segs.length := by
    rw [s2]
    refine Cost.length_ge (o := Ex.ro) (g := setSeg) (fun i => (i : ℤ)) (fun i hi => (sp.dom _).2 (.inr ?_)) ?_
    · exact (hm _ _ _).2 (by omega)
    · intro i j hij hj hs
      rcases (sp.splitting rfl _ _).1 hs with ⟨⟨s, hs, h1, h2⟩, -⟩ | ⟨-, -, h3⟩
      · rw [comb_segs] at hs
        obtain ⟨a, -, rfl⟩ := List.mem_map.1 hs
        have h1 := (hm _ _ _).1 h1
        have h2 := (hm _ _ _).1 h2
        omega
      · have hd : ∀ a : Nat, a < n → Dom Ex.ro setSeg (comb n).segs (2 * a) := by
          intro a ha
          rw [comb_segs]
          exact ⟨_, List.mem_map.2 ⟨a, List.mem_range.2 ha, rfl⟩, (hm _ _ _).2 (by omega)⟩
        have hmin : min (i : ℤ) j = i := min_eq_left (by omega)
        have hmax : max (i : ℤ) j = j := max_eq_right (by omega)
        rw [hmin, hmax] at h3
        exact h3 (2 * ((i + 1) / 2 : Nat)) (by omega) (by omega) (hd _ (by omega))
  have hl' : t'.segs.length = t'.nodes.length := by simp [Tree.segs]
  simp only [Cost.Balance] at b
  omega

example : ∀ c ∈ ([.add 0 (Ex.r 1 7), .addSet (fun _ _ => 0) [Ex.r 7 9, Ex.r 10 12], .subtract (Ex.r 1 2)] :
    List (Tree.Sets.Cmd (SItv ℤ))), (calls c).isSome := by decide +kernel

end sets

section maps
variable {D I V : Type} [LinearOrder D] {o : IntervalOps D I} [DecidableEq V]

/-! ## Interval maps -/

theorem map_range (h : IntervalClass o) {t : Tree (I × V)} (hw : MapWellFormed o t.segs) {k : I}
    (hk : o.isEmpty k = false) : ∃ A B C, ICL.equalRange o (Tree.nodeSeg mapSeg) t.nodes k = some (A, B, C) ∧
      B.length = overlapped o (t.segs.map Prod.fst) k :=
  Cost.overlapped_range h.lawful (mapWellFormed_iff.1 hw) ((nonempty_iff h.lawful).2 hk)

/-- `add(k, v)`: linear in the number of segments that `k` overlaps. -/
theorem C43_map_add (h : IntervalClass o) (m : MapType V) (pick : Nat) {t : Tree (I × V)} (ht : Proper t)
    (hw : MapWellFormed o t.segs) (k : I) (v : V) :
    Takes t (Cost.Maps.addC o m.cfg m.plus pick k v) (Tree.Maps.addC o m.cfg m.plus pick k v)
      { searches := 3, hinted := overlapped o (t.segs.map Prod.fst) k + 3,
        steps := 23 * overlapped o (t.segs.map Prod.fst) k + 45, allocated := overlapped o (t.segs.map Prod.fst) k + 4 } := by
  obtain ⟨it, t', r, -, el, -⟩ := C41_map_add h m pick ht hw k v
  refine (Cost.Within.took (Cost.Maps.erases_addC _) ?_ r).takes r
  cases hk : o.isEmpty k with
  | true =>
    unfold Cost.Maps.addC
    exact .pos hk (((Cost.Costs.pure _).within t).mono (by simp [Cost.Le]))
  | false =>
    obtain ⟨A, B, C, he, hb⟩ := map_range h hw hk
    rw [← hb]
    exact Cost.Maps.addC_within h.lawful (proper_iff.1 ht) el pick he

/-- `add(prior, (k, v))` likewise, for every iterator `prior` of the map. -/
theorem C43_map_add_hint (h : IntervalClass o) (m : MapType V) (pick : Nat) {t : Tree (I × V)} (ht : Proper t)
    (hw : MapWellFormed o t.segs) {prior : It} (hp : Usable t prior) (k : I) (v : V) :
    Takes t (Cost.Maps.addHintC o m.cfg m.plus pick prior k v) (Tree.Maps.addHintC o m.cfg m.plus pick prior k v)
      { searches := 1, hinted := overlapped o (t.segs.map Prod.fst) k + 4,
        steps := 23 * overlapped o (t.segs.map Prod.fst) k + 47, allocated := overlapped o (t.segs.map Prod.fst) k + 4 } := by
  obtain ⟨it, t', r, -, el, -⟩ := C41_map_add_hint h m pick ht hw hp k v
  refine (Cost.Within.took (Cost.Maps.erases_addHintC _ _) ?_ r).takes r
  cases hk : o.isEmpty k with
  | true =>
    unfold Cost.Maps.addHintC
    exact .pos hk (((Cost.Costs.pure _).within t).mono (by simp [Cost.Le]))
  | false =>
    obtain ⟨A, B, C, he, hb⟩ := map_range h hw hk
    rw [← hb]
    exact Cost.Maps.addHintC_within h.lawful (proper_iff.1 ht) el (usable_iff.1 hp) he

/-- `subtract(k, v)` likewise. -/
theorem C43_map_subtract (h : IntervalClass o) (m : MapType V) {t : Tree (I × V)} (ht : Proper t)
    (hw : MapWellFormed o t.segs) (k : I) (v : V) :
    Takes t (Cost.Maps.subtract o m k v) (Tree.Maps.subtract o m k v)
      { searches := 3, hinted := overlapped o (t.segs.map Prod.fst) k + 3,
        steps := 23 * overlapped o (t.segs.map Prod.fst) k + 45, allocated := overlapped o (t.segs.map Prod.fst) k + 4 } := by
  obtain ⟨t', r, -, el, -⟩ := C41_map_subtract h m ht hw k v
  refine (Cost.Within.took (Cost.Maps.erases_subtract m k v) ?_ r).takes r
  cases hk : o.isEmpty k with
  | true =>
    unfold Cost.Maps.subtract Cost.Maps.addC Cost.Maps.subC
    simp only [hk, if_true]
    by_cases hc : (m.cfg.total && m.invertible) = true
    · exact .pos hc ((((Cost.Costs.pure (none : It)).bind fun _ => Cost.Costs.pure ()).within t).mono (by simp [Cost.Le]))
    · exact .neg hc (((Cost.Costs.pure _).within t).mono (by simp [Cost.Le]))
  | false =>
    obtain ⟨A, B, C, he, hb⟩ := map_range h hw hk
    rw [← hb]
    exact Cost.Maps.subtract_within m h.lawful (proper_iff.1 ht) el he

/-- `insert(k, v)` likewise. -/
theorem C43_map_insert (h : IntervalClass o) (m : MapType V) (pick : Nat) {t : Tree (I × V)} (ht : Proper t)
    (hw : MapWellFormed o t.segs) (k : I) (v : V) :
    Takes t (Cost.Maps.insert o m.cfg pick k v) (Tree.Maps.insert o m.cfg pick k v)
      { searches := 3, hinted := 2 * overlapped o (t.segs.map Prod.fst) k + 2,
        steps := 38 * overlapped o (t.segs.map Prod.fst) k + 42,
        allocated := 2 * overlapped o (t.segs.map Prod.fst) k + 3 } := by
  obtain ⟨it, t', r, -, el, -⟩ := C41_map_insert h m pick ht hw k v
  refine (Cost.Within.took (Cost.Maps.erases_insert _) ?_ r).takes r
  cases hk : o.isEmpty k with
  | true =>
    unfold Cost.Maps.insert
    exact .pos hk (((Cost.Costs.pure _).within t).mono (by simp [Cost.Le]))
  | false =>
    obtain ⟨A, B, C, he, hb⟩ := map_range h hw hk
    rw [← hb]
    exact Cost.Maps.insert_within h.lawful (proper_iff.1 ht) el pick he

/-- `insert(prior, (k, v))` likewise, for every iterator `prior` of the map. -/
theorem C43_map_insert_hint (h : IntervalClass o) (m : MapType V) (pick : Nat) {t : Tree (I × V)} (ht : Proper t)
    (hw : MapWellFormed o t.segs) {prior : It} (hp : Usable t prior) (k : I) (v : V) :
    Takes t (Cost.Maps.insertHint o m.cfg pick prior k v) (Tree.Maps.insertHint o m.cfg pick prior k v)
      { searches := 1, hinted := 2 * overlapped o (t.segs.map Prod.fst) k + 3,
        steps := 38 * overlapped o (t.segs.map Prod.fst) k + 43,
        allocated := 2 * overlapped o (t.segs.map Prod.fst) k + 3 } := by
  obtain ⟨it, t', r, -⟩ := C41_map_insert_hint h m pick ht hw hp k v
  have hb := fun b => IMap.insertHint_at h.lawful m.cfg pick b (mapWellFormed_iff.1 hw) k v
  choose l el _ _ _ using hb
  refine (Cost.Within.took (Cost.Maps.erases_insertHint _ _) ?_ r).takes r
  cases hk : o.isEmpty k with
  | true =>
    unfold Cost.Maps.insertHint
    exact .pos hk (((Cost.Costs.pure _).within t).mono (by simp [Cost.Le]))
  | false =>
    obtain ⟨A, B, C, he, hb⟩ := map_range h hw hk
    rw [← hb]
    exact Cost.Maps.insertHint_within h.lawful (proper_iff.1 ht) el (usable_iff.1 hp) he

/-- `erase(k, v)` likewise. -/
theorem C43_map_erase (h : IntervalClass o) (m : MapType V) {t : Tree (I × V)} (ht : Proper t)
    (hw : MapWellFormed o t.segs) (k : I) (v : V) :
    Takes t (Cost.Maps.eraseSeg o m.cfg k v) (Tree.Maps.eraseSeg o m.cfg k v)
      { searches := 1, hinted := 1, steps := 3 * overlapped o (t.segs.map Prod.fst) k + 5, allocated := 1 } := by
  obtain ⟨⟨t', r, -, el, -⟩, -⟩ := C41_map_erase h m ht hw k v
  refine (Cost.Within.took Cost.Maps.erases_eraseSeg ?_ r).takes r
  cases hk : o.isEmpty k with
  | true =>
    unfold Cost.Maps.eraseSeg
    exact .pos hk (((Cost.Costs.pure _).within t).mono (by simp [Cost.Le]))
  | false =>
    obtain ⟨A, B, C, he, hb⟩ := map_range h hw hk
    rw [← hb]
    exact Cost.Maps.eraseSeg_within h.lawful (proper_iff.1 ht) el he

/-- `erase(k)`: a constant number of searches and steps. -/
theorem C43_map_erase_interval (h : IntervalClass o) (m : MapType V) {t : Tree (I × V)} (ht : Proper t)
    (hw : MapWellFormed o t.segs) (k : I) :
    Takes t (Cost.Maps.eraseItv o k) (Tree.Maps.eraseItv o k)
      { searches := 2, hinted := 1, steps := 6, allocated := 1 } := by
  obtain ⟨l, e, -⟩ := IMap.eraseItv_at h.lawful (mapWellFormed_iff.1 hw) k
  obtain ⟨t', r, -⟩ := Tree.Maps.eraseItv_run h.lawful (proper_iff.1 ht) e
  exact ((Cost.costs_Maps_eraseItv _).took r).takes r

/-- `join` of a map is as fast as that of a set. -/
theorem C43_map_join (h : IntervalClass o) {t : Tree (I × V)} (ht : Proper t) (hw : MapWellFormed o t.segs) :
    Takes t (Cost.join o mapSeg) (Tree.join o mapSeg)
      { searches := t.nodes.length, steps := 11 * t.nodes.length + 1 } := by
  obtain ⟨l, el, -⟩ := joinAll_spec h.lawful mapSeg_lawful (mapWellFormed_iff.1 hw)
  obtain ⟨t', r, -⟩ := Tree.join_run (proper_iff.1 ht) el
  exact (Cost.Within.took Cost.erases_join (Cost.join_within (proper_iff.1 ht) el) r).takes r

/-- `+= r` for maps with `n` and `m` segments: linear in `n + m`, and a logarithm for each search and each hinted insertion
with a bad hint. -/
theorem C43_map_union (h : IntervalClass o) (m : MapType V) (oracle : List (I × V) → I → Nat) {t : Tree (I × V)}
    (ht : Proper t) (hw : MapWellFormed o t.segs) (hj : m.cfg.joining = true → MapFullyJoined o t.segs)
    {r : List (I × V)} (hr : MapWellFormed o r) :
    Takes t (Cost.Maps.addMap o m oracle r) (Tree.Maps.addMap o m oracle r)
      { searches := r.length, hinted := 2 * t.nodes.length + 5 * r.length,
        steps := 46 * t.nodes.length + 70 * r.length, allocated := 2 * t.nodes.length + 5 * r.length } := by
  have hw' := mapWellFormed_iff.1 hw
  obtain ⟨t', k, e⟩ := Cost.Maps.addMap_took h.lawful m (proper_iff.1 ht) hw'
    (fun hc => (mapFullyJoined_iff h.lawful hw').1 (hj hc)) (mapWellFormed_iff.1 hr) oracle
  exact k.takes e

/-- `insert(object, r)` likewise. -/
theorem C43_map_insert_all (h : IntervalClass o) (m : MapType V) (oracle : List (I × V) → I → Nat) {t : Tree (I × V)}
    (ht : Proper t) (hw : MapWellFormed o t.segs) (hj : m.cfg.joining = true → MapFullyJoined o t.segs)
    {r : List (I × V)} (hr : MapWellFormed o r) :
    Takes t (Cost.Maps.insertMap o m oracle r) (Tree.Maps.insertMap o m oracle r)
      { searches := r.length, hinted := 4 * t.nodes.length + 5 * r.length,
        steps := 76 * t.nodes.length + 81 * r.length, allocated := 4 * t.nodes.length + 5 * r.length } := by
  have hw' := mapWellFormed_iff.1 hw
  obtain ⟨t', k, e⟩ := Cost.Maps.insertMap_took h.lawful m (proper_iff.1 ht) hw'
    (fun hc => (mapFullyJoined_iff h.lawful hw').1 (hj hc)) (mapWellFormed_iff.1 hr) oracle
  exact k.takes e

/-- `-= r` for a map likewise. -/
theorem C43_map_subtract_map (h : IntervalClass o) (m : MapType V) {t : Tree (I × V)}
    (ht : Proper t) (hw : MapWellFormed o t.segs) (hj : m.cfg.joining = true → MapFullyJoined o t.segs)
    {r : List (I × V)} (hr : MapWellFormed o r) :
    Takes t (Cost.Maps.subMap o m r) (Tree.Maps.subMap o m r)
      { searches := 3 * r.length, hinted := 2 * t.nodes.length + 4 * r.length,
        steps := 46 * t.nodes.length + 68 * r.length, allocated := 2 * t.nodes.length + 5 * r.length } := by
  have hw' := mapWellFormed_iff.1 hw
  obtain ⟨t', k, e⟩ := Cost.Maps.subMap_took h.lawful m (proper_iff.1 ht) hw'
    (fun hc => (mapFullyJoined_iff h.lawful hw').1 (hj hc)) (mapWellFormed_iff.1 hr)
  exact k.takes e

/-- `erase(object, r)` for a map `r` likewise. -/
theorem C43_map_erase_map (h : IntervalClass o) (m : MapType V) {t : Tree (I × V)}
    (ht : Proper t) (hw : MapWellFormed o t.segs) (hj : m.cfg.joining = true → MapFullyJoined o t.segs)
    {r : List (I × V)} (hr : MapWellFormed o r) :
    Takes t (Cost.Maps.eraseMap o m r) (Tree.Maps.eraseMap o m r)
      { searches := r.length + 2, hinted := r.length, steps := 6 * t.nodes.length + 8 * r.length + 4,
        allocated := r.length } := by
  have hw' := mapWellFormed_iff.1 hw
  obtain ⟨t', k, e⟩ := Cost.Maps.eraseMap_took h.lawful m (proper_iff.1 ht) hw'
    (fun hc => (mapFullyJoined_iff h.lawful hw').1 (hj hc)) (mapWellFormed_iff.1 hr)
  exact k.takes e

/-- `erase(object, r)` and `-= r` for a set `r`: a constant number of searches and steps for each segment of the operand. -/
theorem C43_map_erase_set (h : IntervalClass o) (m : MapType V) {t : Tree (I × V)}
    (ht : Proper t) (hw : MapWellFormed o t.segs) {r : List I} (hr : WellFormed o r) :
    Takes t (Cost.Maps.eraseSet o r) (Tree.Maps.eraseSet o r)
      { searches := 2 * r.length + 2, hinted := r.length, steps := 6 * r.length + 4, allocated := r.length } := by
  obtain ⟨t', k, e⟩ := Cost.Maps.eraseSet_took h.lawful (proper_iff.1 ht) (mapWellFormed_iff.1 hw) m.cfg
    (wellFormed_iff.1 hr)
  exact k.takes e

/-- `erase_if(predicate, object)` takes linear time, and no search. -/
theorem C43_map_erase_if (p : I × V → Bool) {t : Tree (I × V)} (ht : Proper t) :
    Takes t (Cost.eraseIf p) (Tree.eraseIf p) { steps := 3 * t.nodes.length + 4 } := by
  obtain ⟨t', r, -⟩ := Tree.eraseIf_run p (proper_iff.1 ht)
  exact (Cost.Within.took (Cost.erases_eraseIf p) (Cost.eraseIf_within p t) r).takes r

example : workOf (Cost.Maps.addC Ex.ro (exMap true true false).cfg (exMap true true false).plus 0 (Ex.r 1 7) 1 exMTree) =
      some { searches := 3, hinted := 3, steps := 46, erased := 0, allocated := 3 } ∧
    workOf (Cost.Maps.subtract Ex.ro (exMap true true false) (Ex.r 4 6) 1 exMTree) =
      some { searches := 1, hinted := 2, steps := 22, erased := 1, allocated := 2 } ∧
    workOf (Cost.Maps.insertHint Ex.ro (exMap true true false).cfg 0 (some 7) (Ex.r 1 6) 1 exMTree) =
      some { searches := 1, hinted := 2, steps := 25, erased := 1, allocated := 1 } ∧
    workOf (Cost.Maps.eraseSeg Ex.ro (exMap true true false).cfg (Ex.r 1 6) 1 exMTree) =
      some { searches := 1, hinted := 0, steps := 9, erased := 0, allocated := 0 } ∧
    workOf (Cost.eraseIf (fun s => s.2 == 1) exMTree) =
      some { searches := 0, hinted := 0, steps := 11, erased := 2, allocated := 0 } :=
  ⟨by decide +kernel, by decide +kernel, by decide +kernel, by decide +kernel, by decide +kernel⟩

example : workOf (Cost.Maps.addMap Ex.ro (exMap true true false) (fun _ _ => 0) [(Ex.r 1 7, 1), (Ex.r 25 40, 3)] exMTree) =
      some { searches := 2, hinted := 7, steps := 68, erased := 0, allocated := 5 } ∧
    workOf (Cost.Maps.insertMap Ex.ro (exMap true true false) (fun _ _ => 0) [(Ex.r 1 7, 1), (Ex.r 25 40, 3)] exMTree) =
      some { searches := 2, hinted := 4, steps := 38, erased := 1, allocated := 2 } ∧
    workOf (Cost.Maps.subMap Ex.ro (exMap true true false) [(Ex.r 1 7, 1), (Ex.r 25 40, 3)] exMTree) =
      some { searches := 2, hinted := 3, steps := 39, erased := 2, allocated := 3 } ∧
    workOf (Cost.Maps.eraseMap Ex.ro (exMap true true false) [(Ex.r 1 7, 1), (Ex.r 25 40, 3)] exMTree) =
      some { searches := 4, hinted := 0, steps := 17, erased := 0, allocated := 0 } ∧
    workOf (Cost.Maps.eraseSet Ex.ro [Ex.r 1 7, Ex.r 25 40] exMTree) =
      some { searches := 5, hinted := 0, steps := 14, erased := 1, allocated := 0 } ∧
    MapWellFormed Ex.ro [(Ex.r 1 7, (1 : ℤ)), (Ex.r 25 40, 3)] ∧ MapFullyJoined Ex.ro exMTree.segs :=
  ⟨by decide +kernel, by decide +kernel, by decide +kernel, by decide +kernel, by decide +kernel,
    wellFormed_ro _ (by decide) (by decide),
    (mapFullyJoined_iff Ex.ro_cls.lawful (mapWellFormed_iff.1 exMTree_ok.2.1)).2 (joined_of (by decide))⟩

end maps
end ICL.Props
