import Verif.Theory.CostQuery
import Verif.Props.Complexity

/-!
# C53: complexity of queries

What the functions that only read containers do with the `std::set` or `std::map` inside, counted. `n` segments of the container share
elements with the operand in `overlapped`.
-/

set_option linter.unusedSectionVars false
set_option linter.unusedVariables false

namespace ICL.Props
open Spec Counted

section sets
variable {D I : Type} [LinearOrder D] {o : IntervalOps D I}

/-! ## Interval sets -/

/-- `find(x)`: one search. -/
theorem C53_set_find {lk : Lookup D I} (h : LookupClass o lk) {s : List I} (hs : WellFormed o s) (x : D)
    (hx : o.isEmpty (lk.key x) = false) : Answers (Counted.findE o setSeg lk s x) (findE o setSeg lk s x) 1 3 := by
  obtain ⟨r, e, -⟩ := findE_spec h.cls.lawful (g := setSeg) (h.lawfulAt hx) (wellFormed_iff.1 hs)
  exact answers (value_findE _ _ _) ⟨r, e⟩ (atMost_findE _ _ _)

/-- `find(k)`: one search. -/
theorem C53_set_find_interval (h : IntervalClass o) {s : List I} (hs : WellFormed o s) (k : I) (hk : o.isEmpty k = false) :
    Answers (Counted.findI o setSeg s k) (findI o setSeg s k) 1 0 := by
  obtain ⟨r, e, -⟩ := findI_spec h.lawful (g := setSeg) (wellFormed_iff.1 hs) ((nonempty_iff h.lawful).2 hk)
  exact answers (value_findI _ _) ⟨r, e⟩ (atMost_findI _ _)

/-- `contains(s, x)` and `intersects(s, x)`: one search. -/
theorem C53_set_contains_element {lk : Lookup D I} (h : LookupClass o lk) {s : List I} (hs : WellFormed o s) (x : D)
    (hx : o.isEmpty (lk.key x) = false) : Answers (Counted.containsE o setSeg lk s x) (containsE o setSeg lk s x) 1 3 := by
  obtain ⟨r, e, -⟩ := containsE_spec h.cls.lawful (g := setSeg) (h.lawfulAt hx) (wellFormed_iff.1 hs)
  exact answers (value_containsE _ _ _) ⟨r, e⟩ (atMost_containsE _ _ _)

/-- `intersects(s, k)` and `disjoint(s, k)`: one search, however many segments are overlapped. -/
theorem C53_set_intersects_interval (h : IntervalClass o) {s : List I} (hs : WellFormed o s) (k : I) :
    Answers (Counted.intersectsSeg o setSeg s k) (intersectsSeg o setSeg s k) 1 0 := by
  obtain ⟨r, e, -⟩ := intersectsSeg_spec h.lawful (g := setSeg) (wellFormed_iff.1 hs) k
  exact answers (value_intersectsSeg _ _) ⟨r, e⟩ (atMost_intersectsSeg _ _)

/-- `contains(s, k)`, if neighbours in `s` do not touch, as in any `interval_set`: one search and a constant number of steps, however
many segments are overlapped. -/
theorem C53_set_contains_interval_joined (h : IntervalClass o) {s : List I} (hs : WellFormed o s) (hj : FullyJoined o s) (k : I) :
    Answers (Counted.ISet.containsSeg o s k) (ISet.containsSeg o s k) 1 9 := by
  obtain ⟨r, e, -⟩ := ICL.ISet.containsSeg_spec h.lawful (wellFormed_iff.1 hs) k
  refine answers (Counted.ISet.value_containsSeg _ _) ⟨r, e⟩ (Counted.ISet.atMost_containsSeg (t := 4) _ _ ?_)
  intro a f b c he hr
  have hw := wellFormed_iff.1 hs
  refine atMost_allTouch_joined _ ?_
  intro i j l' hl
  obtain ⟨a', b', c', e', hs', -⟩ := equalRange_spec h.lawful hw ((nonempty_iff h.lawful).2 he)
  rw [hr] at e'
  cases e'
  rw [hl] at hs'
  obtain ⟨z, h1, h2⟩ := hj a i j (l' ++ c) (by rw [hs']; simp)
  have hi := hw.nonempty i (by rw [hs']; simp)
  have hj' := hw.nonempty j (by rw [hs']; simp)
  have hb : o.Before i j := fun x y hx hy => (h1 x hx).trans (h2 y hy)
  show o.touchesC i j = some false
  rw [h.lawful.touchesC_before i j hi hj' hb]
  have ht := h.lawful.touches_iff i j hi hj' hb
  cases hc : o.touches i j with
  | false => rfl
  | true => exact absurd ⟨z, h1, h2⟩ (ht.1 hc)

/-- `contains(s, k)` in any interval set: one search, and a number of steps that is linear in the number of overlapped segments. -/
theorem C53_set_contains_interval (h : IntervalClass o) {s : List I} (hs : WellFormed o s) (k : I) :
    Answers (Counted.ISet.containsSeg o s k) (ISet.containsSeg o s k) 1 (4 * overlapped o s k + 5) := by
  obtain ⟨r, e, -⟩ := ICL.ISet.containsSeg_spec h.lawful (wellFormed_iff.1 hs) k
  refine answers (Counted.ISet.value_containsSeg _ _) ⟨r, e⟩ (Counted.ISet.atMost_containsSeg (t := 4 * overlapped o s k) _ _ ?_)
  intro a f b c he hr
  obtain ⟨a', b', c', e', -, hl⟩ := overlapped_run h.lawful (wellFormed_iff.1 hs) ((nonempty_iff h.lawful).2 he)
  rw [hr] at e'
  cases e'
  refine (atMost_allTouch _).mono le_rfl ?_
  have : (f :: b).length = overlapped o s k := by simpa [setSeg] using hl
  omega

/-- `s == t`: linear in the size of the smaller set, without a search. -/
theorem C53_set_equal (s t : List I) :
    Answers (Counted.eqC o setSeg s t) (some (eqC o setSeg s t)) 0 (4 * min s.length t.length) :=
  answers (value_eqC _ _) ⟨_, rfl⟩ (atMost_eqC _ _)

/-- `hull(s)`: a constant number of steps. -/
theorem C53_set_hull (s : List I) : Answers (Counted.hullC o setSeg s) (some (hullC o setSeg s)) 0 4 :=
  answers (value_charge _ _) ⟨_, rfl⟩ (.charge _ le_rfl le_rfl ⟨rfl, rfl, rfl⟩)

/-- `size(s)` = `cardinality(s)`: linear. -/
theorem C53_set_size [AddGroupWithOne D] (e : ElementOps D I) (s : List I) :
    Answers (Counted.sum (fun i => cardinalityI o e i) 0 s) (some (size o e setSeg s)) 0 (2 * s.length) :=
  answers (value_sum _ _ _) ⟨_, rfl⟩ (atMost_sum _ _ _)

/-- `contains(s, t)`, `within(t, s)`, `inclusion_compare(s, t)` and `is_element_equal(s, t)` of two sets: linear in the number of
segments of both, and at most as many searches. -/
theorem C53_set_compare (h : IntervalClass o) {s t : List I} (hs : WellFormed o s) (ht : WellFormed o t) :
    let n := s.length + t.length + 1
    let co : CoCompare Unit Unit := fun _ _ => .equal
    Answers (Counted.inclusionCompare o setSeg setSeg co s t) (inclusionCompare o setSeg setSeg co s t) n (12 * n) ∧
    Answers (Counted.containsC o setSeg setSeg co s t) (containsC o setSeg setSeg co s t) n (12 * n) ∧
    Answers (Counted.withinC o setSeg setSeg co s t) (withinC o setSeg setSeg co s t) n (12 * n) ∧
    Answers (Counted.isElementEqual o setSeg setSeg co s t) (isElementEqual o setSeg setSeg co s t) n (12 * n) :=
  compare_answers h.lawful _ (wellFormed_iff.1 hs) (wellFormed_iff.1 ht)

-- `find(6)` in `{[0,2) [5,9)}`; `contains([6,8))`; `{[0,2) [2,3) [3,4)}` contains `[1,4)`; `{[0,2) [5,9)}` contains `{[6,7) [8,9)}`.
example : LookupClass Ex.ro exE.lookup ∧ WellFormed Ex.ro exS ∧ FullyJoined Ex.ro exS ∧
    WellFormed Ex.ro [Ex.r 0 2, Ex.r 2 3, Ex.r 3 4] ∧
    Counted.findE Ex.ro setSeg exE.lookup exS 6 = some (some (Ex.r 5 9), { searches := 1 }) ∧
    Counted.ISet.containsSeg Ex.ro exS (Ex.r 6 8) = some (true, { searches := 1, steps := 5 }) ∧
    Counted.ISet.containsSeg Ex.ro [Ex.r 0 2, Ex.r 2 3, Ex.r 3 4] (Ex.r 1 4) = some (true, { searches := 1, steps := 13 }) ∧
    Counted.containsC Ex.ro setSeg setSeg (fun _ _ => .equal) exS [Ex.r 6 7, Ex.r 8 9] =
      some (true, { searches := 1, steps := 48 }) :=
  ⟨.discrete Ex.ro_disc, ex_wf.1, (fullyJoined_iff Ex.ro_cls.lawful (wellFormed_iff.1 ex_wf.1)).2 (joined_of (by decide)),
    wellFormed_ro _ (by decide) (by decide), by decide, by decide, by decide, by decide⟩

/-! ### The documentation of `contains(super, sub)`

It promises `O(m log n)` for `m` segments in `sub` and `n` in `super`. -/

/-- `[-5, -1)` and the segments of the comb -/
def longSuper (n : Nat) : List (SItv ℤ) := Ex.r (-5) (-1) :: (comb n).segs

/-- `[-5, -3)` and the last segment of the comb -/
def shortSub (n : Nat) : List (SItv ℤ) := [Ex.r (-5) (-3), Ex.r (2 * n - 2) (2 * n - 1)]

theorem longSuper_wf (n : Nat) : WellFormed Ex.ro (longSuper n) := by
  rw [wellFormed_iff]
  have hc := wellFormed_iff.1 (comb_wf n)
  refine wf_cons.2 ⟨⟨-5, by simp [IntervalOps.Mem, setSeg, Ex.ro, Ex.r, rightOpenOps]⟩, hc, ?_⟩
  rintro x y hx ⟨s, hs, hy⟩
  rw [comb_segs] at hs
  obtain ⟨i, -, rfl⟩ := List.mem_map.1 hs
  simp [IntervalOps.Mem, setSeg, Ex.ro, Ex.r, rightOpenOps] at hx hy
  omega

theorem longSuper_joined (n : Nat) : FullyJoined Ex.ro (longSuper n) := by
  rw [fullyJoined_iff Ex.ro_cls.lawful (wellFormed_iff.1 (longSuper_wf n))]
  refine joined_of fun s hs t ht => ?_
  simp only [longSuper, List.mem_cons, comb_segs, List.mem_map] at hs ht
  rcases hs with rfl | ⟨i, -, rfl⟩ <;> rcases ht with rfl | ⟨j, -, rfl⟩ <;>
    simp [joinable, setSeg, Ex.ro, Ex.r, rightOpenOps, Asym.touches] <;> omega

theorem shortSub_wf (n : Nat) (hn : 0 < n) : WellFormed Ex.ro (shortSub n) := by
  rw [wellFormed_iff]
  refine wf_cons.2 ⟨⟨-5, by simp [IntervalOps.Mem, setSeg, Ex.ro, Ex.r, rightOpenOps]⟩,
    wf_cons.2 ⟨⟨2 * n - 2, by simp [IntervalOps.Mem, setSeg, Ex.ro, Ex.r, rightOpenOps]⟩, wf_nil, ?_⟩, ?_⟩
  · rintro x y hx ⟨s, hs, hy⟩
    cases hs
  · rintro x y hx ⟨s, hs, hy⟩
    rw [List.mem_singleton] at hs
    subst hs
    simp [IntervalOps.Mem, setSeg, Ex.ro, Ex.r, rightOpenOps] at hx hy
    omega

/-- `next_left` goes on with the next segment of the left operand, if the present one ends before the present segment of the right operand
and does not begin after it. -/
theorem left_step (n : Nat) (p : SItv ℤ) (s t : SItv ℤ) (l r : List (SItv ℤ)) (hs : s.lo < s.up) (ht : t.lo < t.up) (hlo : s.lo ≤ t.lo)
    (hup : s.up < t.up) :
    Counted.compareLoop Ex.ro setSeg setSeg (fun _ _ => .equal) (n + 1) (.left p) .superset (s :: l) (t :: r) =
      tick { steps := 12 } (Counted.compareLoop Ex.ro setSeg setSeg (fun _ _ => .equal) n (.left s) .superset l (t :: r)) := by
  conv_lhs => unfold Counted.compareLoop
  have e1 : Ex.ro.isEmpty (setSeg.key s) = false := by
    simpa [Ex.ro, rightOpenOps, Asym.isEmpty, setSeg] using hs
  have e2 : Ex.ro.isEmpty (setSeg.key t) = false := by
    simpa [Ex.ro, rightOpenOps, Asym.isEmpty, setSeg] using ht
  have e3 : Ex.ro.touchesC p (setSeg.key s) = some (Asym.touches p s) := rfl
  have e4 : Ex.ro.lowerLess (setSeg.key t) (setSeg.key s) = false := by
    simpa [Ex.ro, rightOpenOps, Static.lowerLess, setSeg] using hlo
  have e5 : Ex.ro.upperLess (setSeg.key s) (setSeg.key t) = true := by
    simpa [Ex.ro, rightOpenOps, Static.upperLess, setSeg] using hup
  have hr : (Incl.superset.restrict Incl.equal) = Incl.superset := rfl
  have hu : ¬ (Incl.superset = Incl.unrelated) := by decide
  simp only [e1, e2, e3, e4, e5, Bool.or_false, Bool.and_false, Bool.false_eq_true, if_false, Bool.false_and, if_true, hr, hu, ite_self]
  rfl

/-- From a tooth of the comb on, `next_left` goes through all teeth up to the last one. -/
theorem longSuper_walk (fuel n i d : Nat) (hd : i + d + 1 = n) (p : SItv ℤ) (c : Incl) (w : Work)
    (h : Counted.compareLoop Ex.ro setSeg setSeg (fun _ _ => .equal) fuel (.left p) .superset
      ((List.range' i (d + 1)).map fun i : Nat => Ex.r (2 * i) (2 * i + 1)) [Ex.r (2 * n - 2) (2 * n - 1)] = some (c, w)) :
    d < w.steps := by
  induction d generalizing fuel i p c w with
  | zero =>
    cases fuel with
    | zero => cases h
    | succ fuel =>
      unfold Counted.compareLoop at h
      obtain ⟨w', -, rfl⟩ := tick_some h
      show 0 < 12 + w'.steps
      omega
  | succ d ih =>
    cases fuel with
    | zero => cases h
    | succ fuel =>
      rw [List.range'_succ, List.map_cons, left_step _ _ _ _ _ _ (by simp) (by simp) (by simp; omega)
        (by simp; omega)] at h
      obtain ⟨w', h', rfl⟩ := tick_some h
      have := ih fuel (i + 1) (by omega) _ c w' h'
      show d + 1 < 12 + w'.steps
      omega

/-- However many segments `super` has, and though `sub` is contained in it and has but two, all segments are visited. -/
theorem C53_counterexample_contains (n : Nat) (hn : 0 < n) :
    WellFormed Ex.ro (longSuper n) ∧ FullyJoined Ex.ro (longSuper n) ∧ WellFormed Ex.ro (shortSub n) ∧
      (longSuper n).length = n + 1 ∧ (shortSub n).length = 2 ∧
      ∃ w, Counted.containsC Ex.ro setSeg setSeg (fun _ _ => .equal) (longSuper n) (shortSub n) = some (true, w) ∧ n ≤ w.steps := by
  refine ⟨longSuper_wf n, longSuper_joined n, shortSub_wf n hn, by simp [longSuper, comb_segs], rfl, ?_⟩
  obtain ⟨a, w, e, e', -⟩ := (C53_set_compare Ex.ro_cls (longSuper_wf n) (shortSub_wf n hn)).2.1
  obtain ⟨b, e2, hb⟩ := C25_contains_sets Ex.ro_cls (longSuper_wf n) (shortSub_wf n hn)
  rw [e'] at e2
  cases e2
  have ha : a = true := by
    rw [hb]
    rintro x ⟨s, hs, hx⟩
    have hm : ∀ a b x : ℤ, In Ex.ro x (Ex.r a b) ↔ a ≤ x ∧ x < b := by
      intro a b x; simp [In, Ex.ro, Ex.r, rightOpenOps]
    simp only [shortSub, List.mem_cons, List.not_mem_nil, or_false] at hs
    rcases hs with rfl | rfl
    · rw [hm] at hx
      exact ⟨Ex.r (-5) (-1), by simp [longSuper], (hm _ _ _).2 (by omega)⟩
    · rw [hm] at hx
      refine ⟨Ex.r (2 * (n - 1 : Nat)) (2 * (n - 1 : Nat) + 1), ?_, (hm _ _ _).2 (by omega)⟩
      simp only [longSuper, List.mem_cons, comb_segs, List.mem_map, List.mem_range]
      exact .inr ⟨n - 1, by omega, rfl⟩
  subst ha
  refine ⟨w, e, ?_⟩
  obtain ⟨c, u, v, h1, h2, rfl⟩ := andThen_some e
  have hl : (longSuper n).length + (shortSub n).length + 1 = n + 1 + 1 + 1 + 1 := by simp [longSuper, comb_segs, shortSub]
  unfold Counted.inclusionCompare at h1
  rw [hl] at h1
  obtain ⟨m, rfl⟩ : ∃ m, n = m + 1 := ⟨n - 1, by omega⟩
  have s1 : Counted.compareLoop Ex.ro setSeg setSeg (fun _ _ => .equal) (m + 1 + 1 + 1 + 1 + 1) .both .equal (longSuper (m + 1))
      (shortSub (m + 1)) = tick { steps := 12 } (Counted.compareLoop Ex.ro setSeg setSeg (fun _ _ => .equal) (m + 1 + 1 + 1 + 1)
        (.right (Ex.r (-5) (-3))) .equal (longSuper (m + 1)) (shortSub (m + 1)).tail) := by
    conv_lhs => unfold Counted.compareLoop
    rfl
  have s2 : Counted.compareLoop Ex.ro setSeg setSeg (fun _ _ => .equal) (m + 1 + 1 + 1 + 1)
        (.right (Ex.r (-5) (-3))) .equal (longSuper (m + 1)) (shortSub (m + 1)).tail =
      tick { steps := 12 } (Counted.compareLoop Ex.ro setSeg setSeg (fun _ _ => .equal) (m + 1 + 1 + 1)
        (.left (Ex.r (-5) (-1))) .superset (comb (m + 1)).segs (shortSub (m + 1)).tail) := by
    conv_lhs => unfold Counted.compareLoop
    have e1 : Ex.ro.isEmpty (setSeg.key (Ex.r (-5) (-1))) = false := rfl
    have e2 : Ex.ro.isEmpty (setSeg.key (Ex.r (2 * (m + 1 : Nat) - 2) (2 * (m + 1 : Nat) - 1))) = false := by
      simp [Ex.ro, rightOpenOps, Asym.isEmpty, setSeg, Ex.r]
      omega
    have e3 : Ex.ro.touchesC (Ex.r (-5) (-3)) (setSeg.key (Ex.r (2 * (m + 1 : Nat) - 2) (2 * (m + 1 : Nat) - 1))) = some false := by
      simp [Ex.ro, rightOpenOps, Asym.touches, setSeg, Ex.r]
      omega
    have e4 : Ex.ro.lowerLess (setSeg.key (Ex.r (-5) (-1))) (setSeg.key (Ex.r (2 * (m + 1 : Nat) - 2) (2 * (m + 1 : Nat) - 1))) =
        true := by
      simp [Ex.ro, rightOpenOps, Static.lowerLess, setSeg, Ex.r]
      omega
    have e5 : Ex.ro.upperLess (setSeg.key (Ex.r (-5) (-1))) (setSeg.key (Ex.r (2 * (m + 1 : Nat) - 2) (2 * (m + 1 : Nat) - 1))) =
        true := by
      simp [Ex.ro, rightOpenOps, Static.upperLess, setSeg, Ex.r]
    have hr : (Incl.superset.restrict Incl.equal) = Incl.superset := rfl
    have hr' : (Incl.equal.restrict Incl.superset) = Incl.superset := rfl
    have hu' : ¬ (Incl.superset = Incl.unrelated) := by decide
    simp only [longSuper, shortSub, List.tail_cons, e1, e2, e3, e4, e5, Bool.or_false, Bool.not_false, Bool.and_true, if_true, hr, hr',
      Bool.false_eq_true, if_false, hu', ite_self]
    rfl
  rw [s1] at h1
  obtain ⟨w1, h3, rfl⟩ := tick_some h1
  rw [s2] at h3
  obtain ⟨w2, h4, rfl⟩ := tick_some h3
  rw [comb_segs, List.range_eq_range'] at h4
  have := longSuper_walk _ (m + 1) 0 m (by omega) _ _ _ h4
  show m + 1 ≤ (12 + (12 + w2.steps)) + v.steps
  omega

end sets

section maps
variable {D I V : Type} [LinearOrder D] {o : IntervalOps D I}

/-! ## Interval maps -/

/-- `find(x)`: one search. -/
theorem C53_map_find {lk : Lookup D I} (h : LookupClass o lk) {m : List (I × V)} (hm : MapWellFormed o m) (x : D)
    (hx : o.isEmpty (lk.key x) = false) : Answers (Counted.findE o mapSeg lk m x) (findE o mapSeg lk m x) 1 3 := by
  obtain ⟨r, e, -⟩ := findE_spec h.cls.lawful (g := mapSeg) (h.lawfulAt hx) (mapWellFormed_iff.1 hm)
  exact answers (value_findE _ _ _) ⟨r, e⟩ (atMost_findE _ _ _)

/-- `find(k)`: one search. -/
theorem C53_map_find_interval (h : IntervalClass o) {m : List (I × V)} (hm : MapWellFormed o m) (k : I) (hk : o.isEmpty k = false) :
    Answers (Counted.findI o mapSeg m k) (findI o mapSeg m k) 1 0 := by
  obtain ⟨r, e, -⟩ := findI_spec h.lawful (g := mapSeg) (mapWellFormed_iff.1 hm) ((nonempty_iff h.lawful).2 hk)
  exact answers (value_findI _ _) ⟨r, e⟩ (atMost_findI _ _)

/-- `m(x)`: one search. -/
theorem C53_map_select {lk : Lookup D I} (h : LookupClass o lk) {m : List (I × V)} (hm : MapWellFormed o m) (ident : V) (x : D)
    (hx : o.isEmpty (lk.key x) = false) : Answers (Counted.IMap.select o lk ident m x) (IMap.select o lk ident m x) 1 4 := by
  obtain ⟨r, e, -⟩ := findE_spec h.cls.lawful (g := mapSeg) (h.lawfulAt hx) (mapWellFormed_iff.1 hm)
  exact answers (Counted.IMap.value_select _ _ _ _) ⟨_, by simp only [ICL.IMap.select, e]; rfl⟩ (Counted.IMap.atMost_select _ _ _ _)

/-- `contains(m, x)` and `intersects(m, x)`: one search. -/
theorem C53_map_contains_key {lk : Lookup D I} (h : LookupClass o lk) {m : List (I × V)} (hm : MapWellFormed o m) (x : D)
    (hx : o.isEmpty (lk.key x) = false) : Answers (Counted.containsE o mapSeg lk m x) (containsE o mapSeg lk m x) 1 3 := by
  obtain ⟨r, e, -⟩ := containsE_spec h.cls.lawful (g := mapSeg) (h.lawfulAt hx) (mapWellFormed_iff.1 hm)
  exact answers (value_containsE _ _ _) ⟨r, e⟩ (atMost_containsE _ _ _)

/-- `intersects(m, k)` and `disjoint(m, k)`: one search. -/
theorem C53_map_intersects_interval (h : IntervalClass o) {m : List (I × V)} (hm : MapWellFormed o m) (k : I) :
    Answers (Counted.intersectsSeg o mapSeg m k) (intersectsSeg o mapSeg m k) 1 0 := by
  obtain ⟨r, e, -⟩ := intersectsSeg_spec h.lawful (g := mapSeg) (mapWellFormed_iff.1 hm) k
  exact answers (value_intersectsSeg _ _) ⟨r, e⟩ (atMost_intersectsSeg _ _)

/-- `contains(m, k)` for an interval `k`: one search, and a number of steps that is linear in the number of overlapped segments. -/
theorem C53_map_contains_interval (h : IntervalClass o) (total : Bool) {m : List (I × V)} (hm : MapWellFormed o m) (k : I) :
    Answers (Counted.IMap.containsKeys o total m k) (IMap.containsKeys o total m k) 1 (4 * overlapped o (m.map Prod.fst) k + 4) := by
  have hv : ∃ b, ICL.IMap.containsKeys o total m k = some b := by
    cases total with
    | true => exact ⟨true, rfl⟩
    | false =>
      obtain ⟨r, e, -⟩ := ICL.IMap.containsKeys_spec h.lawful (mapWellFormed_iff.1 hm) k
      exact ⟨r, e⟩
  refine answers (Counted.IMap.value_containsKeys _ _ _) hv
    (Counted.IMap.atMost_containsKeys (t := 4 * overlapped o (m.map Prod.fst) k) _ _ _ ?_)
  intro a f b c he hr
  obtain ⟨a', b', c', e', -, hl⟩ := overlapped_run h.lawful (mapWellFormed_iff.1 hm) ((nonempty_iff h.lawful).2 he)
  rw [hr] at e'
  cases e'
  refine (atMost_allTouch _).mono le_rfl ?_
  have : (f :: b).length = overlapped o (m.map Prod.fst) k := hl
  omega

variable [DecidableEq V]

/-- `contains(m, (x, v))`: one search. -/
theorem C53_map_contains_element {lk : Lookup D I} (h : LookupClass o lk) {m : List (I × V)} (hm : MapWellFormed o m) (x : D) (v : V)
    (hx : o.isEmpty (lk.key x) = false) : Answers (Counted.IMap.containsPair o lk m x v) (IMap.containsPair o lk m x v) 1 4 := by
  obtain ⟨r, e, -⟩ := findE_spec h.cls.lawful (g := mapSeg) (h.lawfulAt hx) (mapWellFormed_iff.1 hm)
  exact answers (Counted.IMap.value_containsPair _ _ _ _) ⟨_, by simp only [ICL.IMap.containsPair, e]; rfl⟩
    (Counted.IMap.atMost_containsPair _ _ _ _)

/-- `contains(m, (k, v))`, if neighbours in `m` that touch have different values, as in any `interval_map`: one search and a constant
number of steps, however many segments are overlapped. -/
theorem C53_map_contains_segment_joined (h : IntervalClass o) {m : List (I × V)} (hm : MapWellFormed o m) (hj : MapFullyJoined o m)
    (k : I) (v : V) : Answers (Counted.IMap.containsSeg o m k v) (IMap.containsSeg o m k v) 1 11 := by
  have hw := mapWellFormed_iff.1 hm
  obtain ⟨r, e, -⟩ := ICL.IMap.containsSeg_spec h.lawful hw k v
  refine answers (Counted.IMap.value_containsSeg _ _ _) ⟨r, e⟩ (Counted.IMap.atMost_containsSeg (t := 5) _ _ _ ?_)
  intro a f b c he hr
  refine Counted.IMap.atMost_allJoinable_joined _ _ ?_
  intro s t l' hl hv
  obtain ⟨a', b', c', e', hs', -⟩ := equalRange_spec h.lawful hw ((nonempty_iff h.lawful).2 he)
  rw [hr] at e'
  cases e'
  have hf : f = s := by simp only [List.cons.injEq] at hl; exact hl.1
  rw [hl] at hs'
  rcases hj a s t (l' ++ c) (by rw [hs']; simp) with hne | ⟨z, h1, h2⟩
  · rw [hv, hf] at hne; exact absurd rfl hne
  have hi := hw.nonempty s (by rw [hs']; simp)
  have hj' := hw.nonempty t (by rw [hs']; simp)
  have hb : o.Before s.1 t.1 := fun x y hx hy => (h1 x hx).trans (h2 y hy)
  rw [h.lawful.touchesC_before s.1 t.1 hi hj' hb]
  have ht := h.lawful.touches_iff s.1 t.1 hi hj' hb
  cases hc : o.touches s.1 t.1 with
  | false => rfl
  | true => exact absurd ⟨z, h1, h2⟩ (ht.1 hc)

/-- `contains(m, (k, v))` in any interval map: one search, and a number of steps that is linear in the number of overlapped segments. -/
theorem C53_map_contains_segment (h : IntervalClass o) {m : List (I × V)} (hm : MapWellFormed o m) (k : I) (v : V) :
    Answers (Counted.IMap.containsSeg o m k v) (IMap.containsSeg o m k v) 1 (5 * overlapped o (m.map Prod.fst) k + 6) := by
  obtain ⟨r, e, -⟩ := ICL.IMap.containsSeg_spec h.lawful (mapWellFormed_iff.1 hm) k v
  refine answers (Counted.IMap.value_containsSeg _ _ _) ⟨r, e⟩
    (Counted.IMap.atMost_containsSeg (t := 5 * overlapped o (m.map Prod.fst) k) _ _ _ ?_)
  intro a f b c he hr
  obtain ⟨a', b', c', e', -, hl⟩ := overlapped_run h.lawful (mapWellFormed_iff.1 hm) ((nonempty_iff h.lawful).2 he)
  rw [hr] at e'
  cases e'
  refine (Counted.IMap.atMost_allJoinable _ _).mono le_rfl ?_
  have : (f :: b).length = overlapped o (m.map Prod.fst) k := hl
  omega

/-- `m == n`: linear in the size of the smaller map, without a search. -/
theorem C53_map_equal (m n : List (I × V)) :
    Answers (Counted.eqC o mapSeg m n) (some (eqC o mapSeg m n)) 0 (4 * min m.length n.length) :=
  answers (value_eqC _ _) ⟨_, rfl⟩ (atMost_eqC _ _)

/-- `hull(m)`: a constant number of steps. -/
theorem C53_map_hull (m : List (I × V)) : Answers (Counted.hullC o mapSeg m) (some (hullC o mapSeg m)) 0 4 :=
  answers (value_charge _ _) ⟨_, rfl⟩ (.charge _ le_rfl le_rfl ⟨rfl, rfl, rfl⟩)

/-- `size(m)` = `cardinality(m)`: linear. -/
theorem C53_map_size [AddGroupWithOne D] (e : ElementOps D I) (m : List (I × V)) :
    Answers (Counted.sum (fun s => cardinalityI o e s.1) 0 m) (some (size o e mapSeg m)) 0 (2 * m.length) :=
  answers (value_sum _ _ _) ⟨_, rfl⟩ (atMost_sum _ _ _)

/-- `contains(m, n)`, `within(n, m)`, `inclusion_compare(m, n)` and `is_element_equal(m, n)` of two maps, whatever the comparison of
the values: linear in the number of segments of both, and at most as many searches. -/
theorem C53_map_compare (h : IntervalClass o) (co : CoCompare V V) {m n : List (I × V)} (hm : MapWellFormed o m)
    (hn : MapWellFormed o n) :
    let b := m.length + n.length + 1
    Answers (Counted.inclusionCompare o mapSeg mapSeg co m n) (inclusionCompare o mapSeg mapSeg co m n) b (12 * b) ∧
    Answers (Counted.containsC o mapSeg mapSeg co m n) (containsC o mapSeg mapSeg co m n) b (12 * b) ∧
    Answers (Counted.withinC o mapSeg mapSeg co m n) (withinC o mapSeg mapSeg co m n) b (12 * b) ∧
    Answers (Counted.isElementEqual o mapSeg mapSeg co m n) (isElementEqual o mapSeg mapSeg co m n) b (12 * b) :=
  compare_answers h.lawful _ (mapWellFormed_iff.1 hm) (mapWellFormed_iff.1 hn)

/-- `contains(m, s)` and `within(s, m)` for a set `s` likewise. -/
theorem C53_map_contains_set (h : IntervalClass o) {m : List (I × V)} {s : List I} (hm : MapWellFormed o m) (hs : WellFormed o s) :
    Answers (Counted.withinC o setSeg mapSeg (fun _ _ => .equal) s m) (withinC o setSeg mapSeg (fun _ _ => .equal) s m)
      (s.length + m.length + 1) (12 * (s.length + m.length + 1)) :=
  (compare_answers h.lawful (g := setSeg) (k := mapSeg) _ (wellFormed_iff.1 hs) (mapWellFormed_iff.1 hm)).2.2.1

-- `{[0,2)->1 [2,4)->2 [4,9)->2}`
example : MapWellFormed Ex.ro [(Ex.r 0 2, 1), (Ex.r 2 4, 2), (Ex.r 4 9, 2)] ∧
    Counted.IMap.select Ex.ro exE.lookup 0 [(Ex.r 0 2, 1), (Ex.r 2 4, 2), (Ex.r 4 9, 2)] 3 = some (2, { searches := 1, steps := 1 }) ∧
    Counted.IMap.containsSeg Ex.ro [(Ex.r 0 2, 1), (Ex.r 2 4, 2), (Ex.r 4 9, 2)] (Ex.r 3 6) 2 =
      some (true, { searches := 1, steps := 11 }) ∧
    Counted.IMap.containsSeg Ex.ro [(Ex.r 0 2, 1), (Ex.r 2 4, 2), (Ex.r 4 9, 2)] (Ex.r 1 6) 1 =
      some (false, { searches := 1, steps := 11 }) ∧
    Counted.IMap.containsKeys Ex.ro false [(Ex.r 0 2, 1), (Ex.r 2 4, 2), (Ex.r 4 9, 2)] (Ex.r 1 6) =
      some (true, { searches := 1, steps := 12 }) :=
  ⟨wellFormed_ro _ (by decide) (by decide), by decide, by decide, by decide, by decide⟩

/-! ### The documentation of `contains(m, k)`

It promises `O(log n)` for an interval `k` and an `interval_map`. -/

/-- `[0, 1) -> 0`, `[1, 2) -> 1`, …, `n` segments -/
def stairs (n : Nat) : List (SItv ℤ × Nat) := (List.range n).map fun i : Nat => (Ex.r i (i + 1), i)

theorem stairs_wf (n : Nat) : MapWellFormed Ex.ro (stairs n) := by
  rw [mapWellFormed_iff]
  refine ⟨?_, ?_⟩
  · intro s hs
    obtain ⟨i, -, rfl⟩ := List.mem_map.1 hs
    exact ⟨i, by simp [IntervalOps.Mem, mapSeg, Ex.ro, Ex.r, rightOpenOps]⟩
  · unfold stairs
    rw [List.pairwise_map]
    refine List.pairwise_lt_range.imp fun {a b} hab x y hx hy => ?_
    simp [IntervalOps.Mem, mapSeg, Ex.ro, Ex.r, rightOpenOps] at hx hy
    omega

theorem stairs_joined (n : Nat) : MapFullyJoined Ex.ro (stairs n) := by
  intro p s t q e
  left
  have hp : (stairs n).Pairwise fun s t => s.2 ≠ t.2 := by
    unfold stairs
    rw [List.pairwise_map]
    exact List.pairwise_lt_range.imp fun {a b} hab => Nat.ne_of_lt hab
  rw [e, List.pairwise_append] at hp
  exact (List.pairwise_cons.1 hp.2.1).1 t (by simp)

/-- In an `interval_map` of `n` segments with different values that touch, all of them are visited. -/
theorem C53_counterexample_map_contains_interval (n : Nat) :
    MapWellFormed Ex.ro (stairs n) ∧ MapFullyJoined Ex.ro (stairs n) ∧ (stairs n).length = n ∧
      ∃ w, Counted.IMap.containsKeys Ex.ro false (stairs n) (Ex.r 0 n) = some (true, w) ∧ n ≤ w.steps := by
  refine ⟨stairs_wf n, stairs_joined n, by simp [stairs], ?_⟩
  obtain ⟨a, w, e, e', -⟩ := C53_map_contains_interval Ex.ro_cls false (stairs_wf n) (Ex.r 0 n)
  obtain ⟨b, e2, hb⟩ := ICL.IMap.containsKeys_spec Ex.ro_cls.lawful (mapWellFormed_iff.1 (stairs_wf n)) (Ex.r 0 n)
  rw [e'] at e2
  cases e2
  have hm : ∀ a b x : ℤ, Ex.ro.Mem x (Ex.r a b) ↔ a ≤ x ∧ x < b := by
    intro a b x; simp [IntervalOps.Mem, Ex.ro, Ex.r, rightOpenOps]
  have ha : a = true := by
    rw [hb]
    intro x hx
    rw [hm] at hx
    refine ⟨(Ex.r x.toNat (x.toNat + 1), x.toNat), ?_, (hm _ _ _).2 (by omega)⟩
    exact List.mem_map.2 ⟨x.toNat, List.mem_range.2 (by omega), rfl⟩
  subst ha
  refine ⟨w, e, ?_⟩
  rcases Nat.eq_zero_or_pos n with rfl | hn
  · omega
  have he : Ex.ro.isEmpty (Ex.r 0 n) = false := by
    simp [Ex.ro, rightOpenOps, Asym.isEmpty, Ex.r]
    omega
  unfold Counted.IMap.containsKeys at e
  rw [if_neg (by decide), if_neg (by simp [he])] at e
  obtain ⟨r, u, v, h1, h2, rfl⟩ := andThen_some e
  obtain ⟨A, B, C, h3, -, h4⟩ := overlapped_run Ex.ro_cls.lawful (mapWellFormed_iff.1 (stairs_wf n))
    ((nonempty_iff Ex.ro_cls.lawful).2 he)
  rw [h3] at h1
  cases h1
  have hlen : B.length = n := by
    rw [h4]
    unfold overlapped
    rw [List.filter_eq_self.2]
    · simp [stairs]
    · intro i hi
      simp only [stairs, List.map_map, List.mem_map, List.mem_range] at hi
      obtain ⟨j, hj, rfl⟩ := hi
      simp only [decide_eq_true_eq]
      exact ⟨j, (hm _ _ _).2 (by omega), (hm _ _ _).2 (by omega)⟩
  cases B with
  | nil => simp at hlen; omega
  | cons f B =>
    obtain ⟨w1, h5, rfl⟩ := tick_some h2
    split at h5
    · have := allTouch_steps _ _ h5
      show n ≤ 0 + (4 + w1.steps)
      omega
    · cases h5

end maps
end ICL.Props
