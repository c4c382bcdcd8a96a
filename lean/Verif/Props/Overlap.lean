import Verif.Theory.Overlap
import Verif.Props.Collectors
import Mathlib.Data.List.Perm.Subperm
import Mathlib.Algebra.BigOperators.Group.List.Basic

/-!
# C48: aggregation on overlap

A program adds segments to an interval map, one after the other, in whatever order they come. The value of a key is then
what all the values amount to whose interval contains the key; the segments change where, and only where, this changes.
-/

set_option linter.unusedSectionVars false
set_option linter.unusedVariables false

namespace ICL.Props
open Spec

variable {D I V : Type} [LinearOrder D] {o : IntervalOps D I} [DecidableEq V] {t : MapType V}

/-- Adding segments one after the other: each key gets the values of the intervals that contain it, in this order, and
nothing else. -/
theorem C48_series (h : IntervalClass o) (t : MapType V) (l : List (I × V)) {m : List (I × V)}
    (hm : MapWellFormed o m) :
    ∃ m', IMap.feed o t m (l.map (none, ·)) = some m' ∧ MapWellFormed o m' ∧
      ∀ x, valueAt o m' x = (valuesOver o l x).foldl (fun a v => added t v a) (valueAt o m x) := by
  obtain ⟨m', e, f⟩ := feed_plain h l hm
  exact ⟨m', e, f.wf, f.value⟩

/-- The value is the combination of them, if the values are a monoid, with or without hints. -/
theorem C48_aggregate (h : IntervalClass o) (hN : Neutral t) (hM : MonoidValues t) (l : List (Option Nat × I × V))
    {m : List (I × V)} (hm : MapWellFormed o m) (hi : NoIdentity t m) :
    ∃ m', IMap.feed o t m l = some m' ∧ MapWellFormed o m' ∧ NoIdentity t m' ∧
      (t.cfg.joining = true → MapFullyJoined o m → MapFullyJoined o m') ∧
      ∀ x, valueAt o m' x = aggregate t (valueAt o m x) (valuesOver o (l.map Prod.snd) x) := by
  obtain ⟨m', e, f, n⟩ := feed_any h hN l hm hi
  exact ⟨m', e, f.wf, n, f.joined, fun x => by rw [f.value, foldl_added hM _ (proper_valueAt hm hi x)]⟩

/-- The order of the segments does not matter if the monoid is commutative, and neither do the hints: the values are the
same, and `interval_map`s are equal. -/
theorem C48_order (h : IntervalClass o) (hN : Neutral t) (hM : CommMonoidValues t) {l r : List (Option Nat × I × V)}
    (hp : (l.map Prod.snd).Perm (r.map Prod.snd)) {m : List (I × V)} (hm : MapWellFormed o m) (hi : NoIdentity t m) :
    ∃ a b, IMap.feed o t m l = some a ∧ IMap.feed o t m r = some b ∧ (∀ x, valueAt o a x = valueAt o b x) ∧
      (t.cfg.joining = true → MapFullyJoined o m → eqC o mapSeg a b = true) := by
  obtain ⟨a, e1, w1, _, j1, v1⟩ := C48_aggregate h hN hM.toMonoidValues l hm hi
  obtain ⟨b, e2, w2, _, j2, v2⟩ := C48_aggregate h hN hM.toMonoidValues r hm hi
  have hv : ∀ x, valueAt o a x = valueAt o b x := fun x => by
    rw [v1, v2, aggregate_perm hM (valuesOver_perm hp x)]
  exact ⟨a, b, e1, e2, hv, fun hj hmj => (C22_canonical h w1 w2 (j1 hj hmj) (j2 hj hmj)).2 hv⟩

/-! ## Where no value is ever absorbed

`P` is a property of the values, like being positive or being a non-empty set, which excludes the identity element and is
preserved by the functor. -/

section positive
variable {P : V → Prop} (hi : ∀ v, P v → ¬ Ignored t v) (hver : ∀ v, t.plus.version v = v)
  (hc : ∀ u v, P u → P v → P (t.plus.apply u v))
include hi hver hc

/-- Starting with the empty map, the keys are the elements of the intervals, and their values are the combinations of the
values that came with these. -/
theorem C48_together (h : IntervalClass o) (l : List (I × V)) (hl : ∀ s ∈ l, P s.2) :
    ∃ m', IMap.feed o t [] (l.map (none, ·)) = some m' ∧ MapWellFormed o m' ∧
      (t.cfg.joining = true → MapFullyJoined o m') ∧
      (∀ x, valueAt o m' x = together t (valuesOver o l x)) ∧ ∀ x, Key o m' x ↔ ∃ s ∈ l, In o x s.1 := by
  have hw : MapWellFormed o ([] : List (I × V)) := mapWellFormed_iff.2 wf_nil
  obtain ⟨m', e, f⟩ := feed_plain (t := t) h l hw
  have hv : ∀ x, valueAt o m' x = together t (valuesOver o l x) := fun x => by
    rw [f.value, show valueAt o ([] : List (I × V)) x = none from rfl]
    refine foldl_added_none hi hver hc _ fun v hv => ?_
    obtain ⟨k, hk, _⟩ := mem_valuesOver.1 hv
    exact hl _ hk
  refine ⟨m', e, f.wf, fun hj => f.joined hj ((mapFullyJoined_iff h.lawful wf_nil).2 joined_nil), hv, fun x => ?_⟩
  rw [← valueAt_key f.wf, hv]
  constructor
  · intro hx
    cases hvs : valuesOver o l x with
    | nil => rw [hvs] at hx; exact absurd rfl hx
    | cons v vs =>
      obtain ⟨k, hk, hx⟩ := mem_valuesOver.1 (show v ∈ valuesOver o l x by simp [hvs])
      exact ⟨_, hk, hx⟩
  · rintro ⟨s, hs, hx⟩ hn
    have : s.2 ∈ valuesOver o l x := mem_valuesOver.2 ⟨s.1, hs, hx⟩
    cases hvs : valuesOver o l x with
    | nil => rw [hvs] at this; cases this
    | cons v vs => rw [hvs] at hn; cases hn

/-- The segments of a `split_interval_map` are the maximal stretches that are covered by the same intervals, at least
one, from end to end. -/
theorem C48_split (h : IntervalClass o) (ht : t.cfg.joining = false) (l : List (I × V)) (hl : ∀ s ∈ l, P s.2) :
    ∃ m', IMap.feed o t [] (l.map (none, ·)) = some m' ∧ MapWellFormed o m' ∧
      ∀ x y, SameMapSegment o m' x y ↔
        (∃ s ∈ l, In o x s.1) ∧ ∀ z, Between x y z → ∀ s ∈ l, (In o z s.1 ↔ In o x s.1) := by
  induction l using List.reverseRecOn with
  | nil => exact ⟨[], rfl, mapWellFormed_iff.2 wf_nil, fun x y => by simp [SameMapSegment]⟩
  | append_singleton l s ih =>
    obtain ⟨m, e, w, hs⟩ := ih fun s hs => hl s (by simp [hs])
    obtain ⟨m₀, e₀, _, _, _, hk⟩ := C48_together hi hver hc h l fun s hs => hl s (by simp [hs])
    rw [e] at e₀; cases e₀
    obtain ⟨m', e', w', _, _, hk'⟩ := C48_together hi hver hc h (l ++ [s]) hl
    obtain ⟨m'', e'', _, hss⟩ := C13_split_map_add h t ht w s.1 s.2 (hi _ (hl s (by simp)))
    have : m'' = m' := by
      unfold IMap.feed at e e'
      rw [List.map_append, forEach_append, e] at e'
      simp [forEach, IMap.feedOne, e''] at e'
      exact e'
    subst this
    refine ⟨m'', e', w', fun x y => ?_⟩
    rw [hss, hs]
    have hb : ∀ z, Between x y z → In o x s.1 → In o y s.1 → In o z s.1 := fun z hz hx hy => by
      rcases hz with ⟨h1, h2⟩ | ⟨h1, h2⟩
      · exact h.lawful.convex s.1 _ _ _ hx hy h1 h2
      · exact h.lawful.convex s.1 _ _ _ hy hx h1 h2
    have hxx : Between x y x := by unfold Between; rcases le_total x y with h | h <;> simp [h]
    have hyy : Between x y y := by unfold Between; rcases le_total x y with h | h <;> simp [h]
    have split : ∀ Q : I × V → Prop, (∀ r ∈ l ++ [s], Q r) ↔ (∀ r ∈ l, Q r) ∧ Q s := fun Q => by
      simp [or_imp, forall_and]
    simp only [split]
    constructor
    · rintro (⟨hx, hy, (⟨⟨hk1, ha⟩, _⟩ | hf)⟩ | ⟨⟨⟨r, hr, hrx⟩, ha⟩, hn⟩)
      · exact ⟨⟨s, by simp, hx⟩, fun z hz => ⟨ha z hz, fun _ => hx, fun _ => hb z hz hx hy⟩⟩
      · refine ⟨⟨s, by simp, hx⟩, fun z hz => ⟨fun r hr => ?_, fun _ => hx, fun _ => hb z hz hx hy⟩⟩
        have h1 := hf z hz
        have h2 := hf x hxx
        rw [hk] at h1 h2
        exact ⟨fun hh => absurd ⟨r, hr, hh⟩ h1, fun hh => absurd ⟨r, hr, hh⟩ h2⟩
      · exact ⟨⟨r, by simp [hr], hrx⟩, fun z hz => ⟨ha z hz, fun hh => absurd hh (hn z hz), fun hh => absurd hh (hn x hxx)⟩⟩
    · rintro ⟨⟨r, hr, hrx⟩, ha⟩
      by_cases hx : In o x s.1
      · refine Or.inl ⟨hx, ((ha y hyy).2).2 hx, ?_⟩
        by_cases hkx : ∃ r ∈ l, In o x r.1
        · exact Or.inl ⟨⟨hkx, fun z hz => (ha z hz).1⟩, (hk' x).2 ⟨s, by simp, hx⟩⟩
        · refine Or.inr fun z hz => ?_
          rw [hk]
          rintro ⟨r', hr', hz'⟩
          exact hkx ⟨r', hr', ((ha z hz).1 r' hr').1 hz'⟩
      · refine Or.inr ⟨⟨⟨r, ?_, hrx⟩, fun z hz => (ha z hz).1⟩, fun z hz hh => hx (((ha z hz).2).1 hh)⟩
        rcases List.mem_append.1 hr with hr | hr
        · exact hr
        · rw [List.mem_singleton.1 hr] at hrx; exact absurd hrx hx

/-- Therefore the order of the segments does not matter for a `split_interval_map` either, if the values can be combined in
any order. -/
theorem C48_split_order (h : IntervalClass o) (ht : t.cfg.joining = false)
    (ha : ∀ u v w, t.plus.apply (t.plus.apply u v) w = t.plus.apply u (t.plus.apply v w))
    (hcomm : ∀ u v, t.plus.apply u v = t.plus.apply v u) {l r : List (I × V)} (hp : l.Perm r) (hl : ∀ s ∈ l, P s.2) :
    ∃ a b, IMap.feed o t [] (l.map (none, ·)) = some a ∧ IMap.feed o t [] (r.map (none, ·)) = some b ∧
      eqC o mapSeg a b = true := by
  have hr : ∀ s ∈ r, P s.2 := fun s hs => hl s (hp.mem_iff.2 hs)
  obtain ⟨a, e1, w1, _, v1, _⟩ := C48_together hi hver hc h l hl
  obtain ⟨b, e2, w2, _, v2, _⟩ := C48_together hi hver hc h r hr
  obtain ⟨a', e1', _, s1⟩ := C48_split hi hver hc h ht l hl
  obtain ⟨b', e2', _, s2⟩ := C48_split hi hver hc h ht r hr
  rw [e1] at e1'; cases e1'
  rw [e2] at e2'; cases e2'
  refine ⟨a, b, e1, e2, ?_⟩
  refine (eqC_spec h.lawful (mapWellFormed_iff.1 w1) (mapWellFormed_iff.1 w2)).2 ⟨fun x y => ?_, ?_⟩
  · refine (s1 x y).trans (Iff.trans ?_ (s2 x y).symm)
    simp only [hp.mem_iff]
  · exact (maps_valueAt w1 w2).2 fun x => by rw [v1, v2, together_perm ha hcomm (valuesOver_perm hp x)]

end positive

/-! ## The examples -/

/-- The number of intervals that contain `x`. -/
def overlaps (o : IntervalOps D I) (l : List I) (x : D) : Nat := l.countP fun k => o.contains k x

/-- example/overlap_counter: all intervals are added with the value 1. Then the value of `x` is the number of intervals
that contain `x`, and `x` is not in the map if there is none. -/
theorem C48_overlap_counter (h : IntervalClass o) (joining total signed : Bool) (l : List (Option Nat × I)) :
    ∃ m, IMap.feed o (.numeric (V := ℤ) joining true total signed) [] (l.map fun a => (a.1, a.2, 1)) = some m ∧
      MapWellFormed o m ∧ (joining = true → MapFullyJoined o m) ∧
      ∀ x, valueAt o m x =
        if overlaps o (l.map Prod.snd) x = 0 then none else some (overlaps o (l.map Prod.snd) x : ℤ) := by
  obtain ⟨m, e, w, _, j, v⟩ := C48_aggregate h (numeric_neutral (W := ℤ) joining true total signed)
    (numeric_comm joining true total signed).toMonoidValues (l.map fun a => (a.1, a.2, 1))
    (mapWellFormed_iff.2 wf_nil) (fun _ hs => by cases hs)
  refine ⟨m, e, w, fun hj => j hj ((mapFullyJoined_iff h.lawful wf_nil).2 joined_nil), fun x => ?_⟩
  rw [v, show valueAt o ([] : List (I × ℤ)) x = none from rfl, aggregate_numeric]
  have : (valuesOver o ((l.map fun a => (a.1, a.2, (1 : ℤ))).map Prod.snd) x).sum = overlaps o (l.map Prod.snd) x := by
    clear * -
    induction l with
    | nil => rfl
    | cons a l ih =>
      simp only [List.map_cons, valuesOver_cons, overlaps, List.countP_cons]
      unfold overlaps at ih
      split
      · rw [List.sum_cons, ih]; push_cast; omega
      · rw [ih]; simp
  rw [this]
  simp

/-- example/party: the guests at `x` are those of all groups that are there at `x`. -/
theorem C48_party {α : Type} [DecidableEq α] (h : IntervalClass o) (joining absorbs : Bool)
    (l : List (Option Nat × I × Finset α)) :
    ∃ m, IMap.feed o (.collector joining absorbs false) [] l = some m ∧ MapWellFormed o m ∧
      (joining = true → MapFullyJoined o m) ∧
      (∀ x e, HasPair o m x e ↔ ∃ a ∈ l, In o x a.2.1 ∧ e ∈ a.2.2) ∧
      (absorbs = true → ∀ x, ¬ Assoc o m x ∅) := by
  obtain ⟨m, e, w, n, j, v⟩ := C48_aggregate h (collector_neutral (α := α) joining absorbs false)
    (collector_comm joining absorbs false).toMonoidValues l (mapWellFormed_iff.2 wf_nil) (fun _ hs => by cases hs)
  refine ⟨m, e, w, fun hj => j hj ((mapFullyJoined_iff h.lawful wf_nil).2 joined_nil), fun x e => ?_, ?_⟩
  · have hf : ∀ (vs : List (Finset α)) (u : Finset α), e ∈ vs.foldl (fun u v => u ∪ v) u ↔ e ∈ u ∨ ∃ v ∈ vs, e ∈ v := by
      intro vs
      induction vs with
      | nil => simp
      | cons v vs ih => intro u; rw [List.foldl_cons, ih]; simp [or_assoc]
    have hval : HasPair o m x e ↔ ∃ v ∈ valuesOver o (l.map Prod.snd) x, e ∈ v := by
      unfold HasPair
      simp only [← valueAt_assoc w, v]
      rw [show valueAt o ([] : List (I × Finset α)) x = none from rfl]
      generalize valuesOver o (l.map Prod.snd) x = vs
      unfold aggregate
      have hf' := hf vs ∅
      simp only [Finset.notMem_empty, false_or] at hf'
      rw [← hf']
      split
      · rename_i h0; subst h0; simp
      · simp only [Option.getD_none, stored]
        rw [show (MapType.collector (α := α) joining absorbs false).cfg.ident = ∅ from rfl,
          show (MapType.collector (α := α) joining absorbs false).plus.apply = fun u v => u ∪ v from rfl]
        generalize vs.foldl (fun u v => u ∪ v) ∅ = w
        split
        · rename_i hi
          have : w = ∅ := hi.2
          subst this; simp
        · simp
    rw [hval]
    constructor
    · rintro ⟨v, hv, he⟩
      obtain ⟨k, hk, hx⟩ := mem_valuesOver.1 hv
      obtain ⟨a, ha, hak⟩ := List.mem_map.1 hk
      exact ⟨a, ha, by rw [hak]; exact hx, by rw [hak]; exact he⟩
    · rintro ⟨a, ha, hx, he⟩
      exact ⟨a.2.2, mem_valuesOver.2 ⟨a.2.1, List.mem_map.2 ⟨a, ha, rfl⟩, hx⟩, he⟩
  · rintro ha x ⟨s, hs, _, h0⟩
    exact n s hs ⟨ha, h0⟩

/-- example/partys_tallest_guests: the value of `x` is the greatest of the heights of those who are there at `x`, and `x`
is not in the map if nobody is there. Heights are not zero, since zero would be ignored. -/
theorem C48_tallest_guests (h : IntervalClass o) (joining absorbs total : Bool) (l : List (I × ℤ))
    (hl : ∀ s ∈ l, s.2 ≠ 0) :
    ∃ m, IMap.feed o (.maxima joining absorbs total) [] (l.map (none, ·)) = some m ∧ MapWellFormed o m ∧
      (joining = true → MapFullyJoined o m) ∧
      (∀ x w, valueAt o m x = some w ↔ (∃ s ∈ l, In o x s.1 ∧ s.2 = w) ∧ ∀ s ∈ l, In o x s.1 → s.2 ≤ w) ∧
      ∀ x, valueAt o m x = none ↔ ∀ s ∈ l, ¬ In o x s.1 := by
  obtain ⟨m, e, w, j, v, k⟩ := C48_together (t := .maxima joining absorbs total) (P := fun v => v ≠ 0)
    (fun v hv hi => hv hi.2) (fun v => rfl)
    (fun u v hu hv => by
      show (if u < v then v else u) ≠ 0
      split <;> assumption) h l hl
  refine ⟨m, e, w, j, fun x w' => ?_, fun x => ?_⟩
  · have hg : ∀ (vs : List ℤ) (u : ℤ), (vs.foldl (fun u v => if u < v then v else u) u = u ∨
        vs.foldl (fun u v => if u < v then v else u) u ∈ vs) ∧ u ≤ vs.foldl (fun u v => if u < v then v else u) u ∧
        ∀ v ∈ vs, v ≤ vs.foldl (fun u v => if u < v then v else u) u := by
      intro vs
      induction vs with
      | nil => simp
      | cons a vs ih =>
        intro u
        obtain ⟨h1, h2, h3⟩ := ih (if u < a then a else u)
        rw [List.foldl_cons]
        generalize vs.foldl (fun u v => if u < v then v else u) (if u < a then a else u) = r at *
        refine ⟨?_, ?_, fun v hv => ?_⟩
        · rcases h1 with h1 | h1
          · split at h1
            · exact Or.inr (by simp [h1])
            · exact Or.inl h1
          · exact Or.inr (by simp [h1])
        · split at h2 <;> omega
        · rcases List.mem_cons.1 hv with rfl | hv
          · split at h2 <;> omega
          · exact h3 v hv
    have hm : (∃ s ∈ l, In o x s.1 ∧ s.2 = w') ↔ w' ∈ valuesOver o l x := by
      rw [mem_valuesOver]
      constructor
      · rintro ⟨s, hs, hx, rfl⟩; exact ⟨s.1, hs, hx⟩
      · rintro ⟨k, hk, hx⟩; exact ⟨_, hk, hx, rfl⟩
    have ha : (∀ s ∈ l, In o x s.1 → s.2 ≤ w') ↔ ∀ v ∈ valuesOver o l x, v ≤ w' := by
      constructor
      · intro hh v hv
        obtain ⟨k, hk, hx⟩ := mem_valuesOver.1 hv
        exact hh _ hk hx
      · intro hh s hs hx
        exact hh _ (mem_valuesOver.2 ⟨s.1, hs, hx⟩)
    rw [v, hm, ha]
    cases valuesOver o l x with
    | nil => simp [together]
    | cons a vs =>
      obtain ⟨h1, h2, h3⟩ := hg vs a
      show some (vs.foldl (fun u v => if u < v then v else u) a) = some w' ↔ _
      generalize vs.foldl (fun u v => if u < v then v else u) a = r at *
      constructor
      · intro hr
        cases hr
        refine ⟨?_, ?_⟩
        · rcases h1 with rfl | h1
          · simp
          · simp [h1]
        · intro v hv
          rcases List.mem_cons.1 hv with rfl | hv
          · exact h2
          · exact h3 v hv
      · rintro ⟨hw1, hw2⟩
        congr 1
        apply le_antisymm
        · rcases h1 with rfl | h1
          · exact hw2 _ (by simp)
          · exact hw2 _ (by simp [h1])
        · rcases List.mem_cons.1 hw1 with rfl | hw1
          · exact h2
          · exact h3 _ hw1
  · have := k x
    rw [← valueAt_key w] at this
    rw [← not_iff_not, ← ne_eq, this]
    push Not
    rfl

theorem countedSums_comm (joining absorbs total : Bool) : CommMonoidValues (.countedSums joining absorbs total) where
  assoc := by intro u v w; exact add_assoc u v w
  ident_left := by intro v; exact zero_add v
  ident_right := by intro v; exact add_zero v
  version := by intro v; rfl
  comm := by intro u v; exact add_comm u v

theorem countedSums_neutral (joining absorbs total : Bool) : Neutral (.countedSums joining absorbs total) where
  plus_ident := by intro v; exact zero_add v
  plus_ne := by intro v hv; exact hv
  minus_ne := by intro _ hh; simp [MapType.countedSums] at hh
  sect_ne := by intro v hv; exact hv

/-- example/partys_height_average: each guest is added with `counted_sum(height)`. Then the value of `x` consists of the sum
of the heights and the number of the guests who are there at `x`. -/
theorem C48_height_average (h : IntervalClass o) (joining absorbs total : Bool) (l : List (Option Nat × I × ℤ)) :
    ∃ m, IMap.feed o (.countedSums joining absorbs total) [] (l.map fun a => (a.1, a.2.1, a.2.2, 1)) = some m ∧
      MapWellFormed o m ∧ (joining = true → MapFullyJoined o m) ∧
      ∀ x, valueAt o m x = if valuesOver o (l.map Prod.snd) x = [] then none else
        some ((valuesOver o (l.map Prod.snd) x).sum, ((valuesOver o (l.map Prod.snd) x).length : ℤ)) := by
  obtain ⟨m, e, w, n, j, v⟩ := C48_aggregate h (countedSums_neutral joining absorbs total)
    (countedSums_comm joining absorbs total).toMonoidValues (l.map fun a => (a.1, a.2.1, a.2.2, 1))
    (mapWellFormed_iff.2 wf_nil) (fun _ hs => by cases hs)
  refine ⟨m, e, w, fun hj => j hj ((mapFullyJoined_iff h.lawful wf_nil).2 joined_nil), fun x => ?_⟩
  rw [v, show valueAt o ([] : List (I × ℤ × ℤ)) x = none from rfl]
  have e1 : valuesOver o ((l.map fun a => (a.1, a.2.1, a.2.2, (1 : ℤ))).map Prod.snd) x =
      (valuesOver o (l.map Prod.snd) x).map fun s => (s, (1 : ℤ)) := by
    clear * -
    induction l with
    | nil => rfl
    | cons a l ih =>
      simp only [List.map_cons, valuesOver_cons, ih]
      split <;> rfl
  rw [e1]
  generalize valuesOver o (l.map Prod.snd) x = vs
  have e2 : ((vs.map fun s => (s, (1 : ℤ))).foldl (fun a b => a + b) (0 : ℤ × ℤ)) = (vs.sum, (vs.length : ℤ)) := by
    rw [foldl_sum, zero_add]
    induction vs with
    | nil => rfl
    | cons s vs ih => rw [List.map_cons, List.sum_cons, ih]; ext <;> simp [add_comm]
  unfold aggregate
  by_cases h0 : vs = []
  · simp [h0]
  · have h1 : vs.length ≠ 0 := fun hh => h0 (List.length_eq_zero_iff.1 hh)
    rw [if_neg (by simpa using h0), if_neg h0, Option.getD_none]
    have : (vs.map fun s => (s, (1 : ℤ))).foldl (MapType.countedSums joining absorbs total).plus.apply
        (MapType.countedSums joining absorbs total).cfg.ident = (vs.sum, (vs.length : ℤ)) := e2
    rw [this, stored, if_neg]
    rintro ⟨_, hh⟩
    have : (vs.length : ℤ) = 0 := congrArg Prod.snd hh
    omega

/-- Guests who leave: what has been added may be subtracted again, in any order. The value of `x` is then the sum of what
is left, and `x` is not in the map if nothing is left. -/
theorem C48_leave (h : IntervalClass o) (joining total signed : Bool) (l r : List (I × ℤ)) (hl : ∀ s ∈ l, 0 < s.2)
    (hr : r.Subperm l) :
    ∃ m m', IMap.feed o (.numeric joining true total signed) [] (l.map (none, ·)) = some m ∧
      IMap.drain o (.numeric joining true total signed) m r = some m' ∧ MapWellFormed o m' ∧
      (joining = true → MapFullyJoined o m') ∧
      ∀ x, valueAt o m' x =
        if (valuesOver o l x).sum = (valuesOver o r x).sum then none
        else some ((valuesOver o l x).sum - (valuesOver o r x).sum) := by
  obtain ⟨m, e, w, _, j, v⟩ := C48_aggregate h (numeric_neutral (W := ℤ) joining true total signed)
    (numeric_comm joining true total signed).toMonoidValues (l.map (none, ·)) (mapWellFormed_iff.2 wf_nil)
    (fun _ hs => by cases hs)
  obtain ⟨m', e', w', j', v'⟩ := drain_at (t := .numeric joining true total signed) h r w
  refine ⟨m, m', e, e', w', fun hj => j' hj (j hj ((mapFullyJoined_iff h.lawful wf_nil).2 joined_nil)), fun x => ?_⟩
  have hmm : (l.map fun s => ((none : Option Nat), s)).map Prod.snd = l := by simp [Function.comp_def]
  rw [v', v, show valueAt o ([] : List (I × ℤ)) x = none from rfl, aggregate_numeric, hmm]
  have hpos : ∀ v ∈ valuesOver o l x, 0 < v := fun v hv => by
    obtain ⟨k, hk, _⟩ := mem_valuesOver.1 hv
    exact hl _ hk
  have hsub : (valuesOver o r x).Subperm (valuesOver o l x) := by
    obtain ⟨r', hp, hs⟩ := hr
    exact ⟨valuesOver o r' x, valuesOver_perm hp x, (hs.filter _).map _⟩
  refine foldl_subtracted joining total signed _ (fun v hv => hpos v (hsub.subset hv)) _ ?_
  obtain ⟨r', hp, hs⟩ := hsub
  rw [← hp.sum_eq]
  exact sum_le_of_sublist hs hpos

/-! ### Cases -/

/-- example/overlap_counter: `[4,8)`, `[6,9)`, `[1,9)`. -/
example : IMap.feed Ex.ro (exMap true true false) [] [(none, Ex.r 4 8, 1), (none, Ex.r 6 9, 1), (none, Ex.r 1 9, 1)] =
      some [(Ex.r 1 4, 1), (Ex.r 4 6, 2), (Ex.r 6 8, 3), (Ex.r 8 9, 2)] ∧
    IMap.feed Ex.ro (exMap false true false) []
      [(none, Ex.r 1 9, 1), (some 3, Ex.r 6 9, 1), (some 0, Ex.r 4 8, 1)] =
      some [(Ex.r 1 4, 1), (Ex.r 4 6, 2), (Ex.r 6 8, 3), (Ex.r 8 9, 2)] ∧
    overlaps Ex.ro [Ex.r 4 8, Ex.r 6 9, Ex.r 1 9] 7 = 3 := by decide
/-- example/partys_tallest_guests -/
example : IMap.feed Ex.ro (.maxima true true false) [] [(none, Ex.r 1930 2300, 180), (none, Ex.r 2010 2400, 170),
      (none, Ex.r 2215 2430, 200)] = some [(Ex.r 1930 2215, 180), (Ex.r 2215 2430, 200)] ∧
    IMap.feed Ex.ro (.maxima false true false) [] [(none, Ex.r 1930 2300, 180), (none, Ex.r 2010 2400, 170),
      (none, Ex.r 2215 2430, 200)] = some [(Ex.r 1930 2010, 180), (Ex.r 2010 2215, 180), (Ex.r 2215 2300, 200),
        (Ex.r 2300 2400, 200), (Ex.r 2400 2430, 200)] := by decide
/-- example/partys_height_average -/
example : IMap.feed Ex.ro (.countedSums true true false) [] [(none, Ex.r 1930 2300, 165, 1), (none, Ex.r 1930 2300, 180, 1),
      (none, Ex.r 2010 2400, 170, 1)] =
    some [(Ex.r 1930 2010, 345, 2), (Ex.r 2010 2300, 515, 3), (Ex.r 2300 2400, 170, 1)] := by decide
/-- Guests leave. -/
example : IMap.drain Ex.ro (exMap true true false) [(Ex.r 1 4, 1), (Ex.r 4 6, 2), (Ex.r 6 8, 3), (Ex.r 8 9, 2)]
      [(Ex.r 1 9, 1), (Ex.r 4 8, 1)] = some [(Ex.r 6 9, 1)] ∧
    [(Ex.r 1 9, (1 : ℤ)), (Ex.r 4 8, 1)].Subperm [(Ex.r 4 8, 1), (Ex.r 6 9, 1), (Ex.r 1 9, 1)] := by
  refine ⟨by decide, [(Ex.r 4 8, 1), (Ex.r 1 9, 1)], .swap _ _ _, ?_⟩
  decide
/-- `P` for the overlap counter: positive numbers. -/
example : (∀ v : ℤ, 0 < v → ¬ Ignored (exMap false true false) v) ∧
    ∀ u v : ℤ, 0 < u → 0 < v → 0 < (exMap false true false).plus.apply u v := by
  refine ⟨fun v hv hi => ?_, fun u v hu hv => ?_⟩
  · have : v = 0 := hi.2
    omega
  · show 0 < u + v
    omega

/-- Subtraction of something that has never been added does not give the sum of what is left: a partial map ignores it where
nothing is stored, and what is absorbed in between cannot be subtracted from. -/
theorem C48_counterexample_leave :
    (do let m ← IMap.feed Ex.ro (exMap true true false) [] [(none, Ex.r 0 5, 1)]
        let m ← IMap.drain Ex.ro (exMap true true false) m [(Ex.r 0 9, 1)]
        IMap.feed Ex.ro (exMap true true false) m [(none, Ex.r 0 9, 1)]) = some [(Ex.r 0 9, 1)] := by decide

/-- If sums may cancel, the segments of a `split_interval_map` depend on the order of the additions, though the values
do not. -/
theorem C48_counterexample_split_order :
    IMap.feed Ex.ro (exMap false true false) [] [(none, Ex.r 0 5, 1), (none, Ex.r 2 3, 1), (none, Ex.r 2 3, -1)] =
      some [(Ex.r 0 2, 1), (Ex.r 2 3, 1), (Ex.r 3 5, 1)] ∧
    IMap.feed Ex.ro (exMap false true false) [] [(none, Ex.r 2 3, 1), (none, Ex.r 2 3, -1), (none, Ex.r 0 5, 1)] =
      some [(Ex.r 0 5, 1)] := by decide

end ICL.Props
