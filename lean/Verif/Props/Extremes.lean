import Verif.Theory.Extremes
import Verif.Props.MapOps

/-!
# C44: the extremes of a container; C45: selection by a predicate

`zero` and `unit` are the values that the functions return for an empty container, `identity_element<DomainT>` and
`unit_element<DomainT>`.
-/

set_option linter.unusedSectionVars false
set_option linter.unusedVariables false

namespace ICL.Props
open Spec

/-! ## C44: extremes -/

section
variable {D I V : Type} [LinearOrder D] {o : IntervalOps D I} {e : ElementOps D I} {lo up : I → D}

/-- `first(s)` is the least element of a set that has elements. -/
theorem C44_set_first (h : DiscreteClass o e) (unit : D) {s : List I} (hs : WellFormed o s) (hn : ∃ x, Elem o s x) :
    Elem o s (firstOf setSeg unit e s) ∧ ∀ x, Elem o s x → firstOf setSeg unit e s ≤ x :=
  firstOf_spec h unit (wellFormed_iff.1 hs) hn

/-- `last(s)` is the greatest element of a set that has elements. -/
theorem C44_set_last (h : DiscreteClass o e) (zero : D) {s : List I} (hs : WellFormed o s) (hn : ∃ x, Elem o s x) :
    Elem o s (lastOf setSeg zero e s) ∧ ∀ x, Elem o s x → x ≤ lastOf setSeg zero e s :=
  lastOf_spec h zero (wellFormed_iff.1 hs) hn

/-- `first(s) <= last(s)` tells whether the set has an element. -/
theorem C44_set_first_last (h : DiscreteClass o e) {zero unit : D} (hu : zero < unit) {s : List I}
    (hs : WellFormed o s) : firstOf setSeg unit e s ≤ lastOf setSeg zero e s ↔ ∃ x, Elem o s x :=
  firstOf_lastOf h hu (wellFormed_iff.1 hs)

/-- All elements lie between `lower(s)` and `upper(s)`, and these bounds cannot be improved but by excluding them: a
value strictly between them lies between elements of the set. -/
theorem C44_set_ends (h : EndsClass o lo up) {zero unit : D} (hu : zero < unit) {s : List I} (hs : WellFormed o s)
    (x : D) : (Elem o s x → lowerOf setSeg unit lo s ≤ x ∧ x ≤ upperOf setSeg zero up s) ∧
      (lowerOf setSeg unit lo s < x → x < upperOf setSeg zero up s →
        ∃ y z, Elem o s y ∧ Elem o s z ∧ y ≤ x ∧ x ≤ z) :=
  endsOf_spec h hu (wellFormed_iff.1 hs) x

/-- `lower(s) <= upper(s)` tells whether the set has an element. -/
theorem C44_set_ends_empty (h : EndsClass o lo up) {zero unit : D} (hu : zero < unit) {s : List I}
    (hs : WellFormed o s) : lowerOf setSeg unit lo s ≤ upperOf setSeg zero up s ↔ ∃ x, Elem o s x :=
  endsOf_empty h hu (wellFormed_iff.1 hs)

/-- `first(m)` is the least key of a map that has keys. -/
theorem C44_map_first (h : DiscreteClass o e) (unit : D) {m : List (I × V)} (hm : MapWellFormed o m)
    (hn : ∃ x, Key o m x) :
    Key o m (firstOf mapSeg unit e m) ∧ ∀ x, Key o m x → firstOf mapSeg unit e m ≤ x :=
  firstOf_spec h unit (mapWellFormed_iff.1 hm) hn

/-- `last(m)` is the greatest key of a map that has keys. -/
theorem C44_map_last (h : DiscreteClass o e) (zero : D) {m : List (I × V)} (hm : MapWellFormed o m)
    (hn : ∃ x, Key o m x) :
    Key o m (lastOf mapSeg zero e m) ∧ ∀ x, Key o m x → x ≤ lastOf mapSeg zero e m :=
  lastOf_spec h zero (mapWellFormed_iff.1 hm) hn

/-- `first(m) <= last(m)` tells whether the map has a key. -/
theorem C44_map_first_last (h : DiscreteClass o e) {zero unit : D} (hu : zero < unit) {m : List (I × V)}
    (hm : MapWellFormed o m) : firstOf mapSeg unit e m ≤ lastOf mapSeg zero e m ↔ ∃ x, Key o m x :=
  firstOf_lastOf h hu (mapWellFormed_iff.1 hm)

/-- All keys lie between `lower(m)` and `upper(m)`, and a value strictly between them lies between keys. -/
theorem C44_map_ends (h : EndsClass o lo up) {zero unit : D} (hu : zero < unit) {m : List (I × V)}
    (hm : MapWellFormed o m) (x : D) :
    (Key o m x → lowerOf mapSeg unit lo m ≤ x ∧ x ≤ upperOf mapSeg zero up m) ∧
      (lowerOf mapSeg unit lo m < x → x < upperOf mapSeg zero up m →
        ∃ y z, Key o m y ∧ Key o m z ∧ y ≤ x ∧ x ≤ z) :=
  endsOf_spec h hu (mapWellFormed_iff.1 hm) x

/-- `lower(m) <= upper(m)` tells whether the map has a key. -/
theorem C44_map_ends_empty (h : EndsClass o lo up) {zero unit : D} (hu : zero < unit) {m : List (I × V)}
    (hm : MapWellFormed o m) : lowerOf mapSeg unit lo m ≤ upperOf mapSeg zero up m ↔ ∃ x, Key o m x :=
  endsOf_empty h hu (mapWellFormed_iff.1 hm)

example : firstOf setSeg 1 Ex.roE [Ex.r (-3) 0, Ex.r 2 5] = -3 ∧ lastOf setSeg 0 Ex.roE [Ex.r (-3) 0, Ex.r 2 5] = 4 ∧
    lowerOf setSeg 1 SItv.lo [Ex.r (-3) 0, Ex.r 2 5] = -3 ∧ upperOf setSeg 0 SItv.up [Ex.r (-3) 0, Ex.r 2 5] = 5 ∧
    firstOf mapSeg 1 Ex.roE exN = 0 ∧ lastOf mapSeg 0 Ex.roE exN = 8 ∧
    firstOf setSeg 1 Ex.roE [] = 1 ∧ lastOf setSeg 0 Ex.roE [] = 0 ∧
    WellFormed Ex.ro [Ex.r (-3) 0, Ex.r 2 5] ∧ EndsClass Ex.ro SItv.lo SItv.up :=
  ⟨by decide, by decide, by decide, by decide, by decide, by decide, by decide, by decide,
    wellFormed_ro _ (by decide) (by decide), .rightOpen 0⟩

end

/-! ## C45: `erase_if`, `add_if` -/

section
variable {D I V : Type} [LinearOrder D] [DecidableEq V] {o : IntervalOps D I}

/-- `erase_if(p, m)` removes the segments for which `p` holds and leaves all others as they are. -/
theorem C45_erase_if (h : IntervalClass o) (p : I × V → Bool) {m : List (I × V)} (hm : MapWellFormed o m) :
    MapWellFormed o (IMap.eraseIf p m) ∧ (MapFullyJoined o m → MapFullyJoined o (IMap.eraseIf p m)) ∧
      (∀ s, s ∈ IMap.eraseIf p m ↔ s ∈ m ∧ p s = false) ∧
      ∀ x v, Assoc o (IMap.eraseIf p m) x v ↔ ∃ s ∈ m, p s = false ∧ In o x s.1 ∧ s.2 = v := by
  have hw := mapWellFormed_iff.1 hm
  have he := IMap.eraseIf_wf h.lawful p hw
  have hmem : ∀ s, s ∈ IMap.eraseIf p m ↔ s ∈ m ∧ p s = false := by intro s; simp [IMap.eraseIf]
  refine ⟨mapWellFormed_iff.2 he, fun hj => (mapFullyJoined_iff h.lawful he).2
    (IMap.eraseIf_joined h.lawful p ((mapFullyJoined_iff h.lawful hw).1 hj)), hmem, fun x v => ?_⟩
  unfold Assoc
  constructor
  · rintro ⟨s, hs, hx⟩
    exact ⟨s, ((hmem s).1 hs).1, ((hmem s).1 hs).2, hx⟩
  · rintro ⟨s, hs, hp, hx⟩
    exact ⟨s, (hmem s).2 ⟨hs, hp⟩, hx⟩

example : IMap.eraseIf (fun s : SItv ℤ × ℤ => decide (s.2 = 1)) exN = [(Ex.r 5 9, 2)] := by decide

/-- `add_if(p, m, n)`: what a user expects is that it adds the segments of `n` for which `p` holds.  It does so if `p`
holds for all of them. -/
theorem C45_add_if_partial (h : IntervalClass o) {t : MapType V} (hN : Versions t) (p : I × V → Bool)
    {m n : List (I × V)} (hm : MapWellFormed o m) (hn : MapWellFormed o n) (hi : NoIdentity t m)
    (hp : ∀ s ∈ n, p s = true) :
    ∃ m', (∀ k, n.length < k → IMap.addIf o t p k m n = some m') ∧ MapWellFormed o m' ∧
      (∀ x v, valueAt o n x = some v → valueAt o m' x = added t v (valueAt o m x)) ∧
      ∀ x, valueAt o n x = none → valueAt o m' x = valueAt o m x := by
  obtain ⟨m', e, pt⟩ := IMap.addSegs_pt h.lawful t (mapWellFormed_iff.1 hm) (mapWellFormed_iff.1 hn)
  simp only [added_eq]
  exact ⟨m', fun k hk => (IMap.addIf_all n k m hp hk).trans e, mapWellFormed_iff.2 pt.wf,
    over_split (pt.at_ hN (noIdentity_iff.1 hi))⟩

/-- Otherwise it does not return: the loop tests its condition without end. -/
theorem C45_counterexample_add_if (o : IntervalOps D I) (t : MapType V) (p : I × V → Bool) (m n : List (I × V))
    {s : I × V} (hs : s ∈ n) (hp : p s = false) (k : Nat) : IMap.addIf o t p k m n = none :=
  IMap.addIf_loops hp k m n hs

/-- `add_if(value == 1, m, m)`, where `m` has a segment with the value 2, and `add_if(value > 0, m, m)` -/
example : (Ex.r 5 9, 2) ∈ exN ∧ (decide ((2 : ℤ) = 1)) = false ∧
    IMap.addIf Ex.ro (exMap true true false) (fun s => decide (0 < s.2)) 4 exN exN =
      some [(Ex.r 0 4, 2), (Ex.r 5 9, 4)] := ⟨by decide, by decide, by decide⟩

end
end ICL.Props
