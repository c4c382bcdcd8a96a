import Verif.Theory.Morphism
import Verif.Props.Simulation
import Verif.Props.Machine

/-!
# C46: containers of elements from interval containers and back

`segmental::atomize` writes the elements of an interval container into a container of elements, `segmental::cluster`
goes the other way.  `SetRep o s e` and `MapRep o m e` (`SimSpec.lean`) say that the interval container and the
container of elements have the same content.
-/

set_option linter.unusedSectionVars false
set_option linter.unusedVariables false

namespace ICL.Props
open Spec

section
variable {D I V : Type} [LinearOrder D] {o : IntervalOps D I} {e : ElementOps D I}

/-- `atomize(r, s)` for sets: it ends after a finite number of steps and adds the elements of `s` to `r`, provided the
intervals are finite and do not contain the greatest value of the domain. -/
theorem C46_atomize_set (h : DiscreteClass o e) (st : Steps D) {s : List I} (hs : WellFormed o s)
    (hf : ∀ i ∈ s, ∃ xs, ElementsOf o i xs) (hm : ∀ i ∈ s, ∃ z, ∀ x, In o x i → x < z) {r : List D}
    (hr : r.Pairwise (· < ·)) :
    ∃ N r', (∀ n, N ≤ n → atomizeSet st e n r s = some r') ∧ Enumerates r' fun x => x ∈ r ∨ Elem o s x := by
  classical
  let el : I → List D := fun i => if hi : ∃ xs, ElementsOf o i xs then hi.choose else []
  have hel : ∀ i ∈ s, ElementsOf o i (el i) := fun i hi => by
    simp only [el, dif_pos (hf i hi)]; exact (hf i hi).choose_spec
  obtain ⟨N, hN⟩ := atomize_eq (g := setSeg) st h (fun _ : Unit => ESet.add) el s fun i hi =>
    ⟨hs.1 i hi, hel i hi, hm i hi⟩
  obtain ⟨h1, h2⟩ := foldl_sets el s r hr
  refine ⟨N, _, fun n hn => hN n hn r, h1, fun x => (h2 x).trans (or_congr_right ?_)⟩
  exact ⟨fun ⟨i, hi, hx⟩ => ⟨i, hi, ((hel i hi).2 x).1 hx⟩, fun ⟨i, hi, hx⟩ => ⟨i, hi, ((hel i hi).2 x).2 hx⟩⟩

/-- `cluster(r, src)` for sets: the elements of `src` are added to `r`, provided they have one-element intervals. -/
theorem C46_cluster_set (h : DiscreteClass o e) (st : Style) {r : List I} (hr : WellFormed o r) (src : List D)
    (hd : ∀ x ∈ src, o.isEmpty (e.singleton x) = false) :
    ∃ r', clusterSet o e st r src = some r' ∧ WellFormed o r' ∧
      (st = .joining → FullyJoined o r → FullyJoined o r') ∧ ∀ x, Elem o r' x ↔ Elem o r x ∨ x ∈ src := by
  have hw := wellFormed_iff.1 hr
  obtain ⟨r', e1, w, j, d⟩ := addItvs_spec h.cls.lawful st (src.map e.singleton) r hw
  refine ⟨r', ?_, wellFormed_iff.2 w, fun hst hj => (fullyJoined_iff h.cls.lawful w).2
    (j hst ((fullyJoined_iff h.cls.lawful hw).1 hj)), fun x => ?_⟩
  · rw [← e1]
    unfold clusterSet
    clear * -
    induction src generalizing r with
    | nil => rfl
    | cons x src ih =>
      rw [List.map_cons, forEach, forEach]
      cases ISet.add o st r (e.singleton x) with
      | none => rfl
      | some r1 => exact ih
  · rw [elem_iff, elem_iff, d x]
    refine or_congr_right ?_
    constructor
    · rintro ⟨k, hk, hx⟩
      obtain ⟨y, hy, rfl⟩ := List.mem_map.1 hk
      rw [(h.mem_singleton (hd y hy) x).1 hx]; exact hy
    · intro hx
      exact ⟨_, List.mem_map_of_mem hx, (h.mem_singleton (hd x hx) x).2 rfl⟩

variable [DecidableEq V]

/-- `atomize(r, m)` for maps: the associations of `m` are inserted into `r`. -/
theorem C46_atomize_map (h : DiscreteClass o e) (st : Steps D) (t : MapType V) {m : List (I × V)}
    (hm : MapWellFormed o m) (hf : ∀ s ∈ m, ∃ xs, ElementsOf o s.1 xs)
    (hz : ∀ s ∈ m, ∃ z, ∀ x, In o x s.1 → x < z) {r : List (D × V)} (hr : Ascending Prod.fst r) :
    ∃ N r', (∀ n, N ≤ n → atomizeMap st e t n r m = some r') ∧ Ascending Prod.fst r' ∧
      (∀ x v, valueAt o m x = some v → valueOf r' x = inserted t v (valueOf r x)) ∧
      ∀ x, valueAt o m x = none → valueOf r' x = valueOf r x := by
  classical
  have hw := mapWellFormed_iff.1 hm
  let el : I × V → List D := fun s => if hi : ∃ xs, ElementsOf o s.1 xs then hi.choose else []
  have hel : ∀ s ∈ m, ElementsOf o s.1 (el s) := fun i hi => by
    simp only [el, dif_pos (hf i hi)]; exact (hf i hi).choose_spec
  obtain ⟨N, hN⟩ := atomize_eq (g := mapSeg) st h (fun (v : V) (r : List (D × V)) x => (EMap.insert t r x v).1) el m
    fun i hi => ⟨hw.nonempty i hi, hel i hi, hz i hi⟩
  obtain ⟨h1, h2⟩ := foldl_maps h.cls.lawful t el m r hr hw hel
  refine ⟨N, _, fun n hn => hN n hn r, h1, fun x v hv => ?_, fun x hv => ?_⟩ <;>
  · have := h2 x
    dsimp only at this
    rw [hv] at this
    exact this

/-- `cluster(r, src)` for maps: the pairs of `src` are added to `r`. -/
theorem C46_cluster_map (h : DiscreteClass o e) (t : MapType V) {r : List (I × V)} (hr : MapWellFormed o r)
    {src : List (D × V)} (hs : Ascending Prod.fst src) (hd : ∀ s ∈ src, o.isEmpty (e.singleton s.1) = false) :
    ∃ r', clusterMap o e t r src = some r' ∧ MapWellFormed o r' ∧
      (∀ x v, (x, v) ∈ src → valueAt o r' x = added t v (valueAt o r x)) ∧
      ∀ x, (∀ v, (x, v) ∉ src) → valueAt o r' x = valueAt o r x := by
  induction src generalizing r with
  | nil => exact ⟨r, rfl, hr, fun x v hx => by simp at hx, fun x _ => rfl⟩
  | cons s src ih =>
    obtain ⟨p1, p2⟩ := List.pairwise_cons.1 hs
    have hc := hd s (by simp)
    obtain ⟨r1, e1, w1, a1, b1⟩ := C18_add h.cls t hr (e.singleton s.1) s.2
    obtain ⟨r2, e2, w2, a2, b2⟩ := ih w1 p2 fun s hs => hd s (by simp [hs])
    refine ⟨r2, ?_, w2, fun x v hx => ?_, fun x hx => ?_⟩
    · unfold clusterMap at e2 ⊢
      rw [forEach, e1]; exact e2
    · rcases List.mem_cons.1 hx with hx | hx
      · subst hx
        rw [b2 x fun w hw => lt_irrefl x (p1 (x, w) hw), a1 x ((h.mem_singleton hc x).2 rfl)]
      · rw [a2 x v hx, b1 x fun hi => ?_]
        have hi := (h.mem_singleton hc x).1 hi
        exact absurd (p1 _ hx) (by rw [← hi]; exact lt_irrefl _)
    · rw [b2 x fun v hv => hx v (by simp [hv]), b1 x fun hi => hx s.2 ?_]
      have := (h.mem_singleton hc x).1 hi
      subst this
      simp

/-- `joiner(joint, split)` for sets: the elements of `split` are added to `joint`; `split` itself is joined, with the
same elements. -/
theorem C46_joiner_set (h : IntervalClass o) (st : Style) {joint split : List I} (hj : WellFormed o joint)
    (hs : WellFormed o split) :
    ∃ joint' split', joinerSet o st joint split = some (joint', split') ∧ WellFormed o joint' ∧ WellFormed o split' ∧
      FullyJoined o split' ∧ (∀ x, Elem o split' x ↔ Elem o split x) ∧
      ∀ x, Elem o joint' x ↔ Elem o joint x ∨ Elem o split x := by
  obtain ⟨s', e1, w1, d1, j1⟩ := joinAll_spec h.lawful setSeg_lawful (wellFormed_iff.1 hs)
  obtain ⟨j', e2, w2, -, d2⟩ := addItvs_spec h.lawful st s' joint (wellFormed_iff.1 hj)
  have hd : ∀ x, Elem o s' x ↔ Elem o split x := fun x => by
    have hu : ∀ l : List I, Maps o setSeg l x () ↔ Elem o l x := fun l =>
      ⟨Maps.dom, fun ⟨i, hi, hx⟩ => ⟨i, hi, hx, rfl⟩⟩
    rw [← hu, ← hu]; exact d1 x ()
  refine ⟨j', s', ?_, wellFormed_iff.2 w2, wellFormed_iff.2 w1, (fullyJoined_iff h.lawful w1).2 j1, hd, fun x => ?_⟩
  · simp only [joinerSet, e1, e2, Option.bind_eq_bind, Option.bind_some, Option.pure_def]
  · rw [← hd x]; exact d2 x

/-- `joiner(joint, split)` for maps: the associations of `split` are inserted into `joint`; `split` itself is joined,
with the same associations. -/
theorem C46_joiner_map (h : IntervalClass o) (t : MapType V) {joint split : List (I × V)} (hj : MapWellFormed o joint)
    (hs : MapWellFormed o split) :
    ∃ joint' split', joinerMap o t joint split = some (joint', split') ∧ MapWellFormed o joint' ∧
      MapWellFormed o split' ∧ MapFullyJoined o split' ∧ (∀ x v, Assoc o split' x v ↔ Assoc o split x v) ∧
      (∀ x v, valueAt o split x = some v → valueAt o joint' x = inserted t v (valueAt o joint x)) ∧
      ∀ x, valueAt o split x = none → valueAt o joint' x = valueAt o joint x := by
  obtain ⟨s', e1, w1, d1, j1⟩ := joinAll_spec h.lawful mapSeg_lawful (mapWellFormed_iff.1 hs)
  obtain ⟨j', e2, p⟩ := insertSegs_at h.lawful t (mapWellFormed_iff.1 hj) w1
  have hv : ∀ x, valueAt o s' x = valueAt o split x := (maps_valueAt (mapWellFormed_iff.2 w1) hs).1 d1
  have ho := over_split (Pt.enriched_at p)
  simp only [hv] at ho
  refine ⟨j', s', ?_, mapWellFormed_iff.2 p.wf, mapWellFormed_iff.2 w1, (mapFullyJoined_iff h.lawful w1).2 j1, d1, ?_⟩
  · simp only [joinerMap, e1, e2, Option.bind_eq_bind, Option.bind_some, Option.pure_def]
  · simp only [inserted_eq]; exact ho

/-- `identity_absorber(absorber, enricher)`: identity elements are removed from the enricher, its other associations are
inserted into the absorber. -/
theorem C46_identity_absorber (h : IntervalClass o) {t t' : MapType V} (ht' : t'.cfg.absorbs = false)
    {a b : List (I × V)} (ha : MapWellFormed o a) (hb : MapWellFormed o b) :
    ∃ a' b', identityAbsorber o t t' a b = some (a', b') ∧ MapWellFormed o a' ∧ MapWellFormed o b' ∧
      (∀ x v, Assoc o b' x v ↔ Assoc o b x v ∧ v ≠ t'.cfg.ident) ∧
      (∀ x v, valueAt o b x = some v → v ≠ t'.cfg.ident → valueAt o a' x = inserted t v (valueAt o a x)) ∧
      ∀ x, (valueAt o b x = none ∨ valueAt o b x = some t'.cfg.ident) → valueAt o a' x = valueAt o a x := by
  obtain ⟨w, d⟩ := C30_absorb_identities h t' ht' hb
  obtain ⟨a', e2, p⟩ := insertSegs_at h.lawful t (mapWellFormed_iff.1 ha) (mapWellFormed_iff.1 w)
  have ho := over_split (Pt.enriched_at p)
  refine ⟨a', IMap.absorbIdentities t' b, ?_, mapWellFormed_iff.2 p.wf, w, d, fun x v hv hn => ?_, fun x hx => ?_⟩
  · simp only [identityAbsorber, e2, Option.bind_eq_bind, Option.bind_some, Option.pure_def]
  · rw [inserted_eq]
    exact ho.1 x v ((valueAt_assoc w x v).2 ((d x v).2 ⟨(valueAt_assoc hb x v).1 hv, hn⟩))
  · refine ho.2 x ?_
    rw [Option.eq_none_iff_forall_ne_some]
    intro v hv
    obtain ⟨h1, h2⟩ := (d x v).1 ((valueAt_assoc w x v).1 hv)
    have h1 := (valueAt_assoc hb x v).2 h1
    rcases hx with hx | hx <;> rw [hx] at h1
    · cases h1
    · exact h2 (Option.some.inj h1).symm

/-- `atomize` does not end if an interval contains the greatest value of the domain. -/
theorem C46_counterexample_atomize (h : DiscreteClass o e) (st : Steps D) {i : I} {z : D} (hz : In o z i)
    (hm : ∀ y, y ≤ z) (n : Nat) (r : List D) (s : List I) : atomizeSet st e n r (i :: s) = none := by
  have hl : ∀ y, y ≤ e.last i := fun y => le_trans (hm y) ((h.mem_iff ⟨z, hz⟩ z).1 hz).2
  unfold atomizeSet atomize
  rw [forEach]
  simp only [setSeg_key]
  rw [atomizeLoop_loops hl]
  rfl

end

/-! ## The integers -/

section
variable {I V : Type} [DecidableEq V] {o : IntervalOps ℤ I} {e : ElementOps ℤ I}

theorem finite_int (h : DiscreteClass o e) (i : I) :
    (∃ xs, ElementsOf o i xs) ∧ ∃ z, ∀ x, In o x i → x < z := by
  classical
  obtain ⟨xs, hx, -⟩ := C28_interval h i
  refine ⟨⟨xs, hx⟩, e.last i + 1, fun x hi => ?_⟩
  have := ((h.mem_iff ⟨x, hi⟩ x).1 hi).2
  omega

/-- Atomizing an interval set and clustering the result gives a set with the same elements, and an equal set if both are
fully joined. -/
theorem C46_set_round_trip (h : DiscreteClass o e) (st : Style) {s : List I} (hs : WellFormed o s) :
    ∃ N xs s', (∀ n, N ≤ n → atomizeSet stepsInt e n [] s = some xs) ∧ SetRep o s xs ∧
      clusterSet o e st [] xs = some s' ∧ SetRep o s' xs ∧ (∀ x, Elem o s' x ↔ Elem o s x) ∧
      (st = .joining → FullyJoined o s → eqC o setSeg s' s = true) := by
  obtain ⟨N, xs, h1, h2⟩ := C46_atomize_set h stepsInt hs (fun i _ => (finite_int h i).1)
    (fun i _ => (finite_int h i).2) (r := []) .nil
  have h3 : Enumerates xs (Elem o s) := ⟨h2.1, fun x => (h2.2 x).trans (by simp)⟩
  have hnil : WellFormed o ([] : List I) := wellFormed_iff.2 wf_nil
  obtain ⟨s', e1, w, j, d⟩ := C46_cluster_set h st hnil xs fun x _ => h.singleton_full x
  have hd : ∀ x, Elem o s' x ↔ x ∈ xs := fun x => (d x).trans (by simp [Elem])
  have hd' : ∀ x, Elem o s' x ↔ Elem o s x := fun x => (hd x).trans (h3.2 x)
  refine ⟨N, xs, s', h1, ⟨hs, h3⟩, e1, ⟨w, h2.1, fun x => (hd x).symm⟩, hd', fun hst hj => ?_⟩
  have w1 := wellFormed_iff.1 w
  have w2 := wellFormed_iff.1 hs
  rw [eqC_joined h.cls.lawful w1 w2 ((fullyJoined_iff h.cls.lawful w1).1 (j hst ?_))
    ((fullyJoined_iff h.cls.lawful w2).1 hj)]
  · have hu : ∀ (l : List I) x v, Maps o setSeg l x v ↔ Elem o l x := fun l x v =>
      ⟨Maps.dom, fun ⟨i, hi, hx⟩ => ⟨i, hi, hx, rfl⟩⟩
    exact fun x v => by rw [hu, hu]; exact hd' x
  · intro p i k q hh; simp at hh

/-- Clustering a set of elements and atomizing the result gives the same set of elements. -/
theorem C46_element_set_round_trip (h : DiscreteClass o e) (st : Style) {xs : List ℤ} (hx : xs.Pairwise (· < ·)) :
    ∃ s N, clusterSet o e st [] xs = some s ∧ SetRep o s xs ∧
      ∀ n, N ≤ n → atomizeSet stepsInt e n [] s = some xs := by
  have hnil : WellFormed o ([] : List I) := wellFormed_iff.2 wf_nil
  obtain ⟨s, e1, w, j, d⟩ := C46_cluster_set h st hnil xs fun x _ => h.singleton_full x
  obtain ⟨N, ys, h1, h2⟩ := C46_atomize_set h stepsInt w (fun i _ => (finite_int h i).1)
    (fun i _ => (finite_int h i).2) (r := []) .nil
  have hd : ∀ x, Elem o s x ↔ x ∈ xs := fun x => (d x).trans (by simp [Elem])
  have : ys = xs := by
    refine List.Perm.eq_of_pairwise (fun a b _ _ h1 h2 => absurd (lt_trans h1 h2) (lt_irrefl a)) h2.1 hx ?_
    rw [List.perm_ext_iff_of_nodup (h2.1.imp ne_of_lt) (hx.imp ne_of_lt)]
    intro x
    exact (h2.2 x).trans (by simp [hd])
  exact ⟨s, N, e1, ⟨w, hx, fun x => (hd x).symm⟩, fun n hn => this ▸ h1 n hn⟩

/-- Atomizing an interval map without identity elements, and clustering the result, gives a map with the same
associations. -/
theorem C46_map_round_trip (h : DiscreteClass o e) {t : MapType V} (hF : Faithful t) {m : List (I × V)}
    (hm : MapWellFormed o m) (hn : NoIdentity t m) :
    ∃ N xs m', (∀ n, N ≤ n → atomizeMap stepsInt e t n [] m = some xs) ∧ MapRep o m xs ∧
      clusterMap o e t [] xs = some m' ∧ MapRep o m' xs ∧ ∀ x, valueAt o m' x = valueAt o m x := by
  obtain ⟨N, xs, h1, h2, h3, h4⟩ := C46_atomize_map h stepsInt t hm (fun i _ => (finite_int h i.1).1)
    (fun i _ => (finite_int h i.1).2) (r := []) .nil
  have hig : ∀ x v, valueAt o m x = some v → ¬ Ignored t v := fun x v hv => by
    obtain ⟨s, hs, -, rfl⟩ := (valueAt_assoc hm x v).1 hv
    exact hn s hs
  have hv : ∀ x, valueOf xs x = valueAt o m x := fun x => by
    cases hx : valueAt o m x with
    | none => rw [h4 x hx]; rfl
    | some v =>
      rw [h3 x v hx]
      show stored t v = _
      rw [stored, if_neg (hig x v hx)]
  have hr : MapRep o m xs := ⟨hm, h2, fun x v => by
    rw [← valueAt_assoc hm, ← hv, valueOf_eq_some h2]⟩
  have hnil : MapWellFormed o ([] : List (I × V)) := mapWellFormed_iff.2 wf_nil
  obtain ⟨m', e1, w, a, b⟩ := C46_cluster_map h t hnil h2 fun s _ => h.singleton_full s.1
  have hv' : ∀ x, valueAt o m' x = valueAt o m x := fun x => by
    cases hx : valueAt o m x with
    | none =>
      rw [b x fun v hxv => ?_]
      · rfl
      · rw [← valueOf_eq_some h2, hv, hx] at hxv; cases hxv
    | some v =>
      rw [a x v ((valueOf_eq_some h2).1 ((hv x).trans hx))]
      show combined t t.plus v none = _
      rw [combined, if_neg (hig x v hx), hF.version]
  exact ⟨N, xs, m', h1, hr, e1, ⟨w, h2, fun x v => by
    rw [← valueAt_assoc w, hv', ← hv, valueOf_eq_some h2]⟩, hv'⟩

end

example : atomizeSet stepsInt Ex.roE 4 [] [Ex.r 0 2, Ex.r 5 8] = some [0, 1, 5, 6, 7] ∧
    atomizeSet stepsInt Ex.roE 3 [] [Ex.r 0 2, Ex.r 5 8] = none ∧
    clusterSet Ex.ro Ex.roE .joining [] [0, 1, 5, 6, 7] = some [Ex.r 0 2, Ex.r 5 8] ∧
    clusterSet Ex.ro Ex.roE .splitting [] [0, 1, 5] = some [Ex.r 0 1, Ex.r 1 2, Ex.r 5 6] ∧
    atomizeMap stepsInt Ex.roE (exMap true true false) 5 [] [(Ex.r 0 2, 1), (Ex.r 5 6, 0), (Ex.r 7 8, 2)] =
      some [(0, 1), (1, 1), (7, 2)] ∧
    clusterMap Ex.ro Ex.roE (exMap true true false) [] [(0, 1), (1, 1), (7, 2)] =
      some [(Ex.r 0 2, 1), (Ex.r 7 8, 2)] :=
  ⟨by decide, by decide, by decide, by decide, by decide, by decide⟩

example : joinerSet Ex.ro .joining [Ex.r 20 22] [Ex.r 0 2, Ex.r 2 3, Ex.r 22 23] =
      some ([Ex.r 0 3, Ex.r 20 23], [Ex.r 0 3, Ex.r 22 23]) ∧
    joinerMap Ex.ro (exMap true true false) [(Ex.r 1 3, 9)] [(Ex.r 0 2, 1), (Ex.r 2 4, 1)] =
      some ([(Ex.r 0 1, 1), (Ex.r 1 3, 9), (Ex.r 3 4, 1)], [(Ex.r 0 4, 1)]) ∧
    identityAbsorber Ex.ro (exMap true true false) (exMap true false false) [] [(Ex.r 0 2, 1), (Ex.r 2 4, 0)] =
      some ([(Ex.r 0 2, 1)], [(Ex.r 0 2, 1)]) := ⟨by decide +kernel, by decide +kernel, by decide⟩

/-- `[250, 255]` over an unsigned type of eight bits meets the hypotheses of the counterexample. -/
example : DiscreteClass (closedOps (wrapSteps 0 255) ⟨0, by decide⟩ ⟨1, by decide⟩) (closedE (wrapSteps 0 255)) ∧
    In (closedOps (wrapSteps 0 255) ⟨0, by decide⟩ ⟨1, by decide⟩) (⟨255, by decide⟩ : U8)
      ⟨⟨250, by decide⟩, ⟨255, by decide⟩⟩ ∧ ∀ y : U8, y ≤ ⟨255, by decide⟩ :=
  ⟨.closed _ _ _ (by decide), by unfold In; decide, fun y => y.2.2⟩

end ICL.Props
