import Verif.Theory.MapOps

/-!
# How the segments of split interval maps evolve

A border between two keys of the result of `a + b`, `a - b` or `a & b` is a border of `a` or of `b`, and all
such borders between keys of the result are kept.
-/

set_option linter.unusedSectionVars false
set_option linter.unusedVariables false
set_option linter.unusedSimpArgs false

namespace ICL
open Spec IMap

variable {D I V W : Type} [LinearOrder D] {o : IntervalOps D I}

/-- `l'` refines `l` by the borders of the intervals `K`, and has new keys only there. -/
structure Ref (o : IntervalOps D I) (K l l' : List I) : Prop where
  tog : ∀ x y, Dom o setSeg l' x → (Tog o l' x y ↔ Tog o K x y ∧ Tog o l x y)
  out : ∀ z, ¬ Dom o setSeg K z → (Dom o setSeg l' z ↔ Dom o setSeg l z)

theorem Ref.congr {K K' l l' : List I} (hr : Ref o K l l')
    (ht : ∀ x y, Dom o setSeg l' x → (Tog o K x y ↔ Tog o K' x y))
    (hd : ∀ z, Dom o setSeg K z ↔ Dom o setSeg K' z) : Ref o K' l l' :=
  ⟨fun x y hx => by rw [hr.tog x y hx, ht x y hx], fun z hz => hr.out z (by rwa [hd])⟩

theorem Ref.refl (l : List I) : Ref o [] l l :=
  ⟨fun x y _ => by simp [tog_nil], fun _ _ => Iff.rfl⟩

theorem tog_append {a b : List I} {x y : D} : Tog o (a ++ b) x y ↔ Tog o a x y ∧ Tog o b x y := by
  simp [Tog, or_imp, forall_and]

section
variable (h : o.Lawful)
include h

theorem Ref.trans {K K' l l1 l2 : List I} (h1 : Ref o K l l1) (h2 : Ref o K' l1 l2)
    (hd : ∀ z, Dom o setSeg K' z → Dom o setSeg K z → Dom o setSeg l1 z) : Ref o (K ++ K') l l2 := by
  refine ⟨fun x y hx => ?_, fun z hz => ?_⟩
  · rw [h2.tog x y hx, tog_append]
    by_cases hx1 : Dom o setSeg l1 x
    · rw [h1.tog x y hx1]; tauto
    · rw [tog_free hx1]
      have hK' : Dom o setSeg K' x := by
        by_contra hc; exact hx1 ((h2.out x hc).1 hx)
      have hK : ¬ Dom o setSeg K x := fun hc => hx1 (hd x hK' hc)
      have hl : ¬ Dom o setSeg l x := fun hc => hx1 ((h1.out x hK).2 hc)
      rw [tog_free hK, tog_free hl]
      constructor
      · rintro ⟨ht, hf⟩
        have hz : ∀ z, Btw x y z → ¬ Dom o setSeg K z := by
          intro z hz hc
          obtain ⟨k, hk, hxk⟩ := hK'
          exact hf z hz (hd z ⟨k, hk, (ht k hk z hz).2 hxk⟩ hc)
        exact ⟨⟨hz, ht⟩, fun z hb hc => hf z hb ((h1.out z (hz z hb)).2 hc)⟩
      · rintro ⟨⟨hz, ht⟩, hf⟩
        exact ⟨ht, fun z hb hc => hf z hb ((h1.out z (hz z hb)).1 hc)⟩
  · have hz' : ¬ Dom o setSeg K z ∧ ¬ Dom o setSeg K' z := by
      simp only [dom_append, not_or] at hz; exact hz
    rw [h2.out z hz'.2, h1.out z hz'.1]

theorem same_fst {l : List (I × V)} {x y : D} : Same o setSeg (l.map Prod.fst) x y ↔ Same o mapSeg l x y := by
  simp [Same]

theorem IMap.UpdSpec.ref [DecidableEq V] {c : MapCfg V} (hc : c.joining = false) {up : V → Option V} {fill : Option V}
    {l l' : List (I × V)} {k : I} (hl : WF o mapSeg l) (hs : UpdSpec o c up fill l k l') :
    Ref o [k] (l.map Prod.fst) (l'.map Prod.fst) := by
  have hdg : ∀ x y : D, Dg c x y := fun x y hj => by simp [hc] at hj
  have hwl := wf_fst.2 hl
  have hwl' := wf_fst.2 hs.wf
  have htk : ∀ x y, Tog o [k] x y ↔ TogI o k x y := by intro x y; simp [Tog]
  refine ⟨fun x y hx => ?_, fun z hz => ?_⟩
  · have e : Tog o (l'.map Prod.fst) x y ↔ ∃ w, Eff o up fill l k x y w := by
      have := same_iff_tog h hwl' (x := x) (y := y)
      rw [same_fst h, joint_iff_same] at this
      simp only [hx, and_true] at this
      rw [← this]
      simp only [hs.joint x y _ (hdg x y)]
    rw [e, htk]
    have hx' : ∃ w, Eff o up fill l k x x w := by
      rw [dom_fst, dom_iff_joint] at hx
      simpa only [hs.joint x x _ (hdg x x)] using hx
    constructor
    · rintro ⟨w, ⟨h1, h2, h3⟩ | ⟨h1, h2⟩⟩
      · refine ⟨fun z hz => iff_of_true (mem_btw h h1 h2 hz) h1, ?_⟩
        rcases h3 with ⟨u, h3, _⟩ | ⟨_, h3⟩
        · exact tog_of_same h hwl ((same_fst h).2 h3.same)
        · have h3' : ∀ z, Btw x y z → ¬ Dom o setSeg (l.map Prod.fst) z := fun z hz => by
            rw [dom_fst]; exact h3 z hz
          exact (tog_free (h3' x (btw_left x y))).2 h3'
      · exact ⟨fun z hz => iff_of_false (h1 z hz) (h1 x (btw_left x y)),
          tog_of_same h hwl ((same_fst h).2 h2.same)⟩
    · rintro ⟨h1, h2⟩
      obtain ⟨w, hw⟩ := hx'
      have hj : ∀ u, Joint o l x x u → Joint o l x y u := by
        intro u hu
        have hsm := same_of_tog h2 (dom_fst.2 hu.left)
        rw [same_fst h, joint_iff_same] at hsm
        obtain ⟨u', hu'⟩ := hsm
        rwa [hl.maps_unique hu.maps hu'.maps]
      refine ⟨w, ?_⟩
      rcases hw with ⟨hk, _, ⟨u, hu, hw⟩ | ⟨hf, hg⟩⟩ | ⟨hk, hu⟩
      · exact Or.inl ⟨hk, (h1 y (btw_right x y)).2 hk, Or.inl ⟨u, hj u hu, hw⟩⟩
      · refine Or.inl ⟨hk, (h1 y (btw_right x y)).2 hk, Or.inr ⟨hf, ?_⟩⟩
        have hgx := hg x (btw_left x x)
        rw [← dom_fst] at hgx
        intro z hz
        rw [← dom_fst]
        exact (tog_free hgx).1 h2 z hz
      · refine Or.inr ⟨fun z hz hc => hk x (btw_left x x) ((h1 z hz).1 hc), hj w hu⟩
  · have hz' : ¬ o.Mem z k := fun hc => hz ⟨k, by simp, hc⟩
    rw [dom_fst, dom_fst, ← not_iff_not, ← valueAt_none, ← valueAt_none, updSpec_at h hl hs]
    have : o.contains k z = false := by
      cases hcc : o.contains k z with
      | false => rfl
      | true => exact absurd hcc hz'
    simp [this]

/-- A loop whose rounds refine by intervals that do not overlap, and have no keys there yet. -/
theorem forEach_ref {T : Type} {f : List (I × V) → T → Option (List (I × V))} {κ : T → List I} {r : List T}
    (hr : r.Pairwise fun s t => ∀ z, Dom o setSeg (κ s) z → ¬ Dom o setSeg (κ t) z)
    (P : List (I × V) → T → Prop)
    (hP : ∀ l l', ∀ s ∈ r, P l s → (∀ z, Dom o setSeg (κ s) z → (Dom o mapSeg l' z ↔ Dom o mapSeg l z)) → P l' s)
    (hf : ∀ l, WF o mapSeg l → ∀ s ∈ r, P l s → ∀ l', f l s = some l' →
      WF o mapSeg l' ∧ Ref o (κ s) (l.map Prod.fst) (l'.map Prod.fst))
    {l l' : List (I × V)} (hl : WF o mapSeg l) (hp : ∀ s ∈ r, P l s) (he : forEach f l r = some l') :
    Ref o (r.flatMap κ) (l.map Prod.fst) (l'.map Prod.fst) := by
  induction r generalizing l with
  | nil =>
    simp only [forEach, Option.some.injEq] at he
    subst he
    exact Ref.refl _
  | cons s r ih =>
    simp only [forEach, Option.bind_eq_bind, Option.bind_eq_some_iff] at he
    obtain ⟨l1, e1, e2⟩ := he
    rw [List.pairwise_cons] at hr
    obtain ⟨hw1, h1⟩ := hf l hl s (by simp) (hp s (by simp)) l1 e1
    have h2 := ih hr.2 (fun l l' s hs => hP l l' s (by simp [hs])) (fun l hl s hs => hf l hl s (by simp [hs])) hw1
      (fun t ht => hP l l1 t (by simp [ht]) (hp t (by simp [ht])) fun z hz => by
        rw [← dom_fst, ← dom_fst]
        exact h1.out z fun hc => hr.1 t ht z hc hz) e2
    rw [List.flatMap_cons]
    refine h1.trans h h2 fun z hz1 hz2 => ?_
    obtain ⟨k, hk, hz⟩ := hz1
    obtain ⟨t, ht, hkt⟩ := List.mem_flatMap.1 hk
    exact absurd ⟨k, hkt, hz⟩ (hr.1 t ht z hz2)

theorem wf_disjoint {r : List (I × W)} (hr : WF o mapSeg r) :
    r.Pairwise fun s t => ∀ z, Dom o setSeg [s.1] z → ¬ Dom o setSeg [t.1] z := by
  refine hr.sorted.imp fun {s t} hst z h1 h2 => ?_
  simp only [Dom, List.mem_singleton, setSeg_key, exists_eq_left] at h1 h2
  exact lt_irrefl _ (hst z z h1 h2)

/-- The keys that are in both. -/
structure Meets (o : IntervalOps D I) (a b l : List (I × V)) : Prop where
  tog : ∀ x y, Dom o mapSeg l x →
    (Tog o (l.map Prod.fst) x y ↔ Tog o (a.map Prod.fst) x y ∧ Tog o (b.map Prod.fst) x y)

variable [DecidableEq V]

theorem flatMap_fst (r : List (I × W)) : (r.flatMap fun s => [s.1]) = r.map Prod.fst := by
  induction r with
  | nil => rfl
  | cons s r ih => simp [List.flatMap_cons, ih]

theorem addMap_meets {t : MapType V} (hj : t.cfg.joining = false) {oracle : List (I × V) → I → Nat}
    {l r l' : List (I × V)} (hl : WF o mapSeg l) (hr : WF o mapSeg r) (hn : NoIdent t.cfg r)
    (he : addMap o t oracle l r = some l') : Meets o l r l' := by
  have := forEach_ref h (κ := fun s => [s.1]) (wf_disjoint h hr) (fun _ _ => True) (fun _ _ _ _ _ _ => trivial)
    (fun m hm s hs _ m' e => by
      obtain ⟨m1, e1, _, h2⟩ := addHintC_gen h t.cfg t.plus (oracle m s.1) hm s.1 s.2
      unfold addHint at e
      rw [e] at e1
      cases e1
      obtain ⟨up, u, hs', _⟩ := h2 (hn s hs)
      exact ⟨hs'.wf, hs'.ref h hj hm⟩) hl (fun _ _ => trivial) he
  rw [flatMap_fst h] at this
  exact ⟨fun x y hx => by rw [this.tog x y (dom_fst.2 hx), and_comm]⟩

theorem subMap_meets {t : MapType V} (hj : t.cfg.joining = false) {l r l' : List (I × V)} (hl : WF o mapSeg l)
    (hr : WF o mapSeg r) (hn : NoIdent t.cfg r) (he : subMap o t l r = some l') : Meets o l r l' := by
  have := forEach_ref h (κ := fun s => [s.1]) (wf_disjoint h hr) (fun _ _ => True) (fun _ _ _ _ _ _ => trivial)
    (fun m hm s hs _ m' e => by
      unfold subSeg at e
      split at e
      · obtain ⟨m1, e1, _, h2⟩ := addC_spec h t.cfg t.minus hm s.1 s.2
        rw [e] at e1
        cases e1
        exact ⟨(h2 (hn s hs)).wf, (h2 (hn s hs)).ref h hj hm⟩
      · obtain ⟨m1, e1, _, h2⟩ := subC_spec h t.cfg t.minus hm s.1 s.2
        rw [e] at e1
        cases e1
        exact ⟨(h2 (hn s hs)).wf, (h2 (hn s hs)).ref h hj hm⟩) hl (fun _ _ => trivial) he
  rw [flatMap_fst h] at this
  exact ⟨fun x y hx => by rw [this.tog x y (dom_fst.2 hx), and_comm]⟩

/-- The borders of the empty interval do not matter. -/
theorem togI_empty {k : I} (hk : ¬ o.Nonempty k) (x y : D) : TogI o k x y :=
  fun z _ => iff_of_false (fun hc => hk ⟨z, hc⟩) (fun hc => hk ⟨x, hc⟩)

theorem dom_single {k : I} {z : D} : Dom o setSeg [k] z ↔ o.Mem z k := by simp [Dom]

theorem sectionStep_ref {t : MapType V} (hj : t.cfg.joining = false) {k : I} {v : V} (hv : absorbable t.cfg v = false)
    {l l' : List (I × V)} (hl : WF o mapSeg l) {s : I × V} (hs : absorbable t.cfg s.2 = false)
    (hfree : ∀ z, o.Mem z (o.inter s.1 k) → ¬ Dom o mapSeg l z) (he : sectionStep o t k v l s = some l') :
    WF o mapSeg l' ∧ Ref o [o.inter s.1 k] (l.map Prod.fst) (l'.map Prod.fst) := by
  unfold sectionStep at he
  dsimp only at he
  by_cases hc : o.Nonempty (o.inter s.1 k)
  · rw [isEmpty_false h hc] at he
    simp only [Bool.false_eq_true, if_false] at he
    obtain ⟨l1, e1, _, h1⟩ := addC_spec h t.cfg t.plus hl (o.inter s.1 k) s.2
    obtain ⟨l2, e2, _, h2⟩ := addC_spec h t.cfg t.sect (h1 hs).wf (o.inter s.1 k) v
    simp only [e1, Option.bind_eq_bind, Option.bind_some, e2, Option.some.injEq] at he
    subst he
    refine ⟨(h2 hv).wf, ?_⟩
    refine (((h1 hs).ref h hj hl).trans h ((h2 hv).ref h hj (h1 hs).wf) fun z hz _ => ?_).congr
      (fun x y _ => by simp [Tog]) (fun z => by simp [Dom])
    rw [dom_single h] at hz
    rw [dom_fst, ← not_not (a := Dom o mapSeg l1 z), ← valueAt_none, updSpec_at h hl (h1 hs),
      valueAt_none.2 (hfree z hz)]
    have : o.contains (o.inter s.1 k) z = true := hz
    simp [this]
  · rw [(empty_iff h).2 hc] at he
    simp only [if_true, Option.some.injEq] at he
    subst he
    refine ⟨hl, fun x y _ => ?_, fun _ _ => Iff.rfl⟩
    have : Tog o [o.inter s.1 k] x y := by simp [Tog, togI_empty h hc x y]
    simp [this]

theorem addInterSeg_ref {t : MapType V} (hj : t.cfg.joining = false) (ht : t.cfg.total = false)
    {oracle : List (I × V) → I → Nat} {k : I} {v : V} (hv : absorbable t.cfg v = false)
    {sec m l' : List (I × V)} (hsec : WF o mapSeg sec) (hm : WF o mapSeg m) (hn : NoIdent t.cfg m)
    (hfree : ∀ s ∈ m, ∀ z, o.Mem z (o.inter s.1 k) → ¬ Dom o mapSeg sec z)
    (he : addInterSeg o t oracle sec m k v = some l') :
    Ref o (m.map fun s => o.inter s.1 k) (sec.map Prod.fst) (l'.map Prod.fst) := by
  unfold addInterSeg at he
  simp only [ht, Bool.false_eq_true, if_false] at he
  by_cases hk : o.Nonempty k
  · rw [isEmpty_false h hk] at he
    simp only [Bool.false_eq_true, if_false] at he
    obtain ⟨a, b, c, e, rfl, h1, h2, h3⟩ := equalRange_spec h hm hk
    simp only [e, Option.bind_eq_bind, Option.bind_some] at he
    have hw := wf_append.1 hm
    have hw' := wf_append.1 hw.1
    have hb := hw'.2.1
    have hr := forEach_ref h (κ := fun s => [o.inter s.1 k])
      (hb.sorted.imp fun {s u} hst z hz1 hz2 => by
        rw [dom_single h, h.mem_inter] at hz1 hz2
        exact lt_irrefl _ (hst z z hz1.1 hz2.1))
      (fun l s => ∀ z, o.Mem z (o.inter s.1 k) → ¬ Dom o mapSeg l z)
      (fun l l' s hs hp hd z hz => by rw [hd z ((dom_single h).2 hz)]; exact hp z hz)
      (fun l hl s hs hp l' e => sectionStep_ref h hj hv hl (hn s (by simp [hs])) hp e) hsec
      (fun s hs => hfree s (by simp [hs])) he
    have hfl : (b.flatMap fun s => [o.inter s.1 k]) = b.map fun s => o.inter s.1 k := by
      clear * -
      induction b with
      | nil => rfl
      | cons s r ih => simp [List.flatMap_cons, ih]
    rw [hfl] at hr
    have hea : ∀ s ∈ a, ∀ z, ¬ o.Mem z (o.inter s.1 k) := fun s hs z hz => by
      rw [h.mem_inter] at hz; exact lt_irrefl _ (h1 s hs z z hz.1 hz.2)
    have hec : ∀ s ∈ c, ∀ z, ¬ o.Mem z (o.inter s.1 k) := fun s hs z hz => by
      rw [h.mem_inter] at hz; exact lt_irrefl _ (h3 s hs z z hz.2 hz.1)
    refine hr.congr (fun x y _ => ?_) (fun z => ?_)
    · simp only [List.map_append, tog_append]
      have hA : Tog o (a.map fun s => o.inter s.1 k) x y := by
        intro i hi
        obtain ⟨s, hs, rfl⟩ := List.mem_map.1 hi
        exact togI_empty h (fun ⟨z, hz⟩ => hea s hs z hz) x y
      have hC : Tog o (c.map fun s => o.inter s.1 k) x y := by
        intro i hi
        obtain ⟨s, hs, rfl⟩ := List.mem_map.1 hi
        exact togI_empty h (fun ⟨z, hz⟩ => hec s hs z hz) x y
      simp [hA, hC]
    · simp only [List.map_append, dom_append]
      have hA : ¬ Dom o setSeg (a.map fun s => o.inter s.1 k) z := by
        rintro ⟨i, hi, hz⟩
        obtain ⟨s, hs, rfl⟩ := List.mem_map.1 hi
        exact hea s hs z hz
      have hC : ¬ Dom o setSeg (c.map fun s => o.inter s.1 k) z := by
        rintro ⟨i, hi, hz⟩
        obtain ⟨s, hs, rfl⟩ := List.mem_map.1 hi
        exact hec s hs z hz
      simp [hA, hC]
  · rw [(empty_iff h).2 hk] at he
    simp only [if_true, Option.some.injEq] at he
    subst he
    have he' : ∀ s ∈ m, ¬ o.Nonempty (o.inter s.1 k) := fun s hs ⟨z, hz⟩ => by
      rw [h.mem_inter] at hz; exact hk ⟨z, hz.2⟩
    refine (Ref.refl _).congr (fun x y _ => iff_of_true (tog_nil x y) ?_) (fun z => iff_of_false (by simp) ?_)
    · intro i hi
      obtain ⟨s, hs, rfl⟩ := List.mem_map.1 hi
      exact togI_empty h (he' s hs) x y
    · rintro ⟨i, hi, hz⟩
      obtain ⟨s, hs, rfl⟩ := List.mem_map.1 hi
      exact he' s hs ⟨z, hz⟩

theorem dom_cut {m : List (I × V)} {k : I} {z : D} :
    Dom o setSeg (m.map fun n => o.inter n.1 k) z ↔ Dom o mapSeg m z ∧ o.Mem z k := by
  constructor
  · rintro ⟨i, hi, hz⟩
    obtain ⟨n, hn, rfl⟩ := List.mem_map.1 hi
    rw [setSeg_key, h.mem_inter] at hz
    exact ⟨⟨n, hn, hz.1⟩, hz.2⟩
  · rintro ⟨⟨n, hn, hz⟩, hk⟩
    exact ⟨_, List.mem_map_of_mem hn, (h.mem_inter _ _ _).2 ⟨hz, hk⟩⟩

theorem addInterMap_meets {t : MapType V} (hj : t.cfg.joining = false) {oracle : List (I × V) → I → Nat}
    {m r l' : List (I × V)} (hm : WF o mapSeg m) (hr : WF o mapSeg r) (hnm : NoIdent t.cfg m)
    (hnr : NoIdent t.cfg r) (he : addInterMap o t oracle [] m r = some l') : Meets o m r l' := by
  cases ht : t.cfg.total with
  | true =>
    unfold addInterMap at he
    simp only [ht, if_true, Option.bind_eq_bind, Option.bind_eq_some_iff] at he
    obtain ⟨l1, e1, e2⟩ := he
    obtain ⟨l1', e1', p1⟩ := addMap_pt h t oracle (wf_nil : WF o mapSeg []) hm
    rw [e1] at e1'
    cases e1'
    have h1 := addMap_meets h hj wf_nil hm hnm e1
    have h2 := addMap_meets h hj p1.wf hr hnr e2
    -- the keys of the first sum
    have hr1 : Ref o (m.map Prod.fst) (([] : List (I × V)).map Prod.fst) (l1.map Prod.fst) := by
      have := forEach_ref h (κ := fun s => [s.1]) (wf_disjoint h hm) (fun _ _ => True)
        (fun _ _ _ _ _ _ => trivial)
        (fun m' hm' s hs _ m'' e => by
          obtain ⟨m1, e1, _, h2⟩ := addHintC_gen h t.cfg t.plus (oracle m' s.1) hm' s.1 s.2
          unfold addHint at e
          rw [e] at e1
          cases e1
          obtain ⟨up, u, hs', _⟩ := h2 (hnm s hs)
          exact ⟨hs'.wf, hs'.ref h hj hm'⟩) wf_nil (fun _ _ => trivial) e1
      rwa [flatMap_fst h] at this
    have hr2 : Ref o (r.map Prod.fst) (l1.map Prod.fst) (l'.map Prod.fst) := by
      have := forEach_ref h (κ := fun s => [s.1]) (wf_disjoint h hr) (fun _ _ => True)
        (fun _ _ _ _ _ _ => trivial)
        (fun m' hm' s hs _ m'' e => by
          obtain ⟨m1, e1, _, h2⟩ := addHintC_gen h t.cfg t.plus (oracle m' s.1) hm' s.1 s.2
          unfold addHint at e
          rw [e] at e1
          cases e1
          obtain ⟨up, u, hs', _⟩ := h2 (hnr s hs)
          exact ⟨hs'.wf, hs'.ref h hj hm'⟩) p1.wf (fun _ _ => trivial) e2
      rwa [flatMap_fst h] at this
    -- all keys of `m` are in the first sum, since there is nothing to cancel
    have hdom : ∀ z, Dom o mapSeg m z → Dom o mapSeg l1 z := by
      clear hr2 h2 h1 p1
      have : ∀ (l r : List (I × V)), WF o mapSeg l → WF o mapSeg r → NoIdent t.cfg r →
          (∀ z, Dom o mapSeg r z → ¬ Dom o mapSeg l z) → ∀ l', addMap o t oracle l r = some l' →
          ∀ z, Dom o mapSeg l z ∨ Dom o mapSeg r z → Dom o mapSeg l' z := by
        intro l r
        induction r generalizing l with
        | nil =>
          intro _ _ _ _ l' e z hz
          simp only [addMap, forEach, Option.some.injEq] at e
          subst e
          simpa using hz
        | cons s r ih =>
          intro hl hr hn hd l' e z hz
          simp only [addMap, forEach, Option.bind_eq_bind, Option.bind_eq_some_iff] at e
          obtain ⟨l1, e1, e2⟩ := e
          obtain ⟨m1, e1', _, h2⟩ := addHintC_gen h t.cfg t.plus (oracle l s.1) hl s.1 s.2
          unfold addHint at e1
          rw [e1] at e1'
          cases e1'
          obtain ⟨up, u, hs', _⟩ := h2 (hn s (by simp))
          have hw := wf_cons.1 hr
          have hd1 : ∀ z, Dom o mapSeg l1 z ↔ Dom o mapSeg l z ∨ o.Mem z s.1 := by
            intro z
            rw [← not_not (a := Dom o mapSeg l1 z), ← valueAt_none, updSpec_at h hl hs']
            by_cases hz : o.Mem z s.1
            · have hz' : o.contains s.1 z = true := hz
              have : valueAt o l z = none := valueAt_none.2 (hd z (by simp [hz]))
              simp [hz', this, hz]
            · have hz' : o.contains s.1 z = false := by
                cases hc : o.contains s.1 z with
                | false => rfl
                | true => exact absurd hc hz
              simp [hz', hz, valueAt_none]
          refine ih l1 hs'.wf hw.2.1 (fun s hs => hn s (by simp [hs])) (fun z hz hc => ?_) l' e2 z ?_
          · rcases (hd1 z).1 hc with hc | hc
            · exact hd z (by simp [hz]) hc
            · exact lt_irrefl _ (hw.2.2 z z hc hz)
          · rw [hd1]
            rw [dom_cons] at hz
            rcases hz with hz | hz | hz
            · exact Or.inl (Or.inl hz)
            · exact Or.inl (Or.inr hz)
            · exact Or.inr hz
      intro z hz
      exact this [] m wf_nil hm hnm (by simp) l1 e1 z (Or.inr hz)
    have hfin := hr1.trans h hr2 fun z _ hz => dom_fst.2 (hdom z (dom_fst.1 hz))
    refine ⟨fun x y hx => ?_⟩
    rw [hfin.tog x y (dom_fst.2 hx), tog_append]
    simp [tog_nil]
  | false =>
    obtain ⟨res, e, h1, h2⟩ := commonRange_spec h hr (wf_fst.2 hm)
    unfold addInterMap at he
    simp only [ht, Bool.false_eq_true, if_false, e, Option.bind_eq_bind, Option.bind_some] at he
    cases res with
    | none =>
      dsimp only [pure] at he
      simp only [Option.some.injEq] at he
      subst he
      exact ⟨fun x y hx => by simp at hx⟩
    | some pcq =>
      obtain ⟨p, c, q⟩ := pcq
      obtain ⟨rfl, h3, h4⟩ := h2 p c q rfl
      have hw := wf_append.1 hr
      have hw' := wf_append.1 hw.1
      have hc := hw'.2.1
      have key := forEach_ref h (κ := fun s => m.map fun n => o.inter n.1 s.1)
        (hc.sorted.imp fun {s u} hst z hz1 hz2 => by
          rw [dom_cut h] at hz1 hz2
          exact lt_irrefl _ (hst z z hz1.2 hz2.2))
        (fun l s => ∀ n ∈ m, ∀ z, o.Mem z (o.inter n.1 s.1) → ¬ Dom o mapSeg l z)
        (fun l l' s hs hp hd n hn z hz => by
          rw [hd z ⟨_, List.mem_map_of_mem hn, hz⟩]; exact hp n hn z hz)
        (fun l hl s hs hp l' e => by
          obtain ⟨l1, e1, p1⟩ := addInterSeg_ptv h t ht oracle hl hm s.1 s.2
          rw [e] at e1
          cases e1
          exact ⟨p1.wf, addInterSeg_ref h hj ht (hnr s (by simp [hs])) hl hm hnm hp e⟩) wf_nil
        (fun s hs n hn z hz => by simp) he
      refine ⟨fun x y hx => ?_⟩
      rw [← dom_fst] at hx
      rw [key.tog x y hx]
      have hK : Dom o setSeg (c.flatMap fun s => m.map fun n => o.inter n.1 s.1) x := by
        by_contra hcc
        have := (key.out x hcc).1 hx
        simp at this
      obtain ⟨i, hi, hxi⟩ := hK
      obtain ⟨s, hs, hi⟩ := List.mem_flatMap.1 hi
      obtain ⟨n, hn, rfl⟩ := List.mem_map.1 hi
      rw [setSeg_key, h.mem_inter] at hxi
      constructor
      · rintro ⟨hk, _⟩
        have hy := (hk _ (List.mem_flatMap.2 ⟨s, hs, List.mem_map_of_mem hn⟩) y (btw_right x y)).2
          ((h.mem_inter _ _ _).2 hxi)
        rw [h.mem_inter] at hy
        exact ⟨tog_of_same h (wf_fst.2 hm) ((same_fst h).2 ⟨n, hn, hxi.1, hy.1⟩),
          tog_of_same h (wf_fst.2 hr) ((same_fst h).2 ⟨s, by simp [hs], hxi.2, hy.2⟩)⟩
      · rintro ⟨ha, hb⟩
        refine ⟨?_, by simp [tog_nil]⟩
        intro i hi z hz
        obtain ⟨s', hs', hi⟩ := List.mem_flatMap.1 hi
        obtain ⟨n', hn', rfl⟩ := List.mem_map.1 hi
        rw [h.mem_inter, h.mem_inter, ha n'.1 (List.mem_map_of_mem hn') z hz,
          hb s'.1 (List.mem_map_of_mem (by simp [hs'])) z hz]

end
end ICL
