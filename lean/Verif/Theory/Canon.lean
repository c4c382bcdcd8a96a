import Verif.Theory.SetAdd
import Mathlib.Data.List.Forall2

/-!
# What determines a segment sequence

* `joined_iff`: joinedness in terms of elements only.
* `forall2_of_same`: a well-formed sequence is determined, up to `==` of its intervals, by the
  relation "lie in one segment".
-/

set_option linter.unusedSectionVars false
set_option linter.unusedVariables false

namespace ICL

variable {D I V S T : Type} [LinearOrder D] {o : IntervalOps D I} {g : SegOps I V S}

theorem Same.maps {l : List S} (hl : WF o g l) {x y : D} (hs : Same o g l x y) (v : V) :
    Maps o g l x v ↔ Maps o g l y v := by
  obtain ⟨s, hs, hx, hy⟩ := hs
  constructor
  · rintro ⟨t, ht, hxt, rfl⟩
    rw [hl.unique ht hs hxt hx]
    exact ⟨s, hs, hy, rfl⟩
  · rintro ⟨t, ht, hxt, rfl⟩
    rw [hl.unique ht hs hxt hy]
    exact ⟨s, hs, hx, rfl⟩

theorem Same.trans {l : List S} (hl : WF o g l) {x y z : D} (h1 : Same o g l x y)
    (h2 : Same o g l y z) : Same o g l x z := by
  obtain ⟨s, hs, hx, hy⟩ := h1
  obtain ⟨t, ht, hy', hz⟩ := h2
  rw [hl.unique ht hs hy' hy] at hz
  exact ⟨s, hs, hx, hz⟩

section
variable (h : o.Lawful)
include h

theorem Same.convex {l : List S} {x y z : D} (hs : Same o g l x y) (h1 : x ≤ z) (h2 : z ≤ y) :
    Same o g l x z := by
  obtain ⟨s, hs, hx, hy⟩ := hs
  exact ⟨s, hs, hx, h.convex _ x z y hx hy h1 h2⟩

variable [DecidableEq V]

theorem joined_same {l : List S} (hl : WF o g l) (hj : Joined o g l) {x y : D} {v : V}
    (hxy : x ≤ y) (hm : ∀ z, x ≤ z → z ≤ y → Maps o g l z v) : Same o g l x y := by
  induction l with
  | nil => have := hm x (le_refl _) hxy; simp at this
  | cons s t ih =>
    have hw := wf_cons.1 hl
    have hjt : Joined o g t := hj.mono (by simp +contextual)
    rw [same_cons]
    by_cases hxs : o.Mem x (g.key s)
    · by_cases hys : o.Mem y (g.key s)
      · exact Or.inl ⟨hxs, hys⟩
      · exfalso
        have hgt : ∀ u, o.Mem u (g.key s) → u < y := by
          intro u hu
          by_contra hc
          exact hys (h.convex _ x y u hxs hu hxy (not_lt.1 hc))
        have hyt : Dom o g t y := by
          have := (hm y hxy (le_refl _)).dom
          rw [dom_cons] at this
          tauto
        cases t with
        | nil => simp at hyt
        | cons s' t' =>
          have hw' := wf_cons.1 hw.2.1
          obtain ⟨u, hu⟩ := hw'.1
          have hss : o.Before (g.key s) (g.key s') :=
            fun a b ha hb => hw.2.2 a b ha (by simp [hb])
          -- y is in s' or behind it
          have hle : ∀ z, (∀ b, o.Mem b (g.key s') → z < b) → z < y := by
            intro z hz
            rw [dom_cons] at hyt
            rcases hyt with hyt | hyt
            · exact hz y hyt
            · exact lt_trans (hz u hu) (hw'.2.2 u y hu hyt)
          have hval : ∃ b, o.Mem b (g.key s') ∧ x ≤ b ∧ b ≤ y := by
            rw [dom_cons] at hyt
            rcases hyt with hyt | hyt
            · exact ⟨y, hyt, hxy, le_refl _⟩
            · exact ⟨u, hu, le_of_lt (hss x u hxs hu), le_of_lt (hw'.2.2 u y hu hyt)⟩
          have htouch : o.touches (g.key s) (g.key s') = true := by
            rw [h.touches_iff _ _ hw.1 hw'.1 hss]
            rintro ⟨z, hz1, hz2⟩
            have hd := (hm z (le_of_lt (hz1 x hxs)) (le_of_lt (hle z hz2))).dom
            simp only [dom_cons] at hd
            rcases hd with hd | hd | hd
            · exact lt_irrefl _ (hz1 z hd)
            · exact lt_irrefl _ (hz2 z hd)
            · exact lt_irrefl _ (lt_trans (hz2 u hu) (hw'.2.2 u z hu hd))
          obtain ⟨b, hb, hxb, hby⟩ := hval
          have hv1 : g.val s = v :=
            hl.maps_unique ⟨s, by simp, hxs, rfl⟩ (hm x (le_refl _) hxy)
          have hv2 : g.val s' = v :=
            hl.maps_unique ⟨s', by simp, hb, rfl⟩ (hm b hxb hby)
          have := hj s (by simp) s' (by simp) hss
          simp [joinable, htouch, hv1, hv2] at this
    · right
      have hxt : Dom o g t x := by
        have := (hm x (le_refl _) hxy).dom
        rw [dom_cons] at this
        tauto
      refine ih hw.2.1 hjt ?_
      intro z h1 h2
      have := hm z h1 h2
      rw [maps_cons] at this
      rcases this with ⟨h3, _⟩ | h3
      · exact absurd (hw.2.2 z x h3 hxt) (not_lt.2 h1)
      · exact h3

theorem joined_of_same {l : List S} (hl : WF o g l)
    (hs : ∀ x y v, x ≤ y → (∀ z, x ≤ z → z ≤ y → Maps o g l z v) → Same o g l x y) :
    Joined o g l := by
  intro s hsl t htl hb
  by_contra hc
  simp only [joinable, Bool.not_eq_false, Bool.and_eq_true, decide_eq_true_eq] at hc
  obtain ⟨htouch, hval⟩ := hc
  have hng := (h.touches_iff _ _ (hl.nonempty s hsl) (hl.nonempty t htl) hb).1 htouch
  obtain ⟨x, hx⟩ := hl.nonempty s hsl
  obtain ⟨y, hy⟩ := hl.nonempty t htl
  have hxy := hb x y hx hy
  obtain ⟨u, hu, hxu, hyu⟩ := hs x y (g.val s) (le_of_lt hxy) (by
    intro z h1 h2
    by_cases hz1 : o.Mem z (g.key s)
    · exact ⟨s, hsl, hz1, rfl⟩
    · by_cases hz2 : o.Mem z (g.key t)
      · exact ⟨t, htl, hz2, hval.symm⟩
      · exfalso
        refine hng ⟨z, ?_, ?_⟩
        · intro a ha
          by_contra hc
          exact hz1 (h.convex _ x z a hx ha h1 (not_lt.1 hc))
        · intro a ha
          by_contra hc
          exact hz2 (h.convex _ a z y ha hy (not_lt.1 hc) h2))
  have e1 := hl.unique hu hsl hxu hx
  have e2 := hl.unique hu htl hyu hy
  rw [← e1, ← e2] at hb
  exact lt_irrefl x (hb x x hxu hxu)

/-- Joinedness in terms of elements: a stretch of elements without gap, all with the same value,
lies in one segment. -/
theorem joined_iff {l : List S} (hl : WF o g l) : Joined o g l ↔
    ∀ x y v, x ≤ y → (∀ z, x ≤ z → z ≤ y → Maps o g l z v) → Same o g l x y :=
  ⟨fun hj _ _ _ hxy hm => joined_same h hl hj hxy hm, joined_of_same h hl⟩

/-- The segments of a joined sequence are determined by its elements and values. -/
theorem joined_same_iff {l : List S} (hl : WF o g l) (hj : Joined o g l) {x y : D} (hxy : x ≤ y) :
    Same o g l x y ↔ ∃ v, ∀ z, x ≤ z → z ≤ y → Maps o g l z v := by
  constructor
  · rintro ⟨s, hs, hx, hy⟩
    exact ⟨g.val s, fun z h1 h2 => ⟨s, hs, h.convex _ x z y hx hy h1 h2, rfl⟩⟩
  · rintro ⟨v, hv⟩
    exact joined_same h hl hj hxy hv

end

variable {J V' : Type} {o' : IntervalOps D J} {g' : SegOps J V' T}

/-- Two well-formed sequences with the same relation "lie in one segment" consist of intervals
with the same elements; they may be sequences of intervals of different classes. -/
theorem forall2_of_same {a : List S} {b : List T} (ha : WF o g a) (hb : WF o' g' b)
    (hs : ∀ x y, Same o g a x y ↔ Same o' g' b x y) :
    List.Forall₂ (fun s t => ∀ x, o.Mem x (g.key s) ↔ o'.Mem x (g'.key t)) a b := by
  induction a generalizing b with
  | nil =>
    cases b with
    | nil => exact List.Forall₂.nil
    | cons t b =>
      obtain ⟨x, hx⟩ := hb.nonempty t (by simp)
      have := (hs x x).2 ⟨t, by simp, hx, hx⟩
      simp at this
  | cons s a ih =>
    cases b with
    | nil =>
      obtain ⟨x, hx⟩ := ha.nonempty s (by simp)
      have := (hs x x).1 ⟨s, by simp, hx, hx⟩
      simp at this
    | cons t b =>
      have hwa := wf_cons.1 ha
      have hwb := wf_cons.1 hb
      obtain ⟨x, hx⟩ := hwa.1
      obtain ⟨y, hy⟩ := hwb.1
      -- the two heads meet
      have hmeet : ∃ w, o.Mem w (g.key s) ∧ o'.Mem w (g'.key t) := by
        have h1 := ((hs x x).1 ⟨s, by simp, hx, hx⟩).left
        have h2 := ((hs y y).2 ⟨t, by simp, hy, hy⟩).left
        rw [dom_cons] at h1 h2
        rcases h1 with h1 | h1
        · exact ⟨x, hx, h1⟩
        · rcases h2 with h2 | h2
          · exact ⟨y, h2, hy⟩
          · exact absurd (lt_trans (hwa.2.2 x y hx h2) (hwb.2.2 y x hy h1)) (lt_irrefl _)
      obtain ⟨w, hws, hwt⟩ := hmeet
      have hst : ∀ z, o.Mem z (g.key s) ↔ o'.Mem z (g'.key t) := by
        intro z
        constructor
        · intro hz
          obtain ⟨u, hu, h1, h2⟩ := (hs w z).1 ⟨s, by simp, hws, hz⟩
          rwa [hb.unique hu (by simp) h1 hwt] at h2
        · intro hz
          obtain ⟨u, hu, h1, h2⟩ := (hs w z).2 ⟨t, by simp, hwt, hz⟩
          rwa [ha.unique hu (by simp) h1 hws] at h2
      refine List.Forall₂.cons hst (ih hwa.2.1 hwb.2.1 ?_)
      intro p q
      have e := hs p q
      rw [same_cons, same_cons, hst p, hst q] at e
      constructor
      · intro h1
        rcases e.1 (Or.inr h1) with ⟨h2, _⟩ | h2
        · exact absurd (hwa.2.2 p p ((hst p).2 h2) h1.left) (lt_irrefl _)
        · exact h2
      · intro h1
        rcases e.2 (Or.inr h1) with ⟨h2, _⟩ | h2
        · exact absurd (hwb.2.2 p p h2 h1.left) (lt_irrefl _)
        · exact h2

/-- As `forall2_of_same`, with values. -/
theorem forall2_of_same_maps {g' : SegOps J V T} {a : List S} {b : List T} (ha : WF o g a) (hb : WF o' g' b)
    (hs : ∀ x y, Same o g a x y ↔ Same o' g' b x y)
    (hm : ∀ x v, Maps o g a x v ↔ Maps o' g' b x v) :
    List.Forall₂ (fun s t => (∀ x, o.Mem x (g.key s) ↔ o'.Mem x (g'.key t)) ∧ g.val s = g'.val t)
      a b := by
  have h1 := forall2_of_same ha hb hs
  rw [List.forall₂_iff_get] at h1 ⊢
  refine ⟨h1.1, fun i hi1 hi2 => ⟨h1.2 i hi1 hi2, ?_⟩⟩
  obtain ⟨x, hx⟩ := ha.nonempty (a.get ⟨i, hi1⟩) (List.get_mem _ _)
  have h2 : Maps o' g' b x (g.val (a.get ⟨i, hi1⟩)) := (hm _ _).1 ⟨_, List.get_mem _ _, hx, rfl⟩
  exact hb.maps_unique h2 ⟨_, List.get_mem _ _, (h1.2 i hi1 hi2 x).1 hx, rfl⟩

end ICL
