import Verif.Theory.ThrowSet
import Verif.Theory.MapHistory

/-!
# What an exception leaves of an interval map
-/

set_option linter.unusedSectionVars false
set_option linter.unusedVariables false
set_option linter.unusedSimpArgs false

namespace ICL
open Run

variable {D I V : Type} [LinearOrder D] {o : IntervalOps D I}

/-- The content `m` is well-formed, has only associations with `B`, and has all associations with `C`. -/
structure MLeaves (o : IntervalOps D I) (B C : D → V → Prop) (m : List (I × V)) : Prop where
  wf : WF o mapSeg m
  upper : ∀ x w, Maps o mapSeg m x w → B x w
  lower : ∀ x w, C x w → Maps o mapSeg m x w

theorem mleaves_zip {B C : D → V → Prop} {left right : List (I × V)} (hl : WF o mapSeg left.reverse)
    (hr : WF o mapSeg right) (hs : ∀ x y, Dom o mapSeg left x → Dom o mapSeg right y → x < y)
    (hbl : ∀ x w, Maps o mapSeg left x w → B x w) (hbr : ∀ x w, Maps o mapSeg right x w → B x w)
    (hc : ∀ x w, C x w → Maps o mapSeg left x w ∨ Maps o mapSeg right x w) :
    MLeaves o B C (left.reverse ++ right) := by
  refine ⟨wf_append.2 ⟨hl, hr, fun x y hx hy => hs x y (by simpa using hx) hy⟩, ?_, ?_⟩
  · intro x w hm
    rw [maps_append, maps_reverse] at hm
    exact hm.elim (hbl x w) (hbr x w)
  · intro x w hc'
    rw [maps_append, maps_reverse]
    exact hc x w hc'

theorem Maps.sublist {l l' : List (I × V)} {x : D} {w : V} (hx : Maps o mapSeg l' x w) (hs : l'.Sublist l) :
    Maps o mapSeg l x w :=
  let ⟨s, h1, h2⟩ := hx
  ⟨s, hs.subset h1, h2⟩

/-- The values do not matter for being well-formed. -/
theorem wf_cons_val {k : I} {u v : V} {l : List (I × V)} (hw : WF o mapSeg ((k, u) :: l)) :
    WF o mapSeg ((k, v) :: l) := by
  rw [wf_cons] at hw ⊢
  exact hw

namespace IMap
variable [DecidableEq V]

@[simp] theorem combineX_thrown (junk : V) (f : Combiner V) (left : List (I × V)) (cur : I × V) (right : List (I × V))
    (v : V) : (combineX junk f left cur right v).thrown = [left.reverse ++ (cur.1, junk) :: right] := by
  unfold combineX
  simp only [Bind.bind, andThen, result_mayThrow, thrown_mayThrow, thrown_pure, List.append_nil]

@[simp] theorem gapInsertX_thrown (c : MapCfg V) (f : Combiner V) (left : List (I × V)) (k : I) (v : V)
    (right : List (I × V)) : (gapInsertX o c f left k v right).thrown = [left.reverse ++ right] := by
  unfold gapInsertX
  simp only [Bind.bind, andThen, result_mayThrow, thrown_mayThrow, thrown_ofOption, List.append_nil]

theorem addLeadGapX_thrown {c : MapCfg V} {f : Combiner V} {first : Option (I × V)} {left : List (I × V)}
    {cur : I × V} {right : List (I × V)} {k : I} {v : V} {m : List (I × V)}
    (hm : m ∈ (addLeadGapX o c f first left cur right k v).thrown) : m = left.reverse ++ cur :: right := by
  unfold addLeadGapX at hm
  dsimp only at hm
  split at hm
  · simp at hm
  · simpa [mem_thrown_bind] using hm

theorem gapInsertAtX_thrown (h : o.Lawful) {c : MapCfg V} {f : Combiner V} {left : List (I × V)} {cur : I × V}
    {right : List (I × V)} {k : I} {v : V} {m : List (I × V)}
    (hm : m ∈ (gapInsertAtX o c f left cur right k v).thrown) :
    ∃ l1, handleLeftCombined o c left cur right = some l1 ∧ m = l1.reverse ++ right := by
  unfold gapInsertAtX at hm
  unfold handleLeftCombined
  split at hm
  · rename_i ha
    rw [if_pos ha]
    refine ⟨left, rfl, ?_⟩
    rw [mem_thrown_bind] at hm
    rcases hm with hm | ⟨z, _, hm⟩
    · simpa using hm
    · split at hm <;> simp at hm
  · rename_i ha
    rw [if_neg ha]
    split at hm
    · rename_i hj
      rw [if_pos hj]
      rw [mem_thrown_bind] at hm
      rcases hm with hm | ⟨z, e, hm⟩
      · simp at hm
      · rw [result_ofOption] at e
        rw [mem_thrown_bind] at hm
        rcases hm with hm | ⟨_, _, hm⟩
        · refine ⟨z.cur :: z.left, by rw [e]; rfl, ?_⟩
          rw [joinLeft_right h] at e
          obtain ⟨z0, _, rfl⟩ := Option.map_eq_some_iff.1 e
          simpa using hm
        · simp at hm
    · rename_i hj
      rw [if_neg hj]
      refine ⟨cur :: left, rfl, ?_⟩
      rw [mem_thrown_bind] at hm
      rcases hm with hm | ⟨_, _, hm⟩
      · simpa using hm
      · simp at hm

/-- The state of `add_main`/`add_rear`, and what is known about the associations. -/
structure XInv (o : IntervalOps D I) (c : MapCfg V) (f : Combiner V) (v junk : V) (B C : D → V → Prop)
    (left : List (I × V)) (cur : I × V) (mid post : List (I × V)) (rest : I) : Prop where
  inv : Inv o left cur mid post rest
  bl : ∀ x w, Maps o mapSeg left x w → B x w
  br : ∀ x w, Maps o mapSeg (cur :: mid ++ post) x w → B x w
  bj : ∀ x, o.Mem x rest → Dom o mapSeg (cur :: mid) x → B x junk
  bv : ∀ x, o.Mem x rest → ¬ Dom o mapSeg (cur :: mid) x → B x (f.version v)
  bu : ∀ x u w, o.Mem x rest → Maps o mapSeg (cur :: mid) x u → upd c f v u = some w → B x w
  lo : ∀ x w, C x w → Maps o mapSeg left x w ∨ Maps o mapSeg post x w

section
variable (h : o.Lawful)
include h

theorem addRearX_thrown {c : MapCfg V} {f : Combiner V} {v junk : V} (hv : absorbable c v = false)
    {B C : D → V → Prop} {left : List (I × V)} {cur : I × V} {post : List (I × V)} {rest : I}
    (hx : XInv o c f v junk B C left cur [] post rest) {m : List (I × V)}
    (hm : m ∈ (addRearX o junk c f v left cur post rest).thrown) : MLeaves o B C m := by
  have hi := hx.inv
  have hwr : WF o mapSeg (cur :: post) := by simpa using hi.wfr
  have hwr' := wf_cons.1 hwr
  simp only [mapSeg_key] at hwr'
  have hsep : ∀ x y, Dom o mapSeg left x → Dom o mapSeg (cur :: post) y → x < y := by
    simpa using hi.sep
  have hbr : ∀ x w, (o.Mem x cur.1 ∧ cur.2 = w) ∨ Maps o mapSeg post x w → B x w := by simpa using hx.br
  unfold addRearX at hm
  rw [mem_thrown_bind] at hm
  rcases hm with hm | ⟨l1, e1, hm⟩
  · rw [addLeadGapX_thrown hm]
    refine mleaves_zip hi.wfl hwr hsep hx.bl (fun x w hw => hbr x w (by simpa using hw)) fun x w hc => ?_
    have := hx.lo x w hc
    simp only [maps_cons]
    tauto
  rw [addLeadGapX_result] at e1
  obtain ⟨l1', e1', hw1, hj1, -⟩ := addLeadGap_spec h c f hv (first := none) (by simp) hi.wfl hwr hi.before
  rw [e1] at e1'; cases e1'
  have hm1 : ∀ x w, Maps o mapSeg l1 x w ↔ Maps o mapSeg left x w ∨
      (o.Mem x (o.rightSubtract rest cur.1) ∧ f.version v = w) := by
    intro x w
    rw [← joint_self, hj1 x x w (dg_self c x), joint_self]
    tauto
  have hl1c : ∀ x y, Dom o mapSeg l1 x → o.Mem y cur.1 → x < y := by
    intro x y hd hy
    obtain ⟨w, hw⟩ := dom_iff.1 hd
    rcases (hm1 x w).1 hw with hw | hw
    · exact hsep x y hw.dom (by simp [hy])
    · exact ((h.mem_rightSubtract _ _ _).1 hw.1).2 y hy
  have hl1p : ∀ x y, Dom o mapSeg l1 x → Dom o mapSeg (cur :: post) y → x < y := by
    intro x y hd hy
    rw [dom_cons] at hy
    rcases hy with hy | hy
    · exact hl1c x y hd hy
    · obtain ⟨u, hu⟩ := hwr'.1
      exact (hl1c x u hd hu).trans (hwr'.2.2 u y hu hy)
  have hb1 : ∀ x w, Maps o mapSeg l1 x w → B x w := by
    intro x w hw
    rcases (hm1 x w).1 hw with hw' | ⟨hw', rfl⟩
    · exact hx.bl x w hw'
    · rw [h.mem_rightSubtract] at hw'
      exact hx.bv x hw'.1 fun hd => lt_irrefl _ (hw'.2 x (by simpa using hd))
  have hlo1 : ∀ x w, C x w → Maps o mapSeg l1 x w ∨ Maps o mapSeg post x w := by
    intro x w hc
    rw [hm1]
    have := hx.lo x w hc
    tauto
  -- the functor throws
  have hcomb : ∀ cur' right, WF o mapSeg (cur' :: right) →
      (∀ x, Dom o mapSeg (cur' :: right) x → Dom o mapSeg (cur :: post) x) →
      (∀ x, o.Mem x cur'.1 → o.Mem x cur.1 ∧ o.Mem x rest) →
      (∀ x w, Maps o mapSeg right x w → B x w) →
      (∀ x w, Maps o mapSeg post x w → Maps o mapSeg right x w) →
      MLeaves o B C (l1.reverse ++ (cur'.1, junk) :: right) := by
    intro cur' right hw hd hin hb hp
    refine mleaves_zip hw1 (wf_cons_val hw) ?_ hb1 ?_ ?_
    · intro x y h1 h2
      exact hl1p x y h1 (hd y (by rw [dom_cons] at h2 ⊢; exact h2))
    · intro x w hw
      rw [maps_cons] at hw
      rcases hw with ⟨h1, rfl⟩ | h1
      · obtain ⟨h2, h3⟩ := hin x h1
        exact hx.bj x h3 (by simp [h2])
      · exact hb x w h1
    · intro x w hc
      rw [maps_cons]
      have := hlo1 x w hc
      have := hp x w
      tauto
  have hbp : ∀ x w, Maps o mapSeg post x w → B x w := fun x w hw => hbr x w (Or.inr hw)
  dsimp only at hm
  split at hm
  · rename_i he
    have hne : o.Nonempty (o.leftSubtract rest cur.1) := (nonempty_iff h).2 (by simpa using he)
    have heg := h.mem_leftSubtract rest cur.1
    have hsub : ∀ x, o.Mem x cur.1 → o.Mem x rest := by
      intro x hx
      obtain ⟨u, hu⟩ := hne
      obtain ⟨z, hz, hzx⟩ := hi.front x hx
      exact h.convex rest z x u hz ((heg u).1 hu).1 hzx (((heg u).1 hu).2 x hx).le
    rw [mem_thrown_bind] at hm
    rcases hm with hm | ⟨cur2, e2, hm⟩
    · rw [combineX_thrown, List.mem_singleton] at hm
      rw [hm]
      exact hcomb cur post hwr (fun x hx => hx) (fun x hx => ⟨hx, hsub x hx⟩) hbp (fun x w hw => hw)
    · rw [combineX_result] at e2
      cases e2
      obtain ⟨l2, e2, rfl⟩ := gapInsertAtX_thrown h hm
      obtain ⟨l2', e2', hw2, hj2, -⟩ := handleLeftCombined_spec h c (s := combine f cur v) post hw1 hwr'.1 hl1c
      rw [e2] at e2'; cases e2'
      have hm2 : ∀ x w, Maps o mapSeg l2 x w ↔ Maps o mapSeg l1 x w ∨
          (o.Mem x cur.1 ∧ upd c f v cur.2 = some w) := by
        intro x w
        rw [← joint_self, hj2 x x w (dg_self c x), joint_self, upd_eq]
        simp only [combine]
        tauto
      refine mleaves_zip hw2 hwr'.2.1 ?_ ?_ hbp ?_
      · intro x y h1 h2
        obtain ⟨w, hw⟩ := dom_iff.1 h1
        rcases (hm2 x w).1 hw with hw | hw
        · exact hl1p x y hw.dom (by simp [h2])
        · exact hwr'.2.2 x y hw.1 h2
      · intro x w hw
        rcases (hm2 x w).1 hw with hw | hw
        · exact hb1 x w hw
        · exact hx.bu x cur.2 w (hsub x hw.1) (by simp [hw.1]) hw.2
      · intro x w hc
        rw [hm2]
        have := hlo1 x w hc
        tauto
  · rename_i he
    split at hm
    · rename_i he2
      have hsub : ∀ x, o.Mem x cur.1 → o.Mem x rest := by
        intro x hx
        rcases (mem_rightResid h hi.nonempty hi.front x).2 hx with h1 | h1
        · exact h1
        · exact absurd h1 ((h.isEmpty_iff _).1 he2 x)
      rw [mem_thrown_bind] at hm
      rcases hm with hm | ⟨cur2, e2, hm⟩
      · rw [combineX_thrown, List.mem_singleton] at hm
        rw [hm]
        exact hcomb cur post hwr (fun x hx => hx) (fun x hx => ⟨hx, hsub x hx⟩) hbp (fun x w hw => hw)
      · simp at hm
    · rename_i he2
      have hne : o.Nonempty (o.leftSubtract cur.1 rest) := (nonempty_iff h).2 (by simpa using he2)
      have hrr := h.mem_leftSubtract cur.1 rest
      have hc' := fun x => (mem_rightResid h hi.nonempty hi.front x).1
      obtain ⟨w, hwc, hwr0⟩ := hi.overlap cur (by simp)
      have hne' : o.Nonempty (o.rightSubtract cur.1 (o.leftSubtract cur.1 rest)) :=
        ⟨w, (hc' w).2 ⟨hwc, hwr0⟩⟩
      have hcrr : ∀ x y, o.Mem x (o.rightSubtract cur.1 (o.leftSubtract cur.1 rest)) →
          o.Mem y (o.leftSubtract cur.1 rest) → x < y :=
        fun x y hx hy => ((hrr y).1 hy).2 x ((hc' x).1 hx).2
      have hrp : ∀ x y, o.Mem x (o.leftSubtract cur.1 rest) → Dom o mapSeg post y → x < y :=
        fun x y hx hy => hwr'.2.2 x y ((hrr x).1 hx).1 hy
      have hw0 : WF o mapSeg ((o.leftSubtract cur.1 rest, cur.2) :: post) := by
        rw [wf_cons]; exact ⟨hne, hwr'.2.1, hrp⟩
      rw [mem_thrown_bind] at hm
      rcases hm with hm | ⟨ins, e2, hm⟩
      · rw [insertAtX_thrown, List.mem_singleton, List.reverse_cons, List.append_assoc] at hm
        rw [hm]
        refine mleaves_zip hw1 ?_ ?_ hb1 ?_ ?_
        · exact wf_cons.2 ⟨hne', hwr'.2.1, fun x y hx hy => hwr'.2.2 x y ((hc' x).1 hx).1 hy⟩
        · intro x y h1 h2
          refine hl1p x y h1 ?_
          simp only [List.cons_append, List.nil_append, dom_cons, mapSeg_key, hc'] at h2 ⊢
          tauto
        · intro x w hw
          simp only [List.cons_append, List.nil_append, maps_cons, mapSeg_key, mapSeg_val, hc'] at hw
          exact hbr x w (by tauto)
        · intro x w hc
          simp only [List.cons_append, List.nil_append, maps_cons, mapSeg_key, mapSeg_val]
          have := hlo1 x w hc
          tauto
      · rw [insertAtX_result] at e2
        rw [insertAt_some e2, mem_thrown_bind] at hm
        rcases hm with hm | ⟨ins2, e3, hm⟩
        · simp at hm
        rw [result_ofOption] at e3
        obtain ⟨rc, rr, e3', hwrr, hjrr, -⟩ := reinsert_spec h c
          ((o.rightSubtract cur.1 (o.leftSubtract cur.1 rest), cur.2) :: l1) hw0
        rw [e3'] at e3; cases e3
        have hmr : ∀ x w, Maps o mapSeg (rc :: rr) x w ↔
            (o.Mem x (o.leftSubtract cur.1 rest) ∧ cur.2 = w) ∨ Maps o mapSeg post x w := by
          intro x w
          rw [← joint_self, hjrr x x w (dg_self c x), joint_self, maps_cons]
          rfl
        have hdr : ∀ y, Dom o mapSeg (rc :: rr) y ↔ o.Mem y (o.leftSubtract cur.1 rest) ∨ Dom o mapSeg post y := by
          intro y; rw [hjrr.dom y, dom_cons, mapSeg_key]
        rw [mem_thrown_bind] at hm
        rcases hm with hm | ⟨_, _, hm⟩
        · rw [combineX_thrown, List.mem_singleton] at hm
          rw [hm]
          refine hcomb _ _ ?_ ?_ ?_ ?_ ?_
          · rw [wf_cons]
            refine ⟨hne', hwrr, fun x y hx hy => ?_⟩
            rcases (hdr y).1 hy with hy | hy
            · exact hcrr x y hx hy
            · exact hwr'.2.2 x y ((hc' x).1 hx).1 hy
          · intro x hd
            rw [dom_cons, hdr] at hd
            simp only [mapSeg_key, hc', hrr] at hd
            rw [dom_cons]
            change o.Mem x cur.1 ∨ _
            tauto
          · intro x hx
            exact (hc' x).1 hx
          · intro x w hw
            rcases (hmr x w).1 hw with hw | hw
            · exact hbr x w (Or.inl ⟨((hrr x).1 hw.1).1, hw.2⟩)
            · exact hbp x w hw
          · intro x w hw
            exact (hmr x w).2 (Or.inr hw)
        · simp at hm

theorem addMainRearX_thrown {c : MapCfg V} {f : Combiner V} {v junk : V} (hv : absorbable c v = false)
    {B C : D → V → Prop} {left : List (I × V)} {cur : I × V} {mid post : List (I × V)} {rest : I}
    (hx : XInv o c f v junk B C left cur mid post rest) {m : List (I × V)}
    (hm : m ∈ ((do
        let (left, cur, rest) ← addMainX o junk c f v left rest cur mid post
        addRearX o junk c f v left cur post rest) : Run (I × V) (List (I × V))).thrown) :
    MLeaves o B C m := by
  induction mid generalizing left cur rest with
  | nil =>
    apply addRearX_thrown h hv hx
    simpa [addMainX, mem_thrown_bind] using hm
  | cons nxt more ih =>
    have hi := hx.inv
    have hwr := hi.wfr
    rw [List.cons_append] at hwr
    have hwr' := wf_cons.1 hwr
    obtain ⟨l1, l2, e1, e2, hw1, hj1, hl1c, hcr, hi', hj, -⟩ := main_step h c f hv hi
    have hm1 : ∀ x w, Maps o mapSeg l1 x w ↔ Maps o mapSeg left x w ∨
        (o.Mem x (o.rightSubtract rest cur.1) ∧ f.version v = w) := by
      intro x w
      rw [← joint_self, hj1 x x w (dg_self c x), joint_self]
      tauto
    have hm2 : ∀ x w, Maps o mapSeg l2 x w ↔ Maps o mapSeg left x w ∨
        (o.Mem x (o.rightSubtract rest cur.1) ∧ f.version v = w) ∨
        (o.Mem x cur.1 ∧ upd c f v cur.2 = some w) := by
      intro x w
      rw [← joint_self, hj x x w (dg_self c x), joint_self]
      tauto
    have hgap : ∀ x, o.Mem x (o.rightSubtract rest cur.1) → B x (f.version v) := by
      intro x hg
      rw [h.mem_rightSubtract] at hg
      refine hx.bv x hg.1 fun hd => ?_
      rw [dom_cons] at hd
      rcases hd with hd | hd
      · exact lt_irrefl _ (hg.2 x hd)
      · obtain ⟨u, hu⟩ := hwr'.1
        exact lt_asymm (hg.2 u hu) (hwr'.2.2 u x hu (by rw [dom_append]; exact Or.inl hd))
    have hx' : XInv o c f v junk B C l2 nxt more post (o.leftSubtract rest cur.1) := by
      refine ⟨hi', ?_, ?_, ?_, ?_, ?_, ?_⟩
      · intro x w hw
        rcases (hm2 x w).1 hw with hw | ⟨hg, rfl⟩ | hw
        · exact hx.bl x w hw
        · exact hgap x hg
        · exact hx.bu x cur.2 w (hcr x hw.1) (by simp [hw.1]) hw.2
      · intro x w hw
        exact hx.br x w (by simp only [List.cons_append, maps_cons] at hw ⊢; tauto)
      · intro x hr hd
        exact hx.bj x ((h.mem_leftSubtract _ _ _).1 hr).1 (by rw [dom_cons]; exact Or.inr hd)
      · intro x hr hd
        rw [h.mem_leftSubtract] at hr
        refine hx.bv x hr.1 fun hd' => ?_
        rw [dom_cons] at hd'
        rcases hd' with hd' | hd'
        · exact lt_irrefl _ (hr.2 x hd')
        · exact hd hd'
      · intro x u w hr hu hw
        exact hx.bu x u w ((h.mem_leftSubtract _ _ _).1 hr).1 (by rw [maps_cons]; exact Or.inr hu) hw
      · intro x w hc
        rw [hm2]
        have := hx.lo x w hc
        tauto
    have hsegr : addSegment o c f left cur (nxt :: more ++ post) rest v = some l2 := by
      unfold addSegment
      simp only [e1, Option.bind_eq_bind, Option.bind_some, e2]
    have hseg : ∀ m ∈ (addSegmentX o junk c f left cur (nxt :: more ++ post) rest v).thrown, MLeaves o B C m := by
      intro m hm
      unfold addSegmentX at hm
      rw [mem_thrown_bind] at hm
      rcases hm with hm | ⟨l1', e1', hm⟩
      · rw [addLeadGapX_thrown hm]
        refine mleaves_zip hi.wfl hwr (by simpa using hi.sep) hx.bl hx.br fun x w hc => ?_
        have := hx.lo x w hc
        simp only [List.cons_append, maps_cons, maps_append]
        tauto
      · rw [addLeadGapX_result, e1] at e1'
        cases e1'
        rw [mem_thrown_bind] at hm
        rcases hm with hm | ⟨_, _, hm⟩
        · rw [combineX_thrown, List.mem_singleton] at hm
          rw [hm]
          refine mleaves_zip hw1 (wf_cons_val (u := cur.2) hwr) ?_ ?_ ?_ ?_
          · intro x y h1 h2
            rw [dom_cons] at h2
            rcases h2 with h2 | h2
            · exact hl1c x y h1 h2
            · obtain ⟨u, hu⟩ := hwr'.1
              exact (hl1c x u h1 hu).trans (hwr'.2.2 u y hu h2)
          · intro x w hw
            rcases (hm1 x w).1 hw with hw | ⟨hg, rfl⟩
            · exact hx.bl x w hw
            · exact hgap x hg
          · intro x w hw
            rw [maps_cons] at hw
            rcases hw with ⟨hw, rfl⟩ | hw
            · exact hx.bj x (hcr x hw) (by rw [dom_cons]; exact Or.inl hw)
            · exact hx.br x w (by rw [List.cons_append, maps_cons]; exact Or.inr hw)
          · intro x w hc
            rw [hm1]
            have := hx.lo x w hc
            simp only [List.cons_append, maps_cons, maps_append]
            tauto
        · simp at hm
    have hunf : addMainX o junk c f v left rest cur (nxt :: more) post =
        (addSegmentX o junk c f left cur (nxt :: more ++ post) rest v >>= fun left' =>
          addMainX o junk c f v left' (o.leftSubtract rest cur.1) nxt more post) := rfl
    rw [mem_thrown_bind, hunf, mem_thrown_bind] at hm
    rcases hm with (hm | ⟨l, e, hm⟩) | ⟨r, e, hm⟩
    · exact hseg m hm
    · rw [addSegmentX_result, hsegr] at e
      cases e
      exact ih hx' (by rw [mem_thrown_bind]; exact Or.inl hm)
    · rw [result_bind] at e
      obtain ⟨l, e3, e4⟩ := Option.bind_eq_some_iff.1 e
      rw [addSegmentX_result, hsegr] at e3
      cases e3
      exact ih hx' (by rw [mem_thrown_bind]; exact Or.inr ⟨r, e4, hm⟩)

/-- The associations of the segments of `l` that have no element in common with `k` -/
def Clear (o : IntervalOps D I) (l : List (I × V)) (k : I) (x : D) (w : V) : Prop :=
  ∃ s ∈ l, (∀ y, o.Mem y s.1 → ¬ o.Mem y k) ∧ o.Mem x s.1 ∧ s.2 = w

omit h in
theorem Clear.maps {l : List (I × V)} {k : I} {x : D} {w : V} (hx : Clear o l k x w) : Maps o mapSeg l x w :=
  let ⟨s, h1, _, h2, h3⟩ := hx
  ⟨s, h1, h2, h3⟩

omit h in
theorem Clear.notMem {l : List (I × V)} {k : I} {x : D} {w : V} (hx : Clear o l k x w) : ¬ o.Mem x k :=
  let ⟨_, _, h1, h2, _⟩ := hx
  h1 x h2

omit h in
theorem clear_range {a : List (I × V)} {g : I × V} {b c : List (I × V)} {k : I} (hr : Range o mapSeg a g b c k)
    {x : D} {w : V} (hx : Clear o (a ++ g :: b ++ c) k x w) : Maps o mapSeg a x w ∨ Maps o mapSeg c x w := by
  obtain ⟨s, hs, hn, h1, h2⟩ := hx
  simp only [List.mem_append] at hs
  rcases hs with (hs | hs) | hs
  · exact Or.inl ⟨s, hs, h1, h2⟩
  · obtain ⟨y, hy, hyk⟩ := hr.overlap s hs
    exact absurd hyk (hn y hy)
  · exact Or.inr ⟨s, hs, h1, h2⟩

omit h in
/-- `add_front`: the part of the first node in front of the addend is gone -/
theorem addFrontX_thrown (h : o.Lawful) {a : List (I × V)} {g : I × V} {b c : List (I × V)} {k : I}
    (hr : Range o mapSeg a g b c k) {m : List (I × V)}
    (hm : m ∈ (addFrontX o a.reverse g (b ++ c) k).thrown) :
    WF o mapSeg m ∧ (∀ x w, Maps o mapSeg m x w → Maps o mapSeg (a ++ g :: b ++ c) x w) ∧
      ∀ x w, Maps o mapSeg a x w ∨ Maps o mapSeg c x w → Maps o mapSeg m x w := by
  obtain ⟨left, cur, e, hi, hj, _⟩ := addFront_spec h hr
  have hwf : WF o mapSeg (left.reverse ++ (cur :: b ++ c)) :=
    wf_append.2 ⟨hi.wfl, hi.wfr, fun x y hx hy => hi.sep x y (by simpa using hx) hy⟩
  have hshape : m = a ++ cur :: (b ++ c) ∧ m.Sublist (left.reverse ++ (cur :: b ++ c)) := by
    unfold addFrontX at hm
    unfold addFront at e
    dsimp only at hm e
    split at hm
    · simp at hm
    · rename_i hc
      rw [if_neg hc] at e
      obtain ⟨z, ez, e2⟩ := Option.bind_eq_some_iff.1 e
      rw [insertAt_some ez] at e2
      simp only [mem_thrown_bind, insertAtX_thrown, List.mem_singleton, thrown_pure, List.not_mem_nil,
        and_false, exists_false, or_false, List.reverse_reverse] at hm
      simp only [Option.pure_def, Option.some.injEq, Prod.mk.injEq] at e2
      rw [hm, ← e2.1, ← e2.2]
      refine ⟨rfl, ?_⟩
      simp only [List.reverse_cons, List.reverse_reverse, List.append_assoc, List.cons_append, List.nil_append]
      exact List.Sublist.append_left (List.sublist_cons_self _ _) _
  obtain ⟨rfl, hsub⟩ := hshape
  refine ⟨hwf.sublist hsub, ?_, ?_⟩
  · intro x w hw
    have h1 := hj x x w
    simp only [joint_self, and_true, true_and] at h1
    simp only [maps_append, maps_cons, mapSeg_key, mapSeg_val] at hw ⊢
    clear * - h1 hw
    grind
  · intro x w hw
    simp only [maps_append, maps_cons]
    tauto

/-- The associations that may be found after an exception in `add` -/
def AddB (o : IntervalOps D I) (c : MapCfg V) (f : Combiner V) (v junk : V) (l : List (I × V)) (k : I) (x : D)
    (w : V) : Prop :=
  Maps o mapSeg l x w ∨ (o.Mem x k ∧ ((¬ Dom o mapSeg l x ∧ f.version v = w) ∨
    (∃ u, Maps o mapSeg l x u ∧ upd c f v u = some w) ∨ (Dom o mapSeg l x ∧ junk = w)))

theorem addOverX_thrown {c : MapCfg V} {f : Combiner V} {v junk : V} (hv : absorbable c v = false)
    {a : List (I × V)} {g : I × V} {b post : List (I × V)} {k : I} (hr : Range o mapSeg a g b post k)
    {m : List (I × V)} (hm : m ∈ (addOverX o junk c f a g b post k v).thrown) :
    MLeaves o (AddB o c f v junk (a ++ g :: b ++ post) k) (Clear o (a ++ g :: b ++ post) k) m := by
  obtain ⟨left, cur, e, hi, hj, _⟩ := addFront_spec h hr
  have hj' : ∀ x w, Maps o mapSeg left x w ∨ (o.Mem x cur.1 ∧ cur.2 = w) ↔
      Maps o mapSeg a x w ∨ (o.Mem x g.1 ∧ g.2 = w) := by
    intro x w
    have h1 := hj x x w
    simp only [joint_self, and_true, true_and] at h1
    clear * - h1
    grind
  have hleft : ∀ x, Dom o mapSeg left x → ¬ o.Mem x k := fun x hd hk => lt_irrefl _ (hi.before x x hd hk)
  have hcb : ∀ x w, Maps o mapSeg (cur :: b) x w → Maps o mapSeg (a ++ g :: b ++ post) x w := by
    intro x w hw
    have h1 := hj' x w
    simp only [maps_append, maps_cons, mapSeg_key, mapSeg_val] at hw ⊢
    clear * - h1 hw
    grind
  unfold addOverX at hm
  dsimp only at hm
  rw [mem_thrown_bind] at hm
  rcases hm with hm | ⟨⟨left1, cur1⟩, e1, hm⟩
  · obtain ⟨h1, h2, h3⟩ := addFrontX_thrown h hr hm
    exact ⟨h1, fun x w hw => Or.inl (h2 x w hw), fun x w hc => h3 x w (clear_range hr hc)⟩
  · rw [addFrontX_result, e] at e1
    cases e1
    refine addMainRearX_thrown h hv ⟨hi, ?_, ?_, ?_, ?_, ?_, ?_⟩ hm
    · intro x w hw
      refine Or.inl ?_
      have h1 := (hj' x w).1 (Or.inl hw)
      simp only [maps_append, maps_cons, mapSeg_key, mapSeg_val]
      clear * - h1
      grind
    · intro x w hw
      refine Or.inl ?_
      rw [maps_append] at hw
      rcases hw with hw | hw
      · exact hcb x w hw
      · rw [maps_append]; exact Or.inr hw
    · intro x hk hd
      obtain ⟨w, hw⟩ := dom_iff.1 hd
      exact Or.inr ⟨hk, Or.inr (Or.inr ⟨(hcb x w hw).dom, rfl⟩)⟩
    · intro x hk hd
      refine Or.inr ⟨hk, Or.inl ⟨fun hd' => hd ?_, rfl⟩⟩
      obtain ⟨w, hw⟩ := dom_iff.1 hd'
      simp only [maps_append, maps_cons, mapSeg_key, mapSeg_val] at hw
      rcases hw with (hw | hw) | hw
      · exact absurd (hr.before x x hw.dom hk) (lt_irrefl _)
      · rcases hw with hw | hw
        · rcases (hj' x w).2 (Or.inr hw) with h1 | h1
          · exact absurd hk (hleft x h1.dom)
          · rw [dom_cons]; exact Or.inl h1.1
        · rw [dom_cons]; exact Or.inr hw.dom
      · exact absurd (hr.after x x hk hw.dom) (lt_irrefl _)
    · intro x u w hk hu hw
      exact Or.inr ⟨hk, Or.inr (Or.inl ⟨u, hcb x u hu, hw⟩)⟩
    · intro x w hc
      rcases clear_range hr hc with h1 | h1
      · rcases (hj' x w).2 (Or.inl h1) with h2 | h2
        · exact Or.inl h2
        · obtain ⟨y, hy, hyx⟩ := hi.front x h2.1
          exact absurd (hr.before x y h1.dom hy) (not_lt.2 hyx)
      · exact Or.inr h1

omit h in
theorem mleaves_self {B C : D → V → Prop} {l : List (I × V)} (hl : WF o mapSeg l)
    (hB : ∀ x w, Maps o mapSeg l x w → B x w) (hC : ∀ x w, C x w → Maps o mapSeg l x w) : MLeaves o B C l :=
  ⟨hl, hB, hC⟩

/-- What an exception in `add(segment)` leaves behind -/
theorem addCX_thrown {c : MapCfg V} {f : Combiner V} {junk : V} {l : List (I × V)} (hl : WF o mapSeg l) {k : I}
    {v : V} {m : List (I × V)} (hm : m ∈ (addCX o junk c f l k v).thrown) :
    MLeaves o (AddB o c f v junk l k) (Clear o l k) m := by
  unfold addCX at hm
  split at hm
  · simp at hm
  rename_i he
  have hk : o.Nonempty k := (nonempty_iff h).2 (by simpa using he)
  split at hm
  · simp at hm
  rename_i hv
  rw [mem_thrown_bind] at hm
  rcases hm with hm | ⟨_, _, hm⟩
  · rw [thrown_mayThrow, List.mem_singleton] at hm
    rw [hm]
    exact mleaves_self hl (fun x w hw => Or.inl hw) fun x w hc => hc.maps
  · rw [mem_thrown_bind] at hm
    rcases hm with hm | ⟨⟨a, b, c'⟩, e, hm⟩
    · simp at hm
    · rw [result_ofOption] at e
      rcases range_cases h hl hk with ⟨a', c', e', rfl, _⟩ | ⟨a', g, b', c', e', rfl, hr⟩ <;>
        rw [e'] at e <;> cases e
      · simp at hm
      · exact addOverX_thrown h (by simpa using hv) hr hm

/-- What an exception in `add(prior, segment)` leaves behind: a functor that throws may leave any value in `k` -/
theorem addHintCX_thrown {c : MapCfg V} {f : Combiner V} {junk : V} {n : Nat} {l : List (I × V)}
    (hl : WF o mapSeg l) {k : I} {v : V} {m : List (I × V)} (hm : m ∈ (addHintCX o junk c f n l k v).thrown) :
    MLeaves o (fun x w => AddB o c f v junk l k x w ∨ (o.Mem x k ∧ junk = w)) (Clear o l k) m := by
  unfold addHintCX at hm
  split at hm
  · simp at hm
  rename_i he
  have hk : o.Nonempty k := (nonempty_iff h).2 (by simpa using he)
  split at hm
  · simp at hm
  rename_i hv
  rw [mem_thrown_bind] at hm
  rcases hm with hm | ⟨_, _, hm⟩
  · rw [thrown_mayThrow, List.mem_singleton] at hm
    rw [hm]
    exact mleaves_self hl (fun x w hw => Or.inl (Or.inl hw)) fun x w hc => hc.maps
  · rw [mem_thrown_bind] at hm
    rcases hm with hm | ⟨⟨a, b, c'⟩, e, hm⟩
    · simp at hm
    · rw [result_ofOption] at e
      rcases range_cases h hl hk with ⟨a', p', e', rfl, h1, h2⟩ | ⟨a', g, b', p', e', rfl, hr⟩ <;>
        rw [e'] at e <;> cases e
      · rw [mem_thrown_bind] at hm
        rcases hm with hm | ⟨_, _, hm⟩
        · rw [combineX_thrown, List.mem_singleton] at hm
          have hw := wf_append.1 hl
          rw [hm]
          refine mleaves_zip (by simpa using hw.1) (wf_cons.2 ⟨hk, hw.2.1, h2⟩) ?_ ?_ ?_ ?_
          · intro x y hx hy
            rw [dom_reverse] at hx
            rw [dom_cons] at hy
            rcases hy with hy | hy
            · exact h1 x y hx hy
            · exact hw.2.2 x y hx hy
          · intro x w hx
            exact Or.inl (Or.inl (by rw [maps_append]; exact Or.inl (by simpa using hx)))
          · intro x w hx
            rw [maps_cons] at hx
            rcases hx with hx | hx
            · exact Or.inr hx
            · exact Or.inl (Or.inl (by rw [maps_append]; exact Or.inr hx))
          · intro x w hc
            have := hc.maps
            rw [maps_append] at this
            rw [maps_reverse, maps_cons]
            tauto
        · simp at hm
      · dsimp only at hm
        split at hm
        · rename_i hcond
          simp only [Bool.and_eq_true, decide_eq_true_eq] at hcond
          have hmem : (g :: b').getD (n % (b'.length + 1)) g ∈ g :: b' := by
            rw [List.getD_eq_getElem?_getD]
            cases hq : (g :: b')[n % (b'.length + 1)]? with
            | none => simp
            | some t => simpa using List.mem_of_getElem? hq
          obtain ⟨rfl, hfg, hgk⟩ := range_eq h hr hmem hcond.1
          simp only [List.length_nil, Nat.zero_add, Nat.mod_one, List.take_zero, List.reverse_nil,
            List.nil_append, List.drop_one, List.tail_cons, List.getD_cons_zero, List.drop_succ_cons,
            List.drop_zero] at hm
          rw [mem_thrown_bind] at hm
          rcases hm with hm | ⟨_, _, hm⟩
          · rw [combineX_thrown, List.mem_singleton] at hm
            rw [hm]
            have hwf := hr.wf
            simp only [List.append_assoc, List.cons_append, List.nil_append] at hwf
            have hw1 := wf_append.1 hwf
            refine mleaves_zip (by simpa using hw1.1) (wf_cons_val (u := g.2) hw1.2.1) ?_ ?_ ?_ ?_
            · intro x y hx hy
              exact hw1.2.2 x y (by simpa using hx) (by rw [dom_cons] at hy ⊢; exact hy)
            · intro x w hx
              refine Or.inl (Or.inl ?_)
              rw [maps_append, maps_append]; exact Or.inl (Or.inl (by simpa using hx))
            · intro x w hx
              rw [maps_cons] at hx
              rcases hx with hx | hx
              · exact Or.inr ⟨(hgk x).1 hx.1, hx.2⟩
              · exact Or.inl (Or.inl (by rw [maps_append]; exact Or.inr hx))
            · intro x w hc
              have := clear_range hr hc
              rw [maps_reverse, maps_cons]
              tauto
          · simp at hm
        · have := addOverX_thrown h (by simpa using hv) hr hm
          exact ⟨this.wf, fun x w hw => Or.inl (this.upper x w hw), this.lower⟩

/-- The associations that may be found after an exception in the `subtract` of a partial map -/
def SubB (o : IntervalOps D I) (c : MapCfg V) (f : Combiner V) (v junk : V) (l : List (I × V)) (k : I) (x : D)
    (w : V) : Prop :=
  Maps o mapSeg l x w ∨ (o.Mem x k ∧ ((∃ u, Maps o mapSeg l x u ∧ upd c f v u = some w) ∨
    (Dom o mapSeg l x ∧ junk = w)))

/-- The state of `subtract_main`/`subtract_rear`, and what is known about the associations. -/
structure SXInv (o : IntervalOps D I) (c : MapCfg V) (f : Combiner V) (v junk : V) (B C : D → V → Prop)
    (left : List (I × V)) (cur : I × V) (mid post : List (I × V)) (k : I) : Prop where
  inv : SInv o left cur mid post k
  bl : ∀ x w, Maps o mapSeg left x w → B x w
  br : ∀ x w, Maps o mapSeg (cur :: mid ++ post) x w → B x w
  bj : ∀ x, o.Mem x k → Dom o mapSeg (cur :: mid) x → B x junk
  bu : ∀ x u w, o.Mem x k → Maps o mapSeg (cur :: mid) x u → upd c f v u = some w → B x w
  lo : ∀ x w, C x w → Maps o mapSeg left x w ∨ Maps o mapSeg post x w

theorem subRearX_thrown {c : MapCfg V} {f : Combiner V} {v junk : V} {B C : D → V → Prop} {left : List (I × V)}
    {cur : I × V} {post : List (I × V)} {k : I} (hk : o.Nonempty k)
    (hx : SXInv o c f v junk B C left cur [] post k) {m : List (I × V)}
    (hm : m ∈ (subRearX o junk c f v left cur post k).thrown) : MLeaves o B C m := by
  have hi := hx.inv
  have hwr : WF o mapSeg (cur :: post) := by simpa using hi.wfr
  have hwr' := wf_cons.1 hwr
  simp only [mapSeg_key] at hwr'
  have hsep : ∀ x y, Dom o mapSeg left x → Dom o mapSeg (cur :: post) y → x < y := by
    simpa using hi.sep
  have hbr : ∀ x w, (o.Mem x cur.1 ∧ cur.2 = w) ∨ Maps o mapSeg post x w → B x w := by simpa using hx.br
  have hbp : ∀ x w, Maps o mapSeg post x w → B x w := fun x w hw => hbr x w (Or.inr hw)
  unfold subRearX at hm
  dsimp only at hm
  split at hm
  · rename_i he2
    have hsub : ∀ x, o.Mem x cur.1 → o.Mem x k := by
      intro x hx
      rcases (mem_rightResid h hk hi.front x).2 hx with h1 | h1
      · exact h1
      · exact absurd h1 ((h.isEmpty_iff _).1 he2 x)
    rw [mem_thrown_bind] at hm
    rcases hm with hm | ⟨_, _, hm⟩
    · rw [combineX_thrown, List.mem_singleton] at hm
      rw [hm]
      refine mleaves_zip hi.wfl (wf_cons_val (u := cur.2) hwr) ?_ hx.bl ?_ ?_
      · intro x y h1 h2
        exact hsep x y h1 (by rw [dom_cons] at h2 ⊢; exact h2)
      · intro x w hw
        rw [maps_cons] at hw
        rcases hw with ⟨hw, rfl⟩ | hw
        · exact hx.bj x (hsub x hw) (by rw [dom_cons]; exact Or.inl hw)
        · exact hbp x w hw
      · intro x w hc
        rw [maps_cons]
        have := hx.lo x w hc
        tauto
    · simp at hm
  · rename_i he2
    have hne : o.Nonempty (o.leftSubtract cur.1 k) := (nonempty_iff h).2 (by simpa using he2)
    have hrr := h.mem_leftSubtract cur.1 k
    have hc' := fun x => (mem_rightResid h hk hi.front x).1
    obtain ⟨w, hwc, hwr0⟩ := hi.overlap cur (by simp)
    have hne' : o.Nonempty (o.rightSubtract cur.1 (o.leftSubtract cur.1 k)) :=
      ⟨w, (hc' w).2 ⟨hwc, hwr0⟩⟩
    have hrp : ∀ x y, o.Mem x (o.leftSubtract cur.1 k) → Dom o mapSeg post y → x < y :=
      fun x y hx hy => hwr'.2.2 x y ((hrr x).1 hx).1 hy
    have hwn : WF o mapSeg ((o.leftSubtract cur.1 k, cur.2) :: post) := by
      rw [wf_cons]; exact ⟨hne, hwr'.2.1, hrp⟩
    rw [mem_thrown_bind] at hm
    rcases hm with hm | ⟨ins, e2, hm⟩
    · rw [insertAtX_thrown, List.mem_singleton, List.reverse_cons, List.append_assoc] at hm
      rw [hm]
      refine mleaves_zip hi.wfl ?_ ?_ hx.bl ?_ ?_
      · exact wf_cons.2 ⟨hne', hwr'.2.1, fun x y hx hy => hwr'.2.2 x y ((hc' x).1 hx).1 hy⟩
      · intro x y h1 h2
        refine hsep x y h1 ?_
        simp only [List.cons_append, List.nil_append, dom_cons, mapSeg_key, hc'] at h2 ⊢
        tauto
      · intro x w hw
        simp only [List.cons_append, List.nil_append, maps_cons, mapSeg_key, mapSeg_val, hc'] at hw
        exact hbr x w (by tauto)
      · intro x w hc
        simp only [List.cons_append, List.nil_append, maps_cons, mapSeg_key, mapSeg_val]
        have := hx.lo x w hc
        tauto
    · rw [insertAtX_result] at e2
      rw [insertAt_some e2, mem_thrown_bind] at hm
      rcases hm with hm | ⟨_, _, hm⟩
      · rw [combineX_thrown, List.mem_singleton] at hm
        rw [hm]
        refine mleaves_zip hi.wfl ?_ ?_ hx.bl ?_ ?_
        · rw [wf_cons]
          refine ⟨hne', hwn, fun x y hx hy => ?_⟩
          rw [dom_cons] at hy
          rcases hy with hy | hy
          · exact ((hrr y).1 hy).2 x ((hc' x).1 hx).2
          · exact hwr'.2.2 x y ((hc' x).1 hx).1 hy
        · intro x y h1 h2
          refine hsep x y h1 ?_
          simp only [dom_cons, mapSeg_key, hc', hrr] at h2 ⊢
          tauto
        · intro x w hw
          simp only [maps_cons, mapSeg_key, mapSeg_val, hc', hrr] at hw
          rcases hw with ⟨hw, rfl⟩ | hw | hw
          · exact hx.bj x hw.2 (by rw [dom_cons]; exact Or.inl hw.1)
          · exact hbr x w (Or.inl ⟨hw.1.1, hw.2⟩)
          · exact hbp x w hw
        · intro x w hc
          simp only [maps_cons]
          have := hx.lo x w hc
          tauto
      · simp at hm

theorem subMainRearX_thrown {c : MapCfg V} {f : Combiner V} {v junk : V} {B C : D → V → Prop}
    {left : List (I × V)} {cur : I × V} {mid post : List (I × V)} {k : I} (hk : o.Nonempty k)
    (hx : SXInv o c f v junk B C left cur mid post k) {m : List (I × V)}
    (hm : m ∈ ((do
        let (left, cur) ← subMainX o junk c f v left cur mid post
        subRearX o junk c f v left cur post k) : Run (I × V) (List (I × V))).thrown) :
    MLeaves o B C m := by
  induction mid generalizing left cur with
  | nil =>
    apply subRearX_thrown h hk hx
    simpa [subMainX, mem_thrown_bind] using hm
  | cons nxt more ih =>
    have hi := hx.inv
    have hwr := hi.wfr
    rw [List.cons_append] at hwr
    obtain ⟨l2, e2, hck, hi', hj, -⟩ := sub_step h c f v hi
    have hm2 : ∀ x w, Maps o mapSeg l2 x w ↔ Maps o mapSeg left x w ∨
        (o.Mem x cur.1 ∧ upd c f v cur.2 = some w) := by
      intro x w
      rw [← joint_self, hj x x w (dg_self c x), joint_self]
      tauto
    have hx' : SXInv o c f v junk B C l2 nxt more post k := by
      refine ⟨hi', ?_, ?_, ?_, ?_, ?_⟩
      · intro x w hw
        rcases (hm2 x w).1 hw with hw | hw
        · exact hx.bl x w hw
        · exact hx.bu x cur.2 w (hck x hw.1) (by simp [hw.1]) hw.2
      · intro x w hw
        exact hx.br x w (by simp only [List.cons_append, maps_cons] at hw ⊢; tauto)
      · intro x hr hd
        exact hx.bj x hr (by rw [dom_cons]; exact Or.inr hd)
      · intro x u w hr hu hw
        exact hx.bu x u w hr (by rw [maps_cons]; exact Or.inr hu) hw
      · intro x w hc
        rw [hm2]
        have := hx.lo x w hc
        tauto
    have hcomb : ∀ m ∈ (combineX junk f left cur (nxt :: more ++ post) v).thrown, MLeaves o B C m := by
      intro m hm
      rw [combineX_thrown, List.mem_singleton] at hm
      rw [hm]
      refine mleaves_zip hi.wfl (wf_cons_val (u := cur.2) hwr) ?_ hx.bl ?_ ?_
      · intro x y h1 h2
        exact hi.sep x y h1 (by rw [List.cons_append, dom_cons]; rw [dom_cons] at h2; exact h2)
      · intro x w hw
        rw [maps_cons] at hw
        rcases hw with ⟨hw, rfl⟩ | hw
        · exact hx.bj x (hck x hw) (by rw [dom_cons]; exact Or.inl hw)
        · exact hx.br x w (by rw [List.cons_append, maps_cons]; exact Or.inr hw)
      · intro x w hc
        simp only [List.cons_append, maps_cons, maps_append]
        have := hx.lo x w hc
        tauto
    have hunf : subMainX o junk c f v left cur (nxt :: more) post =
        (combineX junk f left cur (nxt :: more ++ post) v >>= fun cur =>
          (ofOption (handleLeftCombined o c left cur (nxt :: more ++ post)) >>= fun left' =>
            subMainX o junk c f v left' nxt more post)) := rfl
    rw [mem_thrown_bind, hunf, mem_thrown_bind] at hm
    rcases hm with (hm | ⟨c1, e, hm⟩) | ⟨r, e, hm⟩
    · exact hcomb m hm
    · rw [combineX_result] at e
      cases e
      rw [mem_thrown_bind] at hm
      rcases hm with hm | ⟨l, e, hm⟩
      · simp at hm
      · rw [result_ofOption, e2] at e
        cases e
        exact ih hx' (by rw [mem_thrown_bind]; exact Or.inl hm)
    · rw [result_bind, combineX_result, Option.bind_some, result_bind, result_ofOption, e2, Option.bind_some] at e
      exact ih hx' (by rw [mem_thrown_bind]; exact Or.inr ⟨r, e, hm⟩)

/-- What an exception in the `subtract(segment)` of a partial map leaves behind -/
theorem subCX_thrown {c : MapCfg V} {f : Combiner V} {junk : V} {l : List (I × V)} (hl : WF o mapSeg l) {k : I}
    {v : V} {m : List (I × V)} (hm : m ∈ (subCX o junk c f l k v).thrown) :
    MLeaves o (SubB o c f v junk l k) (Clear o l k) m := by
  unfold subCX at hm
  split at hm
  · simp at hm
  rename_i he
  have hk : o.Nonempty k := (nonempty_iff h).2 (by simpa using he)
  split at hm
  · simp at hm
  rw [mem_thrown_bind] at hm
  rcases hm with hm | ⟨⟨a, b, c'⟩, e, hm⟩
  · simp at hm
  rw [result_ofOption] at e
  rcases range_cases h hl hk with ⟨a', c', e', rfl, _⟩ | ⟨a', g, b', c', e', rfl, hr⟩ <;>
    rw [e'] at e <;> cases e
  · simp at hm
  obtain ⟨left, cur, e, hi, hj, _⟩ := addFront_spec h hr
  have hj' : ∀ x w, Maps o mapSeg left x w ∨ (o.Mem x cur.1 ∧ cur.2 = w) ↔
      Maps o mapSeg a x w ∨ (o.Mem x g.1 ∧ g.2 = w) := by
    intro x w
    have h1 := hj x x w
    simp only [joint_self, and_true, true_and] at h1
    clear * - h1
    grind
  have hcb : ∀ x w, Maps o mapSeg (cur :: b') x w → Maps o mapSeg (a ++ g :: b' ++ c') x w := by
    intro x w hw
    have h1 := hj' x w
    simp only [maps_append, maps_cons, mapSeg_key, mapSeg_val] at hw ⊢
    clear * - h1 hw
    grind
  dsimp only at hm
  rw [mem_thrown_bind] at hm
  rcases hm with hm | ⟨⟨left1, cur1⟩, e1, hm⟩
  · obtain ⟨h1, h2, h3⟩ := addFrontX_thrown h hr hm
    exact ⟨h1, fun x w hw => Or.inl (h2 x w hw), fun x w hc => h3 x w (clear_range hr hc)⟩
  · rw [addFrontX_result, e] at e1
    cases e1
    refine subMainRearX_thrown h hk ⟨⟨hi.wfl, hi.wfr, hi.sep, hi.overlap, hi.front⟩, ?_, ?_, ?_, ?_, ?_⟩ hm
    · intro x w hw
      refine Or.inl ?_
      have h1 := (hj' x w).1 (Or.inl hw)
      simp only [maps_append, maps_cons, mapSeg_key, mapSeg_val]
      clear * - h1
      grind
    · intro x w hw
      refine Or.inl ?_
      rw [maps_append] at hw
      rcases hw with hw | hw
      · exact hcb x w hw
      · rw [maps_append]; exact Or.inr hw
    · intro x hk hd
      obtain ⟨w, hw⟩ := dom_iff.1 hd
      exact Or.inr ⟨hk, Or.inr ⟨(hcb x w hw).dom, rfl⟩⟩
    · intro x u w hk hu hw
      exact Or.inr ⟨hk, Or.inl ⟨u, hcb x u hu, hw⟩⟩
    · intro x w hc
      rcases clear_range hr hc with h1 | h1
      · rcases (hj' x w).2 (Or.inl h1) with h2 | h2
        · exact Or.inl h2
        · obtain ⟨y, hy, hyx⟩ := hi.front x h2.1
          exact absurd (hr.before x y h1.dom hy) (not_lt.2 hyx)
      · exact Or.inr h1

end
end IMap
end ICL
