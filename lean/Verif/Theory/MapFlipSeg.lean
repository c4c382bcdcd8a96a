import Verif.Theory.MapSeg
import Verif.Theory.MapFlip

/-!
# The segments of split interval maps after a symmetric difference
-/

set_option linter.unusedSectionVars false
set_option linter.unusedVariables false

namespace ICL
open Spec IMap

variable {D I V W : Type} [LinearOrder D] {o : IntervalOps D I} [DecidableEq V]

section
variable (h : o.Lawful)
include h

/-- Adding a segment where the map has no keys. -/
theorem addC_free {c : MapCfg V} (hj : c.joining = false) (f : Combiner V) {l l' : List (I × V)} (hl : WF o mapSeg l)
    {k : I} {v : V} (hd : ∀ x, Dom o mapSeg l x → ¬ o.Mem x k) (e : addC o c f l k v = some l') (x y : D) (w : V) :
    Joint o l' x y w ↔ Joint o l x y w ∨ (o.Mem x k ∧ o.Mem y k ∧ absorbable c v = false ∧ f.version v = w) := by
  obtain ⟨l2, e2, h1, h2⟩ := addC_spec h c f hl k v
  rw [e] at e2; obtain rfl := Option.some.inj e2
  cases hv : absorbable c v with
  | true => rw [h1 hv]; simp
  | false =>
    rw [(h2 hv).joint x y w (fun hc => by rw [hj] at hc; cases hc), eff_free hd h]
    simp

theorem addMap_free {t : MapType V} (hj : t.cfg.joining = false) {oracle : List (I × V) → I → Nat}
    {l r l' : List (I × V)} (hl : WF o mapSeg l) (hr : WF o mapSeg r) (hn : NoIdent t.cfg r)
    (hd : ∀ x, Dom o mapSeg l x → ¬ Dom o mapSeg r x) (e : addMap o t oracle l r = some l') (x y : D) :
    Same o mapSeg l' x y ↔ Same o mapSeg l x y ∨ Same o mapSeg r x y := by
  induction r generalizing l with
  | nil =>
    simp only [addMap, forEach, Option.some.injEq] at e
    subst e
    simp
  | cons s r ih =>
    simp only [addMap, forEach, Option.bind_eq_bind, Option.bind_eq_some_iff] at e
    obtain ⟨l1, e1, e2⟩ := e
    have hw := wf_cons.1 hr
    obtain ⟨m1, e1', _, h2⟩ := addHintC_gen h t.cfg t.plus (oracle l s.1) hl s.1 s.2
    unfold addHint at e1
    rw [e1] at e1'
    cases e1'
    obtain ⟨up, u, hs, _⟩ := h2 (hn s (by simp))
    have hds : ∀ x, Dom o mapSeg l x → ¬ o.Mem x s.1 := fun z hz hc => hd z hz (by simp [hc])
    have hs1 : ∀ x y, Same o mapSeg l1 x y ↔ Same o mapSeg l x y ∨ (o.Mem x s.1 ∧ o.Mem y s.1) := by
      intro x y
      simp only [joint_iff_same, hs.joint x y _ (fun hc => by rw [hj] at hc; cases hc), eff_free hds h]
      constructor
      · rintro ⟨w, hw | ⟨h1, h2, _⟩⟩
        · exact Or.inl ⟨w, hw⟩
        · exact Or.inr ⟨h1, h2⟩
      · rintro (⟨w, hw⟩ | ⟨h1, h2⟩)
        · exact ⟨w, Or.inl hw⟩
        · exact ⟨u, Or.inr ⟨h1, h2, rfl⟩⟩
    have hdom : ∀ x, Dom o mapSeg l1 x ↔ Dom o mapSeg l x ∨ o.Mem x s.1 := by
      intro x
      have := hs1 x x
      simpa [Same, Dom] using this
    rw [ih hs.wf hw.2.1 (fun s hs => hn s (by simp [hs])) (fun z hz hc => by
      rcases (hdom z).1 hz with hz | hz
      · exact hd z hz (by simp [hc])
      · exact lt_irrefl _ (hw.2.2 z z hz hc)) e2, hs1, same_cons, mapSeg_key, or_assoc]

/-- Erasing the keys of a set. -/
theorem eraseAll_joint {r : List I} {l l' : List (I × V)} (hl : WF o mapSeg l)
    (e : forEach (fun m k => eraseItv o m k) l r = some l') :
    WF o mapSeg l' ∧ ∀ x y w, Joint o l' x y w ↔ Joint o l x y w ∧ ∀ z, Btw x y z → ¬ Dom o setSeg r z := by
  induction r generalizing l with
  | nil =>
    simp only [forEach, Option.some.injEq] at e
    subst e
    exact ⟨hl, by simp⟩
  | cons k r ih =>
    simp only [forEach, Option.bind_eq_bind, Option.bind_eq_some_iff] at e
    obtain ⟨l1, e1, e2⟩ := e
    obtain ⟨m1, e1', h1⟩ := eraseItv_spec h hl k
    rw [e1] at e1'
    cases e1'
    obtain ⟨h2, h3⟩ := ih h1.wf e2
    refine ⟨h2, fun x y w => ?_⟩
    rw [h3, h1.joint]
    simp only [dom_cons, setSeg_key, not_or]
    constructor
    · rintro ⟨⟨h1, h2⟩, h3⟩; exact ⟨h1, fun z hz => ⟨h2 trivial z hz, h3 z hz⟩⟩
    · rintro ⟨h1, h2⟩; exact ⟨⟨h1, fun _ z hz => (h2 z hz).1⟩, fun z hz => (h2 z hz).2⟩

theorem eraseSet_joint {r : List I} {l l' : List (I × V)} (hl : WF o mapSeg l) (hr : WF o setSeg r)
    (e : eraseSet o l r = some l') :
    WF o mapSeg l' ∧ ∀ x y w, Joint o l' x y w ↔ Joint o l x y w ∧ ∀ z, Btw x y z → ¬ Dom o setSeg r z := by
  obtain ⟨res, e1, h1, h2⟩ := commonRange_spec h hr (wf_fst.2 hl)
  unfold eraseSet at e
  simp only [e1, Option.bind_eq_bind, Option.bind_some] at e
  cases res with
  | none =>
    obtain rfl := Option.some.inj e
    refine ⟨hl, fun x y w => ⟨fun hw => ⟨hw, fun z hz hc => ?_⟩, And.left⟩⟩
    exact h1 rfl z hc (dom_fst.2 (joint_btw h hw hz).right)
  | some pcq =>
    obtain ⟨p, c, q⟩ := pcq
    obtain ⟨rfl, h3, h4⟩ := h2 p c q rfl
    obtain ⟨h5, h6⟩ := eraseAll_joint h hl e
    refine ⟨h5, fun x y w => ?_⟩
    rw [h6]
    constructor
    · rintro ⟨hw, hn⟩
      refine ⟨hw, fun z hz hc => ?_⟩
      have hz' := dom_fst.2 (joint_btw h hw hz).right
      rw [dom_append, dom_append] at hc
      rcases hc with (hc | hc) | hc
      · exact lt_irrefl _ (h3 z z hc hz')
      · exact hn z hz hc
      · exact lt_irrefl _ (h4 z z hz' hc)
    · rintro ⟨hw, hn⟩
      exact ⟨hw, fun z hz hc => hn z hz (by rw [dom_append, dom_append]; exact Or.inl (Or.inr hc))⟩

/-- What the loop of `flip` leaves: all gaps are filled, and the overlaps are noted. -/
theorem flipLoop_joint [DecidableEq I] {t : MapType V} (hj : t.cfg.joining = false) {v : V}
    (hv : absorbable t.cfg v = false) (post mid : List (I × V)) {q : List (I × V)} {span : I}
    {er : List I} {ins : List (I × V)} (hw : WF o mapSeg (q ++ (mid ++ post)))
    (hq : ∀ x y, Dom o mapSeg q x → o.Mem y span → x < y)
    (hm : ∀ s ∈ mid, ∃ x, o.Mem x s.1 ∧ o.Mem x span)
    (hp : ∀ x y, o.Mem x span → Dom o mapSeg post y → x < y)
    (hi : WF o mapSeg ins) (hib : ∀ x y, Dom o mapSeg ins x → o.Mem y span → x < y)
    {m1 : List (I × V)} {span1 : I} {er1 : List I} {ins1 m2 : List (I × V)}
    (e1 : flipLoop o t v post (q ++ (mid ++ post)) span er ins mid = some (m1, span1, er1, ins1))
    (e2 : addSeg o t m1 span1 v = some m2) :
    (∀ x y w, Joint o m2 x y w ↔ Fill o (t.plus.version v) (q ++ (mid ++ post)) span x y w) ∧
    (∀ x y, Same o mapSeg ins1 x y ↔ Same o mapSeg ins x y ∨
      (o.Mem x span ∧ o.Mem y span ∧ ∃ u, Joint o mid x y u ∧ absorbable t.cfg (flipValue t v u) = false)) := by
  induction mid generalizing q span er ins with
  | nil =>
    simp only [flipLoop, Option.some.injEq, Prod.mk.injEq] at e1
    obtain ⟨rfl, rfl, rfl, rfl⟩ := e1
    have hd : ∀ x, Dom o mapSeg (q ++ ([] ++ post)) x → ¬ o.Mem x span := by
      intro x hx hc
      rw [List.nil_append, dom_append] at hx
      rcases hx with hx | hx
      · exact lt_irrefl _ (hq x x hx hc)
      · exact lt_irrefl _ (hp x x hc hx)
    refine ⟨fun x y w => ?_, by simp⟩
    unfold addSeg at e2
    rw [addC_free h hj t.plus hw hd e2]
    unfold Fill
    constructor
    · rintro (h1 | ⟨h1, h2, _, h3⟩)
      · exact Or.inl h1
      · exact Or.inr ⟨h1, h2, h3, fun z hz hc => hd z hc (mem_btw h h1 h2 hz)⟩
    · rintro (h1 | ⟨h1, h2, h3, _⟩)
      · exact Or.inl h1
      · exact Or.inr ⟨h1, h2, hv, h3⟩
  | cons cov mid ih =>
    have hw1 := wf_append.1 hw
    have hw2 := wf_cons.1 hw1.2.1
    simp only [List.append_eq, mapSeg_key] at hw2
    obtain ⟨w0, hwc, hws⟩ := hm cov (by simp)
    have hcm : ∀ x y, o.Mem x cov.1 → Dom o mapSeg (mid ++ post) y → x < y := hw2.2.2
    have hlo : ∀ x, o.Mem x (o.rightSubtract span cov.1) ↔ o.Mem x span ∧ ∀ y, o.Mem y cov.1 → x < y :=
      h.mem_rightSubtract span cov.1
    have hls : ∀ x, o.Mem x (o.leftSubtract span cov.1) ↔ o.Mem x span ∧ ∀ y, o.Mem y cov.1 → y < x :=
      h.mem_leftSubtract span cov.1
    have hin : ∀ x, o.Mem x (o.inter span cov.1) ↔ o.Mem x span ∧ o.Mem x cov.1 := h.mem_inter span cov.1
    have hne : o.Nonempty (o.inter span cov.1) := ⟨w0, (hin w0).2 ⟨hws, hwc⟩⟩
    rw [flipLoop] at e1
    simp only [Option.bind_eq_bind, Option.bind_eq_some_iff, Prod.exists] at e1
    obtain ⟨er', ins', ec, m', em, e1⟩ := e1
    unfold flipCommon at ec
    rw [isEmpty_false h hne] at ec
    simp only [Bool.false_eq_true, if_false, Option.bind_eq_bind, Option.bind_eq_some_iff, Option.pure_def,
      Option.some.injEq, Prod.mk.injEq] at ec
    obtain ⟨er'', _, ins'', ei, rfl, rfl⟩ := ec
    have em' := em
    unfold addSeg at em'
    obtain ⟨q', rfl⟩ := addC_suffix h t.cfg t.plus (q := q) (cov := cov) (rest := mid ++ post) hw
      (fun x y hx hy => hq x y hx ((hlo y).1 hy).1)
      (fun x y hx hy => by
        rcases (dom_cons _ _ _).1 hy with hy | hy
        · exact ((hlo x).1 hx).2 y hy
        · exact lt_trans (((hlo x).1 hx).2 w0 hwc) (hcm w0 y hwc hy)) em'
    rw [if_pos (List.isSuffixOf_iff_suffix.2 (List.suffix_append _ _))] at e1
    have hdl : ∀ x, Dom o mapSeg (q ++ (cov :: mid ++ post)) x → ¬ o.Mem x (o.rightSubtract span cov.1) := by
      intro x hx hk
      rw [hlo] at hk
      rw [dom_append, List.cons_append, dom_cons, mapSeg_key] at hx
      rcases hx with hx | hx | hx
      · exact lt_irrefl _ (hq x x hx hk.1)
      · exact lt_irrefl _ (hk.2 x hx)
      · exact lt_irrefl _ (lt_trans (hk.2 w0 hwc) (hcm w0 x hwc hx))
    have hj1 := addC_free h hj t.plus hw hdl em'
    have hd1 : ∀ x, Dom o mapSeg (q' ++ (mid ++ post)) x ↔ Dom o mapSeg (q ++ (cov :: mid ++ post)) x ∨
        o.Mem x (o.rightSubtract span cov.1) := by
      intro x
      rw [dom_iff_joint, dom_iff_joint]
      simp only [hj1]
      constructor
      · rintro ⟨w, h1 | ⟨h1, _⟩⟩
        · exact Or.inl ⟨w, h1⟩
        · exact Or.inr h1
      · rintro (⟨w, h1⟩ | h1)
        · exact ⟨w, Or.inl h1⟩
        · exact ⟨_, Or.inr ⟨h1, h1, hv, rfl⟩⟩
    have hdi : ∀ x, Dom o mapSeg ins x → ¬ o.Mem x (o.inter span cov.1) := fun x hx hc =>
      lt_irrefl _ (hib x x hx ((hin x).1 hc).1)
    have hji := addC_free h hj t.plus hi hdi ei
    obtain ⟨_, em2, p2⟩ := addSeg_pt h t hw (o.rightSubtract span cov.1) v
    rw [em] at em2; obtain rfl := Option.some.inj em2
    obtain ⟨_, ei2, pi2⟩ := addSeg_pt h t hi (o.inter span cov.1) (flipValue t v cov.2)
    unfold addSeg at ei2
    rw [ei] at ei2; obtain rfl := Option.some.inj ei2
    have hsi : ∀ x y, Same o mapSeg ins'' x y ↔ Same o mapSeg ins x y ∨
        (o.Mem x (o.inter span cov.1) ∧ o.Mem y (o.inter span cov.1) ∧
          absorbable t.cfg (flipValue t v cov.2) = false) := by
      intro x y
      simp only [joint_iff_same, hji]
      constructor
      · rintro ⟨w, h1 | ⟨h1, h2, h3, _⟩⟩
        · exact Or.inl ⟨w, h1⟩
        · exact Or.inr ⟨h1, h2, h3⟩
      · rintro (⟨w, h1⟩ | ⟨h1, h2, h3⟩)
        · exact ⟨w, Or.inl h1⟩
        · exact ⟨_, Or.inr ⟨h1, h2, h3, rfl⟩⟩
    have hdi2 : ∀ x, Dom o mapSeg ins'' x → Dom o mapSeg ins x ∨ o.Mem x (o.inter span cov.1) := by
      intro x hx
      have hx' : Same o mapSeg ins'' x x := by
        obtain ⟨s, hs, hx⟩ := hx; exact ⟨s, hs, hx, hx⟩
      rcases (hsi x x).1 hx' with h1 | h1
      · exact Or.inl h1.left
      · exact Or.inr h1.1
    obtain ⟨r1, r2⟩ := ih (q := q') (span := o.leftSubtract span cov.1) p2.wf
      (by
        intro x y hx hy
        rw [hls] at hy
        have hx2 : Dom o mapSeg (q' ++ (mid ++ post)) x := by rw [dom_append]; exact Or.inl hx
        rcases (hd1 x).1 hx2 with hx2 | hx2
        · rw [dom_append, List.cons_append, dom_cons, mapSeg_key] at hx2
          rcases hx2 with hx2 | hx2 | hx2
          · exact hq x y hx2 hy.1
          · exact hy.2 x hx2
          · exact absurd ((wf_append.1 p2.wf).2.2 x x hx hx2) (lt_irrefl _)
        · exact lt_trans (((hlo x).1 hx2).2 w0 hwc) (hy.2 w0 hwc))
      (by
        intro s hs
        obtain ⟨x, hx, hxs⟩ := hm s (by simp [hs])
        exact ⟨x, hx, (hls x).2 ⟨hxs, fun y hy => hcm y x hy ⟨s, by simp [hs], hx⟩⟩⟩)
      (fun x y hx hy => hp x y ((hls x).1 hx).1 hy) pi2.wf
      (by
        intro x y hx hy
        rw [hls] at hy
        rcases hdi2 x hx with h1 | h1
        · exact hib x y h1 hy.1
        · exact hy.2 x ((hin x).1 h1).2) e1
    refine ⟨fun x y w => ?_, fun x y => ?_⟩
    · rw [r1]
      unfold Fill
      rw [hj1]
      constructor
      · rintro ((h1 | ⟨h1, h2, _, h3⟩) | ⟨h1, h2, h3, h4⟩)
        · exact Or.inl h1
        · exact Or.inr ⟨((hlo x).1 h1).1, ((hlo y).1 h2).1, h3, fun z hz hc => hdl z hc (mem_btw h h1 h2 hz)⟩
        · exact Or.inr ⟨((hls x).1 h1).1, ((hls y).1 h2).1, h3, fun z hz hc => h4 z hz ((hd1 z).2 (Or.inl hc))⟩
      · rintro (h1 | ⟨h1, h2, h3, h4⟩)
        · exact Or.inl (Or.inl h1)
        · have hnc : ∀ z, Btw x y z → ¬ o.Mem z cov.1 := fun z hz hc => h4 z hz (by
            rw [dom_append, List.cons_append, dom_cons]; exact Or.inr (Or.inl hc))
          have side : ∀ z, o.Mem z span → Btw x y z →
              o.Mem z (o.rightSubtract span cov.1) ∨ o.Mem z (o.leftSubtract span cov.1) := by
            intro z hz hb
            rcases point_tri h (i := cov.1) ⟨w0, hwc⟩ z with h5 | h5 | h5
            · exact absurd h5 (hnc z hb)
            · exact Or.inl ((hlo z).2 ⟨hz, h5⟩)
            · exact Or.inr ((hls z).2 ⟨hz, h5⟩)
          rcases side x h1 (btw_left x y) with hx | hx <;> rcases side y h2 (btw_right x y) with hy | hy
          · exact Or.inl (Or.inr ⟨hx, hy, hv, h3⟩)
          · refine absurd hwc (hnc w0 ?_)
            have a := ((hlo x).1 hx).2 w0 hwc
            have b := ((hls y).1 hy).2 w0 hwc
            exact ⟨le_of_lt (lt_of_le_of_lt (min_le_left _ _) a), le_of_lt (lt_of_lt_of_le b (le_max_right _ _))⟩
          · refine absurd hwc (hnc w0 ?_)
            have a := ((hls x).1 hx).2 w0 hwc
            have b := ((hlo y).1 hy).2 w0 hwc
            exact ⟨le_of_lt (lt_of_le_of_lt (min_le_right _ _) b), le_of_lt (lt_of_lt_of_le a (le_max_left _ _))⟩
          · refine Or.inr ⟨hx, hy, h3, fun z hz hc => ?_⟩
            rcases (hd1 z).1 hc with hc | hc
            · exact h4 z hz hc
            · have hzs := mem_btw h hx hy hz
              exact lt_asymm (((hlo z).1 hc).2 w0 hwc) (((hls z).1 hzs).2 w0 hwc)
    · rw [r2, hsi]
      simp only [joint_cons, hin, hls]
      constructor
      · rintro ((h1 | ⟨h1, h2, h3⟩) | ⟨h1, h2, u, h3, h4⟩)
        · exact Or.inl h1
        · exact Or.inr ⟨h1.1, h2.1, cov.2, Or.inl ⟨h1.2, h2.2, rfl⟩, h3⟩
        · exact Or.inr ⟨h1.1, h2.1, u, Or.inr h3, h4⟩
      · rintro (h1 | ⟨h1, h2, u, ⟨h3, h4, rfl⟩ | h3, h5⟩)
        · exact Or.inl (Or.inl h1)
        · exact Or.inl (Or.inr ⟨⟨h1, h3⟩, ⟨h2, h4⟩, h5⟩)
        · refine Or.inr ⟨⟨h1, fun y hy => hcm y x hy ?_⟩, ⟨h2, fun z hz => hcm z y hz ?_⟩, u, h3, h5⟩
          · rw [dom_append]; exact Or.inl h3.left
          · rw [dom_append]; exact Or.inl h3.right

/-- The segments after `flip(segment)` on a split map: what is left of the old ones, the gaps, and the overlaps. -/
theorem flipSeg_same [DecidableEq I] {t : MapType V} (hj : t.cfg.joining = false) (ht : t.cfg.total = false)
    (hN : Neutral t) {oracle : List (I × V) → I → Nat} {l l' : List (I × V)} (hl : WF o mapSeg l) {k : I}
    (hk : o.Nonempty k) {v : V} (hv : absorbable t.cfg v = false) (e : flipSeg o t oracle l k v = some l') (x y : D) :
    Same o mapSeg l' x y ↔ (Same o mapSeg l x y ∧ ∀ z, Btw x y z → ¬ o.Mem z k) ∨
      (o.Mem x k ∧ o.Mem y k ∧ ((∀ z, Btw x y z → ¬ Dom o mapSeg l z) ∨
        ∃ u, Joint o l x y u ∧ absorbable t.cfg (flipValue t v u) = false)) := by
  obtain ⟨a, b, c, e0, rfl, h1, h2, h3⟩ := equalRange_spec h hl hk
  have hl' : WF o mapSeg (a ++ (b ++ c)) := by simpa using hl
  have ha : ∀ x y, Dom o mapSeg a x → o.Mem y k → x < y := by
    rintro x y ⟨s, hs, hx⟩ hy; exact h1 s hs x y hx hy
  have hc : ∀ x y, o.Mem x k → Dom o mapSeg c y → x < y := by
    rintro x y hx ⟨s, hs, hy⟩; exact h3 s hs x y hx hy
  obtain ⟨m1, span1, er1, ins1, m2, e1, e2, p2, we, de, pi⟩ := flipLoop_pt h t v c b (q := a) (span := k) (er := [])
    (ins := []) hl' ha (fun s hs => h2 s hs) hc wf_nil wf_nil
  obtain ⟨j2, ji⟩ := flipLoop_joint h hj hv c b (q := a) (span := k) (er := []) (ins := []) hl' ha
    (fun s hs => h2 s hs) hc wf_nil (by simp) e1 e2
  unfold flipSeg at e
  simp only [ht, Bool.false_eq_true, if_false, e0, Option.bind_eq_bind, Option.bind_some] at e
  rw [show a ++ b ++ c = a ++ (b ++ c) by simp, e1] at e
  simp only [Option.bind_some, e2, Option.bind_eq_some_iff] at e
  obtain ⟨m3, e3, e4⟩ := e
  obtain ⟨w3, j3⟩ := eraseSet_joint h p2.wf we e3
  have hb : ∀ x y u, o.Mem x k → (Joint o (a ++ (b ++ c)) x y u ↔ Joint o b x y u) := by
    intro x y u hx
    rw [joint_append, joint_append]
    constructor
    · rintro (h1 | h1 | h1)
      · exact absurd (ha x x h1.left hx) (lt_irrefl _)
      · exact h1
      · exact absurd (hc x x hx h1.left) (lt_irrefl _)
    · exact fun h1 => Or.inr (Or.inl h1)
  have hde : ∀ x, Dom o setSeg er1 x ↔ o.Mem x k ∧ Dom o mapSeg (a ++ (b ++ c)) x := by
    intro x
    rw [de]
    simp only [dom_nil, false_or]
    refine and_congr_right fun hx => ?_
    simp only [dom_iff_joint, hb x x _ hx]
  have hdi : ∀ x, Dom o mapSeg ins1 x → Dom o setSeg er1 x := by
    intro x hx
    have hx' : Same o mapSeg ins1 x x := by
      obtain ⟨s, hs, hx⟩ := hx; exact ⟨s, hs, hx, hx⟩
    rw [ji] at hx'
    simp only [same_nil, false_or] at hx'
    obtain ⟨h1, _, u, h2, _⟩ := hx'
    exact (hde x).2 ⟨h1, ((hb x x u h1).2 h2).left⟩
  have hd3 : ∀ x, Dom o mapSeg m3 x → ¬ Dom o setSeg er1 x := by
    intro x hx
    obtain ⟨w, hx⟩ := dom_iff_joint.1 hx
    exact ((j3 x x w).1 hx).2 x (btw_left x x)
  rw [addMap_free h hj w3 pi.wf (pi.noIdent hN (noIdent_nil _)) (fun x hx hc => hd3 x hx (hdi x hc)) e4, ji,
    show a ++ b ++ c = a ++ (b ++ c) by simp]
  simp only [same_nil, false_or]
  have key : Same o mapSeg m3 x y ↔ (Same o mapSeg (a ++ (b ++ c)) x y ∧ ∀ z, Btw x y z → ¬ o.Mem z k) ∨
      (o.Mem x k ∧ o.Mem y k ∧ ∀ z, Btw x y z → ¬ Dom o mapSeg (a ++ (b ++ c)) z) := by
    simp only [joint_iff_same, j3, j2, hde]
    unfold Fill
    constructor
    · rintro ⟨w, h1 | ⟨h1, h2, _, h3⟩, h4⟩
      · exact Or.inl ⟨⟨w, h1⟩, fun z hz hc => h4 z hz ⟨hc, (joint_btw h h1 hz).right⟩⟩
      · exact Or.inr ⟨h1, h2, h3⟩
    · rintro (⟨⟨w, h1⟩, h2⟩ | ⟨h1, h2, h3⟩)
      · exact ⟨w, Or.inl h1, fun z hz hc => h2 z hz hc.1⟩
      · exact ⟨_, Or.inr ⟨h1, h2, rfl, h3⟩, fun z hz hc => h3 z hz hc.2⟩
  rw [key]
  constructor
  · rintro ((h1 | ⟨h1, h2, h3⟩) | ⟨h1, h2, u, h3, h4⟩)
    · exact Or.inl h1
    · exact Or.inr ⟨h1, h2, Or.inl h3⟩
    · exact Or.inr ⟨h1, h2, Or.inr ⟨u, (hb x y u h1).2 h3, h4⟩⟩
  · rintro (h1 | ⟨h1, h2, h3 | ⟨u, h3, h4⟩⟩)
    · exact Or.inl (Or.inl h1)
    · exact Or.inl (Or.inr ⟨h1, h2, h3⟩)
    · exact Or.inr ⟨h1, h2, u, (hb x y u h1).1 h3, h4⟩

theorem flipSeg_ref [DecidableEq I] {t : MapType V} (hj : t.cfg.joining = false) (ht : t.cfg.total = false)
    (hN : Neutral t) {oracle : List (I × V) → I → Nat} {l l' : List (I × V)} (hl : WF o mapSeg l) {k : I}
    (hk : o.Nonempty k) {v : V} (hv : absorbable t.cfg v = false) (e : flipSeg o t oracle l k v = some l') :
    WF o mapSeg l' ∧ Ref o [k] (l.map Prod.fst) (l'.map Prod.fst) := by
  obtain ⟨_, e', p⟩ := flipSeg_pt h t ht oracle hl hk v
  rw [e] at e'; obtain rfl := Option.some.inj e'
  have hs := flipSeg_same h hj ht hN hl hk hv e
  have dom_same : ∀ {m : List (I × V)} {x : D}, Dom o mapSeg m x ↔ Same o mapSeg m x x :=
    ⟨fun ⟨s, hs, hx⟩ => ⟨s, hs, hx, hx⟩, fun hx => hx.left⟩
  have htk : ∀ x y, Tog o [k] x y ↔ TogI o k x y := by intro x y; simp [Tog]
  refine ⟨p.wf, fun x y hx => ?_, fun z hz => ?_⟩
  · have e1 : Tog o (l'.map Prod.fst) x y ↔ Same o mapSeg l' x y := by
      rw [← same_fst h, same_iff_tog h (wf_fst.2 p.wf)]
      simp [hx]
    rw [e1, htk, hs]
    rw [dom_fst, dom_same, hs] at hx
    constructor
    · rintro (⟨h1, h2⟩ | ⟨h1, h2, h3⟩)
      · exact ⟨fun z hz => iff_of_false (h2 z hz) (h2 x (btw_left x y)),
          tog_of_same h (wf_fst.2 hl) ((same_fst h).2 h1)⟩
      · refine ⟨fun z hz => iff_of_true (mem_btw h h1 h2 hz) h1, ?_⟩
        rcases h3 with h3 | ⟨u, h3, _⟩
        · have h3' : ∀ z, Btw x y z → ¬ Dom o setSeg (l.map Prod.fst) z := fun z hz => by
            rw [dom_fst]; exact h3 z hz
          exact (tog_free (h3' x (btw_left x y))).2 h3'
        · exact tog_of_same h (wf_fst.2 hl) ((same_fst h).2 h3.same)
    · rintro ⟨h1, h2⟩
      rcases hx with ⟨h3, h4⟩ | ⟨h3, _, h4⟩
      · exact Or.inl ⟨(same_fst h).1 (same_of_tog h2 (dom_fst.2 h3.left)),
          fun z hz hc => h4 x (btw_left x x) ((h1 z hz).1 hc)⟩
      · refine Or.inr ⟨h3, (h1 y (btw_right x y)).2 h3, ?_⟩
        rcases h4 with h4 | ⟨u, h4, h5⟩
        · left
          have hgx := h4 x (btw_left x x)
          rw [← dom_fst] at hgx
          intro z hz
          rw [← dom_fst]
          exact (tog_free hgx).1 h2 z hz
        · right
          obtain ⟨u', hu'⟩ := joint_iff_same.1 ((same_fst h).1 (same_of_tog h2 (dom_fst.2 h4.left)))
          rw [hl.maps_unique hu'.maps h4.maps] at hu'
          exact ⟨u, hu', h5⟩
  · have hz' : ¬ o.Mem z k := fun hc => hz ⟨k, by simp, hc⟩
    rw [dom_fst, dom_fst, dom_same, dom_same, hs]
    constructor
    · rintro (⟨h1, _⟩ | ⟨h1, _⟩)
      · exact h1
      · exact absurd h1 hz'
    · exact fun h1 => Or.inl ⟨h1, fun w hw hc => hz' (by rw [btw_self] at hw; rwa [← hw])⟩

/-- The segments of `a ^ b` on split maps. -/
theorem flipMap_meets [DecidableEq I] {t : MapType V} (hj : t.cfg.joining = false) (hN : Neutral t)
    {oracle : List (I × V) → I → Nat} {l r l' : List (I × V)} (hl : WF o mapSeg l) (hr : WF o mapSeg r)
    (hn : NoIdent t.cfg r) (he : flipMap o t oracle l r = some l') : Meets o l r l' := by
  unfold flipMap at he
  cases ht : t.cfg.total with
  | true =>
    simp only [ht, if_true] at he
    cases ha : t.cfg.absorbs with
    | true =>
      simp only [ha, if_true, Option.some.injEq] at he
      subst he
      exact ⟨fun x y hx => by simp at hx⟩
    | false =>
      simp only [ha, Bool.false_eq_true, if_false, Option.bind_eq_some_iff] at he
      obtain ⟨m, e1, e2⟩ := he
      have hm := addMap_meets h hj hl hr hn e1
      unfold neutralize at e2
      simp only [hj, Bool.false_eq_true, if_false, Option.some.injEq] at e2
      subst e2
      have hk : (m.map fun s => (s.1, t.cfg.ident)).map Prod.fst = m.map Prod.fst := by
        rw [List.map_map]; rfl
      refine ⟨fun x y hx => ?_⟩
      rw [← dom_fst, hk, dom_fst] at hx
      rw [hk]
      exact hm.tog x y hx
  | false =>
    simp only [ht, Bool.false_eq_true, if_false, Option.bind_eq_bind, Option.bind_eq_some_iff] at he
    obtain ⟨res, e0, he⟩ := he
    cases res with
    | none => exact addMap_meets h hj hl hr hn he
    | some pcq =>
      obtain ⟨p, c, q⟩ := pcq
      obtain ⟨res', e0', _, h2⟩ := commonRange_spec h hr (wf_fst.2 hl)
      rw [e0] at e0'; obtain rfl := Option.some.inj e0'
      obtain ⟨rfl, _⟩ := h2 p c q rfl
      simp only [Option.bind_eq_some_iff] at he
      obtain ⟨l1, e1, l2, e2, e3⟩ := he
      have hw := wf_append.1 hr
      have hw' := wf_append.1 hw.1
      have add : ∀ {r : List (I × V)}, NoIdent t.cfg r → ∀ m, WF o mapSeg m → ∀ s ∈ r, True → ∀ m',
          addSeg o t m s.1 s.2 = some m' → WF o mapSeg m' ∧ Ref o [s.1] (m.map Prod.fst) (m'.map Prod.fst) := by
        intro r hn m hm s hs _ m' e
        obtain ⟨m1, e1, _, h2⟩ := addC_spec h t.cfg t.plus hm s.1 s.2
        unfold addSeg at e
        rw [e] at e1; cases e1
        exact ⟨(h2 (hn s hs)).wf, (h2 (hn s hs)).ref h hj hm⟩
      have n1 : NoIdent t.cfg p := fun s hs => hn s (by simp [hs])
      have n2 : NoIdent t.cfg c := fun s hs => hn s (by simp [hs])
      have n3 : NoIdent t.cfg q := fun s hs => hn s (by simp [hs])
      obtain ⟨_, e1', p1⟩ := forEach_pt hw'.1 (fun l hl s _ => addSeg_pt h t hl s.1 s.2) hl
      rw [e1] at e1'; obtain rfl := Option.some.inj e1'
      obtain ⟨_, e2', p2⟩ := forEach_pt hw'.2.1
        (fun l hl s hs => flipSeg_pt h t ht oracle hl (k := s.1) (hw'.2.1.nonempty s hs) s.2) p1.wf
      rw [e2] at e2'; obtain rfl := Option.some.inj e2'
      have r1 := forEach_ref h (κ := fun s => [s.1]) (wf_disjoint h hw'.1) (fun _ _ => True)
        (fun _ _ _ _ _ _ => trivial) (add n1) hl (fun _ _ => trivial) e1
      have r2 := forEach_ref h (κ := fun s => [s.1]) (wf_disjoint h hw'.2.1) (fun _ _ => True)
        (fun _ _ _ _ _ _ => trivial)
        (fun m hm s hs _ m' e => flipSeg_ref h hj ht hN hm (hw'.2.1.nonempty s hs) (n2 s hs) e) p1.wf
        (fun _ _ => trivial) e2
      have r3 := forEach_ref h (κ := fun s => [s.1]) (wf_disjoint h hw.2.1) (fun _ _ => True)
        (fun _ _ _ _ _ _ => trivial) (add n3) p2.wf (fun _ _ => trivial) e3
      rw [flatMap_fst h] at r1 r2 r3
      have r12 := r1.trans h r2 fun z h1 h2 => by
        rw [dom_fst] at h1 h2; exact absurd (hw'.2.2 z z h2 h1) (lt_irrefl _)
      have r123 := r12.trans h r3 fun z h1 h2 => by
        rw [← List.map_append, dom_fst] at h2
        rw [dom_fst] at h1
        exact absurd (hw.2.2 z z h2 h1) (lt_irrefl _)
      refine ⟨fun x y hx => ?_⟩
      rw [r123.tog x y (dom_fst.2 hx), List.map_append, List.map_append, and_comm]

end
end ICL
