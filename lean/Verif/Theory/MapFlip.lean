import Verif.Theory.MapOps
import Verif.Theory.MapQuery

/-!
# Symmetric difference, conversion, and the functions on all segments of an interval map
-/

set_option linter.unusedSectionVars false
set_option linter.unusedVariables false
set_option linter.unusedSimpArgs false

namespace ICL
open Spec

variable {D I V W : Type} [LinearOrder D] {o : IntervalOps D I}

namespace IMap
variable [DecidableEq V]

/-- The value of a gap filled by `flip`, other elements keep theirs. -/
def gapF (t : MapType V) (v : V) (a : Option V) : Option V :=
  match a with
  | none => addF t.cfg t.plus v none
  | some u => some u

/-- What `flip(segment)` does to the value at an element of the segment (partial map). -/
def flipF (t : MapType V) (v : V) (a : Option V) : Option V :=
  match a with
  | none => addF t.cfg t.plus v none
  | some u => (addF t.cfg t.plus (flipValue t v u) none).bind fun w => addF t.cfg t.plus w none

theorem eq_nil_of_before {a c : List (I × V)} {k : I} (hk : o.Nonempty k) (hc : ∀ s ∈ c, o.Nonempty s.1)
    (h1 : ∀ x y, Dom o mapSeg c x → o.Mem y k → x < y) (h2 : ∀ s ∈ c, o.Before k s.1) : c = [] := by
  cases c with
  | nil => rfl
  | cons s c =>
    obtain ⟨x, hx⟩ := hc s (by simp)
    obtain ⟨y, hy⟩ := hk
    exact absurd (lt_trans (h1 x y ⟨s, by simp, hx⟩ hy) (h2 s (by simp) y x hy hx)) (lt_irrefl _)

section
variable (h : o.Lawful)
include h

/-- A segment added to a gap leaves the nodes behind its successor alone. -/
theorem addC_suffix (c : MapCfg V) (f : Combiner V) {q : List (I × V)} {cov : I × V} {rest : List (I × V)}
    {k : I} {v : V} {l' : List (I × V)} (hw : WF o mapSeg (q ++ cov :: rest))
    (hq : ∀ x y, Dom o mapSeg q x → o.Mem y k → x < y)
    (hr : ∀ x y, o.Mem x k → Dom o mapSeg (cov :: rest) y → x < y)
    (e : addC o c f (q ++ cov :: rest) k v = some l') : ∃ q', l' = q' ++ rest := by
  have triv : ∀ l', some (q ++ cov :: rest) = some l' → ∃ q', l' = q' ++ rest := by
    intro l' e
    exact ⟨q ++ [cov], by simp only [Option.some.injEq] at e; rw [← e]; simp⟩
  unfold addC at e
  cases he : o.isEmpty k with
  | true => simp only [he, if_true] at e; exact triv _ e
  | false =>
    cases hv : absorbable c v with
    | true => simp only [he, hv, Bool.false_eq_true, if_false, if_true] at e; exact triv _ e
    | false =>
      have hk := (nonempty_iff h).2 he
      simp only [he, hv, Bool.false_eq_true, if_false] at e
      have hc : ∀ s ∈ cov :: rest, o.Nonempty s.1 := fun s hs => hw.nonempty s (by simp at hs ⊢; tauto)
      obtain ⟨a, b, c0, e1, hl, h1, h2, h3⟩ := equalRange_spec h hw hk
      obtain ⟨c1, rfl⟩ := equalRange_suffix (neLess_of_before h (g := mapSeg) hc hk hr) e1
      have hl2 : q = a ++ b ++ c1 := by
        have : q ++ cov :: rest = (a ++ b ++ c1) ++ cov :: rest := by rw [hl]; simp
        exact List.append_cancel_right this
      obtain rfl : b = [] := by
        cases b with
        | nil => rfl
        | cons s b =>
          obtain ⟨x, hx, hxk⟩ := h2 s (by simp)
          exact absurd (hq x x ⟨s, by simp [hl2], hx⟩ hxk) (lt_irrefl _)
      obtain rfl : c1 = [] := by
        refine eq_nil_of_before (a := []) hk (fun s hs => hw.nonempty s (by simp [hl2, hs])) ?_
          (fun s hs => h3 s (by simp [hs]))
        rintro x y ⟨s, hs, hx⟩ hy
        exact hq x y ⟨s, by simp [hl2, hs], hx⟩ hy
      simp only [List.append_nil] at hl2
      subst hl2
      simp only [e1, Option.bind_eq_bind, Option.bind_some, List.nil_append] at e
      have hwz : WF o mapSeg (⟨q.reverse, (k, f.version v), cov :: rest⟩ : Zip (I × V)).toList := by
        rw [Zip.toList]
        simp only [List.reverse_reverse]
        have hw' := wf_append.1 hw
        refine wf_append.2 ⟨hw'.1, wf_cons.2 ⟨hk, hw'.2.1, fun x y hx hy => hr x y hx hy⟩, ?_⟩
        intro x y hx hy
        rcases (dom_cons _ _ _).1 hy with hy | hy
        · exact hq x y hx hy
        · exact hw'.2.2 x y hx hy
      obtain ⟨z', ez, _, _, _, hz⟩ := handleInserted_right h c hwz rfl
      rw [ez] at e
      simp only [Option.map_some, Option.some.injEq] at e
      rcases hz with hz | hz
      · exact ⟨z'.left.reverse ++ [z'.cur, cov], by rw [← e, Zip.toList, hz]; simp⟩
      · exact ⟨z'.left.reverse ++ [z'.cur], by rw [← e, Zip.toList, hz]; simp⟩

theorem flipLoop_pt [DecidableEq I] (t : MapType V) (v : V) (post mid : List (I × V)) {q : List (I × V)} {span : I}
    {er : List I} {ins : List (I × V)} (hw : WF o mapSeg (q ++ (mid ++ post)))
    (hq : ∀ x y, Dom o mapSeg q x → o.Mem y span → x < y)
    (hm : ∀ s ∈ mid, ∃ x, o.Mem x s.1 ∧ o.Mem x span)
    (hp : ∀ x y, o.Mem x span → Dom o mapSeg post y → x < y)
    (he : WF o setSeg er) (hi : WF o mapSeg ins) :
    ∃ m1 span1 er1 ins1 m2, flipLoop o t v post (q ++ (mid ++ post)) span er ins mid = some (m1, span1, er1, ins1) ∧
      addSeg o t m1 span1 v = some m2 ∧
      Pt o t.cfg (Regular t) (q ++ (mid ++ post)) m2 (on o span fun _ => gapF t v) ∧
      WF o setSeg er1 ∧
      (∀ x, Dom o setSeg er1 x ↔ Dom o setSeg er x ∨ (o.Mem x span ∧ Dom o mapSeg mid x)) ∧
      Pt o t.cfg (Regular t) ins ins1
        (on o span fun x => over o mid (fun _ u => addF t.cfg t.plus (flipValue t v u)) x) := by
  induction mid generalizing q span er ins with
  | nil =>
    obtain ⟨m2, e, p⟩ := addSeg_pt h t hw span v
    refine ⟨_, _, _, _, m2, rfl, e, p.congr fun _ _ x => ?_, he, by simp, (Pt.refl _ _ hi).congr fun _ _ x => ?_⟩
    · unfold on
      cases hc : o.contains span x with
      | false => rfl
      | true =>
        have : valueAt o (q ++ ([] ++ post)) x = none := by
          rw [valueAt_none, List.nil_append, dom_append]
          rintro (hx | hx)
          · exact lt_irrefl _ (hq x x hx hc)
          · exact lt_irrefl _ (hp x x hc hx)
        rw [this]; rfl
    · unfold on over
      cases o.contains span x <;> simp [valueAt_nil]
  | cons cov mid ih =>
    have hw1 := wf_append.1 hw
    have hw2 := wf_cons.1 hw1.2.1
    simp only [List.append_eq, mapSeg_key] at hw2
    obtain ⟨w, hwc, hws⟩ := hm cov (by simp)
    have hcm : ∀ x y, o.Mem x cov.1 → Dom o mapSeg (mid ++ post) y → x < y := hw2.2.2
    have hlo : ∀ x, o.Mem x (o.rightSubtract span cov.1) ↔ o.Mem x span ∧ ∀ y, o.Mem y cov.1 → x < y :=
      h.mem_rightSubtract span cov.1
    have hls : ∀ x, o.Mem x (o.leftSubtract span cov.1) ↔ o.Mem x span ∧ ∀ y, o.Mem y cov.1 → y < x :=
      h.mem_leftSubtract span cov.1
    have hin : ∀ x, o.Mem x (o.inter span cov.1) ↔ o.Mem x span ∧ o.Mem x cov.1 := h.mem_inter span cov.1
    have hne : o.Nonempty (o.inter span cov.1) := ⟨w, (hin w).2 ⟨hws, hwc⟩⟩
    -- the common part
    obtain ⟨er', ee, se⟩ := ISet.add_spec h .joining he (o.inter span cov.1)
    obtain ⟨ins', ei, pi⟩ := addSeg_pt h t hi (o.inter span cov.1) (flipValue t v cov.2)
    -- the part in front
    obtain ⟨m', em, pm⟩ := addSeg_pt h t hw (o.rightSubtract span cov.1) v
    have em' := em
    unfold addSeg at em'
    obtain ⟨q', rfl⟩ := addC_suffix h t.cfg t.plus (q := q) (cov := cov) (rest := mid ++ post) hw
      (fun x y hx hy => hq x y hx ((hlo y).1 hy).1)
      (fun x y hx hy => by
        rcases (dom_cons _ _ _).1 hy with hy | hy
        · exact ((hlo x).1 hx).2 y hy
        · exact lt_trans (((hlo x).1 hx).2 w hwc) (hcm w y hwc hy)) em'
    have hdl : ∀ x, o.Mem x (o.rightSubtract span cov.1) → ¬ Dom o mapSeg (q ++ (cov :: mid ++ post)) x := by
      intro x hk hx
      rw [hlo] at hk
      rw [dom_append, List.cons_append, dom_cons, mapSeg_key] at hx
      rcases hx with hx | hx | hx
      · exact lt_irrefl _ (hq x x hx hk.1)
      · exact lt_irrefl _ (hk.2 x hx)
      · exact lt_irrefl _ (lt_trans (hk.2 w hwc) (hcm w x hwc hx))
    obtain ⟨_, _, _, hat⟩ := addC_at h t.cfg t.plus hw (o.rightSubtract span cov.1) v
    -- elements of the map
    have hdom2 : ∀ x, Dom o mapSeg (q' ++ (mid ++ post)) x → Dom o mapSeg (q ++ (cov :: mid ++ post)) x ∨
        o.Mem x (o.rightSubtract span cov.1) := by
      intro x hx
      obtain ⟨m'', e'', _, _, hat⟩ := addC_at h t.cfg t.plus hw (o.rightSubtract span cov.1) v
      rw [em'] at e''
      obtain rfl := Option.some.inj e''
      by_contra hc
      push Not at hc
      have h1 := hat x
      rw [valueAt_none.2 hc.1] at h1
      have h2 : o.contains (o.rightSubtract span cov.1) x = false := by
        rw [← Bool.not_eq_true]; exact hc.2
      simp only [on, h2, Bool.false_eq_true, if_false] at h1
      exact valueAt_none.1 h1 hx
    obtain ⟨m1, span1, er1, ins1, m2, e3, e4, p3, w3, d3, i3⟩ :=
      ih (q := q') (span := o.leftSubtract span cov.1) (er := er') (ins := ins') pm.wf
        (by
          intro x y hx hy
          rw [hls] at hy
          have hx2 : Dom o mapSeg (q' ++ (mid ++ post)) x := by rw [dom_append]; exact Or.inl hx
          rcases hdom2 x hx2 with hx2 | hx2
          · rw [dom_append, List.cons_append, dom_cons, mapSeg_key] at hx2
            rcases hx2 with hx2 | hx2 | hx2
            · exact hq x y hx2 hy.1
            · exact hy.2 x hx2
            · exact absurd ((wf_append.1 pm.wf).2.2 x x hx hx2) (lt_irrefl _)
          · exact lt_trans (((hlo x).1 hx2).2 w hwc) (hy.2 w hwc))
        (by
          intro s hs
          obtain ⟨x, hx, hxs⟩ := hm s (by simp [hs])
          exact ⟨x, hx, (hls x).2 ⟨hxs, fun y hy => hcm y x hy ⟨s, by simp [hs], hx⟩⟩⟩)
        (fun x y hx hy => hp x y ((hls x).1 hx).1 hy) se.wf pi.wf
    refine ⟨m1, span1, er1, ins1, m2, ?_, e4, (pm.trans p3).congr fun _ _ x => ?_, w3, fun x => ?_,
      (pi.trans i3).congr fun _ _ x => ?_⟩
    · rw [flipLoop]
      unfold flipCommon
      unfold addSeg at ei
      simp only [isEmpty_false h hne, Bool.false_eq_true, if_false, ee, ei, em, Option.bind_eq_bind,
        Option.bind_some, Option.pure_def]
      rw [if_pos (List.isSuffixOf_iff_suffix.2 (List.suffix_append _ _))]
      exact e3
    · unfold on
      rcases hc : o.contains span x with _ | _
      · have h1 : o.contains (o.rightSubtract span cov.1) x = false := by
          rw [← Bool.not_eq_true]; intro h1
          have := ((hlo x).1 h1).1
          rw [IntervalOps.Mem, hc] at this; exact absurd this (by simp)
        have h2 : o.contains (o.leftSubtract span cov.1) x = false := by
          rw [← Bool.not_eq_true]; intro h1
          have := ((hls x).1 h1).1
          rw [IntervalOps.Mem, hc] at this; exact absurd this (by simp)
        simp [h1, h2]
      · rcases point_tri h (i := cov.1) ⟨w, hwc⟩ x with hx | hx | hx
        · have h1 : o.contains (o.rightSubtract span cov.1) x = false := by
            rw [← Bool.not_eq_true]; intro h1
            exact lt_irrefl _ (((hlo x).1 h1).2 x hx)
          have h2 : o.contains (o.leftSubtract span cov.1) x = false := by
            rw [← Bool.not_eq_true]; intro h2
            exact lt_irrefl _ (((hls x).1 h2).2 x hx)
          cases hv : valueAt o (q ++ (cov :: mid ++ post)) x with
          | none => exact absurd ⟨cov, by simp, hx⟩ (valueAt_none.1 hv)
          | some u => simp [h1, h2, gapF]
        · have h1 : o.contains (o.rightSubtract span cov.1) x = true := (hlo x).2 ⟨hc, hx⟩
          have h2 : o.contains (o.leftSubtract span cov.1) x = false := by
            rw [← Bool.not_eq_true]; intro h2
            exact lt_asymm (hx w hwc) (((hls x).1 h2).2 w hwc)
          have h3 := valueAt_none.2 (hdl x h1)
          rw [h3]; simp [h1, h2, gapF]
        · have h1 : o.contains (o.rightSubtract span cov.1) x = false := by
            rw [← Bool.not_eq_true]; intro h1
            exact lt_asymm (hx w hwc) (((hlo x).1 h1).2 w hwc)
          have h2 : o.contains (o.leftSubtract span cov.1) x = true := (hls x).2 ⟨hc, hx⟩
          simp [h1, h2]
    · rw [d3, se.dom, hin, hls, dom_cons, mapSeg_key]
      constructor
      · rintro ((h1 | h1) | h1)
        · exact Or.inl h1
        · exact Or.inr ⟨h1.1, Or.inl h1.2⟩
        · exact Or.inr ⟨h1.1.1, Or.inr h1.2⟩
      · rintro (h1 | ⟨h1, h2 | h2⟩)
        · exact Or.inl (Or.inl h1)
        · exact Or.inl (Or.inr ⟨h1, h2⟩)
        · exact Or.inr ⟨⟨h1, fun y hy => hcm y x hy (by rw [dom_append]; exact Or.inl h2)⟩, h2⟩
    · unfold on over
      simp only [contains_inter h, valueAt_cons]
      rcases hc : o.contains span x with _ | _
      · have h2 : o.contains (o.leftSubtract span cov.1) x = false := by
          rw [← Bool.not_eq_true]; intro h1
          have := ((hls x).1 h1).1
          rw [IntervalOps.Mem, hc] at this; exact absurd this (by simp)
        simp [h2]
      · cases hx : o.contains cov.1 x with
        | true =>
          have h2 : o.contains (o.leftSubtract span cov.1) x = false := by
            rw [← Bool.not_eq_true]; intro h2
            exact lt_irrefl _ (((hls x).1 h2).2 x hx)
          simp [h2]
        | false =>
          cases hv : valueAt o mid x with
          | none => simp
          | some u =>
            have hd : Dom o mapSeg mid x := (maps_of_valueAt hv).dom
            have h2 : o.contains (o.leftSubtract span cov.1) x = true :=
              (hls x).2 ⟨hc, fun y hy => hcm y x hy (by rw [dom_append]; exact Or.inl hd)⟩
            simp [h2]

/-- `flip(segment)` on a partial map. -/
theorem flipSeg_pt [DecidableEq I] (t : MapType V) (ht : t.cfg.total = false) (oracle : List (I × V) → I → Nat)
    {l : List (I × V)} (hl : WF o mapSeg l) {k : I} (hk : o.Nonempty k) (v : V) :
    ∃ l', flipSeg o t oracle l k v = some l' ∧
      Pt o t.cfg (Regular t) l l' (on o k fun _ => flipF t v) := by
  obtain ⟨a, b, c, e, rfl, h1, h2, h3⟩ := equalRange_spec h hl hk
  have hl' : WF o mapSeg (a ++ (b ++ c)) := by simpa using hl
  obtain ⟨m1, span1, er1, ins1, m2, e1, e2, p2, we, de, pi⟩ := flipLoop_pt h t v c b (q := a) (span := k) (er := [])
    (ins := []) hl' (by rintro x y ⟨s, hs, hx⟩ hy; exact h1 s hs x y hx hy)
    (fun s hs => h2 s hs)
    (by rintro x y hx ⟨s, hs, hy⟩; exact h3 s hs x y hx hy) wf_nil wf_nil
  obtain ⟨m3, e3, p3⟩ := eraseSet_pt h t.cfg p2.wf we
  obtain ⟨m4, e4, p4⟩ := addMap_pt h t oracle p3.wf pi.wf
  refine ⟨m4, ?_, ?_⟩
  · unfold flipSeg
    simp only [ht, Bool.false_eq_true, if_false, e, Option.bind_eq_bind, Option.bind_some]
    rw [show a ++ b ++ c = a ++ (b ++ c) by simp, e1]
    simp only [Option.bind_some, e2, e3, e4]
  · rw [show a ++ b ++ c = a ++ (b ++ c) by simp]
    refine ((p2.trans (p3.mono fun _ => trivial)).trans p4).congr fun hr hn x => ?_
    have hvi : valueAt o ins1 x = if o.contains k x then over o b
        (fun _ u => addF t.cfg t.plus (flipValue t v u)) x none else none := by
      rw [pi.at_ hr (noIdent_nil _)]; simp [on, valueAt_nil]
    have hve : ∀ hd : ¬ Dom o setSeg er1 x, valueAt o (unitMap er1) x = none := by
      intro hd; rw [valueAt_none, dom_unitMap]; exact hd
    have hve' : ∀ hd : Dom o setSeg er1 x, valueAt o (unitMap er1) x = some () := by
      intro hd
      cases hc : valueAt o (unitMap er1) x with
      | none => rw [valueAt_none, dom_unitMap] at hc; exact absurd hd hc
      | some u => rfl
    have hb : o.contains k x = true → valueAt o b x = valueAt o (a ++ (b ++ c)) x := by
      intro hc
      rw [show a ++ (b ++ c) = a ++ b ++ c by simp]
      refine (valueAt_middle ?_ ?_).symm
      · rintro ⟨s, hs, hxs⟩; exact lt_irrefl _ (h1 s hs x x hxs hc)
      · rintro ⟨s, hs, hxs⟩; exact lt_irrefl _ (h3 s hs x x hc hxs)
    simp only [over, on] at hvi ⊢
    rw [hvi]
    cases hc : o.contains k x with
    | false =>
      have : ¬ Dom o setSeg er1 x := by
        rw [de]; simp [IntervalOps.Mem, hc]
      simp [hve this]
    | true =>
      have hb := hb hc
      cases hv : valueAt o (a ++ (b ++ c)) x with
      | none =>
        rw [hv] at hb
        have : ¬ Dom o setSeg er1 x := by
          rw [de]; simp [valueAt_none.1 hb]
        simp [hve this, hb, gapF, flipF]
      | some u =>
        rw [hv] at hb
        have : Dom o setSeg er1 x := by
          rw [de]; exact Or.inr ⟨hc, (maps_of_valueAt hb).dom⟩
        simp only [hve' this, hb, gapF, flipF, if_true]
        cases addF t.cfg t.plus (flipValue t v u) none <;> rfl

/-- `flip(object, operand)` on a partial map. -/
theorem flipMap_pt [DecidableEq I] (t : MapType V) (ht : t.cfg.total = false) (oracle : List (I × V) → I → Nat)
    {l r : List (I × V)} (hl : WF o mapSeg l) (hr : WF o mapSeg r) :
    ∃ l', flipMap o t oracle l r = some l' ∧
      Pt o t.cfg (Regular t) l l' (over o r fun _ => flipF t) := by
  obtain ⟨res, e, h1, h2⟩ := commonRange_map h hr hl
  unfold flipMap
  simp only [ht, Bool.false_eq_true, if_false, e, Option.bind_eq_bind, Option.bind_some]
  cases res with
  | none =>
    obtain ⟨l', e', p⟩ := addMap_pt h t oracle hl hr
    refine ⟨l', e', p.congr fun _ _ x => ?_⟩
    unfold over
    rcases h1 rfl x with hx | hx
    · rw [hx]; cases valueAt o r x <;> simp [flipF]
    · rw [hx]
  | some pcq =>
    obtain ⟨p, c, q⟩ := pcq
    obtain ⟨rfl, hp, hc, hq, hx, hxp, hxq⟩ := h2 p c q rfl
    obtain ⟨l1, e1, p1⟩ := forEach_pt hp (fun l hl s _ => addSeg_pt h t hl s.1 s.2) hl
    obtain ⟨l2, e2, p2⟩ := forEach_pt hc
      (fun l hl s hs => flipSeg_pt h t ht oracle hl (k := s.1) (hc.nonempty s hs) s.2) p1.wf
    obtain ⟨l3, e3, p3⟩ := forEach_pt hq (fun l hl s _ => addSeg_pt h t hl s.1 s.2) p2.wf
    refine ⟨l3, by simp [e1, e2, e3], ((p1.trans p2).trans p3).congr fun _ _ x => ?_⟩
    have hw := wf_append.1 hr
    have hw' := wf_append.1 hw.1
    unfold over
    rw [valueAt_append, valueAt_append]
    cases vp : valueAt o p x with
    | some u =>
      have hd := (maps_of_valueAt vp).dom
      have vc : valueAt o c x = none := valueAt_none.2 fun hc => lt_irrefl _ (hw'.2.2 x x hd hc)
      have vq : valueAt o q x = none := valueAt_none.2 fun hc => lt_irrefl _
        (hw.2.2 x x (by rw [dom_append]; exact Or.inl hd) hc)
      rw [vc, vq, hxp x hd]; simp [flipF]
    | none =>
      cases vc : valueAt o c x with
      | some u =>
        have hd := (maps_of_valueAt vc).dom
        have vq : valueAt o q x = none := valueAt_none.2 fun hc => lt_irrefl _
          (hw.2.2 x x (by rw [dom_append]; exact Or.inr hd) hc)
        rw [vq]; simp
      | none =>
        cases vq : valueAt o q x with
        | none => simp
        | some u =>
          rw [hxq x (maps_of_valueAt vq).dom]; simp [flipF]

/-! ### Total enrichers -/

theorem valueAt_map (l : List (I × V)) (f : V → W) (x : D) :
    valueAt o (l.map fun s => (s.1, f s.2)) x = (valueAt o l x).map f := by
  induction l with
  | nil => simp [valueAt_nil]
  | cons s l ih =>
    simp only [List.map_cons, valueAt_cons, ih]
    cases o.contains s.1 x <;> simp

theorem wf_map {l : List (I × V)} {f : V → W} (hl : WF o mapSeg l) :
    WF o mapSeg (l.map fun s => (s.1, f s.2)) := by
  rw [← wf_fst] at hl ⊢
  simpa [Function.comp_def] using hl

theorem neutralize_spec (t : MapType V) {l : List (I × V)} (hl : WF o mapSeg l) :
    ∃ l', neutralize o t l = some l' ∧ WF o mapSeg l' ∧ (t.cfg.joining = true → Joined o mapSeg l') ∧
      ∀ x, valueAt o l' x = (valueAt o l x).map fun _ => t.cfg.ident := by
  have hw := wf_map h (f := fun _ => t.cfg.ident) hl
  unfold neutralize
  cases hc : t.cfg.joining with
  | false => exact ⟨_, rfl, hw, by simp, fun x => valueAt_map h l (fun _ => t.cfg.ident) x⟩
  | true =>
    obtain ⟨l', e, w, m, j⟩ := joinAll_spec h mapSeg_lawful hw
    refine ⟨l', e, w, fun _ => j, fun x => ?_⟩
    rw [← valueAt_map h l (fun _ => t.cfg.ident) x]
    exact valueAt_eq_of_maps hw w (m x)

theorem pt_neutralize (t : MapType V) (ha : t.cfg.absorbs = false) {N : Prop} {l l' : List (I × V)}
    {φ : D → Option V → Option V} (hp : Pt o t.cfg N l l' φ) :
    ∃ l'', neutralize o t l' = some l'' ∧
      Pt o t.cfg N l l'' fun x a => (φ x a).map fun _ => t.cfg.ident := by
  obtain ⟨l'', e, w, j, v⟩ := neutralize_spec h t hp.wf
  exact ⟨l'', e, w, fun hc _ => j hc, fun n hn x => by rw [v, hp.at_ n hn], fun _ _ => noIdent_of_enricher ha _⟩

/-- What `flip` makes of the value that addition would yield, on total maps. -/
def flipTotalF (t : MapType V) (a : Option V) : Option V :=
  if t.cfg.absorbs then none else a.map fun _ => t.cfg.ident

theorem flipSeg_total_pt [DecidableEq I] (t : MapType V) (ht : t.cfg.total = true)
    (oracle : List (I × V) → I → Nat) {l : List (I × V)} (hl : WF o mapSeg l) (k : I) (v : V) :
    ∃ l', flipSeg o t oracle l k v = some l' ∧
      Pt o t.cfg (Regular t) l l' fun x a => flipTotalF t (on o k (fun _ => addF t.cfg t.plus v) x a) := by
  unfold flipSeg flipTotalF
  simp only [ht, if_true]
  cases ha : t.cfg.absorbs with
  | true =>
    exact ⟨[], rfl, wf_nil, fun _ _ => joined_nil, fun _ _ x => by simp [valueAt_nil], fun _ _ => noIdent_nil _⟩
  | false =>
    obtain ⟨l', e, p⟩ := addSeg_pt h t hl k v
    obtain ⟨l'', e', p'⟩ := pt_neutralize h t ha p
    exact ⟨l'', by simp [e, e'], by simpa using p'⟩

theorem flipMap_total_pt [DecidableEq I] (t : MapType V) (ht : t.cfg.total = true)
    (oracle : List (I × V) → I → Nat) {l r : List (I × V)} (hl : WF o mapSeg l) (hr : WF o mapSeg r) :
    ∃ l', flipMap o t oracle l r = some l' ∧
      Pt o t.cfg (Regular t) l l' fun x a => flipTotalF t (over o r (fun _ => addF t.cfg t.plus) x a) := by
  unfold flipMap flipTotalF
  simp only [ht, if_true]
  cases ha : t.cfg.absorbs with
  | true =>
    exact ⟨[], rfl, wf_nil, fun _ _ => joined_nil, fun _ _ x => by simp [valueAt_nil], fun _ _ => noIdent_nil _⟩
  | false =>
    obtain ⟨l', e, p⟩ := addMap_pt h t oracle hl hr
    obtain ⟨l'', e', p'⟩ := pt_neutralize h t ha p
    exact ⟨l'', by simp [e, e'], by simpa using p'⟩

/-! ### Conversion -/

/-- Inserting nodes behind all others appends them. -/
theorem forEach_stdInsert {acc src : List (I × V)} (hw : WF o mapSeg (acc ++ src)) :
    forEach (fun l k => stdInsert o mapSeg l k) acc src = some (acc ++ src) := by
  induction src generalizing acc with
  | nil => simp [forEach]
  | cons k src ih =>
    have hw1 := wf_append.1 hw
    have hw2 := wf_cons.1 hw1.2.1
    have hk : o.Nonempty k.1 := hw2.1
    obtain ⟨a, b, c, e, hl, h1, h2, h3⟩ := equalRange_spec h hw1.1 hk
    obtain rfl : b = [] := by
      cases b with
      | nil => rfl
      | cons f b =>
        obtain ⟨x, hx, hxk⟩ := h2 f (by simp)
        exact absurd (hw1.2.2 x x ⟨f, by simp [hl], hx⟩ ⟨k, by simp, hxk⟩) (lt_irrefl _)
    obtain rfl : c = [] := by
      refine eq_nil_of_before (a := []) hk (fun s hs => hw1.1.nonempty s (by simp [hl, hs])) ?_
        (fun s hs => h3 s hs)
      rintro x y ⟨s, hs, hx⟩ hy
      exact hw1.2.2 x y ⟨s, by simp [hl, hs], hx⟩ ⟨k, by simp, hy⟩
    simp only [List.append_nil] at hl
    subst hl
    have es : stdInsert o mapSeg acc k = some (acc ++ [k]) := by
      unfold stdInsert
      rw [show (mapSeg : SegOps I V (I × V)).key k = k.1 from rfl, e]
      rfl
    simp only [forEach, Option.bind_eq_bind]
    rw [show stdInsert o mapSeg acc k = some (acc ++ [k]) from es, Option.bind_some,
      ih (by simpa using hw)]
    simp

theorem assign_split (t : MapType V) (ht : t.cfg.joining = false) (oracle : List (I × V) → I → Nat)
    {src : List (I × V)} (hw : WF o mapSeg src) : assign o t oracle src = some src := by
  unfold assign
  simp only [ht, Bool.false_eq_true, if_false]
  simpa using forEach_stdInsert h (acc := []) hw

/-- Conversion to an interval map. -/
theorem assign_join (t : MapType V) (ht : t.cfg.joining = true) (oracle : List (I × V) → I → Nat)
    {src : List (I × V)} (hw : WF o mapSeg src) : ∃ l', assign o t oracle src = some l' ∧ WF o mapSeg l' ∧
      Joined o mapSeg l' ∧ (Regular t → ∀ x, valueAt o l' x = (valueAt o src x).bind fun v => addF t.cfg t.plus v none) ∧
      (Regular t → NoIdent t.cfg l') := by
  unfold assign
  simp only [ht, if_true]
  obtain ⟨l', e, p⟩ := addMap_pt h t oracle wf_nil hw
  refine ⟨l', e, p.wf, p.joined ht joined_nil, fun hr x => ?_, fun hr => p.noIdent hr (noIdent_nil _)⟩
  rw [p.at_ hr (noIdent_nil _)]
  unfold over
  rw [valueAt_nil]
  cases valueAt o src x <;> rfl

/-! ### Removal of segments -/

theorem valueAt_filter {l : List (I × V)} (hl : WF o mapSeg l) (p : I × V → Bool) (x : D) :
    valueAt o (l.filter p) x = (l.find? fun s => p s && o.contains s.1 x).map Prod.snd := by
  unfold valueAt
  rw [List.find?_filter]
  simp

theorem eraseIf_wf (p : I × V → Bool) {l : List (I × V)} (hl : WF o mapSeg l) : WF o mapSeg (eraseIf p l) :=
  wf_filter _ hl

theorem eraseIf_joined (p : I × V → Bool) {l : List (I × V)} (hl : Joined o mapSeg l) :
    Joined o mapSeg (eraseIf p l) := hl.mono fun s hs => (List.mem_filter.1 hs).1

theorem absorbIdentities_spec (t : MapType V) {l : List (I × V)} (hl : WF o mapSeg l) :
    WF o mapSeg (absorbIdentities t l) ∧ (Joined o mapSeg l → Joined o mapSeg (absorbIdentities t l)) ∧
      ∀ x, valueAt o (absorbIdentities t l) x =
        if t.cfg.absorbs then valueAt o l x else (valueAt o l x).filter fun v => !decide (v = t.cfg.ident) := by
  unfold absorbIdentities
  cases ha : t.cfg.absorbs with
  | true => exact ⟨hl, id, fun x => by simp⟩
  | false =>
    refine ⟨by simpa using eraseIf_wf h _ hl, by simpa using eraseIf_joined h _, fun x => ?_⟩
    simp only [Bool.false_eq_true, if_false]
    apply Option.ext
    intro v
    rw [valueAt_some (eraseIf_wf h _ hl), Option.filter_eq_some_iff, valueAt_some hl]
    unfold eraseIf Maps
    constructor
    · rintro ⟨s, hs, hx, rfl⟩
      rw [List.mem_filter] at hs
      exact ⟨⟨s, hs.1, hx, rfl⟩, by simp at hs ⊢; exact decide_eq_false hs.2⟩
    · rintro ⟨⟨s, hs, hx, rfl⟩, hv⟩
      exact ⟨s, List.mem_filter.2 ⟨hs, by simp at hv ⊢; exact of_decide_eq_false hv⟩, hx, rfl⟩

/-! ### Intersection tests -/

theorem isEmpty_iff_valueAt {l : List (I × V)} (hl : WF o mapSeg l) :
    l.isEmpty = true ↔ ∀ x, valueAt o l x = none := by
  cases l with
  | nil => simp [valueAt_nil]
  | cons s l =>
    obtain ⟨x, hx⟩ := hl.nonempty s (by simp)
    simp only [List.isEmpty_cons, Bool.false_eq_true, false_iff]
    intro hh
    exact valueAt_none.1 (hh x) ⟨s, by simp, hx⟩

theorem intersectsSeg_spec (t : MapType V) (ht : t.cfg.total = false) (oracle : List (I × V) → I → Nat)
    (hr : Regular t) {m : List (I × V)} (hm : WF o mapSeg m) (k : I) (v : V) :
    ∃ b, intersectsSeg o t oracle m k v = some b ∧
      (b = true ↔ ∃ x, o.contains k x = true ∧ interF t v (valueAt o m x) none ≠ none) := by
  unfold intersectsSeg
  simp only [ht, Bool.false_eq_true, if_false]
  obtain ⟨l', e, p⟩ := addInterSeg_pt h t ht oracle wf_nil hm k v
  refine ⟨!l'.isEmpty, by simp [e], ?_⟩
  rw [Bool.not_eq_true', ← Bool.not_eq_true, isEmpty_iff_valueAt h p.wf]
  push Not
  have hv : ∀ x, valueAt o l' x = on o k (fun x => interF t v (valueAt o m x)) x none := by
    intro x; rw [p.at_ hr (noIdent_nil _), valueAt_nil]
  constructor
  · rintro ⟨x, hx⟩
    rw [hv] at hx
    unfold on at hx
    cases hc : o.contains k x <;> simp only [hc, Bool.false_eq_true, if_false, if_true] at hx
    · exact absurd rfl hx
    · exact ⟨x, hc, hx⟩
  · rintro ⟨x, hx, hx'⟩
    refine ⟨x, ?_⟩
    rw [hv]; unfold on; rw [if_pos hx]; exact hx'

theorem intersectsLoop_spec {S : Type} (t : MapType V) (hr : Regular t)
    {f : List (I × V) → S → Option (List (I × V))} {φ : S → D → Option V → Option V} (r : List S)
    (hf : ∀ s ∈ r, ∃ l', f [] s = some l' ∧ Pt o t.cfg (Regular t) [] l' (φ s)) :
    ∃ b, intersectsLoop f [] r = some b ∧ (b = true ↔ ∃ s ∈ r, ∃ x, φ s x none ≠ none) := by
  induction r with
  | nil => exact ⟨false, rfl, by simp⟩
  | cons s r ih =>
    obtain ⟨l', e, p⟩ := hf s (by simp)
    have hv : ∀ x, valueAt o l' x = φ s x none := by
      intro x; rw [p.at_ hr (noIdent_nil _), valueAt_nil]
    simp only [intersectsLoop, e, Option.bind_eq_bind, Option.bind_some]
    cases hc : l'.isEmpty with
    | true =>
      obtain ⟨b, eb, hb⟩ := ih fun s hs => hf s (by simp [hs])
      rw [List.isEmpty_iff] at hc
      subst hc
      refine ⟨b, by simpa using eb, ?_⟩
      rw [hb]
      constructor
      · rintro ⟨s', hs', hh⟩; exact ⟨s', by simp [hs'], hh⟩
      · rintro ⟨s', hs', x, hx⟩
        rcases List.mem_cons.1 hs' with rfl | hs'
        · rw [← hv, valueAt_nil] at hx; exact absurd rfl hx
        · exact ⟨s', hs', x, hx⟩
    | false =>
      refine ⟨true, by simp, ?_⟩
      simp only [true_iff]
      have := hc
      rw [← Bool.not_eq_true, isEmpty_iff_valueAt h p.wf] at this
      push Not at this
      obtain ⟨x, hx⟩ := this
      exact ⟨s, by simp, x, by rw [← hv]; exact hx⟩

theorem intersectsMap_spec (t : MapType V) (ht : t.cfg.total = false) (oracle : List (I × V) → I → Nat)
    (hr : Regular t) {m r : List (I × V)} (hm : WF o mapSeg m) (hw : WF o mapSeg r) :
    ∃ b, intersectsMap o t false oracle m r = some b ∧
      (b = true ↔ ∃ x v, valueAt o r x = some v ∧ interF t v (valueAt o m x) none ≠ none) := by
  obtain ⟨res, e, h1, h2⟩ := commonRange_map h hw hm
  unfold intersectsMap
  simp only [ht, Bool.or_self, Bool.false_eq_true, if_false, e, Option.bind_eq_bind, Option.bind_some]
  cases res with
  | none =>
    refine ⟨false, rfl, ?_⟩
    simp only [Bool.false_eq_true, false_iff]
    rintro ⟨x, v, hv, hx⟩
    rcases h1 rfl x with h3 | h3
    · rw [h3] at hx; exact hx rfl
    · rw [h3] at hv; simp at hv
  | some pcq =>
    obtain ⟨p, c, q⟩ := pcq
    obtain ⟨_, _, hc, _, hx, _⟩ := h2 p c q rfl
    obtain ⟨b, eb, hb⟩ := intersectsLoop_spec h t hr c
      (f := fun sec s => addInterSeg o t oracle sec m s.1 s.2) (φ := fun s => on o s.1 fun x => interF t s.2 (valueAt o m x))
      (fun s _ => addInterSeg_pt h t ht oracle wf_nil hm s.1 s.2)
    refine ⟨b, eb, ?_⟩
    rw [hb]
    constructor
    · rintro ⟨s, hs, x, hh⟩
      unfold on at hh
      cases hcx : o.contains s.1 x with
      | false => simp [hcx] at hh
      | true =>
        simp only [hcx, if_true] at hh
        refine ⟨x, s.2, ?_, hh⟩
        rcases hx x with h3 | h3
        · rw [h3] at hh; exact absurd rfl hh
        · rw [h3]; exact (valueAt_some hc).2 ⟨s, hs, hcx, rfl⟩
    · rintro ⟨x, v, hv, hh⟩
      rcases hx x with h3 | h3
      · rw [h3] at hh; exact absurd rfl hh
      · rw [h3] at hv
        obtain ⟨s, hs, hxs, rfl⟩ := maps_of_valueAt hv
        refine ⟨s, hs, x, ?_⟩
        unfold on
        rw [if_pos (show o.contains s.1 x = true from hxs)]
        exact hh

theorem intersectsSet_spec (t : MapType V) (oracle : List (I × V) → I → Nat)
    (hr : Regular t) {m : List (I × V)} {r : List I} (hm : WF o mapSeg m) (hw : WF o setSeg r) :
    ∃ b, intersectsSet o t oracle m r = some b ∧
      (b = true ↔ ∃ x u, Dom o setSeg r x ∧ valueAt o m x = some u ∧ absorbable t.cfg u = false) := by
  have key : ∀ x u, over o m (fun _ => addF t.cfg t.plus) x none = some u →
      ∃ u, valueAt o m x = some u ∧ absorbable t.cfg u = false := by
    intro x u hu
    unfold over at hu
    cases hv : valueAt o m x with
    | none => simp [hv] at hu
    | some w =>
      refine ⟨w, rfl, ?_⟩
      simp only [hv, addF] at hu
      cases ha : absorbable t.cfg w <;> simp [ha] at hu ⊢
  obtain ⟨res, e, h1, h2⟩ := commonRange_spec h hw (wf_fst.2 hm)
  unfold intersectsSet
  simp only [e, Option.bind_eq_bind, Option.bind_some]
  cases res with
  | none =>
    refine ⟨false, rfl, ?_⟩
    simp only [Bool.false_eq_true, false_iff]
    rintro ⟨x, u, hx, hu, _⟩
    exact h1 rfl x hx (dom_fst.2 (maps_of_valueAt hu).dom)
  | some pcq =>
    obtain ⟨p, c, q⟩ := pcq
    obtain ⟨rfl, h3, h4⟩ := h2 p c q rfl
    obtain ⟨b, eb, hb⟩ := intersectsLoop_spec h t hr c
      (f := fun sec k => addInterItv o t oracle sec m k) (φ := fun k => on o k fun x => over o m (fun _ => addF t.cfg t.plus) x)
      (fun k _ => addInterItv_pt h t oracle wf_nil hm k)
    refine ⟨b, eb, ?_⟩
    rw [hb]
    constructor
    · rintro ⟨s, hs, x, hh⟩
      unfold on at hh
      cases hcx : o.contains s x with
      | false => simp [hcx] at hh
      | true =>
        simp only [hcx, if_true] at hh
        obtain ⟨w, hw⟩ := Option.ne_none_iff_exists'.1 hh
        obtain ⟨u, hu, ha⟩ := key x w hw
        exact ⟨x, u, ⟨s, by simp [hs], hcx⟩, hu, ha⟩
    · rintro ⟨x, u, ⟨s, hs, hxs⟩, hu, ha⟩
      have hd := dom_fst.2 (maps_of_valueAt hu).dom
      have hsc : s ∈ c := by
        simp only [List.mem_append] at hs
        rcases hs with (hs | hs) | hs
        · exact absurd (h3 x x ⟨s, hs, hxs⟩ hd) (lt_irrefl _)
        · exact hs
        · exact absurd (h4 x x hd ⟨s, hs, hxs⟩) (lt_irrefl _)
      refine ⟨s, hsc, x, ?_⟩
      unfold on
      rw [if_pos (show o.contains s x = true from hxs)]
      simp [over, hu, addF, ha]

/-- A key's section. -/
theorem addInterKey_pt (t : MapType V) (sing : D → I) (lk : Lookup D I) {sec m : List (I × V)}
    (hs : WF o mapSeg sec) (x : D) (hsing : ∀ y, o.contains (sing x) y = decide (y = x))
    (hfind : ∃ r, findE o mapSeg lk m x = some r ∧ r.map Prod.snd = valueAt o m x) :
    ∃ l', addInterKey o t sing lk sec m x = some l' ∧
      Pt o t.cfg (Regular t) sec l' (on o (sing x) fun y => over o m (fun _ => addF t.cfg t.plus) y) := by
  obtain ⟨r, e, hv⟩ := hfind
  unfold addInterKey
  simp only [e, Option.bind_eq_bind, Option.bind_some]
  cases r with
  | none =>
    refine ⟨sec, rfl, (Pt.refl _ _ hs).congr fun _ _ y => ?_⟩
    unfold on over
    rw [hsing]
    by_cases hy : y = x
    · subst hy; simp only [Option.map_none] at hv; simp [← hv]
    · simp [hy]
  | some s =>
    obtain ⟨l', e', p⟩ := addSeg_pt h t hs (sing x) s.2
    refine ⟨l', e', p.congr fun _ _ y => ?_⟩
    unfold on over
    rw [hsing]
    by_cases hy : y = x
    · subst hy; simp only [Option.map_some] at hv; simp [← hv]
    · simp [hy]

end
end IMap
end ICL
