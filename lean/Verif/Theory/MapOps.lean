import Verif.Theory.MapFun
import Verif.MapSpec
import Verif.Theory.SetFlip

/-!
# Functions on interval maps with containers as operands
-/

set_option linter.unusedSectionVars false
set_option linter.unusedVariables false
set_option linter.unusedSimpArgs false

namespace ICL
open Spec

variable {D I V W : Type} [LinearOrder D] {o : IntervalOps D I}

namespace IMap
variable [DecidableEq V]

/-- What the functors of a map type have to satisfy so that hinted and plain additions agree and that an
absorber never stores an identity element. -/
abbrev Regular (t : MapType V) : Prop := Spec.Neutral t

theorem absorbable_false {c : MapCfg V} {v w : V} (hh : v ≠ c.ident → w ≠ c.ident)
    (hv : absorbable c v = false) : absorbable c w = false := by
  unfold absorbable at *
  cases hc : c.absorbs with
  | false => simp
  | true =>
    simp only [hc, Bool.true_and, decide_eq_false_iff_not] at hv ⊢
    exact hh hv

theorem addF_noIdent {c : MapCfg V} {f : Combiner V} (hf : ∀ v, v ≠ c.ident → f.version v ≠ c.ident) {v : V}
    {a : Option V} (ha : ∀ u, a = some u → absorbable c u = false) {u : V} (hu : addF c f v a = some u) :
    absorbable c u = false := by
  unfold addF at hu
  cases hv : absorbable c v with
  | true => simp only [hv, if_true] at hu; exact ha u hu
  | false =>
    simp only [hv, Bool.false_eq_true, if_false] at hu
    cases a with
    | none =>
      simp only [Option.some.injEq] at hu
      rw [← hu]; exact absorbable_false (hf v) hv
    | some w => exact keep_ne hu

/-- The value of `subtract(segment)`. -/
def subV (t : MapType V) (v : V) (a : Option V) : Option V :=
  if t.cfg.total && t.invertible then addF t.cfg t.minus v a else subF t.cfg t.minus v a

section
variable (h : o.Lawful)
include h

/-- Plain additions. -/
theorem addC_pt {c : MapCfg V} {f : Combiner V} {N : Prop}
    (hN : N → ∀ v, v ≠ c.ident → f.version v ≠ c.ident) {l : List (I × V)} (hl : WF o mapSeg l) (k : I) (v : V) :
    ∃ l', addC o c f l k v = some l' ∧ Pt o c N l l' (on o k fun _ => addF c f v) := by
  obtain ⟨l', e, hw, hj, ha⟩ := addC_at h c f hl k v
  refine ⟨l', e, hw, hj, fun _ _ => ha, fun n hn => ?_⟩
  rw [noIdent_iff hw]
  rw [noIdent_iff hl] at hn
  intro x u hu
  rw [ha] at hu
  unfold on at hu
  split at hu
  · exact addF_noIdent (hN n) (hn x) hu
  · exact hn x u hu

theorem addSeg_ptv (t : MapType V) {l : List (I × V)} (hl : WF o mapSeg l) (k : I) (v : V) :
    ∃ l', addSeg o t l k v = some l' ∧
      Pt o t.cfg (Versions t) l l' (on o k fun _ => addF t.cfg t.plus v) :=
  addC_pt h (fun hr => hr.plus_ne) hl k v

theorem addSeg_pt (t : MapType V) {l : List (I × V)} (hl : WF o mapSeg l) (k : I) (v : V) :
    ∃ l', addSeg o t l k v = some l' ∧
      Pt o t.cfg (Regular t) l l' (on o k fun _ => addF t.cfg t.plus v) := by
  obtain ⟨l', e, p⟩ := addSeg_ptv h t hl k v
  exact ⟨l', e, p.mono fun hr => hr.toVersions⟩

theorem addHint_pt (t : MapType V) (n : Nat) {l : List (I × V)} (hl : WF o mapSeg l) (k : I) (v : V) :
    ∃ l', addHint o t n l k v = some l' ∧
      Pt o t.cfg (Regular t) l l' (on o k fun _ => addF t.cfg t.plus v) := by
  obtain ⟨l', e, h1, h2⟩ := addHintC_gen h t.cfg t.plus n hl k v
  refine ⟨l', e, ?_⟩
  cases hv : absorbable t.cfg v with
  | true =>
    obtain rfl := h1 hv
    exact (Pt.refl _ _ hl).congr fun _ _ x => by simp [on, addF, hv]
  | false =>
    obtain ⟨up, u, hs, hup, hu1, hu2⟩ := h2 hv
    have key : Regular t → NoIdent t.cfg l →
        ∀ x, valueAt o l' x = on o k (fun _ => addF t.cfg t.plus v) x (valueAt o l x) := by
      intro hr hn x
      rw [updSpec_at h hl hs, hup hn]
      have hu : u = t.plus.version v := by
        by_cases hd : ∃ x, Dom o mapSeg l x ∧ o.Mem x k
        · exact hu2 hd
        · rw [hu1 (fun x hx hk => hd ⟨x, hx, hk⟩), hr.plus_ident]
      simp only [on, addF, hv, hu]
      cases o.contains k x <;> cases valueAt o l x <;> simp [upd, keep]
    refine ⟨hs.wf, hs.joined, key, fun hr hn => ?_⟩
    have hn' := hn
    rw [noIdent_iff hs.wf]
    rw [noIdent_iff hl] at hn
    intro x w hw
    rw [key hr hn'] at hw
    unfold on at hw
    split at hw
    · exact addF_noIdent hr.plus_ne (hn x) hw
    · exact hn x w hw

theorem subSeg_ptv (t : MapType V) {l : List (I × V)} (hl : WF o mapSeg l) (k : I) (v : V) :
    ∃ l', subSeg o t l k v = some l' ∧ Pt o t.cfg (Versions t) l l' (on o k fun _ => subV t v) := by
  unfold subSeg subV
  cases hc : t.cfg.total && t.invertible with
  | true =>
    simp only [if_true]
    rw [Bool.and_eq_true] at hc
    exact addC_pt h (fun hr => hr.minus_ne hc.1 hc.2) hl k v
  | false =>
    simp only [Bool.false_eq_true, if_false]
    obtain ⟨l', e, hw, hj, ha⟩ := subC_at h t.cfg t.minus hl k v
    refine ⟨l', e, hw, hj, fun _ _ => ha, fun n hn => ?_⟩
    rw [noIdent_iff hw]
    rw [noIdent_iff hl] at hn
    intro x u hu
    rw [ha] at hu
    unfold on subF at hu
    split at hu
    · split at hu
      · exact hn x u hu
      · obtain ⟨w, hw1, hw2⟩ := Option.bind_eq_some_iff.1 hu
        exact keep_ne hw2
    · exact hn x u hu

theorem subSeg_pt (t : MapType V) {l : List (I × V)} (hl : WF o mapSeg l) (k : I) (v : V) :
    ∃ l', subSeg o t l k v = some l' ∧ Pt o t.cfg (Regular t) l l' (on o k fun _ => subV t v) := by
  obtain ⟨l', e, p⟩ := subSeg_ptv h t hl k v
  exact ⟨l', e, p.mono fun hr => hr.toVersions⟩

theorem insF_noIdent {c : MapCfg V} {v : V} {a : Option V} (ha : ∀ u, a = some u → absorbable c u = false) {u : V}
    (hu : insF c v a = some u) : absorbable c u = false := by
  unfold insF at hu
  cases a with
  | none => exact keep_ne hu
  | some w => exact ha u hu

theorem insert_pt (c : MapCfg V) {l : List (I × V)} (hl : WF o mapSeg l) (k : I) (v : V) :
    ∃ l', insert o c l k v = some l' ∧ Pt o c True l l' (on o k fun _ => insF c v) := by
  obtain ⟨l', e, hw, hj, ha⟩ := insert_at h c hl k v
  refine ⟨l', e, hw, hj, fun _ _ => ha, fun n hn => ?_⟩
  rw [noIdent_iff hw]
  rw [noIdent_iff hl] at hn
  intro x u hu
  rw [ha] at hu
  unfold on at hu
  split at hu
  · exact insF_noIdent h (hn x) hu
  · exact hn x u hu

theorem insertHint_pt (c : MapCfg V) (n : Nat) (b : Bool) {l : List (I × V)} (hl : WF o mapSeg l) (k : I)
    (v : V) : ∃ l', insertHint o c n b l k v = some l' ∧ Pt o c True l l' (on o k fun _ => insF c v) := by
  obtain ⟨l', e, hw, hj, ha⟩ := insertHint_at h c n b hl k v
  refine ⟨l', e, hw, hj, fun _ _ => ha, fun n hn => ?_⟩
  rw [noIdent_iff hw]
  rw [noIdent_iff hl] at hn
  intro x u hu
  rw [ha] at hu
  unfold on at hu
  split at hu
  · exact insF_noIdent h (hn x) hu
  · exact hn x u hu

theorem eraseSeg_pt (c : MapCfg V) {l : List (I × V)} (hl : WF o mapSeg l) (k : I) (v : V) :
    ∃ l', eraseSeg o c l k v = some l' ∧ Pt o c True l l' (on o k fun _ => eraF c v) := by
  obtain ⟨l', e, hw, hj, ha⟩ := eraseSeg_at h c hl k v
  refine ⟨l', e, hw, fun _ => hj, fun _ _ => ha, fun n hn => ?_⟩
  rw [noIdent_iff hw]
  rw [noIdent_iff hl] at hn
  intro x u hu
  rw [ha] at hu
  unfold on eraF at hu
  refine hn x u ?_
  split at hu
  · split at hu
    · exact hu
    · beta_reduce at hu
      split at hu
      · simp at hu
      · exact hu
  · exact hu

theorem eraseItv_pt (c : MapCfg V) {l : List (I × V)} (hl : WF o mapSeg l) (k : I) :
    ∃ l', eraseItv o l k = some l' ∧ Pt o c True l l' (on o k fun _ _ => none) := by
  obtain ⟨l', e, hw, hj, ha⟩ := eraseItv_at h hl k
  refine ⟨l', e, hw, fun _ => hj, fun _ _ => ha, fun n hn => ?_⟩
  rw [noIdent_iff hw]
  rw [noIdent_iff hl] at hn
  intro x u hu
  rw [ha] at hu
  unfold on at hu
  refine hn x u ?_
  split at hu
  · simp at hu
  · exact hu

theorem setAt_pt (c : MapCfg V) {l : List (I × V)} (hl : WF o mapSeg l) (k : I) (v : V) :
    ∃ l', setAt o c l k v = some l' ∧ Pt o c True l l' (on o k fun _ _ => keep c v) := by
  obtain ⟨l', e, hw, hj, ha⟩ := setAt_at h c hl k v
  refine ⟨l', e, hw, hj, fun _ _ => ha, fun n hn => ?_⟩
  rw [noIdent_iff hw]
  rw [noIdent_iff hl] at hn
  intro x u hu
  rw [ha] at hu
  unfold on at hu
  split at hu
  · exact keep_ne hu
  · exact hn x u hu

/-! ### Containers -/

theorem addMap_pt (t : MapType V) (oracle : List (I × V) → I → Nat) {l r : List (I × V)} (hl : WF o mapSeg l)
    (hr : WF o mapSeg r) : ∃ l', addMap o t oracle l r = some l' ∧
      Pt o t.cfg (Regular t) l l' (over o r fun _ => addF t.cfg t.plus) :=
  forEach_pt hr (fun l hl s _ => addHint_pt h t (oracle l s.1) hl s.1 s.2) hl

theorem subMap_ptv (t : MapType V) {l r : List (I × V)} (hl : WF o mapSeg l) (hr : WF o mapSeg r) :
    ∃ l', subMap o t l r = some l' ∧ Pt o t.cfg (Versions t) l l' (over o r fun _ => subV t) :=
  forEach_pt hr (fun l hl s _ => subSeg_ptv h t hl s.1 s.2) hl

theorem subMap_pt (t : MapType V) {l r : List (I × V)} (hl : WF o mapSeg l) (hr : WF o mapSeg r) :
    ∃ l', subMap o t l r = some l' ∧ Pt o t.cfg (Regular t) l l' (over o r fun _ => subV t) := by
  obtain ⟨l', e, p⟩ := subMap_ptv h t hl hr
  exact ⟨l', e, p.mono fun hr => hr.toVersions⟩

theorem insertMap_pt (t : MapType V) (oracle : List (I × V) → I → Nat) {l r : List (I × V)} (hl : WF o mapSeg l)
    (hr : WF o mapSeg r) : ∃ l', insertMap o t oracle l r = some l' ∧
      Pt o t.cfg True l l' (over o r fun _ => insF t.cfg) :=
  forEach_pt hr (fun l hl s _ => insertHint_pt h t.cfg (oracle l s.1) false hl s.1 s.2) hl

/-- The common range of `r` with `m` contains all that matters. -/
theorem commonRange_map {r : List (I × W)} {m : List (I × V)} (hr : WF o mapSeg r) (hm : WF o mapSeg m) :
    ∃ res, commonRange o mapSeg r (m.map Prod.fst) = some res ∧
      (res = none → ∀ x, valueAt o m x = none ∨ valueAt o r x = none) ∧
      (∀ p c q, res = some (p, c, q) → r = p ++ c ++ q ∧ WF o mapSeg p ∧ WF o mapSeg c ∧ WF o mapSeg q ∧
        (∀ x, valueAt o m x = none ∨ valueAt o r x = valueAt o c x) ∧
        (∀ x, Dom o mapSeg p x → valueAt o m x = none) ∧ (∀ x, Dom o mapSeg q x → valueAt o m x = none)) := by
  obtain ⟨res, e, h1, h2⟩ := commonRange_spec h hr (wf_fst.2 hm)
  refine ⟨res, e, fun hn x => ?_, fun p c q hs => ?_⟩
  · by_cases hd : Dom o mapSeg r x
    · left; rw [valueAt_none, ← dom_fst]; exact h1 hn x hd
    · right; exact valueAt_none.2 hd
  · obtain ⟨rfl, h3, h4⟩ := h2 p c q hs
    have hw := wf_append.1 hr
    have hw' := wf_append.1 hw.1
    refine ⟨rfl, hw'.1, hw'.2.1, hw.2.1, fun x => ?_, fun x hx => ?_, fun x hx => ?_⟩
    · by_cases hd : Dom o mapSeg m x
      · right
        refine valueAt_middle (fun hp => ?_) (fun hq => ?_)
        · exact absurd (h3 x x hp (dom_fst.2 hd)) (lt_irrefl _)
        · exact absurd (h4 x x (dom_fst.2 hd) hq) (lt_irrefl _)
      · left; exact valueAt_none.2 hd
    · rw [valueAt_none, ← dom_fst]
      exact fun hd => absurd (h3 x x hx hd) (lt_irrefl _)
    · rw [valueAt_none, ← dom_fst]
      exact fun hd => absurd (h4 x x hd hx) (lt_irrefl _)

/-- The same for a set `r`. -/
theorem commonRange_set {r : List I} {m : List (I × V)} (hr : WF o setSeg r) (hm : WF o mapSeg m) :
    ∃ res, commonRange o setSeg r (m.map Prod.fst) = some res ∧
      (res = none → ∀ x, valueAt o m x = none ∨ valueAt o (unitMap r) x = none) ∧
      (∀ p c q, res = some (p, c, q) → WF o mapSeg (unitMap c) ∧
        (∀ x, valueAt o m x = none ∨ valueAt o (unitMap r) x = valueAt o (unitMap c) x)) := by
  obtain ⟨res, e, h1, h2⟩ := commonRange_spec h hr (wf_fst.2 hm)
  refine ⟨res, e, fun hn x => ?_, fun p c q hs => ?_⟩
  · by_cases hd : Dom o setSeg r x
    · left; rw [valueAt_none, ← dom_fst]; exact h1 hn x hd
    · right; rw [valueAt_none, dom_unitMap]; exact hd
  · obtain ⟨rfl, h3, h4⟩ := h2 p c q hs
    have hw := wf_append.1 hr
    have hw' := wf_append.1 hw.1
    refine ⟨wf_unitMap.2 hw'.2.1, fun x => ?_⟩
    by_cases hd : Dom o mapSeg m x
    · right
      unfold unitMap
      rw [List.map_append, List.map_append]
      refine valueAt_middle (fun hp => ?_) (fun hq => ?_)
      · exact absurd (h3 x x (dom_unitMap.1 hp) (dom_fst.2 hd)) (lt_irrefl _)
      · exact absurd (h4 x x (dom_fst.2 hd) (dom_unitMap.1 hq)) (lt_irrefl _)
    · left; exact valueAt_none.2 hd

theorem eraseMap_pt (t : MapType V) {l r : List (I × V)} (hl : WF o mapSeg l) (hr : WF o mapSeg r) :
    ∃ l', eraseMap o t l r = some l' ∧ Pt o t.cfg True l l' (over o r fun _ => eraF t.cfg) := by
  obtain ⟨res, e, h1, h2⟩ := commonRange_map h hr hl
  unfold eraseMap
  simp only [e, Option.bind_eq_bind, Option.bind_some]
  have hnone : ∀ v, eraF t.cfg v none = none := by intro v; simp [eraF]
  cases res with
  | none =>
    refine ⟨l, rfl, (Pt.refl _ _ hl).congr fun _ _ x => ?_⟩
    rcases h1 rfl x with hx | hx
    · rw [hx]; unfold over; cases valueAt o r x <;> simp [hnone]
    · unfold over; rw [hx]
  | some pcq =>
    obtain ⟨p, c, q⟩ := pcq
    obtain ⟨_, _, hc, _, hx, _⟩ := h2 p c q rfl
    obtain ⟨l', e', hp⟩ := forEach_pt hc (fun l hl s _ => eraseSeg_pt h t.cfg hl s.1 s.2) hl
    refine ⟨l', e', hp.congr fun _ _ x => ?_⟩
    rcases hx x with hx | hx
    · rw [hx]; unfold over; cases valueAt o r x <;> cases valueAt o c x <;> simp [hnone]
    · unfold over; rw [hx]

theorem eraseSet_pt (c : MapCfg V) {l : List (I × V)} {r : List I} (hl : WF o mapSeg l) (hr : WF o setSeg r) :
    ∃ l', eraseSet o l r = some l' ∧ Pt o c True l l' (over o (unitMap r) fun _ _ _ => none) := by
  obtain ⟨res, e, h1, h2⟩ := commonRange_set h hr hl
  unfold eraseSet
  simp only [e, Option.bind_eq_bind, Option.bind_some]
  cases res with
  | none =>
    refine ⟨l, rfl, (Pt.refl _ _ hl).congr fun _ _ x => ?_⟩
    rcases h1 rfl x with hx | hx
    · rw [hx]; unfold over; cases valueAt o (unitMap r) x <;> simp
    · unfold over; rw [hx]
  | some pcq =>
    obtain ⟨p, d, q⟩ := pcq
    obtain ⟨hd, hx⟩ := h2 p d q rfl
    obtain ⟨l', e', hp⟩ := forEach_pt (ψ := fun _ _ _ => none) hd (fun l hl s _ => eraseItv_pt h c hl s.1) hl
    rw [unitMap, forEach_map] at e'
    refine ⟨l', e', hp.congr fun _ _ x => ?_⟩
    rcases hx x with hx | hx
    · rw [hx]; unfold over; cases valueAt o (unitMap r) x <;> cases valueAt o (unitMap d) x <;> simp
    · unfold over; rw [hx]

/-! ### Intersection -/

/-- The value that `add_intersection` adds for a segment with value `v` where the map has the value `a`. -/
def interF (t : MapType V) (v : V) (a s : Option V) : Option V :=
  match a with
  | none => s
  | some u => addF t.cfg t.sect v (addF t.cfg t.plus u s)

theorem contains_inter (i j : I) (x : D) : o.contains (o.inter i j) x = (o.contains i x && o.contains j x) := by
  rw [Bool.eq_iff_iff, Bool.and_eq_true]; exact h.mem_inter i j x

/-- The collision sequence of `k` contains all that matters for the elements of `k`. -/
theorem range_at {m : List (I × V)} (hm : WF o mapSeg m) {k : I} (hk : o.Nonempty k) :
    ∃ a b c, equalRange o mapSeg m k = some (a, b, c) ∧ WF o mapSeg b ∧
      ∀ x, o.contains k x = true → valueAt o b x = valueAt o m x := by
  obtain ⟨a, b, c, e, rfl, h1, h2, h3⟩ := equalRange_spec h hm hk
  refine ⟨a, b, c, e, (wf_append.1 (wf_append.1 hm).1).2.1, fun x hx => ?_⟩
  refine (valueAt_middle ?_ ?_).symm
  · rintro ⟨s, hs, hxs⟩; exact lt_irrefl _ (h1 s hs x x hxs hx)
  · rintro ⟨s, hs, hxs⟩; exact lt_irrefl _ (h3 s hs x x hx hxs)

theorem contains_empty {k : I} (hk : ¬ o.Nonempty k) (x : D) : o.contains k x = false := by
  cases hc : o.contains k x with
  | false => rfl
  | true => exact absurd ⟨x, hc⟩ hk

theorem addInterSeg_ptv (t : MapType V) (ht : t.cfg.total = false) (oracle : List (I × V) → I → Nat)
    {sec m : List (I × V)} (hs : WF o mapSeg sec) (hm : WF o mapSeg m) (k : I) (v : V) :
    ∃ l', addInterSeg o t oracle sec m k v = some l' ∧
      Pt o t.cfg (Versions t) sec l' (on o k fun x => interF t v (valueAt o m x)) := by
  unfold addInterSeg
  simp only [ht, Bool.false_eq_true, if_false]
  by_cases hk : o.Nonempty k
  · rw [isEmpty_false h hk]
    simp only [Bool.false_eq_true, if_false]
    obtain ⟨a, b, c, e, hb, hx⟩ := range_at h hm hk
    simp only [e, Option.bind_eq_bind, Option.bind_some]
    have step : ∀ l, WF o mapSeg l → ∀ s ∈ b, ∃ l', sectionStep o t k v l s = some l' ∧
        Pt o t.cfg (Versions t) l l' (on o s.1 fun x => (fun x u a =>
          if o.contains k x then addF t.cfg t.sect v (addF t.cfg t.plus u a) else a) x s.2) := by
      intro l hl s hs
      unfold sectionStep
      dsimp only
      by_cases hc : o.Nonempty (o.inter s.1 k)
      · rw [isEmpty_false h hc]
        simp only [Bool.false_eq_true, if_false]
        obtain ⟨l1, e1, p1⟩ := addSeg_ptv h t hl (o.inter s.1 k) s.2
        obtain ⟨l2, e2, p2⟩ := addC_pt h (c := t.cfg) (f := t.sect) (N := Versions t) (fun hr => hr.sect_ne) p1.wf
          (o.inter s.1 k) v
        unfold addSeg at e1
        refine ⟨l2, by simp [e1, e2], (p1.trans p2).congr fun _ _ x => ?_⟩
        simp only [on, contains_inter h]
        cases o.contains s.1 x <;> cases o.contains k x <;> simp
      · rw [(empty_iff h).2 hc]
        refine ⟨l, rfl, (Pt.refl _ _ hl).congr fun _ _ x => ?_⟩
        have := contains_empty h hc x
        rw [contains_inter h] at this
        simp only [on]
        cases h1 : o.contains s.1 x <;> cases h2 : o.contains k x <;> simp_all
    obtain ⟨l', e', hp⟩ := forEach_pt (ψ := fun x u a =>
      if o.contains k x then addF t.cfg t.sect v (addF t.cfg t.plus u a) else a) hb step hs
    refine ⟨l', e', hp.congr fun _ _ x => ?_⟩
    unfold over on interF
    cases hc : o.contains k x with
    | true => rw [hx x hc]; cases hm : valueAt o m x <;> simp [hm, hc]
    | false => cases hb : valueAt o b x <;> simp [hc]
  · rw [(empty_iff h).2 hk]
    refine ⟨sec, rfl, (Pt.refl _ _ hs).congr fun _ _ x => ?_⟩
    simp [on, contains_empty h hk]

theorem addInterSeg_pt (t : MapType V) (ht : t.cfg.total = false) (oracle : List (I × V) → I → Nat)
    {sec m : List (I × V)} (hs : WF o mapSeg sec) (hm : WF o mapSeg m) (k : I) (v : V) :
    ∃ l', addInterSeg o t oracle sec m k v = some l' ∧
      Pt o t.cfg (Regular t) sec l' (on o k fun x => interF t v (valueAt o m x)) := by
  obtain ⟨l', e, p⟩ := addInterSeg_ptv h t ht oracle hs hm k v
  exact ⟨l', e, p.mono fun hr => hr.toVersions⟩

theorem addInterMap_ptv (t : MapType V) (ht : t.cfg.total = false) (oracle : List (I × V) → I → Nat)
    {sec m r : List (I × V)} (hs : WF o mapSeg sec) (hm : WF o mapSeg m) (hr : WF o mapSeg r) :
    ∃ l', addInterMap o t oracle sec m r = some l' ∧
      Pt o t.cfg (Versions t) sec l' (over o r fun x v => interF t v (valueAt o m x)) := by
  obtain ⟨res, e, h1, h2⟩ := commonRange_map h hr hm
  unfold addInterMap
  simp only [ht, Bool.false_eq_true, if_false, e, Option.bind_eq_bind, Option.bind_some]
  cases res with
  | none =>
    refine ⟨sec, rfl, (Pt.refl _ _ hs).congr fun _ _ x => ?_⟩
    unfold over
    beta_reduce
    rcases h1 rfl x with hx | hx
    · rw [hx]; cases valueAt o r x <;> simp [interF]
    · rw [hx]
  | some pcq =>
    obtain ⟨p, c, q⟩ := pcq
    obtain ⟨_, _, hc, _, hx, _⟩ := h2 p c q rfl
    obtain ⟨l', e', hp⟩ := forEach_pt (ψ := fun x v => interF t v (valueAt o m x)) hc
      (fun l hl s _ => addInterSeg_ptv h t ht oracle hl hm s.1 s.2) hs
    refine ⟨l', e', hp.congr fun _ _ x => ?_⟩
    unfold over
    beta_reduce
    rcases hx x with hx | hx
    · rw [hx]; cases valueAt o r x <;> cases valueAt o c x <;> simp [interF]
    · rw [hx]

theorem addInterMap_pt (t : MapType V) (ht : t.cfg.total = false) (oracle : List (I × V) → I → Nat)
    {sec m r : List (I × V)} (hs : WF o mapSeg sec) (hm : WF o mapSeg m) (hr : WF o mapSeg r) :
    ∃ l', addInterMap o t oracle sec m r = some l' ∧
      Pt o t.cfg (Regular t) sec l' (over o r fun x v => interF t v (valueAt o m x)) := by
  obtain ⟨l', e, p⟩ := addInterMap_ptv h t ht oracle hs hm hr
  exact ⟨l', e, p.mono fun hr => hr.toVersions⟩

/-- Total maps: both operands are added. -/
theorem addInterSeg_total_pt (t : MapType V) (ht : t.cfg.total = true) (oracle : List (I × V) → I → Nat)
    {sec m : List (I × V)} (hs : WF o mapSeg sec) (hm : WF o mapSeg m) (k : I) (v : V) :
    ∃ l', addInterSeg o t oracle sec m k v = some l' ∧
      Pt o t.cfg (Regular t) sec l' (fun x s => on o k (fun _ => addF t.cfg t.plus v) x
        (over o m (fun _ => addF t.cfg t.plus) x s)) := by
  unfold addInterSeg
  simp only [ht, if_true]
  obtain ⟨l1, e1, p1⟩ := addMap_pt h t oracle hs hm
  obtain ⟨l2, e2, p2⟩ := addSeg_pt h t p1.wf k v
  exact ⟨l2, by simp [e1, e2], p1.trans p2⟩

theorem addInterMap_total_pt (t : MapType V) (ht : t.cfg.total = true) (oracle : List (I × V) → I → Nat)
    {sec m r : List (I × V)} (hs : WF o mapSeg sec) (hm : WF o mapSeg m) (hr : WF o mapSeg r) :
    ∃ l', addInterMap o t oracle sec m r = some l' ∧
      Pt o t.cfg (Regular t) sec l' (fun x s => over o r (fun _ => addF t.cfg t.plus) x
        (over o m (fun _ => addF t.cfg t.plus) x s)) := by
  unfold addInterMap
  simp only [ht, if_true]
  obtain ⟨l1, e1, p1⟩ := addMap_pt h t oracle hs hm
  obtain ⟨l2, e2, p2⟩ := addMap_pt h t oracle p1.wf hr
  exact ⟨l2, by simp [e1, e2], p1.trans p2⟩

/-- Restriction to the keys of an interval. -/
theorem addInterItv_pt (t : MapType V) (oracle : List (I × V) → I → Nat)
    {sec m : List (I × V)} (hs : WF o mapSeg sec) (hm : WF o mapSeg m) (k : I) :
    ∃ l', addInterItv o t oracle sec m k = some l' ∧
      Pt o t.cfg (Regular t) sec l' (on o k fun x => over o m (fun _ => addF t.cfg t.plus) x) := by
  unfold addInterItv
  by_cases hk : o.Nonempty k
  · rw [isEmpty_false h hk]
    simp only [Bool.false_eq_true, if_false]
    obtain ⟨a, b, c, e, hb, hx⟩ := range_at h hm hk
    simp only [e, Option.bind_eq_bind, Option.bind_some]
    have step : ∀ l, WF o mapSeg l → ∀ s ∈ b, ∃ l', restrictStep o t oracle k l s = some l' ∧
        Pt o t.cfg (Regular t) l l' (on o s.1 fun x => (fun x u a =>
          if o.contains k x then addF t.cfg t.plus u a else a) x s.2) := by
      intro l hl s hs
      unfold restrictStep
      dsimp only
      by_cases hc : o.Nonempty (o.inter s.1 k)
      · rw [isEmpty_false h hc]
        simp only [Bool.false_eq_true, if_false]
        obtain ⟨l1, e1, p1⟩ := addHint_pt h t (oracle l (o.inter s.1 k)) hl (o.inter s.1 k) s.2
        refine ⟨l1, e1, p1.congr fun _ _ x => ?_⟩
        simp only [on, contains_inter h]
        cases o.contains s.1 x <;> cases o.contains k x <;> simp
      · rw [(empty_iff h).2 hc]
        refine ⟨l, rfl, (Pt.refl _ _ hl).congr fun _ _ x => ?_⟩
        have := contains_empty h hc x
        rw [contains_inter h] at this
        simp only [on]
        cases h1 : o.contains s.1 x <;> cases h2 : o.contains k x <;> simp_all
    obtain ⟨l', e', hp⟩ := forEach_pt (ψ := fun x u a =>
      if o.contains k x then addF t.cfg t.plus u a else a) hb step hs
    refine ⟨l', e', hp.congr fun _ _ x => ?_⟩
    unfold over on
    cases hc : o.contains k x with
    | true => rw [hx x hc]; cases hm : valueAt o m x <;> simp [hm, hc]
    | false => cases hb : valueAt o b x <;> simp [hc]
  · rw [(empty_iff h).2 hk]
    refine ⟨sec, rfl, (Pt.refl _ _ hs).congr fun _ _ x => ?_⟩
    simp [on, contains_empty h hk]

theorem addInterSet_pt (t : MapType V) (oracle : List (I × V) → I → Nat)
    {sec m : List (I × V)} {r : List I} (hs : WF o mapSeg sec) (hm : WF o mapSeg m) (hr : WF o setSeg r) :
    ∃ l', addInterSet o t oracle sec m r = some l' ∧
      Pt o t.cfg (Regular t) sec l'
        (over o (unitMap r) fun x _ => over o m (fun _ => addF t.cfg t.plus) x) := by
  obtain ⟨res, e, h1, h2⟩ := commonRange_set h hr hm
  unfold addInterSet
  simp only [e, Option.bind_eq_bind, Option.bind_some]
  cases res with
  | none =>
    refine ⟨sec, rfl, (Pt.refl _ _ hs).congr fun _ _ x => ?_⟩
    unfold over
    beta_reduce
    rcases h1 rfl x with hx | hx
    · rw [hx]; cases valueAt o (unitMap r) x <;> simp
    · rw [hx]
  | some pcq =>
    obtain ⟨p, d, q⟩ := pcq
    obtain ⟨hd, hx⟩ := h2 p d q rfl
    obtain ⟨l', e', hp⟩ := forEach_pt (ψ := fun x _ => over o m (fun _ => addF t.cfg t.plus) x) hd
      (fun l hl s _ => addInterItv_pt h t oracle hl hm s.1) hs
    rw [unitMap, forEach_map] at e'
    refine ⟨l', e', hp.congr fun _ _ x => ?_⟩
    unfold over
    beta_reduce
    rcases hx x with hx | hx
    · rw [hx]; cases valueAt o (unitMap r) x <;> cases valueAt o (unitMap d) x <;> simp
    · rw [hx]

end
end IMap
end ICL
