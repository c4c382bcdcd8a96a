import Mathlib.Data.List.Nodup
import Verif.Theory.Borders

/-!
# The operations of interval sets make no new borders
-/

set_option linter.unusedSectionVars false
set_option linter.unusedVariables false

namespace ICL

variable {D I V S : Type} [LinearOrder D] {o : IntervalOps D I} {g : SegOps I V S}

section
variable (h : o.Lawful)
include h

theorem AddSpec.fits {st : Style} {K l l' : List I} {k : I} (hl : WF o setSeg l)
    (hj : st = .joining → Joined o setSeg l) (hs : AddSpec o st l k l') (fl : Fits o setSeg K l)
    (fk : Respects o K k) : Fits o setSeg K l' := by
  have hd : ∀ x, Dom o setSeg l' x → Spanned o K x := by
    intro x hx
    rcases (hs.dom x).1 hx with hx | hx
    · exact fl.span hx
    · exact fk.span x hx
  cases st with
  | joining =>
    refine fits_of_joined_set h hs.wf (hs.joined rfl (hj rfl)) hd fun x y ht hx => ?_
    rw [hs.dom] at hx ⊢
    exact hx.imp (fl.dom ht) (fk.step x y ht)
  | separating =>
    refine fits_of_same h hs.wf hd fun x y ht hx => ?_
    rw [hs.separating rfl]
    rcases (hs.dom x).1 hx with hx | hx
    · exact Or.inl (fl.same ht hx)
    · right
      have hy := fk.step x y ht hx
      unfold Reach
      tauto
  | splitting =>
    refine fits_of_same h hs.wf hd fun x y ht hx => ?_
    have : Tog o l' x y := (hs.tog h hl x y).2 ⟨fl.tog ht, fk.togI ht⟩
    exact same_of_tog this hx

theorem SubSpec.fits {K l l' : List I} {k : I} (hs : SubSpec o l k l') (fl : Fits o setSeg K l)
    (fk : Respects o K k) : Fits o setSeg K l' := by
  refine fits_of_same h hs.wf (fun x hx => fl.span ((hs.dom x).1 hx).1) fun x y ht hx => ?_
  rw [hs.dom] at hx
  rw [hs.same]
  refine ⟨fl.same ht hx.1, fun z h1 h2 hz => hx.2 ?_⟩
  exact (fk.iff (tog_btw ht ⟨h1, h2⟩)).2 hz

theorem FlipSpec.fits {st : Style} {K l l' : List I} {k : I}
    (hj : st = .joining → Joined o setSeg l) (hs : FlipSpec o st l k l') (fl : Fits o setSeg K l)
    (fk : Respects o K k) : Fits o setSeg K l' := by
  have hd : ∀ x, Dom o setSeg l' x → Spanned o K x := by
    intro x hx
    rcases (hs.dom x).1 hx with hx | hx
    · exact fl.span hx.1
    · exact fk.span x hx.1
  have hstep : ∀ x y, Tog o K x y → (Dom o setSeg l y ↔ Dom o setSeg l x) :=
    fun x y ht => ⟨fl.dom (tog_symm ht), fl.dom ht⟩
  by_cases hst : st = .joining
  · refine fits_of_joined_set h hs.wf (hs.joined hst (hj hst)) hd fun x y ht hx => ?_
    rw [hs.dom] at hx ⊢
    rw [hstep x y ht, ← fk.iff ht]; exact hx
  · refine fits_of_same h hs.wf hd fun x y ht hx => ?_
    rw [hs.dom] at hx
    rw [hs.same hst]
    rcases hx with ⟨h1, h2⟩ | ⟨h1, h2⟩
    · exact Or.inl ⟨fl.same ht h1, fun z hz hc => h2 ((fk.iff (tog_btw ht hz)).2 hc)⟩
    · exact Or.inr ⟨h1, fk.step x y ht h1, fun z hz hc => h2 ((hstep x z (tog_btw ht hz)).1 hc)⟩

theorem UnionSpec.fits {st : Style} {K l r l' : List I}
    (hj : st = .joining → Joined o setSeg l) (hs : UnionSpec o st l r l') (fl : Fits o setSeg K l)
    (fr : Fits o setSeg K r) : Fits o setSeg K l' := by
  have hd : ∀ x, Dom o setSeg l' x → Spanned o K x := by
    intro x hx
    rcases (hs.dom x).1 hx with hx | hx
    · exact fl.span hx
    · exact fr.span hx
  cases st with
  | joining =>
    refine fits_of_joined_set h hs.wf (hs.joined rfl (hj rfl)) hd fun x y ht hx => ?_
    rw [hs.dom] at hx ⊢
    exact hx.imp (fl.dom ht) (fr.dom ht)
  | separating =>
    refine fits_of_same h hs.wf hd fun x y ht hx => ?_
    rw [hs.separating rfl]
    refine .single ?_
    rcases (hs.dom x).1 hx with hx | hx
    · exact Or.inl (fl.same ht hx)
    · exact Or.inr (fr.same ht hx)
  | splitting =>
    refine fits_of_same h hs.wf hd fun x y ht hx => ?_
    have : Tog o l' x y := (hs.splitting rfl x y).2 ⟨fl.tog ht, fr.tog ht⟩
    exact same_of_tog this hx

theorem DiffSpec.fits {K l r l' : List I} (hs : DiffSpec o l r l') (fl : Fits o setSeg K l)
    (fr : Fits o setSeg K r) : Fits o setSeg K l' := by
  refine fits_of_same h hs.wf (fun x hx => fl.span ((hs.dom x).1 hx).1) fun x y ht hx => ?_
  rw [hs.dom] at hx
  rw [hs.same]
  exact ⟨fl.same ht hx.1, fun z hz hc => hx.2 (fr.dom (tog_symm (tog_btw ht hz)) hc)⟩

theorem InterSpec.fits {st : Style} {K l r l' : List I} (hs : InterSpec o st l r l') (fl : Fits o setSeg K l)
    (fr : Fits o setSeg K r) : Fits o setSeg K l' := by
  have hd : ∀ x, Dom o setSeg l' x → Spanned o K x := fun x hx => fl.span ((hs.dom x).1 hx).1
  by_cases hst : st = .joining
  · refine fits_of_joined_set h hs.wf (hs.joined hst) hd fun x y ht hx => ?_
    rw [hs.dom] at hx ⊢
    exact hx.imp (fl.dom ht) (fr.dom ht)
  · refine fits_of_same h hs.wf hd fun x y ht hx => ?_
    rw [hs.dom] at hx
    rw [hs.same hst]
    exact hx.imp (fl.same ht) (fr.same ht)

theorem SymSpec.fits {st : Style} {K l r l' : List I}
    (hj : st = .joining → Joined o setSeg l) (hs : SymSpec o st l r l') (fl : Fits o setSeg K l)
    (fr : Fits o setSeg K r) : Fits o setSeg K l' := by
  have hd : ∀ x, Dom o setSeg l' x → Spanned o K x := by
    intro x hx
    rcases (hs.dom x).1 hx with hx | hx
    · exact fl.span hx.1
    · exact fr.span hx.1
  have hl : ∀ x y, Tog o K x y → (Dom o setSeg l y ↔ Dom o setSeg l x) :=
    fun x y ht => ⟨fl.dom (tog_symm ht), fl.dom ht⟩
  have hr : ∀ x y, Tog o K x y → (Dom o setSeg r y ↔ Dom o setSeg r x) :=
    fun x y ht => ⟨fr.dom (tog_symm ht), fr.dom ht⟩
  by_cases hst : st = .joining
  · refine fits_of_joined_set h hs.wf (hs.joined hst (hj hst)) hd fun x y ht hx => ?_
    rw [hs.dom] at hx ⊢
    rw [hl x y ht, hr x y ht]; exact hx
  · refine fits_of_same h hs.wf hd fun x y ht hx => ?_
    rw [hs.dom] at hx
    rw [hs.same hst]
    rcases hx with ⟨h1, h2⟩ | ⟨h1, h2⟩
    · exact Or.inl ⟨fl.same ht h1, fun z hz hc => h2 ((hr x z (tog_btw ht hz)).1 hc)⟩
    · exact Or.inr ⟨fr.same ht h1, fun z hz hc => h2 ((hl x z (tog_btw ht hz)).1 hc)⟩

theorem joinAll_fits [DecidableEq V] (gl : g.Lawful) {K : List I} {l l' : List S} (hl : WF o g l)
    (e : joinAll o g l = some l') (fl : Fits o g K l) : Fits o g K l' := by
  obtain ⟨l2, e2, h1, h2, h3⟩ := joinAll_spec h gl hl
  rw [e] at e2; obtain rfl := Option.some.inj e2
  have hd : ∀ x, Dom o g l' x → Dom o g l x := by
    intro x hx
    obtain ⟨v, hv⟩ := dom_iff.1 hx
    exact ((h2 x v).1 hv).dom
  refine fits_of_joined h h1 h3 (fun x hx => fl.span (hd x hx)) fun x y v ht hx => ?_
  rw [h2] at hx ⊢
  obtain ⟨s, hs, hxs, hv⟩ := hx
  exact ⟨s, hs, (fl s hs).step x y ht hxs, hv⟩

end

variable [DecidableEq I]

theorem SetOp.run_fits (h : o.Lawful) {E : Option (ElemFns D I)} {st : Style} {K l l' : List I}
    (hl : Good o st l) (c : SetOp D I) (e : c.run o E st l = some l') (fl : Fits o setSeg K l)
    (fk : ∀ k ∈ c.operands E, Respects o K k) : Fits o setSeg K l' := by
  have hadd : ∀ {l0 k}, Good o st l0 → Fits o setSeg K l0 → Respects o K k → ISet.add o st l0 k = some l' →
      Fits o setSeg K l' := by
    intro l0 k g0 f0 hk e
    obtain ⟨l2, e2, s⟩ := ISet.add_spec h st g0.1 k
    rw [e] at e2; obtain rfl := Option.some.inj e2
    exact s.fits h g0.1 g0.2 f0 hk
  have hsub : ∀ {k}, Respects o K k → ISet.subtract o l k = some l' → Fits o setSeg K l' := by
    intro k hk e
    obtain ⟨l2, e2, s⟩ := ISet.subtract_spec h hl.1 k
    rw [e] at e2; obtain rfl := Option.some.inj e2
    exact s.fits h fl hk
  cases c with
  | add k => exact hadd hl fl (fk k (by simp [SetOp.operands])) e
  | addHint n k =>
    obtain ⟨l2, e2, s⟩ := ISet.addHint_spec h st n hl.1 k
    rw [show ISet.addHint o st n l k = some l' from e] at e2; obtain rfl := Option.some.inj e2
    exact s.fits h hl.1 hl.2 fl (fk k (by simp [SetOp.operands]))
  | subtract k => exact hsub (fk k (by simp [SetOp.operands])) e
  | inter oracle k =>
    obtain ⟨l2, e2, h2, h3, h4, h5⟩ := ISet.interSeg_spec h st oracle hl.1 k
    rw [show ISet.interSeg o st oracle l k = some l' from e] at e2; obtain rfl := Option.some.inj e2
    have hk := fk k (by simp [SetOp.operands])
    have hd : ∀ x, Dom o setSeg l' x → Spanned o K x := fun x hx => fl.span ((h3 x).1 hx).1
    by_cases hst : st = .joining
    · refine fits_of_joined_set h h2 (h4 hst) hd fun x y ht hx => ?_
      rw [h3] at hx ⊢
      exact hx.imp (fl.dom ht) (hk.step x y ht)
    · refine fits_of_same h h2 hd fun x y ht hx => ?_
      rw [h3] at hx
      rw [h5 hst]
      exact ⟨fl.same ht hx.1, hx.2, hk.step x y ht hx.2⟩
  | flip k =>
    by_cases he : o.isEmpty k = true
    · rw [show SetOp.run o E st l (.flip k) = ISet.flipSeg o st l k from rfl,
        ISet.flipSeg_empty h st l he] at e
      split at e
      · obtain rfl := Option.some.inj e; exact fits_nil
      · cases e
    · have hk : o.Nonempty k := by
        by_contra hn
        exact he ((h.isEmpty_iff k).2 fun x hx => hn ⟨x, hx⟩)
      obtain ⟨l2, e2, s⟩ := ISet.flipSeg_spec h st hl.1 hk
      rw [show ISet.flipSeg o st l k = some l' from e] at e2; obtain rfl := Option.some.inj e2
      exact s.fits h hl.2 fl (fk k (by simp [SetOp.operands]))
  | addE x =>
    obtain ⟨f, rfl, e1⟩ := Option.bind_eq_some_iff.1 e
    exact hadd hl fl (fk _ (by simp [SetOp.operands])) e1
  | subE x =>
    obtain ⟨f, rfl, e1⟩ := Option.bind_eq_some_iff.1 e
    exact hsub (fk _ (by simp [SetOp.operands])) e1
  | interE x =>
    obtain ⟨f, rfl, e1⟩ := Option.bind_eq_some_iff.1 e
    simp only [ISet.addInterE, Option.bind_eq_bind] at e1
    obtain ⟨b, _, e2⟩ := Option.bind_eq_some_iff.1 e1
    cases b with
    | true => exact hadd (good_nil st) fits_nil (fk _ (by simp [SetOp.operands])) e2
    | false => obtain rfl := Option.some.inj e2; exact fits_nil
  | flipE x =>
    obtain ⟨f, rfl, e1⟩ := Option.bind_eq_some_iff.1 e
    simp only [ISet.flipE, Option.bind_eq_bind] at e1
    obtain ⟨b, _, e2⟩ := Option.bind_eq_some_iff.1 e1
    cases b with
    | true => exact hsub (fk _ (by simp [SetOp.operands])) e2
    | false => exact hadd hl fl (fk _ (by simp [SetOp.operands])) e2
  | clear => obtain rfl := Option.some.inj e; exact fits_nil
  | eraseRange i j =>
    obtain rfl := Option.some.inj e
    refine fl.sublist ?_
    have h1 : (l.drop (max i j)).Sublist (l.drop i) := by
      rw [show max i j = i + (max i j - i) by omega, ← List.drop_drop]
      exact List.drop_sublist _ _
    calc l.take i ++ l.drop (max i j) |>.Sublist (l.take i ++ l.drop i) := List.Sublist.append_left h1 _
      _ = l := List.take_append_drop i l
  | join => exact joinAll_fits h setSeg_lawful hl.1 e fl

theorem SetOp2.run_fits (h : o.Lawful) {st st' : Style} {K l r l' : List I} (hl : Good o st l) (hr : Good o st' r)
    (c : SetOp2 I) (e : c.run o st st' l r = some l') (fl : Fits o setSeg K l) (fr : Fits o setSeg K r) :
    Fits o setSeg K l' := by
  have hfrom : ∀ {oracle r'}, Fits o setSeg K r' → ISet.addSet o st oracle [] r' = some l' → Fits o setSeg K l' := by
    intro oracle r' f e
    obtain ⟨l2, e2, s⟩ := ISet.addSet_spec h st oracle (wf_nil (o := o) (g := setSeg)) r'
    rw [e] at e2; obtain rfl := Option.some.inj e2
    exact s.fits h (fun _ => joined_nil) fits_nil f
  cases c with
  | add oracle =>
    obtain ⟨l2, e2, s⟩ := ISet.addSet_spec h st oracle hl.1 r
    rw [show ISet.addSet o st oracle l r = some l' from e] at e2; obtain rfl := Option.some.inj e2
    exact s.fits h hl.2 fl fr
  | sub =>
    obtain ⟨l2, e2, s⟩ := ISet.subSet_spec h hl.1 hr.1
    rw [show ISet.subSet o l r = some l' from e] at e2; obtain rfl := Option.some.inj e2
    exact s.fits h fl fr
  | inter oracle =>
    obtain ⟨l2, e2, s⟩ := ISet.interSet_spec h st oracle hl.1 hr.1
    rw [show ISet.interSet o st oracle l r = some l' from e] at e2; obtain rfl := Option.some.inj e2
    exact s.fits h fl fr
  | flip oracle =>
    obtain ⟨l2, e2, s⟩ := ISet.flipSet_spec h st oracle hl.1 hr.1
    rw [show ISet.flipSet o st oracle l r = some l' from e] at e2; obtain rfl := Option.some.inj e2
    exact s.fits h hl.2 fl fr
  | assign oracle =>
    obtain ⟨l2, e2, h2, h3, h4, h5⟩ := ISet.assign_spec h st oracle hr.1
    rw [show ISet.assign o st oracle r = some l' from e] at e2; obtain rfl := Option.some.inj e2
    by_cases hst : st = .joining
    · refine fits_of_joined_set h h2 (h4 hst) (fun x hx => fr.span ((h3 x).1 hx)) fun x y ht hx => ?_
      rw [h3] at hx ⊢
      exact fr.dom ht hx
    · rw [h5 hst]; exact fr
  | copy =>
    simp only [SetOp2.run] at e
    split at e
    · obtain rfl := Option.some.inj e; exact fr
    · cases e
  | domain oracle => exact hfrom fr e
  | between oracle => exact hfrom (fits_gaps h fr) e

/-! ### Sizes -/

omit [DecidableEq I] in
open Classical in
/-- If every segment meets one of the intervals `T`, and each of these meets one segment at most, there are not more
segments than intervals. -/
theorem length_le_of_cover {l T : List I} (hl : WF o setSeg l)
    (hm : ∀ s ∈ l, ∃ i ∈ T, ∃ x, o.Mem x i ∧ o.Mem x s)
    (hu : ∀ i ∈ T, ∀ x y, o.Mem x i → o.Mem y i → Dom o setSeg l x → Dom o setSeg l y → Same o setSeg l x y) :
    l.length ≤ T.length := by
  have hch : ∀ s : {s // s ∈ l}, ∃ i : I, i ∈ T ∧ ∃ x, o.Mem x i ∧ o.Mem x s.1 := fun s => hm s.1 s.2
  choose f hf using hch
  have hinj : Function.Injective f := by
    rintro ⟨s, hs⟩ ⟨t, ht⟩ he
    obtain ⟨h1, x, hx, hxs⟩ := hf ⟨s, hs⟩
    obtain ⟨_, y, hy, hyt⟩ := hf ⟨t, ht⟩
    rw [← he] at hy
    obtain ⟨u, hu, hxu, hyu⟩ := hu _ h1 x y hx hy ⟨s, hs, hxs⟩ ⟨t, ht, hyt⟩
    have e1 : s = u := hl.unique hs hu hxs hxu
    have e2 : t = u := hl.unique ht hu hyt hyu
    exact Subtype.ext (e1.trans e2.symm)
  have hnl : l.Nodup := by
    refine hl.sorted.imp_of_mem ?_
    rintro a b ha hb hab rfl
    obtain ⟨x, hx⟩ := hl.nonempty a ha
    exact lt_irrefl _ (hab x x hx hx)
  have hnd : (l.attach.map f).Nodup := by
    have : l.attach.Nodup := List.nodup_attach.2 hnl
    exact List.Nodup.map hinj this
  have hsub : l.attach.map f ⊆ T := by
    intro i hi
    obtain ⟨s, _, rfl⟩ := List.mem_map.1 hi
    exact (hf s).1
  have := (List.subperm_of_subset hnd hsub).length_le
  simpa using this

section
omit [DecidableEq I]
variable (h : o.Lawful)
include h

theorem UnionSpec.length_le {st : Style} {l r l' : List I} (hst : st ≠ .splitting)
    (hj : st = .joining → Joined o setSeg l) (hs : UnionSpec o st l r l') : l'.length ≤ l.length + r.length := by
  rw [← List.length_append]
  refine length_le_of_cover hs.wf ?_ ?_
  · intro s hs'
    obtain ⟨x, hx⟩ := hs.wf.nonempty s hs'
    have : Dom o setSeg (l ++ r) x := by rw [dom_append]; exact (hs.dom x).1 ⟨s, hs', hx⟩
    obtain ⟨i, hi, hxi⟩ := this
    exact ⟨i, hi, x, hxi, hx⟩
  · intro i hi x y hx hy _ _
    cases st with
    | joining =>
      have hd : ∀ z, Btw x y z → Dom o setSeg l' z := by
        intro z hz
        rw [hs.dom, ← dom_append]
        exact ⟨i, hi, mem_btw h hx hy hz⟩
      have hj' := (joined_iff h hs.wf).1 (hs.joined rfl (hj rfl))
      rcases le_total x y with hxy | hxy
      · exact hj' x y () hxy fun z h1 h2 => (setMaps_iff h).2 (hd z ((btw_iff_of_le hxy).2 ⟨h1, h2⟩))
      · exact (hj' y x () hxy fun z h1 h2 =>
          (setMaps_iff h).2 (hd z ((btw_iff_of_le hxy).2 ⟨h1, h2⟩).symm)).symm
    | separating =>
      rw [hs.separating rfl]
      refine .single ?_
      rcases List.mem_append.1 hi with hi | hi
      · exact Or.inl ⟨i, hi, hx, hy⟩
      · exact Or.inr ⟨i, hi, hx, hy⟩
    | splitting => exact absurd rfl hst

theorem AddSpec.length_le {st : Style} {l l' : List I} {k : I} (hst : st ≠ .splitting)
    (hj : st = .joining → Joined o setSeg l) (hs : AddSpec o st l k l') : l'.length ≤ l.length + 1 := by
  rw [← List.length_cons (a := k)]
  refine length_le_of_cover hs.wf ?_ ?_
  · intro s hs'
    obtain ⟨x, hx⟩ := hs.wf.nonempty s hs'
    rcases (hs.dom x).1 ⟨s, hs', hx⟩ with ⟨i, hi, hxi⟩ | hxk
    · exact ⟨i, by simp [hi], x, hxi, hx⟩
    · exact ⟨k, by simp, x, hxk, hx⟩
  · intro i hi x y hx hy _ _
    cases st with
    | joining =>
      have hd : ∀ z, Btw x y z → Dom o setSeg l' z := by
        intro z hz
        rw [hs.dom]
        rcases List.mem_cons.1 hi with rfl | hi
        · exact Or.inr (mem_btw h hx hy hz)
        · exact Or.inl ⟨i, hi, mem_btw h hx hy hz⟩
      have hj' := (joined_iff h hs.wf).1 (hs.joined rfl (hj rfl))
      rcases le_total x y with hxy | hxy
      · exact hj' x y () hxy fun z h1 h2 => (setMaps_iff h).2 (hd z ((btw_iff_of_le hxy).2 ⟨h1, h2⟩))
      · exact (hj' y x () hxy fun z h1 h2 =>
          (setMaps_iff h).2 (hd z ((btw_iff_of_le hxy).2 ⟨h1, h2⟩).symm)).symm
    | separating =>
      rw [hs.separating rfl]
      rcases List.mem_cons.1 hi with rfl | hi
      · right; unfold Reach; tauto
      · exact Or.inl ⟨i, hi, hx, hy⟩
    | splitting => exact absurd rfl hst

open Spec in
/-- The lower border of what is left of a segment is that of the segment or the upper border of what is removed. -/
theorem SubSpec.lower {l l' : List I} {k : I} (hl : WF o setSeg l) (hs : SubSpec o l k l') {s : I} (hs' : s ∈ l') :
    LowerBorder o s ∈ l.map (LowerBorder o) ∨ LowerBorder o s = UpperBorder o k := by
  obtain ⟨x0, hx0⟩ := hs.wf.nonempty s hs'
  obtain ⟨⟨t, ht, hx0t, _⟩, hn0⟩ := (hs.same x0 x0).1 ⟨s, hs', hx0, hx0⟩
  have hsub : ∀ x, o.Mem x s → o.Mem x t ∧ ¬ o.Mem x k := by
    intro x hx
    obtain ⟨⟨t', ht', h1, h2⟩, h3⟩ := (hs.same x0 x).1 ⟨s, hs', hx0, hx⟩
    rw [hl.unique ht ht' hx0t h1]
    exact ⟨h2, h3 x (min_le_right _ _) (le_max_right _ _)⟩
  by_cases he : LowerBorder o s = LowerBorder o t
  · exact Or.inl (he ▸ List.mem_map.2 ⟨t, ht, rfl⟩)
  · right
    -- an element of the segment below what is left
    have hz : ∃ z, o.Mem z t ∧ ∀ x, o.Mem x s → z < x := by
      by_contra hc
      push Not at hc
      refine he (Set.ext fun u => ⟨fun hu y hy => ?_, fun hu y hy => hu y (hsub y hy).1⟩)
      obtain ⟨x, hx, hxy⟩ := hc y hy
      exact lt_of_lt_of_le (hu x hx) hxy
    obtain ⟨z, hzt, hzs⟩ := hz
    -- the removed interval begins between it and any element that is left
    have hw : ∀ x, o.Mem x s → ∃ w, o.Mem w k ∧ z ≤ w ∧ w < x := by
      intro x hx
      by_contra hc
      push Not at hc
      have : Same o setSeg l' z x := by
        rw [hs.same]
        refine ⟨⟨t, ht, hzt, (hsub x hx).1⟩, fun w h1 h2 hwk => ?_⟩
        rw [min_eq_left (hzs x hx).le] at h1
        rw [max_eq_right (hzs x hx).le] at h2
        have := hc w hwk h1
        exact (hsub x hx).2 (le_antisymm h2 this ▸ hwk)
      obtain ⟨s2, hs2, h1, h2⟩ := this
      rw [← hs.wf.unique hs' hs2 hx h2] at h1
      exact lt_irrefl _ (hzs z h1)
    have hka : ∀ x, o.Mem x s → ∀ w, o.Mem w k → w < x := by
      intro x hx w hwk
      obtain ⟨w0, h1, h2, h3⟩ := hw x hx
      by_contra hc
      exact (hsub x hx).2 (h.convex k w0 x w h1 hwk h3.le (not_lt.1 hc))
    refine Set.ext fun u => ⟨fun hu => ?_, ?_⟩
    · by_contra hc
      have hku : ∀ w, o.Mem w k → w < u := by
        intro w hwk
        by_contra hc'
        exact hc ⟨w, hwk, not_lt.1 hc'⟩
      obtain ⟨w0, h1, h2, h3⟩ := hw x0 hx0
      have hzu : z ≤ u := h2.trans (hku w0 h1).le
      have hux : u < x0 := hu x0 hx0
      have hut : o.Mem u t := h.convex t z u x0 hzt hx0t hzu hux.le
      have : Same o setSeg l' u x0 := by
        rw [hs.same]
        refine ⟨⟨t, ht, hut, hx0t⟩, fun w h1 _ hwk => ?_⟩
        rw [min_eq_left hux.le] at h1
        exact absurd (hku w hwk) (not_lt.2 h1)
      obtain ⟨s2, hs2, h4, h5⟩ := this
      rw [← hs.wf.unique hs' hs2 hx0 h5] at h4
      exact lt_irrefl _ (hu u h4)
    · rintro ⟨w, hwk, huw⟩ x hx
      exact lt_of_le_of_lt huw (hka x hx w hwk)

theorem SubSpec.length_le {l l' : List I} {k : I} (hl : WF o setSeg l) (hs : SubSpec o l k l') :
    l'.length ≤ l.length + 1 := by
  have hnd : (l'.map (Spec.LowerBorder o)).Nodup := (wf_lower_pairwise hs.wf).imp fun hab => hab.ne
  have hsub : l'.map (Spec.LowerBorder o) ⊆ Spec.UpperBorder o k :: l.map (Spec.LowerBorder o) := by
    intro b hb
    obtain ⟨s, hs', rfl⟩ := List.mem_map.1 hb
    rcases hs.lower h hl hs' with h1 | h1
    · simp [h1]
    · simp [h1]
  have := (List.subperm_of_subset hnd hsub).length_le
  simpa using this

end

end ICL
