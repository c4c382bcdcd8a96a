import Verif.Theory.BordersSet
import Verif.Theory.MapHistory

/-!
# The operations of interval maps make no new borders
-/

set_option linter.unusedSectionVars false
set_option linter.unusedVariables false

namespace ICL
open IMap

variable {D I V : Type} [LinearOrder D] {o : IntervalOps D I} [DecidableEq V]

/-- A map as the operations leave it, with segments that respect `K`. -/
structure MFit (o : IntervalOps D I) (c : MapCfg V) (K : List I) (l : List (I × V)) : Prop where
  wf : WF o mapSeg l
  joined : c.joining = true → Joined o mapSeg l
  fits : Fits o mapSeg K l

theorem mfit_nil (c : MapCfg V) {K : List I} : MFit o c K [] := ⟨wf_nil, fun _ => joined_nil, fits_nil⟩

section
variable (h : o.Lawful)
include h

theorem fits_of_joint (c : MapCfg V) {K : List I} {l' : List (I × V)} (E : D → D → V → Prop)
    (hw : WF o mapSeg l') (hj : c.joining = true → Joined o mapSeg l')
    (he : ∀ x y w, Dg c x y → (Joint o l' x y w ↔ E x y w))
    (hd : ∀ x w, E x x w → Spanned o K x)
    (hs : ∀ x y w, Tog o K x y → E x x w → E x y w ∧ E y y w) : MFit o c K l' := by
  refine ⟨hw, hj, ?_⟩
  have hd' : ∀ x, Dom o mapSeg l' x → Spanned o K x := by
    intro x hx
    obtain ⟨w, hx⟩ := dom_iff_joint.1 hx
    exact hd x w ((he x x w (dg_self c x)).1 hx)
  by_cases hc : c.joining = true
  · refine fits_of_joined h hw (hj hc) hd' fun x y v ht hx => ?_
    rw [← joint_self, he _ _ _ (dg_self c _)] at hx ⊢
    exact (hs x y v ht hx).2
  · refine fits_of_same h hw hd' fun x y ht hx => ?_
    obtain ⟨w, hx⟩ := dom_iff_joint.1 hx
    rw [he _ _ _ (dg_self c _)] at hx
    exact ((he x y w (fun h => absurd h hc)).2 (hs x y w ht hx).1).same

omit h in
theorem Fits.joint {K : List I} {l : List (I × V)} (hl : Fits o mapSeg K l) {x y : D} {w : V} (ht : Tog o K x y)
    (hx : Joint o l x x w) : Joint o l x y w ∧ Joint o l y y w := by
  obtain ⟨s, hs, h1, _, h2⟩ := hx
  have h3 := (hl s hs).step x y ht h1
  exact ⟨⟨s, hs, h1, h3, h2⟩, s, hs, h3, h3, h2⟩

theorem IMap.UpdSpec.mfit {c : MapCfg V} {up : V → Option V} {fill : Option V} {K : List I} {l l' : List (I × V)} {k : I}
    (hs : UpdSpec o c up fill l k l') (hl : MFit o c K l) (hk : Respects o K k) : MFit o c K l' := by
  refine fits_of_joint h c (Eff o up fill l k) hs.wf (fun hc => hs.joined hc (hl.joined hc)) hs.joint ?_ ?_
  · rintro x w (⟨hx, _⟩ | ⟨_, hx⟩)
    · exact hk.span x hx
    · exact hl.fits.span hx.left
  · intro x y w ht he
    unfold Eff at he ⊢
    have hdom : ∀ z, Btw x y z → (Dom o mapSeg l z ↔ Dom o mapSeg l x) := fun z hz =>
      ⟨hl.fits.dom (tog_symm (tog_btw ht hz)), hl.fits.dom (tog_btw ht hz)⟩
    rcases he with ⟨hx, _, ⟨u, hu, hw⟩ | ⟨hf, hg⟩⟩ | ⟨hn, hu⟩
    · have hy := hk.step x y ht hx
      obtain ⟨h1, h2⟩ := hl.fits.joint ht hu
      exact ⟨Or.inl ⟨hx, hy, Or.inl ⟨u, h1, hw⟩⟩, Or.inl ⟨hy, hy, Or.inl ⟨u, h2, hw⟩⟩⟩
    · have hy := hk.step x y ht hx
      have hg' := hg x (btw_left x x)
      refine ⟨Or.inl ⟨hx, hy, Or.inr ⟨hf, fun z hz hc => hg' ((hdom z hz).1 hc)⟩⟩,
        Or.inl ⟨hy, hy, Or.inr ⟨hf, fun z hz hc => ?_⟩⟩⟩
      rw [btw_self] at hz
      subst hz
      exact hg' ((hdom z (btw_right x z)).1 hc)
    · have hx := hn x (btw_left x x)
      obtain ⟨h1, h2⟩ := hl.fits.joint ht hu
      refine ⟨Or.inr ⟨fun z hz hc => hx ((hk.iff (tog_btw ht hz)).2 hc), h1⟩, Or.inr ⟨fun z hz hc => ?_, h2⟩⟩
      rw [btw_self] at hz
      subst hz
      exact hx ((hk.iff ht).2 hc)

theorem IMap.InsSpec.mfit {c : MapCfg V} {v : V} {K : List I} {l l' : List (I × V)} {k : I}
    (hs : InsSpec o c v l k l') (hl : MFit o c K l) (hk : Respects o K k) : MFit o c K l' := by
  refine fits_of_joint h c (Fill o v l k) hs.wf (fun hc => hs.joined hc (hl.joined hc)) hs.joint ?_ ?_
  · rintro x w (hx | ⟨hx, _⟩)
    · exact hl.fits.span hx.left
    · exact hk.span x hx
  · intro x y w ht he
    unfold Fill at he ⊢
    have hdom : ∀ z, Btw x y z → (Dom o mapSeg l z ↔ Dom o mapSeg l x) := fun z hz =>
      ⟨hl.fits.dom (tog_symm (tog_btw ht hz)), hl.fits.dom (tog_btw ht hz)⟩
    rcases he with hu | ⟨hx, _, hv, hg⟩
    · obtain ⟨h1, h2⟩ := hl.fits.joint ht hu
      exact ⟨Or.inl h1, Or.inl h2⟩
    · have hy := hk.step x y ht hx
      have hg' := hg x (btw_left x x)
      refine ⟨Or.inr ⟨hx, hy, hv, fun z hz hc => hg' ((hdom z hz).1 hc)⟩, Or.inr ⟨hy, hy, hv, fun z hz hc => ?_⟩⟩
      rw [btw_self] at hz
      subst hz
      exact hg' ((hdom z (btw_right x z)).1 hc)

theorem IMap.EraSpec.mfit {c : MapCfg V} {P : V → Bool} {K : List I} {l l' : List (I × V)} {k : I}
    (hs : EraSpec o P l k l') (hl : MFit o c K l) (hk : Respects o K k) : MFit o c K l' := by
  refine fits_of_joint h c (fun x y w => Joint o l x y w ∧ (P w = true → ∀ z, Btw x y z → ¬ o.Mem z k))
    hs.wf (fun hc => hs.joined h hl.wf (hl.joined hc)) (fun x y w _ => hs.joint x y w)
    (fun x w hx => hl.fits.span hx.1.left) ?_
  rintro x y w ht ⟨hu, hn⟩
  obtain ⟨h1, h2⟩ := hl.fits.joint ht hu
  refine ⟨⟨h1, fun hp z hz hc => hn hp x (btw_left x x) ((hk.iff (tog_btw ht hz)).2 hc)⟩,
    h2, fun hp z hz hc => ?_⟩
  rw [btw_self] at hz
  subst hz
  exact hn hp x (btw_left x x) ((hk.iff ht).2 hc)

/-! ### Operations with a segment -/

variable {c : MapCfg V} {t : MapType V} {K : List I} {l l' : List (I × V)} {k : I}

theorem addC_fits (f : Combiner V) (hl : MFit o c K l) (hk : Respects o K k) {v : V}
    (e : addC o c f l k v = some l') : MFit o c K l' := by
  obtain ⟨l2, e2, h1, h2⟩ := addC_spec h c f hl.wf k v
  rw [e] at e2; obtain rfl := Option.some.inj e2
  cases hv : absorbable c v with
  | true => rw [h1 hv]; exact hl
  | false => exact (h2 hv).mfit h hl hk

theorem addHintC_fits (f : Combiner V) {n : Nat} (hl : MFit o c K l) (hk : Respects o K k) {v : V}
    (e : addHintC o c f n l k v = some l') : MFit o c K l' := by
  obtain ⟨l2, e2, h1, h2⟩ := addHintC_gen h c f n hl.wf k v
  rw [e] at e2; obtain rfl := Option.some.inj e2
  cases hv : absorbable c v with
  | true => rw [h1 hv]; exact hl
  | false =>
    obtain ⟨up, u, h3, _⟩ := h2 hv
    exact h3.mfit h hl hk

theorem subSeg_fits (hl : MFit o t.cfg K l) (hk : Respects o K k) {v : V}
    (e : subSeg o t l k v = some l') : MFit o t.cfg K l' := by
  unfold subSeg at e
  split at e
  · exact addC_fits h _ hl hk e
  · obtain ⟨l2, e2, h1, h2⟩ := subC_spec h t.cfg t.minus hl.wf k v
    rw [e] at e2; obtain rfl := Option.some.inj e2
    cases hv : absorbable t.cfg v with
    | true => rw [h1 hv]; exact hl
    | false => exact (h2 hv).mfit h hl hk

theorem insert_fits (hl : MFit o c K l) (hk : Respects o K k) {v : V}
    (e : IMap.insert o c l k v = some l') : MFit o c K l' := by
  obtain ⟨l2, e2, h1, h2⟩ := insert_spec h c hl.wf k v
  rw [e] at e2; obtain rfl := Option.some.inj e2
  cases hv : absorbable c v with
  | true => rw [h1 hv]; exact hl
  | false => exact (h2 hv).mfit h hl hk

theorem insertHint_fits {n : Nat} {b : Bool} (hl : MFit o c K l) (hk : Respects o K k) {v : V}
    (e : insertHint o c n b l k v = some l') : MFit o c K l' := by
  obtain ⟨l2, e2, h1, h2⟩ := insertHint_spec h c n b hl.wf k v
  rw [e] at e2; obtain rfl := Option.some.inj e2
  cases hv : absorbable c v with
  | true => rw [h1 hv]; exact hl
  | false => exact (h2 hv).mfit h hl hk

theorem eraseSeg_fits (hl : MFit o c K l) (hk : Respects o K k) {v : V}
    (e : eraseSeg o c l k v = some l') : MFit o c K l' := by
  obtain ⟨l2, e2, h1, h2⟩ := eraseSeg_spec h c hl.wf k v
  rw [e] at e2; obtain rfl := Option.some.inj e2
  cases hv : absorbable c v with
  | true => rw [h1 hv]; exact hl
  | false => exact (h2 hv).mfit h hl hk

theorem eraseItv_fits (hl : MFit o c K l) (hk : Respects o K k)
    (e : eraseItv o l k = some l') : MFit o c K l' := by
  obtain ⟨l2, e2, h2⟩ := eraseItv_spec h hl.wf k
  rw [e] at e2; obtain rfl := Option.some.inj e2
  exact h2.mfit h hl hk

theorem setAt_fits (hl : MFit o c K l) (hk : Respects o K k) {v : V}
    (e : setAt o c l k v = some l') : MFit o c K l' := by
  unfold setAt at e
  obtain ⟨m, e1, e2⟩ := Option.bind_eq_some_iff.1 e
  exact insert_fits h (eraseItv_fits h hl hk e1) hk e2

/-! ### Loops -/

omit h in
theorem forEach_inv {S T : Type} {P : S → Prop} {Q : T → Prop} {f : S → T → Option S}
    (hf : ∀ s t s', P s → Q t → f s t = some s' → P s') :
    ∀ {r : List T} {s s' : S}, P s → (∀ t ∈ r, Q t) → forEach f s r = some s' → P s'
  | [], s, s', hs, _, e => by
    obtain rfl := Option.some.inj e; exact hs
  | a :: r, s, s', hs, hr, e => by
    obtain ⟨s1, e1, e2⟩ := Option.bind_eq_some_iff.1 e
    exact forEach_inv hf (hf s a s1 hs (hr a (by simp)) e1) (fun t ht => hr t (by simp [ht])) e2

omit h in
theorem equalRange_append {S W : Type} {g : SegOps I W S} {l a b c : List S} {k : I}
    (e : equalRange o g l k = some (a, b, c)) : l = a ++ b ++ c := by
  unfold equalRange at e
  split at e
  · obtain ⟨rfl, rfl, rfl⟩ : _ ∧ _ ∧ _ := by simpa using Option.some.inj e
    simp
  · cases e

theorem addMap_fits {oracle : List (I × V) → I → Nat} {r : List (I × V)} (hl : MFit o t.cfg K l)
    (hr : Fits o mapSeg K r) (e : addMap o t oracle l r = some l') : MFit o t.cfg K l' :=
  forEach_inv (Q := fun s : I × V => Respects o K s.1) (fun s a s' hs ha e => addHintC_fits h _ hs ha e) hl hr e

theorem addAll_fits {r : List (I × V)} (hl : MFit o t.cfg K l)
    (hr : Fits o mapSeg K r) (e : forEach (fun m s => addSeg o t m s.1 s.2) l r = some l') : MFit o t.cfg K l' :=
  forEach_inv (Q := fun s : I × V => Respects o K s.1) (fun s a s' hs ha e => addC_fits h _ hs ha e) hl hr e

theorem subMap_fits {r : List (I × V)} (hl : MFit o t.cfg K l)
    (hr : Fits o mapSeg K r) (e : subMap o t l r = some l') : MFit o t.cfg K l' :=
  forEach_inv (Q := fun s : I × V => Respects o K s.1) (fun s a s' hs ha e => subSeg_fits h hs ha e) hl hr e

theorem insertMap_fits {oracle : List (I × V) → I → Nat} {r : List (I × V)} (hl : MFit o t.cfg K l)
    (hr : Fits o mapSeg K r) (e : insertMap o t oracle l r = some l') : MFit o t.cfg K l' :=
  forEach_inv (Q := fun s : I × V => Respects o K s.1) (fun s a s' hs ha e => insertHint_fits h hs ha e) hl hr e

omit h [DecidableEq V] in
theorem wf_keys {l : List (I × V)} : WF o setSeg (l.map Prod.fst) ↔ WF o mapSeg l := by
  constructor
  · rintro ⟨h1, h2⟩
    exact ⟨fun s hs => h1 s.1 (List.mem_map.2 ⟨s, hs, rfl⟩), by simpa [List.pairwise_map] using h2⟩
  · rintro ⟨h1, h2⟩
    refine ⟨fun i hi => ?_, by simpa [List.pairwise_map] using h2⟩
    obtain ⟨s, hs, rfl⟩ := List.mem_map.1 hi
    exact h1 s hs

theorem commonRange_fits {S W : Type} {g : SegOps I W S} {x1 p q com : List S} {x2 : List I} (h1 : WF o g x1)
    (h2 : WF o setSeg x2) (f1 : Fits o g K x1) (e : commonRange o g x1 x2 = some (some (p, com, q))) :
    Fits o g K p ∧ Fits o g K com ∧ Fits o g K q := by
  obtain ⟨r, e2, _, h3⟩ := commonRange_spec h h1 h2
  rw [e] at e2; obtain rfl := Option.some.inj e2
  obtain ⟨rfl, _⟩ := h3 p com q rfl
  rw [fits_append, fits_append] at f1
  exact ⟨f1.1.1, f1.1.2, f1.2⟩

theorem eraseMap_fits {r : List (I × V)} (hl : MFit o t.cfg K l) (hrw : WF o mapSeg r)
    (hr : Fits o mapSeg K r) (e : eraseMap o t l r = some l') : MFit o t.cfg K l' := by
  unfold eraseMap at e
  obtain ⟨res, e1, e2⟩ := Option.bind_eq_some_iff.1 e
  cases res with
  | none => obtain rfl := Option.some.inj e2; exact hl
  | some p =>
    obtain ⟨p, com, q⟩ := p
    exact forEach_inv (Q := fun s : I × V => Respects o K s.1) (fun s a s' hs ha e => eraseSeg_fits h hs ha e) hl
      (commonRange_fits h hrw (wf_keys.2 hl.wf) hr e1).2.1 e2

theorem eraseSet_fits {r : List I} (hl : MFit o c K l) (hrw : WF o setSeg r)
    (hr : Fits o setSeg K r) (e : eraseSet o l r = some l') : MFit o c K l' := by
  unfold eraseSet at e
  obtain ⟨res, e1, e2⟩ := Option.bind_eq_some_iff.1 e
  cases res with
  | none => obtain rfl := Option.some.inj e2; exact hl
  | some p =>
    obtain ⟨p, com, q⟩ := p
    exact forEach_inv (Q := fun s => Respects o K s) (fun s a s' hs ha e => eraseItv_fits h hs ha e) hl
      (commonRange_fits h hrw (wf_keys.2 hl.wf) hr e1).2.1 e2

theorem addInterSeg_fits {oracle : List (I × V) → I → Nat} {sec : List (I × V)} (hs : MFit o t.cfg K sec)
    (hl : Fits o mapSeg K l) (hk : Respects o K k) {v : V}
    (e : addInterSeg o t oracle sec l k v = some l') : MFit o t.cfg K l' := by
  unfold addInterSeg at e
  split at e
  · obtain ⟨s1, e1, e2⟩ := Option.bind_eq_some_iff.1 e
    exact addC_fits h _ (addMap_fits h hs hl e1) hk e2
  split at e
  · obtain rfl := Option.some.inj e; exact hs
  · obtain ⟨⟨a, b, q⟩, e1, e2⟩ := Option.bind_eq_some_iff.1 e
    have hl' := hl
    rw [equalRange_append e1, fits_append, fits_append] at hl'
    refine forEach_inv (Q := fun s : I × V => Respects o K s.1) ?_ hs hl'.1.2 e2
    intro s a s' hs ha e
    unfold sectionStep at e
    dsimp only at e
    split at e
    · obtain rfl := Option.some.inj e; exact hs
    · obtain ⟨s1, e1, e2⟩ := Option.bind_eq_some_iff.1 e
      exact addC_fits h _ (addC_fits h _ hs (ha.inter h hk) e1) (ha.inter h hk) e2

theorem addInterMap_fits {oracle : List (I × V) → I → Nat} {sec r : List (I × V)} (hs : MFit o t.cfg K sec)
    (hlw : WF o mapSeg l) (hl : Fits o mapSeg K l) (hrw : WF o mapSeg r) (hr : Fits o mapSeg K r)
    (e : addInterMap o t oracle sec l r = some l') : MFit o t.cfg K l' := by
  unfold addInterMap at e
  split at e
  · obtain ⟨s1, e1, e2⟩ := Option.bind_eq_some_iff.1 e
    exact addMap_fits h (addMap_fits h hs hl e1) hr e2
  · obtain ⟨res, e1, e2⟩ := Option.bind_eq_some_iff.1 e
    cases res with
    | none => obtain rfl := Option.some.inj e2; exact hs
    | some p =>
      obtain ⟨p, com, q⟩ := p
      exact forEach_inv (Q := fun s : I × V => Respects o K s.1) (fun s a s' hs ha e => addInterSeg_fits h hs hl ha e) hs
        (commonRange_fits h hrw (wf_keys.2 hlw) hr e1).2.1 e2

theorem addInterItv_fits {oracle : List (I × V) → I → Nat} {sec : List (I × V)} (hs : MFit o t.cfg K sec)
    (hl : Fits o mapSeg K l) (hk : Respects o K k)
    (e : addInterItv o t oracle sec l k = some l') : MFit o t.cfg K l' := by
  unfold addInterItv at e
  split at e
  · obtain rfl := Option.some.inj e; exact hs
  · obtain ⟨⟨a, b, q⟩, e1, e2⟩ := Option.bind_eq_some_iff.1 e
    have hl' := hl
    rw [equalRange_append e1, fits_append, fits_append] at hl'
    refine forEach_inv (Q := fun s : I × V => Respects o K s.1) ?_ hs hl'.1.2 e2
    intro s a s' hs ha e
    unfold restrictStep at e
    dsimp only at e
    split at e
    · obtain rfl := Option.some.inj e; exact hs
    · exact addHintC_fits h _ hs (ha.inter h hk) e

theorem addInterSet_fits {oracle : List (I × V) → I → Nat} {sec : List (I × V)} {r : List I}
    (hs : MFit o t.cfg K sec) (hlw : WF o mapSeg l) (hl : Fits o mapSeg K l) (hrw : WF o setSeg r)
    (hr : Fits o setSeg K r) (e : addInterSet o t oracle sec l r = some l') : MFit o t.cfg K l' := by
  unfold addInterSet at e
  obtain ⟨res, e1, e2⟩ := Option.bind_eq_some_iff.1 e
  cases res with
  | none => obtain rfl := Option.some.inj e2; exact hs
  | some p =>
    obtain ⟨p, com, q⟩ := p
    exact forEach_inv (Q := fun s => Respects o K s) (fun s a s' hs ha e => addInterItv_fits h hs hl ha e) hs
      (commonRange_fits h hrw (wf_keys.2 hlw) hr e1).2.1 e2

theorem neutralize_fits (hl : MFit o t.cfg K l) (e : neutralize o t l = some l') : MFit o t.cfg K l' := by
  unfold neutralize at e
  dsimp only at e
  have hk : (l.map fun s => (s.1, t.cfg.ident)).map Prod.fst = l.map Prod.fst := by
    rw [List.map_map]; rfl
  have hw : WF o mapSeg (l.map fun s => (s.1, t.cfg.ident)) := by
    rw [← wf_keys, hk, wf_keys]; exact hl.wf
  have hf : Fits o mapSeg K (l.map fun s => (s.1, t.cfg.ident)) := by
    rw [← fits_keys, hk, fits_keys]; exact hl.fits
  split at e
  · obtain ⟨l2, e2, h1, _, h3⟩ := joinAll_spec h mapSeg_lawful hw
    have := joinAll_fits h mapSeg_lawful hw e hf
    rw [e] at e2; obtain rfl := Option.some.inj e2
    exact ⟨h1, fun _ => h3, this⟩
  · rename_i hj
    obtain rfl := Option.some.inj e
    exact ⟨hw, fun hc => absurd hc hj, hf⟩

variable [DecidableEq I]

theorem flipLoop_fits {v : V} {post : List (I × V)} : ∀ {mid m : List (I × V)} {span : I} {er : List I}
    {ins : List (I × V)} {m' : List (I × V)} {span' : I} {er' : List I} {ins' : List (I × V)},
    MFit o t.cfg K m → Respects o K span → Good o .joining er → Fits o setSeg K er → MFit o t.cfg K ins →
    Fits o mapSeg K mid → flipLoop o t v post m span er ins mid = some (m', span', er', ins') →
    MFit o t.cfg K m' ∧ Respects o K span' ∧ Good o .joining er' ∧ Fits o setSeg K er' ∧ MFit o t.cfg K ins'
  | [], m, span, er, ins, m', span', er', ins', hm, hs, ge, fe, hi, _, e => by
    obtain ⟨rfl, rfl, rfl, rfl⟩ : _ ∧ _ ∧ _ ∧ _ := by simpa [flipLoop] using e
    exact ⟨hm, hs, ge, fe, hi⟩
  | cov :: mid, m, span, er, ins, m', span', er', ins', hm, hs, ge, fe, hi, hmid, e => by
    rw [fits_cons] at hmid
    rw [flipLoop] at e
    obtain ⟨⟨er1, ins1⟩, e1, e⟩ := Option.bind_eq_some_iff.1 e
    obtain ⟨m1, e2, e⟩ := Option.bind_eq_some_iff.1 e
    split at e
    · have hm1 : MFit o t.cfg K m1 := addC_fits h _ hm (hs.rightSubtract h hmid.1) e2
      have key : Good o .joining er1 ∧ Fits o setSeg K er1 ∧ MFit o t.cfg K ins1 := by
        unfold flipCommon at e1
        split at e1
        · obtain ⟨rfl, rfl⟩ : _ ∧ _ := by simpa using e1
          exact ⟨ge, fe, hi⟩
        · obtain ⟨er2, e3, e1⟩ := Option.bind_eq_some_iff.1 e1
          obtain ⟨ins2, e4, e1⟩ := Option.bind_eq_some_iff.1 e1
          obtain ⟨rfl, rfl⟩ : er2 = er1 ∧ ins2 = ins1 := by simpa using e1
          obtain ⟨er3, e5, s⟩ := ISet.add_spec h .joining ge.1 (o.inter span cov.1)
          rw [e3] at e5; obtain rfl := Option.some.inj e5
          exact ⟨⟨s.wf, fun hj => s.joined hj (ge.2 hj)⟩, s.fits h ge.1 ge.2 fe (hs.inter h hmid.1),
            addC_fits h _ hi (hs.inter h hmid.1) e4⟩
      exact flipLoop_fits hm1 (hs.leftSubtract h hmid.1) key.1 key.2.1 key.2.2 hmid.2 e
    · cases e

theorem flipSeg_fits {oracle : List (I × V) → I → Nat} (hl : MFit o t.cfg K l) (hk : Respects o K k) {v : V}
    (e : flipSeg o t oracle l k v = some l') : MFit o t.cfg K l' := by
  unfold flipSeg at e
  split at e
  · split at e
    · obtain rfl := Option.some.inj e; exact mfit_nil _
    · obtain ⟨m1, e1, e2⟩ := Option.bind_eq_some_iff.1 e
      exact neutralize_fits h (addC_fits h _ hl hk e1) e2
  · obtain ⟨⟨a, b, q⟩, e1, e⟩ := Option.bind_eq_some_iff.1 e
    obtain ⟨⟨m1, span, er, ins⟩, e2, e⟩ := Option.bind_eq_some_iff.1 e
    obtain ⟨m2, e3, e⟩ := Option.bind_eq_some_iff.1 e
    obtain ⟨m3, e4, e⟩ := Option.bind_eq_some_iff.1 e
    have hl' := hl.fits
    rw [equalRange_append e1, fits_append, fits_append] at hl'
    obtain ⟨h1, h2, h3, h4, h5⟩ := flipLoop_fits h hl hk (good_nil .joining) fits_nil (mfit_nil _) hl'.1.2 e2
    exact addMap_fits h (eraseSet_fits h (addC_fits h _ h1 h2 e3) h3.1 h4 e4) h5.fits e

theorem flipMap_fits {oracle : List (I × V) → I → Nat} {r : List (I × V)} (hl : MFit o t.cfg K l)
    (hrw : WF o mapSeg r) (hr : Fits o mapSeg K r) (e : flipMap o t oracle l r = some l') :
    MFit o t.cfg K l' := by
  unfold flipMap at e
  split at e
  · split at e
    · obtain rfl := Option.some.inj e; exact mfit_nil _
    · obtain ⟨m1, e1, e2⟩ := Option.bind_eq_some_iff.1 e
      exact neutralize_fits h (addMap_fits h hl hr e1) e2
  · obtain ⟨res, e1, e⟩ := Option.bind_eq_some_iff.1 e
    cases res with
    | none => exact addMap_fits h hl hr e
    | some p =>
      obtain ⟨p, com, q⟩ := p
      obtain ⟨f1, f2, f3⟩ := commonRange_fits h hrw (wf_keys.2 hl.wf) hr e1
      obtain ⟨m1, e2, e⟩ := Option.bind_eq_some_iff.1 e
      obtain ⟨m2, e3, e⟩ := Option.bind_eq_some_iff.1 e
      have h2 := forEach_inv (Q := fun s : I × V => Respects o K s.1) (fun s a s' hs ha e => flipSeg_fits h hs ha e)
        (addAll_fits h hl f1 e2) f2 e3
      exact addAll_fits h h2 f3 e

theorem assign_fits {oracle : List (I × V) → I → Nat} {r : List (I × V)} (hrw : WF o mapSeg r)
    (hr : Fits o mapSeg K r) (e : assign o t oracle r = some l') : MFit o t.cfg K l' := by
  cases ht : t.cfg.joining with
  | true =>
    unfold assign at e
    rw [if_pos ht] at e
    exact addMap_fits h (mfit_nil _) hr e
  | false =>
    rw [assign_split h t ht oracle hrw] at e
    obtain rfl := Option.some.inj e
    exact ⟨hrw, fun hc => (by rw [ht] at hc; cases hc), hr⟩

end

variable [DecidableEq I]

theorem MapOp.run_fits (h : o.Lawful) {E : Option (ElemFns D I)} {t : MapType V} {K : List I} {l l' : List (I × V)}
    (hl : MFit o t.cfg K l) (c : MapOp D I V) (e : c.run o E t l = some l')
    (fk : ∀ k ∈ c.operands E, Respects o K k) : MFit o t.cfg K l' := by
  have hsub : ∀ m : List (I × V), m.Sublist l → MFit o t.cfg K m := fun m hm =>
    ⟨⟨fun s hs => hl.wf.nonempty s (hm.subset hs), hl.wf.sorted.sublist hm⟩,
      fun hj => (hl.joined hj).mono fun s h => hm.subset h, hl.fits.sublist hm⟩
  cases c with
  | add k v => exact addC_fits h _ hl (fk k (by simp [MapOp.operands])) e
  | addHint n k v => exact addHintC_fits h _ hl (fk k (by simp [MapOp.operands])) e
  | subtract k v => exact subSeg_fits h hl (fk k (by simp [MapOp.operands])) e
  | insert k v => exact insert_fits h hl (fk k (by simp [MapOp.operands])) e
  | insertHint n b k v => exact insertHint_fits h hl (fk k (by simp [MapOp.operands])) e
  | set k v => exact setAt_fits h hl (fk k (by simp [MapOp.operands])) e
  | erase k v => exact eraseSeg_fits h hl (fk k (by simp [MapOp.operands])) e
  | eraseKeys k => exact eraseItv_fits h hl (fk k (by simp [MapOp.operands])) e
  | inter oracle k v => exact addInterSeg_fits h (mfit_nil _) hl.fits (fk k (by simp [MapOp.operands])) e
  | interKeys oracle k => exact addInterItv_fits h (mfit_nil _) hl.fits (fk k (by simp [MapOp.operands])) e
  | flip oracle k v => exact flipSeg_fits h hl (fk k (by simp [MapOp.operands])) e
  | addE x v =>
    obtain ⟨f, rfl, e1⟩ := Option.bind_eq_some_iff.1 e
    exact addC_fits h _ hl (fk _ (by simp [MapOp.operands])) e1
  | subE x v =>
    obtain ⟨f, rfl, e1⟩ := Option.bind_eq_some_iff.1 e
    exact subSeg_fits h hl (fk _ (by simp [MapOp.operands])) e1
  | insertE x v =>
    obtain ⟨f, rfl, e1⟩ := Option.bind_eq_some_iff.1 e
    exact insert_fits h hl (fk _ (by simp [MapOp.operands])) e1
  | setE x v =>
    obtain ⟨f, rfl, e1⟩ := Option.bind_eq_some_iff.1 e
    exact setAt_fits h hl (fk _ (by simp [MapOp.operands])) e1
  | eraseE x v =>
    obtain ⟨f, rfl, e1⟩ := Option.bind_eq_some_iff.1 e
    exact eraseSeg_fits h hl (fk _ (by simp [MapOp.operands])) e1
  | eraseKey x =>
    obtain ⟨f, rfl, e1⟩ := Option.bind_eq_some_iff.1 e
    exact eraseItv_fits h hl (fk _ (by simp [MapOp.operands])) e1
  | interE oracle x v =>
    obtain ⟨f, rfl, e1⟩ := Option.bind_eq_some_iff.1 e
    exact addInterSeg_fits h (mfit_nil _) hl.fits (fk _ (by simp [MapOp.operands])) e1
  | interKey x =>
    obtain ⟨f, rfl, e1⟩ := Option.bind_eq_some_iff.1 e
    simp only [addInterKey, Option.bind_eq_bind] at e1
    obtain ⟨r, _, e2⟩ := Option.bind_eq_some_iff.1 e1
    cases r with
    | none => obtain rfl := Option.some.inj e2; exact mfit_nil _
    | some s => exact addC_fits h _ (mfit_nil _) (fk _ (by simp [MapOp.operands])) e2
  | flipE oracle x v =>
    obtain ⟨f, rfl, e1⟩ := Option.bind_eq_some_iff.1 e
    exact flipSeg_fits h hl (fk _ (by simp [MapOp.operands])) e1
  | clear => obtain rfl := Option.some.inj e; exact mfit_nil _
  | eraseRange i j => obtain rfl := Option.some.inj e; exact hsub _ (sublist_range l i j)
  | eraseIf p => obtain rfl := Option.some.inj e; exact hsub _ List.filter_sublist
  | join =>
    obtain ⟨l2, e2, h1, _, h3⟩ := joinAll_spec h mapSeg_lawful hl.wf
    have := joinAll_fits h mapSeg_lawful hl.wf e hl.fits
    rw [show joinAll o mapSeg l = some l' from e] at e2; obtain rfl := Option.some.inj e2
    exact ⟨h1, fun _ => h3, this⟩
  | absorbIdentities =>
    obtain rfl := Option.some.inj e
    refine hsub _ ?_
    unfold IMap.absorbIdentities IMap.eraseIf
    split
    · exact List.Sublist.refl _
    · exact List.filter_sublist

theorem MapOp2.run_fits (h : o.Lawful) {t : MapType V} {K : List I} {l r l' : List (I × V)}
    (hl : MFit o t.cfg K l) (hrw : WF o mapSeg r) (hr : Fits o mapSeg K r) (c : MapOp2 I V)
    (e : c.run o t l r = some l') : MFit o t.cfg K l' := by
  cases c with
  | add oracle => exact addMap_fits h hl hr e
  | sub => exact subMap_fits h hl hr e
  | insert oracle => exact insertMap_fits h hl hr e
  | erase => exact eraseMap_fits h hl hrw hr e
  | inter oracle => exact addInterMap_fits h (mfit_nil _) hl.wf hl.fits hrw hr e
  | flip oracle => exact flipMap_fits h hl hrw hr e

theorem MapOp3.run_fits (h : o.Lawful) {t : MapType V} {K : List I} {l l' : List (I × V)} {r : List I}
    (hl : MFit o t.cfg K l) (hrw : WF o setSeg r) (hr : Fits o setSeg K r) (c : MapOp3 I V)
    (e : c.run o t l r = some l') : MFit o t.cfg K l' := by
  cases c with
  | erase => exact eraseSet_fits h hl hrw hr e
  | inter oracle => exact addInterSet_fits h (mfit_nil _) hl.wf hl.fits hrw hr e

end ICL
