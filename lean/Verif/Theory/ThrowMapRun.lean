import Verif.Theory.ThrowMapIns

/-!
# What an exception leaves behind: all operations on interval maps
-/

set_option linter.unusedSectionVars false
set_option linter.unusedSimpArgs false
set_option linter.unusedVariables false

namespace ICL
open Run Spec

variable {D I V : Type} [LinearOrder D] {o : IntervalOps D I}

/-- The content `m` is well-formed, and has only associations with `B`. -/
def MBounded (o : IntervalOps D I) (B : D → V → Prop) (m : List (I × V)) : Prop :=
  WF o mapSeg m ∧ ∀ x w, Maps o mapSeg m x w → B x w

/-- All that a function can leave behind is well-formed, and has only associations with `B`. -/
def MRunB (o : IntervalOps D I) (B : D → V → Prop) (r : Run (I × V) (List (I × V))) : Prop :=
  (∀ m ∈ r.thrown, MBounded o B m) ∧ ∀ l', r.result = some l' → MBounded o B l'

theorem mrunB_pure {B : D → V → Prop} {l : List (I × V)} (hl : MBounded o B l) : MRunB o B (pure l) :=
  ⟨fun m hm => by simp at hm, fun l' e => by simp only [result_pure, Option.some.injEq] at e; exact e ▸ hl⟩

theorem mrunB_ofOption {B : D → V → Prop} {x : Option (List (I × V))}
    (hx : ∀ l, x = some l → MBounded o B l) : MRunB o B (ofOption x) :=
  ⟨fun m hm => by simp at hm, fun l' e => hx l' e⟩

theorem mrunB_bind {B : D → V → Prop} {r : Run (I × V) (List (I × V))}
    {f : List (I × V) → Run (I × V) (List (I × V))}
    (hr : MRunB o B r) (hf : ∀ l, MBounded o B l → MRunB o B (f l)) : MRunB o B (r >>= f) := by
  constructor
  · intro m hm
    rw [mem_thrown_bind] at hm
    rcases hm with hm | ⟨l, e, hm⟩
    · exact hr.1 m hm
    · exact (hf l (hr.2 l e)).1 m hm
  · intro l' e
    rw [result_bind] at e
    obtain ⟨l, e1, e2⟩ := Option.bind_eq_some_iff.1 e
    exact (hf l (hr.2 l e1)).2 l' e2

theorem mrunB_bindOpt {α : Type} {B : D → V → Prop} {x : Option α} {f : α → Run (I × V) (List (I × V))}
    (hf : ∀ a, x = some a → MRunB o B (f a)) : MRunB o B (ofOption x >>= f) := by
  constructor
  · intro m hm
    rw [mem_thrown_bind] at hm
    rcases hm with hm | ⟨a, e, hm⟩
    · simp at hm
    · exact (hf a e).1 m hm
  · intro l' e
    rw [result_bind] at e
    obtain ⟨a, e1, e2⟩ := Option.bind_eq_some_iff.1 e
    exact (hf a e1).2 l' e2

theorem mrunB_forEach {T : Type} {B : D → V → Prop} {f : List (I × V) → T → Run (I × V) (List (I × V))}
    (ts : List T) (hf : ∀ l, ∀ t ∈ ts, MBounded o B l → MRunB o B (f l t)) {l : List (I × V)}
    (hl : MBounded o B l) : MRunB o B (forEachX f l ts) :=
  forEachX_inv ts hf hl

theorem mrunB_strong {B : D → V → Prop} {l : List (I × V)} (hl : MBounded o B l) {r : Option (List (I × V))}
    (hr : ∀ l', r = some l' → MBounded o B l') : MRunB o B (ISet.strongX l r) := by
  constructor
  · intro m hm
    rw [strongX_thrown, List.mem_singleton] at hm
    exact hm ▸ hl
  · intro l' e
    exact hr l' (by simpa [ISet.strongX] using e)

theorem MBounded.mono {B B' : D → V → Prop} {m : List (I × V)} (hm : MBounded o B m)
    (hB : ∀ x w, B x w → B' x w) : MBounded o B' m :=
  ⟨hm.1, fun x w hw => hB x w (hm.2 x w hw)⟩

theorem MLeaves.bounded {B B' C : D → V → Prop} {m : List (I × V)} (hm : MLeaves o B C m)
    (hB : ∀ x w, B x w → B' x w) : MBounded o B' m :=
  ⟨hm.wf, fun x w hw => hB x w (hm.upper x w hw)⟩

namespace IMap
section
variable [DecidableEq V] (h : o.Lawful)
include h

omit h in
/-- A change that is confined to the elements of `k` -/
theorem bounded_local {B : D → V → Prop} {l l' : List (I × V)} (hl : MBounded o B l) {k : I}
    (hk : ∀ x w, o.Mem x k → B x w) (hw : WF o mapSeg l')
    (he : ∀ x, o.contains k x = false → valueAt o l' x = valueAt o l x) : MBounded o B l' := by
  refine ⟨hw, fun x w hx => ?_⟩
  cases hc : o.contains k x with
  | true => exact hk x w hc
  | false =>
    rw [← valueAt_some hw, he x hc, valueAt_some hl.1] at hx
    exact hl.2 x w hx

theorem mrunB_addC {B : D → V → Prop} {c : MapCfg V} {f : Combiner V} {junk : V} {l : List (I × V)}
    (hl : MBounded o B l) {k : I} {v : V} (hk : ∀ x w, o.Mem x k → B x w) :
    MRunB o B (addCX o junk c f l k v) := by
  constructor
  · intro m hm
    exact (addCX_thrown h hl.1 hm).bounded fun x w hw => hw.elim (hl.2 x w) fun hw => hk x w hw.1
  · intro l' e
    rw [addCX_result] at e
    obtain ⟨l2, e2, w2, _, a2⟩ := addC_at h c f hl.1 k v
    rw [e2] at e; cases e
    exact bounded_local hl hk w2 fun x hx => by rw [a2]; simp [on, hx]

theorem mrunB_addHintC {B : D → V → Prop} {c : MapCfg V} {f : Combiner V} {junk : V} {n : Nat} {l : List (I × V)}
    (hl : MBounded o B l) {k : I} {v : V} (hk : ∀ x w, o.Mem x k → B x w) :
    MRunB o B (addHintCX o junk c f n l k v) := by
  constructor
  · intro m hm
    refine (addHintCX_thrown h hl.1 hm).bounded fun x w hw => ?_
    rcases hw with (hw | hw) | hw
    · exact hl.2 x w hw
    · exact hk x w hw.1
    · exact hk x w hw.1
  · intro l' e
    rw [addHintCX_result] at e
    obtain ⟨l2, e2, h1, h2⟩ := addHintC_gen h c f n hl.1 k v
    rw [e2] at e; cases e
    cases hv : absorbable c v with
    | true => rw [h1 hv]; exact hl
    | false =>
      obtain ⟨up, u, hs, _⟩ := h2 hv
      exact bounded_local hl hk hs.wf fun x hx => by rw [updSpec_at h hl.1 hs]; simp [hx]

theorem mrunB_subC {B : D → V → Prop} {c : MapCfg V} {f : Combiner V} {junk : V} {l : List (I × V)}
    (hl : MBounded o B l) {k : I} {v : V} (hk : ∀ x w, o.Mem x k → Dom o mapSeg l x → B x w) :
    MRunB o B (subCX o junk c f l k v) := by
  constructor
  · intro m hm
    refine (subCX_thrown h hl.1 hm).bounded fun x w hw => ?_
    rcases hw with hw | ⟨hw, ⟨u, hu, _⟩ | ⟨hd, _⟩⟩
    · exact hl.2 x w hw
    · exact hk x w hw hu.dom
    · exact hk x w hw hd
  · intro l' e
    rw [subCX_result] at e
    obtain ⟨l2, e2, w2, _, a2⟩ := subC_at h c f hl.1 k v
    rw [e2] at e; cases e
    refine ⟨w2, fun x w hx => ?_⟩
    rw [← valueAt_some w2, a2] at hx
    unfold on at hx
    cases hc : o.contains k x with
    | true =>
      rw [hc] at hx
      refine hk x w hc ?_
      by_contra hd
      rw [valueAt_none.2 hd] at hx
      simp [subF] at hx
    | false =>
      simp only [hc, Bool.false_eq_true, if_false] at hx
      exact hl.2 x w ((valueAt_some hl.1).1 hx)

theorem mrunB_subSeg {B : D → V → Prop} {t : MapType V} {junk : V} {l : List (I × V)}
    (hl : MBounded o B l) {k : I} {v : V} (hk : ∀ x w, o.Mem x k → B x w) :
    MRunB o B (subSegX o junk t l k v) := by
  unfold subSegX
  split
  · exact mrunB_addC h hl hk
  · exact mrunB_subC h hl fun x w hx _ => hk x w hx

theorem mrunB_insert {B : D → V → Prop} {c : MapCfg V} {l : List (I × V)}
    (hl : MBounded o B l) {k : I} {v : V} (hk : ∀ x, o.Mem x k → B x v) :
    MRunB o B (insertX o c l k v) := by
  constructor
  · intro m hm
    refine (insertX_thrown h hl.1 hm).bounded fun x w hw => ?_
    rcases hw with hw | ⟨h1, _, rfl⟩
    · exact hl.2 x w hw
    · exact hk x h1
  · intro l' e
    rw [insertX_result] at e
    obtain ⟨l2, e2, w2, _, a2⟩ := insert_at h c hl.1 k v
    rw [e2] at e; cases e
    refine ⟨w2, fun x w hx => ?_⟩
    rw [← valueAt_some w2, a2] at hx
    unfold on insF at hx
    cases hc : o.contains k x with
    | true =>
      cases hva : valueAt o l x with
      | none =>
        simp only [hc, hva, if_true, Option.none_or] at hx
        have : v = w := by
          unfold keep at hx
          split at hx <;> simp_all
        exact this ▸ hk x hc
      | some u =>
        simp only [hc, hva, if_true, Option.some_or, Option.some.injEq] at hx
        exact hx ▸ hl.2 x u ((valueAt_some hl.1).1 hva)
    | false =>
      simp only [hc, Bool.false_eq_true, if_false] at hx
      exact hl.2 x w ((valueAt_some hl.1).1 hx)

theorem mrunB_insertHint {B : D → V → Prop} {c : MapCfg V} {n : Nat} {q : Bool} {l : List (I × V)}
    (hl : MBounded o B l) {k : I} {v : V} (hk : ∀ x, o.Mem x k → B x v) :
    MRunB o B (insertHintX o c n q l k v) := by
  constructor
  · intro m hm
    refine (insertHintX_thrown h hl.1 hm).bounded fun x w hw => ?_
    rcases hw with hw | ⟨h1, _, rfl⟩
    · exact hl.2 x w hw
    · exact hk x h1
  · intro l' e
    rw [insertHintX_result] at e
    obtain ⟨l2, e2, w2, _, a2⟩ := insertHint_at h c n q hl.1 k v
    rw [e2] at e; cases e
    refine ⟨w2, fun x w hx => ?_⟩
    rw [← valueAt_some w2, a2] at hx
    unfold on insF at hx
    cases hc : o.contains k x with
    | true =>
      cases hva : valueAt o l x with
      | none =>
        simp only [hc, hva, if_true, Option.none_or] at hx
        have : v = w := by
          unfold keep at hx
          split at hx <;> simp_all
        exact this ▸ hk x hc
      | some u =>
        simp only [hc, hva, if_true, Option.some_or, Option.some.injEq] at hx
        exact hx ▸ hl.2 x u ((valueAt_some hl.1).1 hva)
    | false =>
      simp only [hc, Bool.false_eq_true, if_false] at hx
      exact hl.2 x w ((valueAt_some hl.1).1 hx)

theorem mrunB_eraseSeg {B : D → V → Prop} {c : MapCfg V} {l : List (I × V)} (hl : MBounded o B l) {k : I} {v : V} :
    MRunB o B (eraseSegX o c l k v) := by
  constructor
  · intro m hm
    exact (eraseSegX_thrown h hl.1 hm).bounded fun x w hw => hl.2 x w hw.1
  · intro l' e
    rw [eraseSegX_result] at e
    obtain ⟨l2, e2, h1, h2⟩ := eraseSeg_spec h c hl.1 k v
    rw [e2] at e; cases e
    cases hv : absorbable c v with
    | true => rw [h1 hv]; exact hl
    | false =>
      have hs := h2 hv
      refine ⟨hs.wf, fun x w hx => ?_⟩
      rw [← joint_self, hs.joint, joint_self] at hx
      exact hl.2 x w hx.1

theorem mrunB_eraseItv {B : D → V → Prop} {l : List (I × V)} (hl : MBounded o B l) {k : I} :
    MRunB o B (eraseItvX o l k) := by
  constructor
  · intro m hm
    exact (eraseItvX_thrown h hl.1 hm).bounded fun x w hw => hl.2 x w hw.1
  · intro l' e
    rw [eraseItvX_result] at e
    obtain ⟨l2, e2, hs⟩ := eraseItv_spec h hl.1 k
    rw [e2] at e; cases e
    refine ⟨hs.wf, fun x w hx => ?_⟩
    rw [← joint_self, hs.joint, joint_self] at hx
    exact hl.2 x w hx.1

theorem mrunB_set {B : D → V → Prop} {c : MapCfg V} {l : List (I × V)} (hl : MBounded o B l) {k : I} {v : V}
    (hk : ∀ x, o.Mem x k → B x v) : MRunB o B (setAtX o c l k v) :=
  mrunB_bind (mrunB_eraseItv h hl) fun l hl => mrunB_insert h hl hk

theorem mrunB_addMap {B : D → V → Prop} {t : MapType V} {junk : V} {oracle : List (I × V) → I → Nat}
    {l r : List (I × V)} (hl : MBounded o B l) (hr : ∀ x w, Dom o mapSeg r x → B x w) :
    MRunB o B (addMapX o junk t oracle l r) :=
  mrunB_forEach r (fun l s hs hl => mrunB_addHintC h hl fun x w hx => hr x w ⟨s, hs, hx⟩) hl

theorem mrunB_subMap {B : D → V → Prop} {t : MapType V} {junk : V}
    {l r : List (I × V)} (hl : MBounded o B l) (hr : ∀ x w, Dom o mapSeg r x → B x w) :
    MRunB o B (subMapX o junk t l r) :=
  mrunB_forEach r (fun l s hs hl => mrunB_subSeg h hl fun x w hx => hr x w ⟨s, hs, hx⟩) hl

theorem mrunB_insertMap {B : D → V → Prop} {t : MapType V} {oracle : List (I × V) → I → Nat}
    {l r : List (I × V)} (hl : MBounded o B l) (hr : ∀ x w, Maps o mapSeg r x w → B x w) :
    MRunB o B (insertMapX o t oracle l r) :=
  mrunB_forEach r (fun l s hs hl => mrunB_insertHint h hl fun x hx => hr x _ ⟨s, hs, hx, rfl⟩) hl

theorem mrunB_eraseMap {B : D → V → Prop} {t : MapType V} {l r : List (I × V)} (hl : MBounded o B l) :
    MRunB o B (eraseMapX o t l r) := by
  unfold eraseMapX
  apply mrunB_bindOpt
  intro a _
  cases a with
  | none => exact mrunB_pure hl
  | some t => exact mrunB_forEach _ (fun l s _ hl => mrunB_eraseSeg h hl) hl

theorem mrunB_eraseSet {B : D → V → Prop} {l : List (I × V)} {r : List I} (hl : MBounded o B l) :
    MRunB o B (eraseSetX o l r) := by
  unfold eraseSetX
  apply mrunB_bindOpt
  intro a _
  cases a with
  | none => exact mrunB_pure hl
  | some t => exact mrunB_forEach _ (fun l s _ hl => mrunB_eraseItv h hl) hl

/-- `intersection` only ever holds elements of the common parts. -/
theorem flipCommon_bounded {P : D → Prop} {t : MapType V} {v : V} {common : I} {u : V} {er : List I}
    {is : List (I × V)} (hi : MBounded o (fun x _ => P x) is) (hc : ∀ x, o.Mem x common → P x)
    {r : List I × List (I × V)} (e : flipCommon o t v common u er is = some r) :
    MBounded o (fun x _ => P x) r.2 := by
  unfold flipCommon at e
  split at e
  · cases e; exact hi
  · obtain ⟨er', _, e⟩ := Option.bind_eq_some_iff.1 e
    obtain ⟨is', e2, e⟩ := Option.bind_eq_some_iff.1 e
    cases e
    refine (mrunB_addC h (junk := t.cfg.ident) (c := t.cfg) (f := t.plus) hi (k := common)
      (v := flipValue t v u) fun x w hx => hc x hx).2 is' ?_
    rw [addCX_result, e2]

theorem flipLoopX_mbounded [DecidableEq I] {B : D → V → Prop} {P : D → Prop} {t : MapType V} {junk v : V}
    (hP : ∀ x w, P x → B x w) (post mid : List (I × V)) {l : List (I × V)} {span : I} {er : List I}
    {is : List (I × V)} (hl : MBounded o B l) (hs : ∀ x, o.Mem x span → P x)
    (hi : MBounded o (fun x _ => P x) is) :
    (∀ m ∈ (flipLoopX o junk t v post l span er is mid).thrown, MBounded o B m) ∧
    ∀ r, (flipLoopX o junk t v post l span er is mid).result = some r →
      MBounded o B r.1 ∧ (∀ x, o.Mem x r.2.1 → P x) ∧ MBounded o (fun x _ => P x) r.2.2.2 := by
  induction mid generalizing l span er is with
  | nil =>
    refine ⟨fun m hm => by simp [flipLoopX] at hm, fun r e => ?_⟩
    simp only [flipLoopX, result_pure, Option.some.injEq] at e
    subst e
    exact ⟨hl, hs, hi⟩
  | cons cov mid ih =>
    have h2 : MRunB o B (addSegX o junk t l (o.rightSubtract span cov.1) v) :=
      mrunB_addC h hl fun x w hx => hP x w (hs x ((h.mem_rightSubtract _ _ x).1 hx).1)
    have hs' : ∀ x, o.Mem x (o.leftSubtract span cov.1) → P x :=
      fun x hx => hs x ((h.mem_leftSubtract _ _ x).1 hx).1
    have hcom : ∀ x, o.Mem x (o.inter span cov.1) → P x := fun x hx => hs x ((h.mem_inter _ _ x).1 hx).1
    constructor
    · intro m hm
      simp only [flipLoopX, mem_thrown_bind, thrown_mayThrow, List.mem_singleton, thrown_ofOption,
        List.not_mem_nil, false_or, result_mayThrow, result_ofOption] at hm
      rcases hm with rfl | ⟨_, _, ⟨er', is'⟩, e1, hm | ⟨l2, e2, hm⟩⟩
      · exact hl
      · exact h2.1 m hm
      · have hi' := flipCommon_bounded h hi hcom e1
        split at hm
        · exact (ih (h2.2 l2 e2) hs' hi').1 m hm
        · simp at hm
    · intro r e
      simp only [flipLoopX, result_bind, result_mayThrow, result_ofOption, Option.bind_some] at e
      obtain ⟨⟨er', is'⟩, e1, e⟩ := Option.bind_eq_some_iff.1 e
      obtain ⟨l2, e2, e⟩ := Option.bind_eq_some_iff.1 e
      have hi' := flipCommon_bounded h hi hcom e1
      split at e
      · exact (ih (h2.2 l2 e2) hs' hi').2 r e
      · simp at e

omit h in
theorem mbounded_nil {B : D → V → Prop} : MBounded o B ([] : List (I × V)) := ⟨wf_nil, fun x w hx => by simp at hx⟩

/-- All values become identity elements, one by one. -/
theorem mrunB_neutralize {P : D → Prop} {t : MapType V} {junk : V} (m : List (I × V)) {done : List (I × V)}
    (hl : MBounded o (fun x _ => P x) (done.reverse ++ m)) :
    MRunB o (fun x _ => P x) (neutralizeX o junk t done m) := by
  induction m generalizing done with
  | nil =>
    refine mrunB_ofOption fun l e => ?_
    split at e
    · have hl' : MBounded o (fun x _ => P x) done.reverse := by simpa using hl
      obtain ⟨l2, e2, w2, m2, _⟩ := joinAll_spec h mapSeg_lawful hl'.1
      rw [e2] at e; cases e
      exact ⟨w2, fun x w hw => hl'.2 x w ((m2 x w).1 hw)⟩
    · cases e; simpa using hl
  | cons s m ih =>
    have hval : ∀ u : V, MBounded o (fun x _ => P x) (done.reverse ++ (s.1, u) :: m) := by
      intro u
      have hw := wf_append.1 hl.1
      refine ⟨wf_append.2 ⟨hw.1, wf_cons_val (u := s.2) hw.2.1, ?_⟩, ?_⟩
      · intro x y hx hy
        exact hw.2.2 x y hx (by rw [dom_cons] at hy ⊢; exact hy)
      · intro x w hx
        simp only [maps_append, maps_cons] at hx
        rcases hx with hx | hx | hx
        · exact hl.2 x w (by simp only [maps_append]; exact Or.inl hx)
        · exact hl.2 x s.2 (by simp only [maps_append, maps_cons]; exact Or.inr (Or.inl ⟨hx.1, rfl⟩))
        · exact hl.2 x w (by simp only [maps_append, maps_cons]; exact Or.inr (Or.inr hx))
    have ih' := ih (done := (s.1, t.cfg.ident) :: done) (by simpa using hval t.cfg.ident)
    unfold neutralizeX
    constructor
    · intro m' hm
      simp only [mem_thrown_bind, thrown_mayThrow, List.mem_singleton] at hm
      rcases hm with rfl | ⟨_, _, hm⟩
      · exact hval junk
      · exact ih'.1 m' hm
    · intro l' e
      simp only [result_bind, result_mayThrow, Option.bind_some] at e
      exact ih'.2 l' e

theorem mrunB_flipSeg [DecidableEq I] {B : D → V → Prop} {t : MapType V} (ht : t.cfg.total = false) {junk : V}
    {oracle : List (I × V) → I → Nat} {l : List (I × V)} (hl : MBounded o B l) {k : I} {v : V}
    (hk : ∀ x w, o.Mem x k → B x w) : MRunB o B (flipSegX o junk t oracle l k v) := by
  unfold flipSegX
  rw [if_neg (by simp [ht])]
  apply mrunB_bindOpt
  rintro ⟨a, b, c⟩ _
  have hloop := flipLoopX_mbounded h (B := B) (P := fun x => o.Mem x k) (t := t) (junk := junk) (v := v) hk c b
    (er := []) (is := []) hl (fun x hx => hx) mbounded_nil
  have hrest : ∀ r : List (I × V) × I × List I × List (I × V),
      MBounded o B r.1 ∧ (∀ x, o.Mem x r.2.1 → o.Mem x k) ∧ MBounded o (fun x _ => o.Mem x k) r.2.2.2 →
      MRunB o B (do
        let m ← addSegX o junk t r.1 r.2.1 v
        let m ← eraseSetX o m r.2.2.1
        addMapX o junk t oracle m r.2.2.2) := by
    rintro r ⟨h1, h2, h3⟩
    refine mrunB_bind (mrunB_addC h h1 fun x w hx => hk x w (h2 x hx)) fun l hl =>
      mrunB_bind (mrunB_eraseSet h hl) fun l hl => mrunB_addMap h hl fun x w hx => ?_
    obtain ⟨u, hu⟩ := dom_iff.1 hx
    exact hk x w (h3.2 x u hu)
  dsimp only
  constructor
  · intro m hm
    rw [mem_thrown_bind] at hm
    rcases hm with hm | ⟨r, e, hm⟩
    · exact hloop.1 m hm
    · exact (hrest r (hloop.2 r e)).1 m hm
  · intro l' e
    rw [result_bind] at e
    obtain ⟨r, e1, e2⟩ := Option.bind_eq_some_iff.1 e
    exact (hrest r (hloop.2 r e1)).2 l' e2

theorem mrunB_flipSeg_total [DecidableEq I] {P : D → Prop} {t : MapType V} (ht : t.cfg.total = true) {junk : V}
    {oracle : List (I × V) → I → Nat} {l : List (I × V)} (hl : MBounded o (fun x _ => P x) l) {k : I} {v : V}
    (hk : ∀ x, o.Mem x k → P x) : MRunB o (fun x _ => P x) (flipSegX o junk t oracle l k v) := by
  unfold flipSegX
  rw [if_pos ht]
  split
  · exact mrunB_pure mbounded_nil
  · exact mrunB_bind (mrunB_addC h hl fun x _ hx => hk x hx) fun l hl => mrunB_neutralize h l (by simpa using hl)

theorem mrunB_flipMap [DecidableEq I] {B : D → V → Prop} {t : MapType V} (ht : t.cfg.total = false) {junk : V}
    {oracle : List (I × V) → I → Nat} {l r : List (I × V)} (hl : MBounded o B l) (hw : WF o mapSeg r)
    (hr : ∀ x w, Dom o mapSeg r x → B x w) : MRunB o B (flipMapX o junk t oracle l r) := by
  unfold flipMapX
  rw [if_neg (by simp [ht])]
  apply mrunB_bindOpt
  intro a ea
  cases a with
  | none => exact mrunB_addMap h hl hr
  | some t' =>
    obtain ⟨p, c, q⟩ := t'
    have hsub : ∀ s, s ∈ p ∨ s ∈ c ∨ s ∈ q → s ∈ r := by
      obtain ⟨res, e, _, h2⟩ := commonRange_map h hw hl.1
      rw [e] at ea; cases ea
      obtain ⟨rfl, _⟩ := h2 p c q rfl
      intro s hs
      simp only [List.mem_append]
      tauto
    refine mrunB_bind (mrunB_forEach p (fun l s hs hl => mrunB_addC h hl ?_) hl) fun l hl =>
      mrunB_bind (mrunB_forEach c (fun l s hs hl => mrunB_flipSeg h ht hl ?_) hl) fun l hl =>
        mrunB_forEach q (fun l s hs hl => mrunB_addC h hl ?_) hl
    all_goals exact fun x w hx => hr x w ⟨s, hsub s (by simp [hs]), hx⟩

theorem mrunB_flipMap_total [DecidableEq I] {P : D → Prop} {t : MapType V} (ht : t.cfg.total = true) {junk : V}
    {oracle : List (I × V) → I → Nat} {l r : List (I × V)} (hl : MBounded o (fun x _ => P x) l)
    (hr : ∀ x, Dom o mapSeg r x → P x) : MRunB o (fun x _ => P x) (flipMapX o junk t oracle l r) := by
  unfold flipMapX
  rw [if_pos ht]
  split
  · exact mrunB_pure mbounded_nil
  · exact mrunB_bind (mrunB_addMap h hl fun x _ hx => hr x hx) fun l hl => mrunB_neutralize h l (by simpa using hl)

omit h in
theorem eraseIfX_thrown {p : I × V → Bool} (l : List (I × V)) {kept m : List (I × V)}
    (hm : m ∈ (eraseIfX p kept l).thrown) : m.Sublist (kept.reverse ++ l) := by
  induction l generalizing kept with
  | nil => simp [eraseIfX] at hm
  | cons s l ih =>
    simp only [eraseIfX, mem_thrown_bind, thrown_mayThrow, List.mem_singleton] at hm
    rcases hm with rfl | ⟨_, _, hm⟩
    · exact List.Sublist.refl _
    · split at hm
      · exact (ih hm).trans (List.Sublist.append_left (List.sublist_cons_self _ _) _)
      · simpa using ih hm

theorem stdInsertX_mloop (src : List (I × V)) {done : List (I × V)} (hw : WF o mapSeg (done ++ src)) :
    ∀ m, (m ∈ (forEachX (fun l k => stdInsertX o mapSeg l k) done src).thrown ∨
      (forEachX (fun l k => stdInsertX o mapSeg l k) done src).result = some m) → m.Sublist (done ++ src) := by
  induction src generalizing done with
  | nil =>
    intro m hm
    simp only [forEachX, thrown_pure, List.not_mem_nil, result_pure, Option.some.injEq, false_or] at hm
    rw [← hm]; simp
  | cons k src ih =>
    intro m hm
    have hk : o.Nonempty k.1 := hw.nonempty k (by simp)
    have hw1 := wf_append.1 hw
    have e : stdInsert o mapSeg done k = some (done ++ [k]) := by
      have := forEach_stdInsert h (acc := done) (src := [k])
        (hw.sublist (List.Sublist.append_left (List.cons_sublist_cons.2 (List.nil_sublist _)) _))
      simpa [forEach] using this
    simp only [forEachX, mem_thrown_bind, stdInsertX_thrown, List.mem_singleton, stdInsertX_result, result_bind,
      e, Option.bind_some, Option.some.injEq, exists_eq_left'] at hm
    have ih' := ih (done := done ++ [k]) (by simpa using hw) m
    simp only [List.append_assoc, List.cons_append, List.nil_append] at ih'
    rcases hm with (rfl | hm) | hm
    · exact List.sublist_append_left _ _
    · exact ih' (Or.inl hm)
    · exact ih' (Or.inr hm)

theorem mrunB_assign {B : D → V → Prop} {t : MapType V} {junk : V} {oracle : List (I × V) → I → Nat}
    {src : List (I × V)} (hw : WF o mapSeg src) (hB : ∀ x w, Dom o mapSeg src x → B x w) :
    MRunB o B (assignX o junk t oracle src) := by
  unfold assignX
  split
  · exact mrunB_addMap h mbounded_nil hB
  · have hsub : ∀ m, m.Sublist src → MBounded o B m := fun m hm =>
      ⟨hw.sublist hm, fun x w hx => hB x w (hx.sublist hm).dom⟩
    have hloop := stdInsertX_mloop h src (done := []) (by simpa using hw)
    exact ⟨fun m hm => hsub m (hloop m (Or.inl hm)), fun m hm => hsub m (hloop m (Or.inr hm))⟩

end
end IMap

section
variable [DecidableEq V] [DecidableEq I]

/-- The elements to which an operation can give a new value -/
def MapOp.Touches (o : IntervalOps D I) (E : Option (ElemFns D I)) (x : D) : MapOp D I V → Prop
  | .add k _ | .addHint _ k _ | .subtract k _ | .insert k _ | .insertHint _ _ k _ | .set k _ | .flip _ k _ =>
    o.Mem x k
  | .addE a _ | .subE a _ | .insertE a _ | .setE a _ | .flipE _ a _ => ∃ e, E = some e ∧ o.Mem x (e.sing a)
  | _ => False

/-- A flip on a total map sets every value -/
def MapOp.FlipsTotal (t : MapType V) : MapOp D I V → Prop
  | .flip _ _ _ | .flipE _ _ _ => t.cfg.total = true
  | _ => False

theorem MapOp.runX_bounded {E : Option (ElemFns D I)} (h : SetClass o E) {t : MapType V} {junk : V}
    {l : List (I × V)} (hl : WF o mapSeg l) (c : MapOp D I V) {m : List (I × V)}
    (hm : m ∈ (c.runX o junk E t l).thrown) :
    MBounded o (fun x w => Maps o mapSeg l x w ∨ c.Touches o E x ∨ (c.FlipsTotal t ∧ Dom o mapSeg l x)) m := by
  have hL := h.cls.lawful
  have hb : MBounded o (fun x w => Maps o mapSeg l x w ∨ c.Touches o E x ∨ (c.FlipsTotal t ∧ Dom o mapSeg l x)) l :=
    ⟨hl, fun x w hw => Or.inl hw⟩
  have hflip : ∀ oracle k v, m ∈ (IMap.flipSegX o junk t oracle l k v).thrown →
      MBounded o (fun x w => Maps o mapSeg l x w ∨ o.Mem x k ∨ (t.cfg.total = true ∧ Dom o mapSeg l x)) m := by
    intro oracle k v hm
    cases ht : t.cfg.total with
    | false =>
      exact (IMap.mrunB_flipSeg hL ht ⟨hl, fun x w hw => Or.inl hw⟩ fun x w hx => Or.inr (Or.inl hx)).1 m hm
    | true =>
      refine ((IMap.mrunB_flipSeg_total hL (P := fun x => Dom o mapSeg l x ∨ o.Mem x k) ht
        ⟨hl, fun x w hw => Or.inl hw.dom⟩ fun x hx => Or.inr hx).1 m hm).mono fun x w hx => ?_
      rcases hx with hx | hx
      · exact Or.inr (Or.inr ⟨rfl, hx⟩)
      · exact Or.inr (Or.inl hx)
  have hstrong : ∀ r : Option (List (I × V)), m ∈ (ISet.strongX l r).thrown →
      MBounded o (fun x w => Maps o mapSeg l x w ∨ c.Touches o E x ∨ (c.FlipsTotal t ∧ Dom o mapSeg l x)) m := by
    intro r hm
    rw [strongX_thrown, List.mem_singleton] at hm
    exact hm ▸ hb
  cases c with
  | add k v => exact (IMap.mrunB_addC hL hb fun x w hx => Or.inr (Or.inl hx)).1 m hm
  | addHint n k v => exact (IMap.mrunB_addHintC hL hb fun x w hx => Or.inr (Or.inl hx)).1 m hm
  | subtract k v => exact (IMap.mrunB_subSeg hL hb fun x w hx => Or.inr (Or.inl hx)).1 m hm
  | insert k v => exact (IMap.mrunB_insert hL hb fun x hx => Or.inr (Or.inl hx)).1 m hm
  | insertHint n q k v => exact (IMap.mrunB_insertHint hL hb fun x hx => Or.inr (Or.inl hx)).1 m hm
  | set k v => exact (IMap.mrunB_set hL hb fun x hx => Or.inr (Or.inl hx)).1 m hm
  | erase k v => exact (IMap.mrunB_eraseSeg hL hb).1 m hm
  | eraseKeys k => exact (IMap.mrunB_eraseItv hL hb).1 m hm
  | inter oracle k v => exact hstrong _ hm
  | interKeys oracle k => exact hstrong _ hm
  | flip oracle k v => exact hflip oracle k v hm
  | addE a v =>
    refine (mrunB_bindOpt (x := E) (f := fun e => IMap.addSegX o junk t l (e.sing a) v) ?_).1 m hm
    rintro e rfl
    exact IMap.mrunB_addC hL hb fun x w hx => Or.inr (Or.inl ⟨e, rfl, hx⟩)
  | subE a v =>
    refine (mrunB_bindOpt (x := E) (f := fun e => IMap.subSegX o junk t l (e.sing a) v) ?_).1 m hm
    rintro e rfl
    exact IMap.mrunB_subSeg hL hb fun x w hx => Or.inr (Or.inl ⟨e, rfl, hx⟩)
  | insertE a v =>
    refine (mrunB_bindOpt (x := E) (f := fun e => IMap.insertX o t.cfg l (e.sing a) v) ?_).1 m hm
    rintro e rfl
    exact IMap.mrunB_insert hL hb fun x hx => Or.inr (Or.inl ⟨e, rfl, hx⟩)
  | setE a v =>
    refine (mrunB_bindOpt (x := E) (f := fun e => IMap.setAtX o t.cfg l (e.sing a) v) ?_).1 m hm
    rintro e rfl
    exact IMap.mrunB_set hL hb fun x hx => Or.inr (Or.inl ⟨e, rfl, hx⟩)
  | eraseE a v =>
    refine (mrunB_bindOpt (x := E) (f := fun e => IMap.eraseSegX o t.cfg l (e.sing a) v) ?_).1 m hm
    rintro e rfl
    exact IMap.mrunB_eraseSeg hL hb
  | eraseKey a =>
    refine (mrunB_bindOpt (x := E) (f := fun e => IMap.eraseItvX o l (e.sing a)) ?_).1 m hm
    rintro e rfl
    exact IMap.mrunB_eraseItv hL hb
  | interE oracle a v =>
    simp only [MapOp.runX, mem_thrown_bind, thrown_ofOption, List.not_mem_nil, false_or] at hm
    obtain ⟨e, _, hm⟩ := hm
    exact hstrong _ hm
  | interKey a =>
    simp only [MapOp.runX, mem_thrown_bind, thrown_ofOption, List.not_mem_nil, false_or] at hm
    obtain ⟨e, _, hm⟩ := hm
    exact hstrong _ hm
  | flipE oracle a v =>
    simp only [MapOp.runX, mem_thrown_bind, thrown_ofOption, List.not_mem_nil, false_or, result_ofOption] at hm
    obtain ⟨e, he, hm⟩ := hm
    refine (hflip oracle _ v hm).mono fun x w hx => ?_
    rcases hx with hx | hx | hx
    · exact Or.inl hx
    · exact Or.inr (Or.inl ⟨e, he, hx⟩)
    · exact Or.inr (Or.inr hx)
  | clear => simp [MapOp.runX] at hm
  | eraseRange i j => simp [MapOp.runX] at hm
  | eraseIf p =>
    have := IMap.eraseIfX_thrown l (kept := []) hm
    simp only [List.reverse_nil, List.nil_append] at this
    exact ⟨hl.sublist this, fun x w hx => Or.inl (hx.sublist this)⟩
  | join => simp [MapOp.runX] at hm
  | absorbIdentities => simp [MapOp.runX] at hm

/-- The operation changes values only at the elements of the operand. -/
theorem MapOp2.runX_bounded (h : o.Lawful) {t : MapType V} {junk : V} {l r : List (I × V)} (hl : WF o mapSeg l)
    (hr : WF o mapSeg r) (c : MapOp2 I V) {m : List (I × V)} (hm : m ∈ (c.runX o junk t l r).thrown) :
    MBounded o (fun x w => Maps o mapSeg l x w ∨ Dom o mapSeg r x ∨
      ((∃ oracle, c = .flip oracle) ∧ t.cfg.total = true ∧ Dom o mapSeg l x)) m := by
  have hb : MBounded o (fun x w => Maps o mapSeg l x w ∨ Dom o mapSeg r x ∨
      ((∃ oracle, c = .flip oracle) ∧ t.cfg.total = true ∧ Dom o mapSeg l x)) l := ⟨hl, fun x w hw => Or.inl hw⟩
  cases c with
  | add oracle => exact (IMap.mrunB_addMap h hb fun x w hx => Or.inr (Or.inl hx)).1 m hm
  | sub => exact (IMap.mrunB_subMap h hb fun x w hx => Or.inr (Or.inl hx)).1 m hm
  | insert oracle => exact (IMap.mrunB_insertMap h hb fun x w hx => Or.inr (Or.inl hx.dom)).1 m hm
  | erase => exact (IMap.mrunB_eraseMap h hb).1 m hm
  | inter oracle =>
    have hm : m ∈ (ISet.strongX l _).thrown := hm
    rw [strongX_thrown, List.mem_singleton] at hm
    exact hm ▸ hb
  | flip oracle =>
    cases ht : t.cfg.total with
    | false =>
      exact (IMap.mrunB_flipMap h ht (l := l) ⟨hl, fun x w hw => Or.inl hw⟩ hr
        fun x w hx => Or.inr (Or.inl hx)).1 m hm
    | true =>
      refine ((IMap.mrunB_flipMap_total h (P := fun x => Dom o mapSeg l x ∨ Dom o mapSeg r x) ht
        ⟨hl, fun x w hw => Or.inl hw.dom⟩ fun x hx => Or.inr hx).1 m hm).mono fun x w hx => ?_
      rcases hx with hx | hx
      · exact Or.inr (Or.inr ⟨⟨oracle, rfl⟩, rfl, hx⟩)
      · exact Or.inr (Or.inl hx)

theorem MapOp3.runX_bounded (h : o.Lawful) {t : MapType V} {l : List (I × V)} {r : List I} (hl : WF o mapSeg l)
    (c : MapOp3 I V) {m : List (I × V)} (hm : m ∈ (c.runX o t l r).thrown) : MBounded o (Maps o mapSeg l) m := by
  have hb : MBounded o (Maps o mapSeg l) l := ⟨hl, fun x w hw => hw⟩
  cases c with
  | erase => exact (IMap.mrunB_eraseSet h hb).1 m hm
  | inter oracle =>
    have hm : m ∈ (ISet.strongX l _).thrown := hm
    rw [strongX_thrown, List.mem_singleton] at hm
    exact hm ▸ hb

/-- Every interval map stays well-formed, whatever operations are left by an exception. -/
theorem MXReachable.wf {E : Option (ElemFns D I)} (h : SetClass o E) {t : MapType V} {l : List (I × V)}
    (hr : MXReachable o E t l) : WF o mapSeg l := by
  have hL := h.cls.lawful
  induction hr with
  | empty t => exact wf_nil
  | op junk c _ hc ih =>
    rcases hc with hc | hc
    · rw [MapOp.runX_result] at hc
      exact (MapOp.keeps_of_run h ih c hc).wf
    · exact (MapOp.runX_bounded h ih c hc).1
  | op2 junk c _ _ hc ih1 ih2 =>
    rcases hc with hc | hc
    · rw [MapOp2.runX_result] at hc
      obtain ⟨l', h1, h2⟩ := MapOp2.run_keeps hL ih1 ih2 c
      rw [h1] at hc; cases hc; exact h2.wf
    · exact (MapOp2.runX_bounded hL ih1 ih2 c hc).1
  | op3 c _ hs hc ih1 =>
    rcases hc with hc | hc
    · rw [MapOp3.runX_result] at hc
      obtain ⟨l', h1, h2⟩ := MapOp3.run_keeps hL ih1 (hs.good h).1 c
      rw [h1] at hc; cases hc; exact h2.wf
    · exact (MapOp3.runX_bounded hL ih1 c hc).1
  | @assign t _ _ _ junk oracle _ _ hc ih =>
    have := IMap.mrunB_assign hL (B := fun _ _ => True) (t := t) (junk := junk) (oracle := oracle) ih (fun _ _ _ => trivial)
    rcases hc with hc | hc
    · exact (this.2 _ hc).1
    · exact (this.1 _ hc).1

end
end ICL
