import Verif.Theory.MapHistory

/-!
# Histories of interval maps without hinted additions
-/

set_option linter.unusedSectionVars false
set_option linter.unusedVariables false

namespace ICL
open Spec IMap

variable {D I V : Type} [LinearOrder D] {o : IntervalOps D I} [DecidableEq I] [DecidableEq V]

theorem NoIdent.sub {c : MapCfg V} {l l' : List (I × V)} (hn : NoIdent c l) (hs : l'.Sublist l) : NoIdent c l' :=
  fun s hs' => hn s (hs.subset hs')

theorem MapOp.plain_noIdent {E : Option (ElemFns D I)} (h : SetClass o E) {t : MapType V} (hv : Versions t)
    {l l' : List (I × V)} (hl : WF o mapSeg l) (hn : NoIdent t.cfg l) (c : MapOp D I V) (hp : c.plain t = true)
    (e : c.run o E t l = some l') : NoIdent t.cfg l' := by
  have hL := h.cls.lawful
  have fin : ∀ {r : Option (List (I × V))} {N : Prop} {l0 : List (I × V)} {φ : D → Option V → Option V},
      NoIdent t.cfg l0 → N → (∃ l', r = some l' ∧ Pt o t.cfg N l0 l' φ) → ∀ l', r = some l' →
      NoIdent t.cfg l' := by
    rintro r N l0 φ h0 hN ⟨l1, e1, p⟩ l2 e2
    rw [e1] at e2; cases e2
    exact p.noIdent hN h0
  have elem : ∀ (f : ElemFns D I → Option (List (I × V))), E.bind f = some l' →
      ∃ e, E = some e ∧ f e = some l' := fun f hf => Option.bind_eq_some_iff.1 hf
  cases c with
  | add k v => exact fin hn hv (addSeg_ptv hL t hl k v) _ e
  | addHint n k v => cases hp
  | subtract k v => exact fin hn hv (subSeg_ptv hL t hl k v) _ e
  | insert k v => exact fin hn trivial (insert_pt hL t.cfg hl k v) _ e
  | insertHint n b k v => exact fin hn trivial (insertHint_pt hL t.cfg n b hl k v) _ e
  | set k v => exact fin hn trivial (setAt_pt hL t.cfg hl k v) _ e
  | erase k v => exact fin hn trivial (eraseSeg_pt hL t.cfg hl k v) _ e
  | eraseKeys k => exact fin hn trivial (eraseItv_pt hL t.cfg hl k) _ e
  | inter oracle k v =>
    have ht : t.cfg.total = false := by simpa [MapOp.plain] using hp
    exact fin (noIdent_nil _) hv (addInterSeg_ptv hL t ht oracle wf_nil hl k v) _ e
  | interKeys oracle k => cases hp
  | flip oracle k v => cases hp
  | addE x v =>
    obtain ⟨ef, _, e⟩ := elem _ e
    exact fin hn hv (addSeg_ptv hL t hl (ef.sing x) v) _ e
  | subE x v =>
    obtain ⟨ef, _, e⟩ := elem _ e
    exact fin hn hv (subSeg_ptv hL t hl (ef.sing x) v) _ e
  | insertE x v =>
    obtain ⟨ef, _, e⟩ := elem _ e
    exact fin hn trivial (insert_pt hL t.cfg hl (ef.sing x) v) _ e
  | setE x v =>
    obtain ⟨ef, _, e⟩ := elem _ e
    exact fin hn trivial (setAt_pt hL t.cfg hl (ef.sing x) v) _ e
  | eraseE x v =>
    obtain ⟨ef, _, e⟩ := elem _ e
    exact fin hn trivial (eraseSeg_pt hL t.cfg hl (ef.sing x) v) _ e
  | eraseKey x =>
    obtain ⟨ef, _, e⟩ := elem _ e
    exact fin hn trivial (eraseItv_pt hL t.cfg hl (ef.sing x)) _ e
  | interE oracle x v =>
    have ht : t.cfg.total = false := by simpa [MapOp.plain] using hp
    obtain ⟨ef, _, e⟩ := elem _ e
    exact fin (noIdent_nil _) hv (addInterSeg_ptv hL t ht oracle wf_nil hl (ef.sing x) v) _ e
  | interKey x =>
    obtain ⟨ef, _, e⟩ := elem _ e
    unfold addInterKey at e
    cases hf : findE o mapSeg ef.lookup l x with
    | none => rw [hf] at e; simp at e
    | some r =>
      rw [hf] at e
      cases r with
      | none =>
        simp at e; rw [e]; exact noIdent_nil _
      | some s =>
        simp only [Option.bind_eq_bind, Option.bind_some] at e
        exact fin (noIdent_nil _) hv (addSeg_ptv hL t wf_nil (ef.sing x) s.2) _ e
  | flipE oracle x v => cases hp
  | clear => cases e; exact noIdent_nil _
  | eraseRange i j => cases e; exact NoIdent.sub hn (sublist_range l i j)
  | eraseIf p => cases e; exact NoIdent.sub hn List.filter_sublist
  | join =>
    obtain ⟨l', e', h1, h2, h3⟩ := joinAll_spec hL mapSeg_lawful hl
    cases e'.symm.trans e
    rw [noIdent_iff h1]
    intro x v hv
    rw [valueAt_some h1, h2, ← valueAt_some hl] at hv
    exact (noIdent_iff hl).1 hn x v hv
  | absorbIdentities =>
    cases e
    refine NoIdent.sub hn ?_
    unfold IMap.absorbIdentities IMap.eraseIf
    split
    · exact List.Sublist.refl _
    · exact List.filter_sublist

theorem MPlain.reachable {E : Option (ElemFns D I)} {t : MapType V} {l : List (I × V)} (hr : MPlain o E t l) :
    MReachable o E t l := by
  induction hr with
  | empty => exact .empty t
  | op c _ _ e ih => exact .op c ih e
  | op2 c _ _ hr e ih => exact .op2 c ih hr e
  | op3 c _ _ hr e ih => exact .op3 c ih hr e

theorem MPlain.noIdent {E : Option (ElemFns D I)} (h : SetClass o E) {t : MapType V} (hv : Versions t)
    {l : List (I × V)} (hr : MPlain o E t l) : NoIdent t.cfg l := by
  have hL := h.cls.lawful
  induction hr with
  | empty => exact noIdent_nil _
  | op c hc hr e ih => exact c.plain_noIdent h hv (hr.reachable.good h).wf ih hc e
  | @op2 t' l r l' c hc hr hr' e ih =>
    have hl := (hr.reachable.good h).wf
    have hr := (hr'.good h).wf
    have fin : ∀ {r : Option (List (I × V))} {N : Prop} {l0 : List (I × V)} {φ : D → Option V → Option V},
        NoIdent t.cfg l0 → N → (∃ l', r = some l' ∧ Pt o t.cfg N l0 l' φ) → r = some l' →
        NoIdent t.cfg l' := by
      rintro r N l0 φ h0 hN ⟨l1, e1, p⟩ e2
      rw [e1] at e2; cases e2
      exact p.noIdent hN h0
    cases c with
    | add oracle => cases hc
    | sub => exact fin ih hv (subMap_ptv hL t hl hr) e
    | insert oracle => exact fin ih trivial (insertMap_pt hL t oracle hl hr) e
    | erase => exact fin ih trivial (eraseMap_pt hL t hl hr) e
    | inter oracle =>
      have ht : t.cfg.total = false := by simpa [MapOp2.plain] using hc
      exact fin (noIdent_nil _) hv (addInterMap_ptv hL t ht oracle wf_nil hl hr) e
    | flip oracle => cases hc
  | @op3 st l r l' c hc hr hr' e ih =>
    have hl := (hr.reachable.good h).wf
    have hr := (hr'.good h).1
    cases c with
    | erase =>
      obtain ⟨l1, e1, p⟩ := eraseSet_pt hL t.cfg hl hr
      have e2 : eraseSet o l r = some l' := e
      rw [e1] at e2; cases e2
      exact p.noIdent trivial ih
    | inter oracle => cases hc

end ICL
