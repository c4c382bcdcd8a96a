import Verif.Theory.OverflowInter
import Verif.Theory.MapFlip

/-! Symmetric differences of partial maps of numbers with values of a bounded type. -/

set_option linter.unusedSectionVars false

namespace ICL.IMap
open ICL Spec

variable {D I V : Type} [LinearOrder D] {o : IntervalOps D I} [DecidableEq V] {R : V → Prop} [DecidablePred R]
variable (h : o.Lawful)
include h

theorem allR_pt {c : MapCfg V} {N : Prop} {l l' : List (I × V)} {φ : D → Option V → Option V} (hp : Pt o c N l l' φ)
    (hN : N) (hl : NoIdent c l) (hφ : ∀ x u, φ x (valueAt o l x) = some u → R u) : AllR R l' := by
  rw [allR_iff h hp.wf]
  intro x u hu
  rw [hp.at_ hN hl] at hu
  exact hφ x u hu

variable {t : MapType V} (hi : R t.cfg.ident)
include hi

/-- An addition to a gap does not overflow. -/
theorem addFreshR {l : List (I × V)} (hl : WF o mapSeg l) (ha : AllR R l) {w : V} (hw : R (t.plus.version w)) {k : I}
    (hf : ∀ x, o.Mem x k → valueAt o l x = none) :
    ∃ l', addSeg o t l k w = some l' ∧ addSegR o R t l k w = some l' ∧ WF o mapSeg l' ∧ AllR R l' ∧
      ∀ x, valueAt o l' x = on o k (fun _ => addF t.cfg t.plus w) x (valueAt o l x) := by
  obtain ⟨l1, e1, w1, -, v1⟩ := addC_at h t.cfg t.plus hl k w
  have a1 : AllR R l1 := by
    rw [allR_iff h w1]
    intro x u hu
    rw [v1] at hu
    unfold on at hu
    split_ifs at hu with hx
    · rw [hf x hx] at hu
      unfold addF at hu
      split_ifs at hu
      exact Option.some.inj hu ▸ hw
    · exact (allR_iff h hl).1 ha x u hu
  exact ⟨l1, e1, (addCR_iff h hl ha hi k w l1).2 ⟨e1, a1, fun _ _ => hw⟩, w1, a1, v1⟩

theorem flipLoopR_ok [DecidableEq I] (hns : t.setLike = false) (hpi : R (t.plus.version t.cfg.ident)) {v : V}
    (hv : R (t.plus.version v)) (post mid : List (I × V)) {q : List (I × V)} {span : I}
    {er : List I} {ins : List (I × V)} (hw : WF o mapSeg (q ++ (mid ++ post)))
    (hq : ∀ x y, Dom o mapSeg q x → o.Mem y span → x < y)
    (hm : ∀ s ∈ mid, ∃ x, o.Mem x s.1 ∧ o.Mem x span)
    (hp : ∀ x y, o.Mem x span → Dom o mapSeg post y → x < y)
    (he : WF o setSeg er) (hn : WF o mapSeg ins) (ha : AllR R (q ++ (mid ++ post))) (hai : AllR R ins)
    (hib : ∀ x y, Dom o mapSeg ins x → o.Mem y span → x < y) :
    ∃ m1 span1 er1 ins1 m2, flipLoopR o R t v post (q ++ (mid ++ post)) span er ins mid = some (m1, span1, er1, ins1) ∧
      flipLoop o t v post (q ++ (mid ++ post)) span er ins mid = some (m1, span1, er1, ins1) ∧
      addSegR o R t m1 span1 v = some m2 ∧ addSeg o t m1 span1 v = some m2 ∧ AllR R m2 ∧ AllR R ins1 := by
  induction mid generalizing q span er ins with
  | nil =>
    obtain ⟨m2, e1, e2, -, a2, -⟩ := addFreshR h hi hw ha hv (k := span) fun x hc => by
      rw [valueAt_none, List.nil_append, dom_append]
      rintro (hx | hx)
      · exact lt_irrefl _ (hq x x hx hc)
      · exact lt_irrefl _ (hp x x hc hx)
    exact ⟨_, _, _, _, m2, rfl, rfl, e2, e1, a2, hai⟩
  | cons cov mid ih =>
    have hw1 := wf_append.1 hw
    have hw2 := wf_cons.1 hw1.2.1
    simp only [List.append_eq, mapSeg_key] at hw2
    obtain ⟨w, hwc, hws⟩ := hm cov (by simp)
    have hcm : ∀ x y, o.Mem x cov.1 → Dom o mapSeg (mid ++ post) y → x < y := hw2.2.2
    have hlo : ∀ x, o.Mem x (o.rightSubtract span cov.1) ↔ o.Mem x span ∧ ∀ y, o.Mem y cov.1 → x < y :=
      h.mem_rightSubtract span cov.1
    have hls : ∀ x, o.Mem x (o.leftSubtract span cov.1) ↔ o.Mem x span ∧ ∀ y, o.Mem y cov.1 → y < x :=
      h.mem_leftSubtract span cov.1
    have hin : ∀ x, o.Mem x (o.inter span cov.1) ↔ o.Mem x span ∧ o.Mem x cov.1 := h.mem_inter span cov.1
    have hne : o.Nonempty (o.inter span cov.1) := ⟨w, (hin w).2 ⟨hws, hwc⟩⟩
    have hfv : flipValue t v cov.2 = t.cfg.ident := by simp [flipValue, hns]
    -- the common part
    obtain ⟨er', ee, se⟩ := ISet.add_spec h .joining he (o.inter span cov.1)
    obtain ⟨ins', ei, eiR, wi, ai, vi⟩ := addFreshR h hi hn hai hpi (k := o.inter span cov.1) fun x hx => by
      rw [valueAt_none]
      exact fun hd => lt_irrefl _ (hib x x hd ((hin x).1 hx).1)
    -- the part in front
    have hdl : ∀ x, o.Mem x (o.rightSubtract span cov.1) → ¬ Dom o mapSeg (q ++ (cov :: mid ++ post)) x := by
      intro x hk hx
      rw [hlo] at hk
      rw [dom_append, List.cons_append, dom_cons, mapSeg_key] at hx
      rcases hx with hx | hx | hx
      · exact lt_irrefl _ (hq x x hx hk.1)
      · exact lt_irrefl _ (hk.2 x hx)
      · exact lt_irrefl _ (lt_trans (hk.2 w hwc) (hcm w x hwc hx))
    obtain ⟨m', em, emR, wm, am, vm⟩ := addFreshR h hi hw ha hv (k := o.rightSubtract span cov.1) fun x hx =>
      valueAt_none.2 (hdl x hx)
    have em' := em
    unfold addSeg at em'
    obtain ⟨q', rfl⟩ := addC_suffix h t.cfg t.plus (q := q) (cov := cov) (rest := mid ++ post) hw
      (fun x y hx hy => hq x y hx ((hlo y).1 hy).1)
      (fun x y hx hy => by
        rcases (dom_cons _ _ _).1 hy with hy | hy
        · exact ((hlo x).1 hx).2 y hy
        · exact lt_trans (((hlo x).1 hx).2 w hwc) (hcm w y hwc hy)) em'
    have hdom2 : ∀ x, Dom o mapSeg (q' ++ (mid ++ post)) x → Dom o mapSeg (q ++ (cov :: mid ++ post)) x ∨
        o.Mem x (o.rightSubtract span cov.1) := by
      intro x hx
      by_contra hc
      push Not at hc
      have h1 := vm x
      rw [valueAt_none.2 hc.1] at h1
      have h2 : o.contains (o.rightSubtract span cov.1) x = false := by
        rw [← Bool.not_eq_true]; exact hc.2
      simp only [on, h2, Bool.false_eq_true, if_false] at h1
      exact valueAt_none.1 h1 hx
    have hdomi : ∀ x, Dom o mapSeg ins' x → Dom o mapSeg ins x ∨ o.Mem x (o.inter span cov.1) := by
      intro x hx
      by_contra hc
      push Not at hc
      have h1 := vi x
      rw [valueAt_none.2 hc.1] at h1
      have h2 : o.contains (o.inter span cov.1) x = false := by
        rw [← Bool.not_eq_true]; exact hc.2
      simp only [on, h2, Bool.false_eq_true, if_false] at h1
      exact valueAt_none.1 h1 hx
    obtain ⟨m1, span1, er1, ins1, m2, e3, e4, e5, e6, a2, a1⟩ :=
      ih (q := q') (span := o.leftSubtract span cov.1) (er := er') (ins := ins') wm
        (by
          intro x y hx hy
          rw [hls] at hy
          have hx2 : Dom o mapSeg (q' ++ (mid ++ post)) x := by rw [dom_append]; exact Or.inl hx
          rcases hdom2 x hx2 with hx2 | hx2
          · rw [dom_append, List.cons_append, dom_cons, mapSeg_key] at hx2
            rcases hx2 with hx2 | hx2 | hx2
            · exact hq x y hx2 hy.1
            · exact hy.2 x hx2
            · exact absurd ((wf_append.1 wm).2.2 x x hx hx2) (lt_irrefl _)
          · exact lt_trans (((hlo x).1 hx2).2 w hwc) (hy.2 w hwc))
        (by
          intro s hs
          obtain ⟨x, hx, hxs⟩ := hm s (by simp [hs])
          exact ⟨x, hx, (hls x).2 ⟨hxs, fun y hy => hcm y x hy ⟨s, by simp [hs], hx⟩⟩⟩)
        (fun x y hx hy => hp x y ((hls x).1 hx).1 hy) se.wf wi am ai
        (by
          intro x y hx hy
          rw [hls] at hy
          rcases hdomi x hx with hx | hx
          · exact hib x y hx hy.1
          · exact hy.2 x ((hin x).1 hx).2)
    refine ⟨m1, span1, er1, ins1, m2, ?_, ?_, e5, e6, a2, a1⟩
    · rw [flipLoopR]
      unfold flipCommonR
      unfold addSegR at eiR
      simp only [isEmpty_false h hne, Bool.false_eq_true, if_false, ee, hfv, chk_pos hi, eiR, emR,
        Option.bind_eq_bind, Option.bind_some, Option.pure_def]
      rw [if_pos (List.isSuffixOf_iff_suffix.2 (List.suffix_append _ _))]
      exact e3
    · rw [flipLoop]
      unfold flipCommon
      unfold addSeg at ei
      simp only [isEmpty_false h hne, Bool.false_eq_true, if_false, ee, hfv, ei, em, Option.bind_eq_bind,
        Option.bind_some, Option.pure_def]
      rw [if_pos (List.isSuffixOf_iff_suffix.2 (List.suffix_append _ _))]
      exact e4

theorem addMapR_iff (hN : Regular t) (oracle : List (I × V) → I → Nat) {m n : List (I × V)} (wm : WF o mapSeg m)
    (wn : WF o mapSeg n) (hni : NoIdent t.cfg m) (ha : AllR R m) (hs : ∀ s ∈ n, R (t.plus.version s.2))
    (y : List (I × V)) : addMapR o R t oracle m n = some y ↔ addMap o t oracle m n = some y ∧ AllR R y := by
  refine forEachR_iff (R := R) h (N := NoIdent t.cfg) (g := fun m s => addHint o t (oracle m s.1) m s.1 s.2) wn
    (fun l hl hi s hs => ?_)
    (fun l hl hn ha s hs' y => addHintCR_iff h hl hn ha hi _ s.1 s.2 (hs s hs') y) wm hni ha y
  obtain ⟨l', e, p⟩ := addHint_pt h t (oracle l s.1) hl s.1 s.2
  refine ⟨l', e, p.wf, p.noIdent hN hi, fun x hx => ?_⟩
  rw [p.at_ hN hi]
  exact if_neg hx

theorem flipF_fits (hp : ∀ u, t.plus.version u = u) (hns : t.setLike = false) {v : V} (hv : R v) {a : Option V} {u : V} (e : flipF t v a = some u) : R u := by
  cases a with
  | none =>
    simp only [flipF, addF, hp] at e
    split_ifs at e
    exact Option.some.inj e ▸ hv
  | some w =>
    simp only [flipF, flipValue, hns, addF, hp, Bool.false_eq_true, if_false] at e
    split_ifs at e with h1
    · cases e
    · simp only [Option.bind_some, h1] at e
      exact Option.some.inj e ▸ hi

/-- `flip(segment)` on a partial map of numbers does not overflow. -/
theorem flipSegR_ok [DecidableEq I] (ht : t.cfg.total = false) (hN : Regular t) (hp : ∀ u, t.plus.version u = u)
    (hns : t.setLike = false) (oracle : List (I × V) → I → Nat) {l : List (I × V)} (hl : WF o mapSeg l)
    (hni : NoIdent t.cfg l) (ha : AllR R l) {k : I} (hk : o.Nonempty k) {v : V} (hv : R v) :
    ∃ l', flipSegR o R t oracle l k v = some l' ∧ flipSeg o t oracle l k v = some l' ∧ AllR R l' := by
  obtain ⟨l', e', p'⟩ := flipSeg_pt h t ht oracle hl hk v
  have hpi : R (t.plus.version t.cfg.ident) := by rw [hp]; exact hi
  have hpv : R (t.plus.version v) := by rw [hp]; exact hv
  have ha' : AllR R l' := allR_pt h p' hN hni fun x u hu => by
    unfold on at hu
    split_ifs at hu
    · exact flipF_fits h hi hp hns hv hu
    · exact (allR_iff h hl).1 ha x u hu
  refine ⟨l', ?_, e', ha'⟩
  obtain ⟨a, b, c, e, rfl, h1, h2, h3⟩ := equalRange_spec h hl hk
  have hl' : WF o mapSeg (a ++ (b ++ c)) := by simpa using hl
  have q1 : ∀ x y, Dom o mapSeg a x → o.Mem y k → x < y := by rintro x y ⟨s, hs, hx⟩ hy; exact h1 s hs x y hx hy
  have q3 : ∀ x y, o.Mem x k → Dom o mapSeg c y → x < y := by rintro x y hx ⟨s, hs, hy⟩; exact h3 s hs x y hx hy
  obtain ⟨m1, span1, er1, ins1, m2, f1, f2, f3, f4, a2, a1⟩ := flipLoopR_ok h hi hns hpi hpv c b (q := a) (span := k)
    (er := []) (ins := []) hl' q1 (fun s hs => h2 s hs) q3 wf_nil wf_nil (by simpa using ha) (by simp [AllR])
    (by rintro x y ⟨s, hs, -⟩; cases hs)
  obtain ⟨n1, sp1, r1, i1, n2, e1, e2, p2, we, -, pi⟩ := flipLoop_pt h t v c b (q := a) (span := k) (er := [])
    (ins := []) hl' q1 (fun s hs => h2 s hs) q3 wf_nil wf_nil
  have e12 := Option.some.inj (e1.symm.trans f2)
  simp only [Prod.mk.injEq] at e12
  obtain ⟨h4, h5, h6, h7⟩ := e12
  subst h4 h5 h6 h7
  obtain rfl := Option.some.inj (e2.symm.trans f4)
  have hni' : NoIdent t.cfg (a ++ (b ++ c)) := by simpa using hni
  obtain ⟨m3, e3, p3⟩ := eraseSet_pt h t.cfg p2.wf we
  have n2 := p2.noIdent hN hni'
  have a3 : AllR R m3 := allR_pt h p3 trivial n2 fun x u hu => by
    unfold over at hu
    cases hc : valueAt o (unitMap r1) x with
    | none => rw [hc] at hu; exact (allR_iff h p2.wf).1 a2 x u hu
    | some w => rw [hc] at hu; cases hu
  have key := addMapR_iff h hi hN oracle p3.wf pi.wf (p3.noIdent trivial n2) a3
    (fun s hs => by rw [hp]; exact a1 s hs) l'
  unfold flipSeg at e'
  simp only [ht, Bool.false_eq_true, if_false, e, Option.bind_eq_bind, Option.bind_some] at e'
  rw [show a ++ b ++ c = a ++ (b ++ c) by simp, e1] at e'
  simp only [Option.bind_some, e2, e3] at e'
  unfold flipSegR
  simp only [e, Option.bind_eq_bind, Option.bind_some]
  rw [show a ++ b ++ c = a ++ (b ++ c) by simp, f1]
  simp only [Option.bind_some, f3, e3]
  exact key.2 ⟨e', ha'⟩

/-- Additions to gaps. -/
theorem addsR_ok (hN : Regular t) {r : List (I × V)} (hr : WF o mapSeg r) (hs : ∀ s ∈ r, R (t.plus.version s.2))
    {l : List (I × V)} (hl : WF o mapSeg l) (hni : NoIdent t.cfg l) (ha : AllR R l)
    (hf : ∀ x, Dom o mapSeg r x → valueAt o l x = none) :
    ∃ l', forEach (fun m s => addSegR o R t m s.1 s.2) l r = some l' ∧
      forEach (fun m s => addSeg o t m s.1 s.2) l r = some l' ∧ AllR R l' ∧
      Pt o t.cfg (Regular t) l l' (over o r fun _ => addF t.cfg t.plus) := by
  obtain ⟨l', e, p⟩ := forEach_pt (f := fun m s => addSeg o t m s.1 s.2) hr
    (fun l hl s _ => addSeg_pt h t hl s.1 s.2) hl
  have ha' : AllR R l' := allR_pt h p hN hni fun x u hu => by
    unfold over at hu
    cases hc : valueAt o r x with
    | none => rw [hc] at hu; exact (allR_iff h hl).1 ha x u hu
    | some w =>
      rw [hc, hf x (maps_of_valueAt hc).dom] at hu
      simp only [addF] at hu
      split_ifs at hu
      obtain ⟨s, hs', -, rfl⟩ := (valueAt_some hr).1 hc
      exact Option.some.inj hu ▸ hs s hs'
  refine ⟨l', (forEachR_fresh h (F := fun _ => True) hr (fun l hl s _ => ?_) (fun l hl ha s hs' hf y => ?_) hl
    (fun x hx _ => hf x hx) ha l').2 ⟨e, ha'⟩, e, ha', p⟩
  · obtain ⟨l1, e1, w1, -, v1⟩ := addC_at h t.cfg t.plus hl s.1 s.2
    exact ⟨l1, e1, w1, fun x hx => by rw [v1]; exact if_neg hx⟩
  · refine (addCR_iff h hl ha hi s.1 s.2 y).trans ?_
    exact ⟨fun e => ⟨e.1, e.2.1⟩, fun e => ⟨e.1, e.2, fun _ _ => hs s hs'⟩⟩

/-- `object ^= operand` on a partial map of numbers does not overflow. -/
theorem flipPartialMapR_ok [DecidableEq I] (ht : t.cfg.total = false) (hN : Regular t)
    (hp : ∀ u, t.plus.version u = u) (hns : t.setLike = false) (oracle : List (I × V) → I → Nat)
    {l r : List (I × V)} (hl : WF o mapSeg l) (hr : WF o mapSeg r) (hni : NoIdent t.cfg l) (ha : AllR R l)
    (hv : AllR R r) :
    ∃ l', flipPartialMapR o R t oracle l r = some l' ∧ flipMap o t oracle l r = some l' ∧ AllR R l' := by
  have hpv : ∀ s ∈ r, R (t.plus.version s.2) := fun s hs => by rw [hp]; exact hv s hs
  obtain ⟨res, e, h1, h2⟩ := commonRange_map h hr hl
  unfold flipPartialMapR flipMap
  simp only [ht, Bool.false_eq_true, if_false, e, Option.bind_eq_bind, Option.bind_some]
  cases res with
  | none =>
    obtain ⟨l', e', p⟩ := addMap_pt h t oracle hl hr
    have ha' : AllR R l' := allR_pt h p hN hni fun x u hu => by
      unfold over at hu
      cases hc : valueAt o r x with
      | none => rw [hc] at hu; exact (allR_iff h hl).1 ha x u hu
      | some w =>
        rcases h1 rfl x with hx | hx
        · rw [hc, hx] at hu
          simp only [addF] at hu
          split_ifs at hu
          obtain ⟨s, hs', -, rfl⟩ := (valueAt_some hr).1 hc
          exact Option.some.inj hu ▸ hpv s hs'
        · rw [hx] at hc; cases hc
    exact ⟨l', (addMapR_iff h hi hN oracle hl hr hni ha hpv l').2 ⟨e', ha'⟩, e', ha'⟩
  | some res =>
    obtain ⟨p, c, q⟩ := res
    obtain ⟨rfl, wp, wc, wq, -, fp, fq⟩ := h2 p c q rfl
    obtain ⟨l1, r1, e1, a1, p1⟩ := addsR_ok h hi hN wp (fun s hs => hpv s (by simp [hs])) hl hni ha fp
    have n1 := p1.noIdent hN hni
    obtain ⟨l2, e2, p2⟩ := forEach_pt (f := fun m s => flipSeg o t oracle m s.1 s.2) wc
      (fun l hl s hs => flipSeg_pt h t ht oracle hl (wc.nonempty s hs) s.2) p1.wf
    have a2 : AllR R l2 := allR_pt h p2 hN n1 fun x u hu => by
      unfold over at hu
      cases hc : valueAt o c x with
      | none => rw [hc] at hu; exact (allR_iff h p1.wf).1 a1 x u hu
      | some w =>
        rw [hc] at hu
        obtain ⟨s, hs', -, rfl⟩ := (valueAt_some wc).1 hc
        exact flipF_fits h hi hp hns (hv s (by simp [hs'])) hu
    have r2 := (forEachR_iff (R := R) h (N := NoIdent t.cfg) (g := fun m s => flipSeg o t oracle m s.1 s.2)
      (gR := fun m s => flipSegR o R t oracle m s.1 s.2) wc
      (fun l hl hn s hs => by
        obtain ⟨l', e', p'⟩ := flipSeg_pt h t ht oracle hl (wc.nonempty s hs) s.2
        refine ⟨l', e', p'.wf, p'.noIdent hN hn, fun x hx => ?_⟩
        rw [p'.at_ hN hn]
        exact if_neg hx)
      (fun l hl hn ha s hs y => by
        obtain ⟨l', e1, e2, a⟩ := flipSegR_ok h hi ht hN hp hns oracle hl hn ha (wc.nonempty s hs)
          (hv s (by simp [hs]))
        simp only [mapSeg_key] at e1 e2
        rw [e1, e2]
        exact ⟨fun e => ⟨e, Option.some.inj e ▸ a⟩, fun e => e.1⟩) p1.wf n1 a1 l2).2 ⟨e2, a2⟩
    have hr' := wf_append.1 hr
    have hpc := wf_append.1 hr'.1
    obtain ⟨l3, r3, e3, a3, -⟩ := addsR_ok h hi hN wq (fun s hs => hpv s (by simp [hs])) p2.wf (p2.noIdent hN n1) a2
      fun x hx => by
        have hnp : valueAt o p x = none := valueAt_none.2 fun hd =>
          lt_irrefl _ (hr'.2.2 x x (by rw [dom_append]; exact Or.inl hd) hx)
        have hnc : valueAt o c x = none := valueAt_none.2 fun hd =>
          lt_irrefl _ (hr'.2.2 x x (by rw [dom_append]; exact Or.inr hd) hx)
        rw [p2.at_ hN n1, p1.at_ hN hni]
        unfold over
        rw [hnp, hnc]
        exact fq x hx
    exact ⟨l3, by simp only [r1, r2, r3, Option.bind_some], by simp only [e1, e2, e3, Option.bind_some], a3⟩

end ICL.IMap
