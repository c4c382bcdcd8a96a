import Verif.Theory.SetFun

/-!
# Symmetric difference
-/

set_option linter.unusedSectionVars false
set_option linter.unusedVariables false
set_option linter.unusedSimpArgs false

namespace ICL

variable {D I V S : Type} [LinearOrder D] {o : IntervalOps D I} {g : SegOps I V S}

theorem dropWhile_append_neg {α : Type} {p : α → Bool} (q c : List α) (hc : ∀ s ∈ c, p s = false) :
    (q ++ c).dropWhile p = q.dropWhile p ++ c := by
  induction q with
  | nil =>
    cases c with
    | nil => rfl
    | cons s c => simp [List.dropWhile_cons, hc s (by simp)]
  | cons t q ih =>
    rw [List.cons_append, List.dropWhile_cons, List.dropWhile_cons]
    cases p t <;> simp [ih]

/-- Nodes behind the key stay behind the collision sequence. -/
theorem equalRange_suffix {q c : List S} {k : I} {a b c0 : List S}
    (hc : ∀ s ∈ c, o.neLess (g.key s) k = false ∧ o.neLess k (g.key s) = true)
    (e : equalRange o g (q ++ c) k = some (a, b, c0)) : ∃ c1, c0 = c1 ++ c := by
  unfold equalRange at e
  split at e
  · simp only [Option.some.injEq, Prod.mk.injEq] at e
    rw [dropWhile_append_neg q c (fun s hs => (hc s hs).1)] at e
    rw [dropWhile_append_neg _ c (fun s hs => by simp [(hc s hs).2])] at e
    exact ⟨_, e.2.2.symm⟩
  · simp at e

section
variable (h : o.Lawful)
include h

theorem neLess_of_before {l : List S} {k : I} (hl : ∀ s ∈ l, o.Nonempty (g.key s)) (hk : o.Nonempty k)
    (hb : ∀ x y, o.Mem x k → Dom o g l y → x < y) :
    ∀ s ∈ l, o.neLess (g.key s) k = false ∧ o.neLess k (g.key s) = true := by
  intro s hs
  constructor
  · rw [← Bool.not_eq_true, h.neLess_iff _ _ (hl s hs) hk]
    intro hc
    obtain ⟨x, hx⟩ := hk
    obtain ⟨y, hy⟩ := hl s hs
    exact lt_irrefl _ (lt_trans (hc y x hy hx) (hb x y hx ⟨s, hs, hy⟩))
  · rw [h.neLess_iff _ _ hk (hl s hs)]
    exact fun x y hx hy => hb x y hx ⟨s, hs, hy⟩

theorem insertResid_suffix {q c : List I} {k : I} {l' : List I}
    (hl : ∀ s ∈ c, o.Nonempty s) (hb : ∀ x y, o.Mem x k → Dom o setSeg c y → x < y)
    (e : ISet.insertResid o (q ++ c) k = some l') : ∃ q', l' = q' ++ c := by
  unfold ISet.insertResid at e
  cases he : o.isEmpty k with
  | true =>
    rw [he] at e
    simp only [if_true, Option.some.injEq] at e
    exact ⟨q, e.symm⟩
  | false =>
    rw [he] at e
    simp only [Bool.false_eq_true, if_false] at e
    unfold stdInsert at e
    rw [Option.bind_eq_bind, Option.bind_eq_some_iff] at e
    obtain ⟨⟨a, b, c0⟩, e1, e2⟩ := e
    have hk := (nonempty_iff h).2 he
    obtain ⟨c1, rfl⟩ := equalRange_suffix (neLess_of_before h (g := setSeg) hl hk hb) e1
    cases b with
    | nil =>
      simp only [Option.pure_def, Option.some.injEq] at e2
      exact ⟨a ++ k :: c1, by rw [← e2]; simp⟩
    | cons f b =>
      simp only [Option.pure_def, Option.some.injEq] at e2
      exact ⟨q, e2.symm⟩

/-- Nodes behind the subtracted interval are left alone. -/
theorem subtract_suffix {q c : List I} {k : I} {l' : List I} (hw : WF o setSeg (q ++ c))
    (hb : ∀ x y, o.Mem x k → Dom o setSeg c y → x < y)
    (e : ISet.subtract o (q ++ c) k = some l') : ∃ q', l' = q' ++ c := by
  have hc : ∀ s ∈ c, o.Nonempty s := fun s hs => hw.nonempty s (by simp [hs])
  unfold ISet.subtract at e
  cases he : o.isEmpty k with
  | true =>
    rw [he] at e
    simp only [if_true, Option.some.injEq] at e
    exact ⟨q, e.symm⟩
  | false =>
    have hk := (nonempty_iff h).2 he
    rw [he] at e
    simp only [Bool.false_eq_true, if_false] at e
    rw [Option.bind_eq_bind, Option.bind_eq_some_iff] at e
    obtain ⟨⟨a, b, c0⟩, e1, e2⟩ := e
    obtain ⟨c1, rfl⟩ := equalRange_suffix (neLess_of_before h (g := setSeg) hc hk hb) e1
    obtain ⟨a', b', c', e1', hl, -⟩ := equalRange_spec h hw hk
    rw [e1] at e1'
    simp only [Option.some.injEq, Prod.mk.injEq] at e1'
    obtain ⟨rfl, rfl, rfl⟩ := e1'
    cases b with
    | nil =>
      simp only [Option.some.injEq] at e2
      exact ⟨q, e2.symm⟩
    | cons f b =>
      simp only at e2
      rw [Option.bind_eq_bind, Option.bind_eq_some_iff] at e2
      obtain ⟨l1, e2, e3⟩ := e2
      have hw' : WF o setSeg ((a ++ f :: b ++ c1) ++ c) := by
        rw [hl] at hw; simpa using hw
      have hbf := (wf_append.1 hw').2.2
      rw [← List.append_assoc] at e2
      obtain ⟨q1, rfl⟩ := insertResid_suffix h hc (fun x y hx hy => hbf x y
        ⟨f, by simp, ((h.mem_rightSubtract _ _ _).1 hx).1⟩ hy) e2
      exact insertResid_suffix h hc (fun x y hx hy => hbf x y
        ⟨b.getLastD f, by
          have := getLastD_mem f b
          simp only [List.mem_append]
          exact Or.inl (Or.inr this), ((h.mem_leftSubtract _ _ _).1 hx).1⟩ hy) e3

/-- Nodes behind an added interval that overlaps with nothing and leaves a gap to them are left
alone. -/
theorem add_suffix (st : Style) {q c : List I} {k : I} {l' : List I} (hw : WF o setSeg (q ++ c))
    (hb : ∀ x y, o.Mem x k → Dom o setSeg c y → x < y)
    (hn : ∀ x, Dom o setSeg (q ++ c) x → ¬ o.Mem x k)
    (hgap : ∃ z, (∀ x, o.Mem x k → x < z) ∧ ∀ y, Dom o setSeg c y → z < y)
    (e : ISet.add o st (q ++ c) k = some l') : ∃ q', l' = q' ++ c := by
  have hc : ∀ s ∈ c, o.Nonempty s := fun s hs => hw.nonempty s (by simp [hs])
  unfold ISet.add at e
  cases he : o.isEmpty k with
  | true =>
    rw [he] at e
    simp only [if_true, Option.some.injEq] at e
    exact ⟨q, e.symm⟩
  | false =>
    have hk := (nonempty_iff h).2 he
    rw [he] at e
    simp only [Bool.false_eq_true, if_false] at e
    rw [Option.bind_eq_bind, Option.bind_eq_some_iff] at e
    obtain ⟨⟨a, b, c0⟩, e1, e2⟩ := e
    obtain ⟨c1, rfl⟩ := equalRange_suffix (neLess_of_before h (g := setSeg) hc hk hb) e1
    obtain ⟨a', b', c', e1', hl, h1, h2, h3⟩ := equalRange_spec h hw hk
    rw [e1] at e1'
    simp only [Option.some.injEq, Prod.mk.injEq] at e1'
    obtain ⟨rfl, rfl, rfl⟩ := e1'
    cases b with
    | cons f b =>
      obtain ⟨x, hx, hxk⟩ := h2 f (by simp)
      exact absurd hxk (hn x ⟨f, by simp [hl], hx⟩)
    | nil =>
      simp only at e2
      have hpl : ∀ z : Zip I, z = ⟨a.reverse, k, c1 ++ c⟩ → z.toList = (a ++ k :: c1) ++ c := by
        rintro z rfl; simp [Zip.toList]
      cases st with
      | separating =>
        simp only [ISet.handleInserted, Option.some.injEq] at e2
        exact ⟨_, by rw [← e2]; exact hpl _ rfl⟩
      | splitting =>
        simp only [ISet.handleInserted, Option.some.injEq] at e2
        exact ⟨_, by rw [← e2]; exact hpl _ rfl⟩
      | joining =>
        have hwz : WF o setSeg (⟨a.reverse, k, c1 ++ c⟩ : Zip I).toList := by
          rw [hpl _ rfl]
          have : WF o setSeg (a ++ (c1 ++ c)) := by rw [hl] at hw; simpa using hw
          have := insert_free h this hk (by rintro x y ⟨s, hs, hx⟩ hy; exact h1 s hs x y hx hy)
            (by rintro x y hx ⟨s, hs, hy⟩; exact h3 s hs x y hx hy)
          simpa using this
        obtain ⟨z1, ej, w1, _, r1, _, t1, _⟩ := joinLeft_spec h setSeg_lawful hwz
        simp only [ISet.handleInserted, joinNeighbours, ej, Option.bind_eq_bind, Option.bind_some,
          Option.pure_def] at e2
        rw [Option.bind_eq_some_iff] at e2
        obtain ⟨z2, e2, e3⟩ := e2
        simp only [Option.some.injEq] at e3
        simp only at r1
        unfold joinRight at e2
        rw [r1] at e2
        cases c1 with
        | nil =>
          cases c with
          | nil => exact ⟨l', by simp⟩
          | cons t c =>
            have hj : joinable o setSeg z1.cur t = false := by
              rw [t1 t (hc t (by simp)) (h3 t (by simp))]
              apply joinable_false_of_touches h
              simp only [setSeg_key]
              rw [← Bool.not_eq_true]
              intro ht
              have := (h.touches_iff k t hk (hc t (by simp)) (h3 t (by simp))).1 ht
              obtain ⟨z, hz1, hz2⟩ := hgap
              exact this ⟨z, hz1, fun y hy => hz2 y ⟨t, by simp, hy⟩⟩
            have hjc : joinableC o setSeg z1.cur t = some false := by
              rw [← hj]
              have hz := w1
              rw [Zip.toList, r1] at hz
              have hz1 := wf_cons.1 (wf_append.1 hz).2.1
              exact joinableC_before h hz1.1 (hc t (by simp)) fun x y hx hy => hz1.2.2 x y hx ⟨t, by simp, hy⟩
            simp only [List.nil_append, hjc, Option.some.injEq] at e2
            subst e2
            refine ⟨z1.left.reverse ++ [z1.cur], ?_⟩
            rw [← e3, Zip.toList, r1]; simp
        | cons s c1 =>
          simp only [List.cons_append] at e2
          split at e2
          · cases e2
          · rw [Option.bind_eq_bind, Option.bind_eq_some_iff] at e2
            obtain ⟨j, _, e4⟩ := e2
            simp only [Option.pure_def, Option.some.injEq] at e4
            subst e4
            exact ⟨z1.left.reverse ++ j :: c1, by rw [← e3]; simp [Zip.toList]⟩
          · simp only [Option.some.injEq] at e2
            subst e2
            exact ⟨z1.left.reverse ++ z1.cur :: s :: c1, by rw [← e3, Zip.toList, r1]; simp⟩

/-- Addition of an interval that shares no element with the set. -/
theorem AddSpec.same_disjoint {st : Style} {l l' : List I} {k : I}
    (hs : AddSpec o st l k l') (hst : st ≠ .joining)
    (hd : ∀ x, Dom o setSeg l x → ¬ o.Mem x k) (x y : D) :
    Same o setSeg l' x y ↔ Same o setSeg l x y ∨ (o.Mem x k ∧ o.Mem y k) := by
  cases st with
  | joining => exact absurd rfl hst
  | separating =>
    rw [hs.separating rfl]
    have hr : ∀ x, Reach o l k x ↔ o.Mem x k := by
      intro x
      constructor
      · rintro (h1 | ⟨s, hs, _, z, hz, hzk⟩)
        · exact h1
        · exact absurd hzk (hd z ⟨s, hs, hz⟩)
      · exact Or.inl
    rw [hr, hr]
  | splitting =>
    rw [hs.splitting rfl, splitSpec_iff_aux]
    constructor
    · tauto
    · rintro (h1 | ⟨h1, h2⟩)
      · refine Or.inl ⟨h1, fun z hz => iff_of_false ?_ ?_⟩
        · exact hd z (same_btw h h1 hz).right
        · exact hd x h1.left
      · exact Or.inr ⟨h1, h2, fun z hz hc => hd z hc (mem_btw h h1 h2 hz)⟩

/-- Result of flipping a segment. -/
structure FlipSpec (o : IntervalOps D I) (st : Style) (l : List I) (k : I) (l' : List I) : Prop where
  wf : WF o setSeg l'
  dom : ∀ x, Dom o setSeg l' x ↔ (Dom o setSeg l x ∧ ¬ o.Mem x k) ∨ (o.Mem x k ∧ ¬ Dom o setSeg l x)
  joined : st = .joining → Joined o setSeg l → Joined o setSeg l'
  same : st ≠ .joining → ∀ x y, Same o setSeg l' x y ↔
    (Same o setSeg l x y ∧ ∀ z, Btw x y z → ¬ o.Mem z k) ∨
    (o.Mem x k ∧ o.Mem y k ∧ ∀ z, Btw x y z → ¬ Dom o setSeg l z)

theorem flipLoop_spec [DecidableEq I] (st : Style) (post mid : List I) {q : List I} {span : I}
    (hw : WF o setSeg (q ++ (mid ++ post)))
    (hq : ∀ x y, Dom o setSeg q x → o.Mem y span → x < y)
    (hm : ∀ s ∈ mid, ∃ x, o.Mem x s ∧ o.Mem x span)
    (hp : ∀ x y, o.Mem x span → Dom o setSeg post y → x < y) :
    ∃ l1 span1 l', ISet.flipLoop o st post (q ++ (mid ++ post)) span mid = some (l1, span1) ∧
      ISet.add o st l1 span1 = some l' ∧ FlipSpec o st (q ++ (mid ++ post)) span l' := by
  induction mid generalizing q span with
  | nil =>
    obtain ⟨l', e, s⟩ := ISet.add_spec h st hw span
    have hd : ∀ x, Dom o setSeg (q ++ ([] ++ post)) x → ¬ o.Mem x span := by
      intro x hx hk
      simp only [List.nil_append, dom_append] at hx
      rcases hx with hx | hx
      · exact lt_irrefl _ (hq x x hx hk)
      · exact lt_irrefl _ (hp x x hk hx)
    refine ⟨_, _, l', rfl, e, s.wf, ?_, s.joined, ?_⟩
    · intro x
      rw [s.dom]
      have := hd x
      tauto
    · intro hst x y
      rw [s.same_disjoint h hst hd]
      constructor
      · rintro (h1 | ⟨h1, h2⟩)
        · exact Or.inl ⟨h1, fun z hz => hd z (same_btw h h1 hz).right⟩
        · exact Or.inr ⟨h1, h2, fun z hz hc => hd z hc (mem_btw h h1 h2 hz)⟩
      · tauto
  | cons cov mid ih =>
    have hw1 := wf_append.1 hw
    have hw2 := wf_cons.1 hw1.2.1
    simp only [List.append_eq, setSeg_key] at hw2
    obtain ⟨w, hwc, hws⟩ := hm cov (by simp)
    have hcm : ∀ x y, o.Mem x cov → Dom o setSeg (mid ++ post) y → x < y := hw2.2.2
    -- subtraction
    have hw' : WF o setSeg ((q ++ [cov]) ++ (mid ++ post)) := by simpa using hw
    obtain ⟨l1, e1, s1⟩ := ISet.subtract_spec h hw (o.inter span cov)
    have e1' := e1
    rw [show q ++ (cov :: mid ++ post) = (q ++ [cov]) ++ (mid ++ post) by simp] at e1'
    obtain ⟨q1, rfl⟩ := subtract_suffix h hw' (fun x y hx hy => hcm x y ((h.mem_inter _ _ _).1 hx).2 hy) e1'
    -- addition of the part in front
    obtain ⟨l2, e2, s2⟩ := ISet.add_spec h st s1.wf (o.rightSubtract span cov)
    have hlo : ∀ x, o.Mem x (o.rightSubtract span cov) ↔ o.Mem x span ∧ ∀ y, o.Mem y cov → x < y :=
      h.mem_rightSubtract span cov
    have hls : ∀ x, o.Mem x (o.leftSubtract span cov) ↔ o.Mem x span ∧ ∀ y, o.Mem y cov → y < x :=
      h.mem_leftSubtract span cov
    have hin : ∀ x, o.Mem x (o.inter span cov) ↔ o.Mem x span ∧ o.Mem x cov := h.mem_inter span cov
    have hdl : ∀ x, Dom o setSeg (q ++ (cov :: mid ++ post)) x → ¬ o.Mem x (o.rightSubtract span cov) := by
      intro x hx hk
      rw [hlo] at hk
      rw [dom_append, List.cons_append, dom_cons, setSeg_key] at hx
      rcases hx with hx | hx | hx
      · exact lt_irrefl _ (hq x x hx hk.1)
      · exact lt_irrefl _ (hk.2 x hx)
      · exact lt_irrefl _ (lt_trans (hk.2 w hwc) (hcm w x hwc hx))
    have hdl1 : ∀ x, Dom o setSeg (q1 ++ (mid ++ post)) x → ¬ o.Mem x (o.rightSubtract span cov) :=
      fun x hx => hdl x ((s1.dom x).1 hx).1
    obtain ⟨q2, rfl⟩ := add_suffix h st s1.wf (fun x y hx hy => lt_trans (((hlo x).1 hx).2 w hwc) (hcm w y hwc hy))
      hdl1 ⟨w, fun x hx => ((hlo x).1 hx).2 w hwc, fun y hy => hcm w y hwc hy⟩ e2
    -- the rest of the loop
    have hdom2 : ∀ x, Dom o setSeg (q2 ++ (mid ++ post)) x ↔
        (Dom o setSeg (q ++ (cov :: mid ++ post)) x ∧ ¬ o.Mem x (o.inter span cov)) ∨
        o.Mem x (o.rightSubtract span cov) := by
      intro x; rw [s2.dom, s1.dom]
    obtain ⟨l3, span3, l', e3, e4, s3⟩ := ih (q := q2) (span := o.leftSubtract span cov) s2.wf
      (by
        intro x y hx hy
        rw [hls] at hy
        have hx2 : Dom o setSeg (q2 ++ (mid ++ post)) x := by rw [dom_append]; exact Or.inl hx
        rw [hdom2] at hx2
        rcases hx2 with ⟨hx2, _⟩ | hx2
        · rw [dom_append, List.cons_append, dom_cons, setSeg_key] at hx2
          rcases hx2 with hx2 | hx2 | hx2
          · exact hq x y hx2 hy.1
          · exact hy.2 x hx2
          · exact absurd ((wf_append.1 s2.wf).2.2 x x hx hx2) (lt_irrefl _)
        · exact lt_trans (((hlo x).1 hx2).2 w hwc) (hy.2 w hwc))
      (by
        intro s hs
        obtain ⟨x, hx, hxs⟩ := hm s (by simp [hs])
        exact ⟨x, hx, (hls x).2 ⟨hxs, fun y hy => hcm y x hy ⟨s, by simp [hs], hx⟩⟩⟩)
      (fun x y hx hy => hp x y ((hls x).1 hx).1 hy)
    refine ⟨l3, span3, l', ?_, e4, s3.wf, ?_, ?_, ?_⟩
    · rw [ISet.flipLoop]
      simp only [e1, e2, Option.bind_eq_bind, Option.bind_some]
      rw [if_pos (List.isSuffixOf_iff_suffix.2 (List.suffix_append _ _))]
      exact e3
    · intro x
      rw [s3.dom, hdom2, hls, hlo, hin]
      have h1 := hdl x
      rw [hlo] at h1
      have h2 : o.Mem x span → o.Mem x cov ∨ (∀ y, o.Mem y cov → x < y) ∨ (∀ y, o.Mem y cov → y < x) := by
        intro _
        rcases point_tri h (i := cov) ⟨w, hwc⟩ x with h3 | h3 | h3
        · exact Or.inl h3
        · exact Or.inr (Or.inl h3)
        · exact Or.inr (Or.inr h3)
      have h3 : o.Mem x cov → Dom o setSeg (q ++ (cov :: mid ++ post)) x := by
        intro hx; exact ⟨cov, by simp, hx⟩
      have h4 : ¬ (o.Mem x cov ∧ ∀ y, o.Mem y cov → y < x) := fun hc => lt_irrefl _ (hc.2 x hc.1)
      have h5 : ¬ (o.Mem x cov ∧ ∀ y, o.Mem y cov → x < y) := fun hc => lt_irrefl _ (hc.2 x hc.1)
      have h6 : ¬ ((∀ y, o.Mem y cov → y < x) ∧ ∀ y, o.Mem y cov → x < y) :=
        fun hc => lt_irrefl _ (lt_trans (hc.1 w hwc) (hc.2 w hwc))
      clear s1 s2 s3 hdom2 hlo hls hin hdl hdl1 hw hw1 hw2 hq hm hp ih hcm hw' e1 e1' e2 e3 e4
      revert h1 h2 h3 h4 h5 h6
      generalize Dom o setSeg (q ++ (cov :: mid ++ post)) x = P
      generalize o.Mem x span = M
      generalize o.Mem x cov = C
      generalize (∀ y, o.Mem y cov → x < y) = A
      generalize (∀ y, o.Mem y cov → y < x) = B
      intro h1 h2 h3 h4 h5 h6
      by_cases hM : M <;> by_cases hP : P <;> by_cases hC : C <;> by_cases hA : A <;>
        by_cases hB : B <;> simp_all
    · intro hst hj
      exact s3.joined hst (s2.joined hst (s1.joined h hw hj))
    · intro hst x y
      have hd2 := hdl1
      rw [s3.same hst, s2.same_disjoint h hst hdl1, s1.same]
      have tri := fun x => point_tri h (i := cov) ⟨w, hwc⟩ x
      constructor
      · rintro (⟨⟨h1, h2⟩ | ⟨h1, h2⟩, h3⟩ | ⟨h1, h2, h3⟩)
        · left
          refine ⟨h1, fun z hz hzs => ?_⟩
          have hzd := (same_btw h h1 hz).right
          rcases tri z with h4 | h4 | h4
          · exact h2 z hz.1 hz.2 ((hin z).2 ⟨hzs, h4⟩)
          · exact hdl z hzd ((hlo z).2 ⟨hzs, h4⟩)
          · exact h3 z hz ((hls z).2 ⟨hzs, h4⟩)
        · right
          exact ⟨((hlo x).1 h1).1, ((hlo y).1 h2).1, fun z hz hc => hdl z hc (mem_btw h h1 h2 hz)⟩
        · right
          refine ⟨((hls x).1 h1).1, ((hls y).1 h2).1, fun z hz hc => ?_⟩
          refine h3 z hz ((hdom2 z).2 (Or.inl ⟨hc, fun hi => ?_⟩))
          have := mem_btw h h1 h2 hz
          exact lt_irrefl _ (((hls z).1 this).2 z ((hin z).1 hi).2)
      · rintro (⟨h1, h2⟩ | ⟨h1, h2, h3⟩)
        · left
          exact ⟨Or.inl ⟨h1, fun z hz1 hz2 hc => h2 z ⟨hz1, hz2⟩ ((hin z).1 hc).1⟩,
            fun z hz hc => h2 z hz ((hls z).1 hc).1⟩
        · have hnc : ∀ z, Btw x y z → ¬ o.Mem z cov := fun z hz hc => h3 z hz ⟨cov, by simp, hc⟩
          have hx := tri x
          have hy := tri y
          have hside : ((∀ u, o.Mem u cov → x < u) ∧ (∀ u, o.Mem u cov → y < u)) ∨
              ((∀ u, o.Mem u cov → u < x) ∧ (∀ u, o.Mem u cov → u < y)) := by
            rcases hx with hx | hx | hx
            · exact absurd hx (hnc x (btw_left x y))
            · rcases hy with hy | hy | hy
              · exact absurd hy (hnc y (btw_right x y))
              · exact Or.inl ⟨hx, hy⟩
              · exact absurd hwc (hnc w ⟨le_trans (min_le_left _ _) (le_of_lt (hx w hwc)),
                  le_trans (le_of_lt (hy w hwc)) (le_max_right _ _)⟩)
            · rcases hy with hy | hy | hy
              · exact absurd hy (hnc y (btw_right x y))
              · exact absurd hwc (hnc w ⟨le_trans (min_le_right _ _) (le_of_lt (hy w hwc)),
                  le_trans (le_of_lt (hx w hwc)) (le_max_left _ _)⟩)
              · exact Or.inr ⟨hx, hy⟩
          rcases hside with ⟨hx, hy⟩ | ⟨hx, hy⟩
          · left
            refine ⟨Or.inr ⟨(hlo x).2 ⟨h1, hx⟩, (hlo y).2 ⟨h2, hy⟩⟩, fun z hz hc => ?_⟩
            rw [hls] at hc
            have h4 := mem_btw h ((hlo x).2 ⟨h1, hx⟩) ((hlo y).2 ⟨h2, hy⟩) hz
            exact lt_irrefl _ (lt_trans (hc.2 w hwc) (((hlo z).1 h4).2 w hwc))
          · right
            refine ⟨(hls x).2 ⟨h1, hx⟩, (hls y).2 ⟨h2, hy⟩, fun z hz hc => ?_⟩
            have h4 := mem_btw h ((hls x).2 ⟨h1, hx⟩) ((hls y).2 ⟨h2, hy⟩) hz
            rcases (hdom2 z).1 hc with hc | hc
            · exact h3 z hz hc.1
            · exact lt_irrefl _ (lt_trans (((hlo z).1 hc).2 w hwc) (((hls z).1 h4).2 w hwc))

/-- `flip(segment)` with a non-empty segment. -/
theorem ISet.flipSeg_spec [DecidableEq I] (st : Style) {l : List I} (hl : WF o setSeg l) {k : I}
    (hk : o.Nonempty k) : ∃ l', ISet.flipSeg o st l k = some l' ∧ FlipSpec o st l k l' := by
  obtain ⟨a, b, c, e, rfl, h1, h2, h3⟩ := equalRange_spec h hl hk
  rw [List.append_assoc] at hl e ⊢
  obtain ⟨l1, sp, l', e1, e2, s⟩ := flipLoop_spec h st c b (q := a) (span := k) hl
    (by rintro x y ⟨s, hs, hx⟩ hy; exact h1 s hs x y hx hy) h2
    (by rintro x y hx ⟨s, hs, hy⟩; exact h3 s hs x y hx hy)
  refine ⟨l', ?_, s⟩
  unfold ISet.flipSeg
  rw [e]
  simp only [Option.bind_eq_bind, Option.bind_some, e1, e2]

/-- Flipping an empty segment trips the assertion of the key comparison, unless the set is empty. -/
theorem ISet.flipSeg_empty [DecidableEq I] (st : Style) (l : List I) {k : I}
    (hk : o.isEmpty k = true) : ISet.flipSeg o st l k = if l.isEmpty then some [] else none := by
  cases l with
  | nil =>
    simp [ISet.flipSeg, equalRange, cmpOk, ISet.flipLoop, ISet.add, hk]
  | cons s l => simp [ISet.flipSeg, equalRange, cmpOk, hk]

/-- Result of the symmetric difference of two interval sets. -/
structure SymSpec (o : IntervalOps D I) (st : Style) (l r l' : List I) : Prop where
  wf : WF o setSeg l'
  dom : ∀ x, Dom o setSeg l' x ↔
    (Dom o setSeg l x ∧ ¬ Dom o setSeg r x) ∨ (Dom o setSeg r x ∧ ¬ Dom o setSeg l x)
  joined : st = .joining → Joined o setSeg l → Joined o setSeg l'
  same : st ≠ .joining → ∀ x y, Same o setSeg l' x y ↔
    (Same o setSeg l x y ∧ ∀ z, Btw x y z → ¬ Dom o setSeg r z) ∨
    (Same o setSeg r x y ∧ ∀ z, Btw x y z → ¬ Dom o setSeg l z)

/-- A loop that adds segments disjoint from the set is a symmetric difference. -/
theorem UnionSpec.sym {st : Style} {l r l' : List I} (hl : WF o setSeg l) (hr : WF o setSeg r)
    (hs : UnionSpec o st l r l') (hd : ∀ x, Dom o setSeg l x → ¬ Dom o setSeg r x) :
    SymSpec o st l r l' := by
  refine ⟨hs.wf, ?_, hs.joined, ?_⟩
  · intro x; rw [hs.dom]; have := hd x; tauto
  · intro hst x y
    rw [hs.same_disjoint h hl hr hst hd]
    constructor
    · rintro (h1 | h1)
      · exact Or.inl ⟨h1, fun z hz => hd z (same_btw h h1 hz).right⟩
      · exact Or.inr ⟨h1, fun z hz hc => hd z hc (same_btw h h1 hz).right⟩
    · tauto

/-- Two symmetric differences with operands one after the other. -/
theorem SymSpec.append {st : Style} {l r1 r2 l1 l2 : List I} (hr : WF o setSeg (r1 ++ r2))
    (s1 : SymSpec o st l r1 l1) (s2 : SymSpec o st l1 r2 l2) : SymSpec o st l (r1 ++ r2) l2 := by
  have hd : ∀ x, Dom o setSeg r1 x → ¬ Dom o setSeg r2 x :=
    fun x h1 h2 => lt_irrefl _ ((wf_append.1 hr).2.2 x x h1 h2)
  refine ⟨s2.wf, ?_, fun hst hj => s2.joined hst (s1.joined hst hj), ?_⟩
  · intro x
    rw [s2.dom, s1.dom, dom_append]
    have := hd x
    tauto
  · intro hst x y
    rw [s2.same hst, s1.same hst]
    simp only [dom_append, same_append]
    constructor
    · rintro (⟨⟨h1, h2⟩ | ⟨h1, h2⟩, h3⟩ | ⟨h1, h2⟩)
      · exact Or.inl ⟨h1, fun z hz => by have := h2 z hz; have := h3 z hz; tauto⟩
      · exact Or.inr ⟨Or.inl h1, h2⟩
      · refine Or.inr ⟨Or.inr h1, fun z hz hc => h2 z hz ?_⟩
        rw [s1.dom]
        exact Or.inl ⟨hc, fun h4 => hd z h4 (same_btw h h1 hz).right⟩
    · rintro (⟨h1, h2⟩ | ⟨h1 | h1, h2⟩)
      · exact Or.inl ⟨Or.inl ⟨h1, fun z hz hc => h2 z hz (Or.inl hc)⟩, fun z hz hc => h2 z hz (Or.inr hc)⟩
      · exact Or.inl ⟨Or.inr ⟨h1, h2⟩, fun z hz hc => hd z (same_btw h h1 hz).right hc⟩
      · refine Or.inr ⟨h1, fun z hz hc => ?_⟩
        rw [s1.dom] at hc
        rcases hc with hc | hc
        · exact h2 z hz hc.1
        · exact hd z hc.1 (same_btw h h1 hz).right

omit h in
theorem SymSpec.nil {st : Style} {l : List I} (hl : WF o setSeg l) : SymSpec o st l [] l :=
  ⟨hl, by simp, fun _ hj => hj, by simp⟩

theorem fold_flip [DecidableEq I] (st : Style) (r : List I) (hr : WF o setSeg r) {l : List I}
    (hl : WF o setSeg l) :
    ∃ l', ISet.fold (fun l k => ISet.flipSeg o st l k) l r = some l' ∧ SymSpec o st l r l' := by
  induction r generalizing l with
  | nil => exact ⟨l, rfl, SymSpec.nil hl⟩
  | cons k r ih =>
    have hw := wf_cons.1 hr
    obtain ⟨l1, e1, s1⟩ := ISet.flipSeg_spec h st hl hw.1
    obtain ⟨l2, e2, s2⟩ := ih hw.2.1 s1.wf
    refine ⟨l2, by simp only [ISet.fold, Option.bind_eq_bind]; rw [show ISet.flipSeg o st l k = some l1 from e1]; exact e2, ?_⟩
    have s1' : SymSpec o st l [k] l1 := by
      refine ⟨s1.wf, ?_, s1.joined, ?_⟩
      · intro x; rw [s1.dom]; simp
      · intro hst x y; rw [s1.same hst]; simp only [same_cons, same_nil, dom_cons, dom_nil, setSeg_key, or_false, setSeg_key, and_assoc]
    exact SymSpec.append h (r1 := [k]) hr s1' s2

/-- `object ^= operand`. -/
theorem ISet.flipSet_spec [DecidableEq I] (st : Style) (oracle : List I → I → Nat) {l r : List I}
    (hl : WF o setSeg l) (hr : WF o setSeg r) :
    ∃ l', ISet.flipSet o st oracle l r = some l' ∧ SymSpec o st l r l' := by
  obtain ⟨res, e, hn, hs⟩ := commonRange_spec h hr hl
  unfold ISet.flipSet
  rw [e]
  cases res with
  | none =>
    obtain ⟨l', e', s'⟩ := ISet.addSet_spec h st oracle hl r
    exact ⟨l', by simpa using e', s'.sym h hl hr (fun x h1 h2 => hn rfl x h2 h1)⟩
  | some t =>
    obtain ⟨p, c, q⟩ := t
    obtain ⟨rfl, h1, h2⟩ := hs p c q rfl
    have hw1 := wf_append.1 hr
    have hw2 := wf_append.1 hw1.1
    obtain ⟨l1, e1, u1⟩ := fold_add h st _ (fun l hl k => ISet.add_spec h st hl k) p hl
    have s1 := u1.sym h hl hw2.1 (fun x h3 h4 => lt_irrefl _ (h1 x x h4 h3))
    obtain ⟨l2, e2, s2⟩ := fold_flip h st c hw2.2.1 s1.wf
    obtain ⟨l3, e3, u3⟩ := fold_add h st _ (fun l hl k => ISet.add_spec h st hl k) q s2.wf
    have s12 := SymSpec.append h hw1.1 s1 s2
    have s3 := u3.sym h s2.wf hw1.2.1 (by
      intro x h3 h4
      rw [s12.dom] at h3
      rcases h3 with h3 | h3
      · exact lt_irrefl _ (h2 x x h3.1 h4)
      · exact lt_irrefl _ (hw1.2.2 x x h3.1 h4))
    refine ⟨l3, ?_, SymSpec.append h hr s12 s3⟩
    simp only [Option.bind_eq_bind, Option.bind_some, e1, e2, e3]

end
end ICL
