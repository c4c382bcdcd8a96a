import Verif.Theory.ThrowMap

/-!
# What an exception leaves behind: insertion and erasure of segments
-/

set_option linter.unusedSectionVars false
set_option linter.unusedSimpArgs false
set_option linter.unusedVariables false

namespace ICL
open Run

variable {D I V : Type} [LinearOrder D] {o : IntervalOps D I}

namespace IMap
section
variable [DecidableEq V] (h : o.Lawful)
include h

/-- A round of the loop of `insert_main` in which a gap is filled. -/
theorem insert_round (c : MapCfg V) (v : V) {left : List (I × V)} {rest : I} {cur : I × V}
    {mid post : List (I × V)} (hi : LInv o c left rest (cur :: mid) post)
    (he : o.isEmpty (o.rightSubtract rest cur.1) = false) :
    ∃ z, handleInserted o c ⟨left, (o.rightSubtract rest cur.1, v), cur :: mid ++ post⟩ = some z ∧
      (∀ x w, Maps o mapSeg ((z.cur :: z.left).reverse ++ z.right) x w ↔
        Maps o mapSeg (left.reverse ++ (cur :: mid ++ post)) x w ∨
          (o.Mem x (o.rightSubtract rest cur.1) ∧ v = w)) ∧
      ((z.right = cur :: (mid ++ post) ∧
          LInv o c (z.cur :: z.left) (o.leftSubtract rest cur.1) (cur :: mid) post) ∨
        (z.right = mid ++ post ∧ LInv o c (z.cur :: z.left) (o.leftSubtract rest cur.1) mid post)) := by
  have hw1 := wf_append.1 hi.wf
  have hwc := wf_cons.1 hw1.2.1
  simp only [mapSeg_key] at hwc
  have hL := h.mem_rightSubtract rest cur.1
  have hR := h.mem_leftSubtract rest cur.1
  have hg : o.Nonempty (o.rightSubtract rest cur.1) := (nonempty_iff h).2 he
  have hb : ∀ x y, Dom o mapSeg left x → o.Mem y (o.rightSubtract rest cur.1) → x < y :=
    fun x y hx hy => hi.before x y hx ((hL y).1 hy).1
  have ha : ∀ x y, o.Mem x (o.rightSubtract rest cur.1) → Dom o mapSeg (cur :: mid ++ post) y → x < y := by
    intro x y hx hy
    obtain ⟨hx1, hx2⟩ := (hL x).1 hx
    rw [List.cons_append, dom_cons] at hy
    rcases hy with hy | hy
    · exact hx2 y hy
    · obtain ⟨z, hz⟩ := hwc.1
      exact lt_trans (hx2 z hz) (hwc.2.2 z y hz hy)
  have hwz : WF o mapSeg (Zip.toList ⟨left, (o.rightSubtract rest cur.1, v), cur :: mid ++ post⟩) := by
    simp only [Zip.toList]
    rw [wf_append, wf_cons]
    refine ⟨hw1.1, ⟨hg, hw1.2.1, ha⟩, fun x y hx hy => ?_⟩
    rw [dom_cons] at hy
    rcases hy with hy | hy
    · exact hb x y (by simpa using hx) hy
    · exact hw1.2.2 x y hx hy
  obtain ⟨z, e, hwz', hj, hjo, hcase⟩ := handleInserted_right h c hwz (q := cur) (r := mid ++ post) rfl
  have hm : ∀ x w, Maps o mapSeg ((z.cur :: z.left).reverse ++ z.right) x w ↔
        Maps o mapSeg (left.reverse ++ (cur :: mid ++ post)) x w ∨
          (o.Mem x (o.rightSubtract rest cur.1) ∧ v = w) := by
    intro x w
    have := hj x x w (dg_self c x)
    rw [joint_self, joint_self] at this
    simp only [Zip.toList, maps_append, maps_reverse, maps_cons, List.cons_append, mapSeg_key, mapSeg_val] at this
    simp only [List.reverse_cons, List.append_assoc, List.cons_append, List.nil_append, maps_append,
      maps_reverse, maps_cons, mapSeg_key, mapSeg_val]
    clear * - this
    grind
  have hwz2 : WF o mapSeg ((z.cur :: z.left).reverse ++ z.right) := by
    simpa [Zip.toList] using hwz'
  have hzd : ∀ x, Dom o mapSeg (z.cur :: z.left) x → Dom o mapSeg left x ∨
      o.Mem x (o.rightSubtract rest cur.1) ∨ Dom o mapSeg (cur :: mid ++ post) x := by
    intro x hx
    have : Dom o mapSeg ((z.cur :: z.left).reverse ++ z.right) x := by
      rw [dom_append, dom_reverse]; exact Or.inl hx
    obtain ⟨u, hu⟩ := dom_iff.1 this
    rcases (hm x u).1 hu with h1 | h1
    · rw [maps_append, maps_reverse] at h1
      rcases h1 with h1 | h1
      · exact Or.inl h1.dom
      · exact Or.inr (Or.inr h1.dom)
    · exact Or.inr (Or.inl h1.1)
  refine ⟨z, e, hm, ?_⟩
  rcases hcase with hr | hr
  · refine Or.inl ⟨hr, ?_, fun x y hx hy => ?_, fun x y hx hy => hi.after x y ((hR x).1 hx).1 hy⟩
    · rw [hr] at hwz2; simpa using hwz2
    · rw [hr] at hwz2
      obtain ⟨z0, hz0⟩ := hwc.1
      exact lt_trans ((wf_append.1 hwz2).2.2 x z0 ((dom_reverse _ _).2 hx) (by simp [hz0])) (((hR y).1 hy).2 z0 hz0)
  · refine Or.inr ⟨hr, ?_, fun x y hx hy => ?_, fun x y hx hy => hi.after x y ((hR x).1 hx).1 hy⟩
    · rw [hr] at hwz2; exact hwz2
    · rw [hr] at hwz2
      have hy' := (hR y).1 hy
      rcases hzd x hx with h1 | h1 | h1
      · exact hi.before x y h1 hy'.1
      · obtain ⟨z0, hz0⟩ := hwc.1
        exact lt_trans (((hL x).1 h1).2 z0 hz0) (hy'.2 z0 hz0)
      · rw [List.cons_append, dom_cons] at h1
        rcases h1 with h1 | h1
        · exact hy'.2 x h1
        · exact absurd ((wf_append.1 hwz2).2.2 x x ((dom_reverse _ _).2 hx) h1) (lt_irrefl _)

/-- The loop of `insert_main` only ever fills gaps. -/
theorem insertLoopX_thrown {c : MapCfg V} {v : V} {B C : D → V → Prop} (n : Nat) {left : List (I × V)} {rest : I}
    {mid post : List (I × V)} (hi : LInv o c left rest mid post)
    (hB : ∀ x w, Maps o mapSeg (left.reverse ++ (mid ++ post)) x w → B x w)
    (hv : ∀ x, o.Mem x rest → ¬ Dom o mapSeg mid x → B x v)
    (hC : ∀ x w, C x w → Maps o mapSeg (left.reverse ++ (mid ++ post)) x w)
    {m : List (I × V)} (hm : m ∈ (insertLoopX o c v n left rest mid post).thrown) : MLeaves o B C m := by
  induction n generalizing left rest mid with
  | zero => cases mid <;> simp [insertLoopX] at hm
  | succ n ih =>
    cases mid with
    | nil => simp [insertLoopX] at hm
    | cons cur mid =>
      have hR := h.mem_leftSubtract rest cur.1
      have hL := h.mem_rightSubtract rest cur.1
      have hwc := wf_cons.1 (wf_append.1 hi.wf).2.1
      simp only [mapSeg_key] at hwc
      have hgap : ∀ x, o.Mem x (o.rightSubtract rest cur.1) → B x v := by
        intro x hx
        refine hv x ((hL x).1 hx).1 fun hd => ?_
        rw [dom_cons] at hd
        obtain ⟨z, hz⟩ := hwc.1
        rcases hd with hd | hd
        · exact lt_irrefl _ (((hL x).1 hx).2 x hd)
        · exact lt_asymm (((hL x).1 hx).2 z hz) (hwc.2.2 z x hz ((dom_append _ _ _).2 (Or.inl hd)))
      have hv' : ∀ x, o.Mem x (o.leftSubtract rest cur.1) → ¬ Dom o mapSeg mid x → B x v := by
        intro x hx hd
        refine hv x ((hR x).1 hx).1 fun hd' => ?_
        rw [dom_cons] at hd'
        rcases hd' with hd' | hd'
        · exact lt_irrefl _ (((hR x).1 hx).2 x hd')
        · exact hd hd'
      unfold insertLoopX at hm
      dsimp only at hm
      split at hm
      · rename_i he
        exact ih (hi.skip h) (by simpa using hB) hv' (by simpa using hC) hm
      · rename_i he
        rw [mem_thrown_bind] at hm
        rcases hm with hm | ⟨z0, e0, hm⟩
        · rw [insertAtX_thrown, List.mem_singleton] at hm
          rw [hm]
          exact ⟨hi.wf, hB, hC⟩
        · rw [insertAtX_result] at e0
          rw [insertAt_some e0] at hm
          obtain ⟨z, e, hmz, hcase⟩ := insert_round h c v hi (by simpa using he)
          rw [e] at hm
          simp only [mem_thrown_bind, thrown_ofOption, List.not_mem_nil, result_ofOption, Option.some.injEq,
            exists_eq_left', false_or] at hm
          have hB' : ∀ x w, Maps o mapSeg ((z.cur :: z.left).reverse ++ z.right) x w → B x w := by
            intro x w hw
            rcases (hmz x w).1 hw with h1 | ⟨h1, rfl⟩
            · exact hB x w h1
            · exact hgap x h1
          have hC' : ∀ x w, C x w → Maps o mapSeg ((z.cur :: z.left).reverse ++ z.right) x w :=
            fun x w hc => (hmz x w).2 (Or.inl (hC x w hc))
          rcases hcase with ⟨hr, hi'⟩ | ⟨hr, hi'⟩
          · rw [hr] at hB' hC'
            rw [if_neg (by rw [hr]; simp)] at hm
            refine ih hi' hB' ?_ hC' hm
            intro x hx hd
            exact hv x ((hR x).1 hx).1 hd
          · rw [hr] at hB' hC'
            rw [if_pos (by rw [hr]; simp)] at hm
            exact ih hi' hB' hv' hC' hm

/-- The associations that may be found after an exception in `insert` -/
def InsB (o : IntervalOps D I) (v : V) (l : List (I × V)) (k : I) (x : D) (w : V) : Prop :=
  Maps o mapSeg l x w ∨ (o.Mem x k ∧ ¬ Dom o mapSeg l x ∧ v = w)

theorem insertMainX_thrown {c : MapCfg V} {v : V} {a : List (I × V)} {g : I × V} {b post : List (I × V)} {k : I}
    (hr : Range o mapSeg a g b post k) {m : List (I × V)}
    (hm : m ∈ (insertMainX o c a g b post k v).thrown) :
    MLeaves o (InsB o v (a ++ g :: b ++ post) k) (Maps o mapSeg (a ++ g :: b ++ post)) m := by
  have hi : LInv o c a.reverse k (g :: b) post :=
    ⟨by simpa using hr.wf, fun x y hx hy => hr.before x y (by simpa using hx) hy, hr.after⟩
  have hout : ∀ x, o.Mem x k → ¬ Dom o mapSeg (g :: b) x → ¬ Dom o mapSeg (a ++ g :: b ++ post) x := by
    intro x hx hd hd'
    simp only [dom_append] at hd'
    rcases hd' with (h1 | h1) | h1
    · exact lt_irrefl _ (hr.before x x h1 hx)
    · exact hd h1
    · exact lt_irrefl _ (hr.after x x hx h1)
  unfold insertMainX at hm
  rw [mem_thrown_bind] at hm
  rcases hm with hm | ⟨r, e, hm⟩
  · exact insertLoopX_thrown h _ hi (fun x w hw => Or.inl (by simpa using hw))
      (fun x hx hd => Or.inr ⟨hx, hout x hx hd, rfl⟩) (fun x w hw => by simpa using hw) hm
  · rw [insertLoopX_result] at e
    obtain ⟨left, rest, e', hp⟩ := insertLoop_spec h c v (g :: b) (2 * (b.length + 1)) (by simp) hi
    rw [e'] at e
    cases e
    have hwl := hp.inv.wf
    simp only [List.nil_append] at hwl
    have hcur : ∀ x w, Maps o mapSeg left x w ∨ (o.Mem x rest ∧ v = w) ↔
        Maps o mapSeg a x w ∨ Maps o mapSeg (g :: b) x w ∨ (o.Mem x k ∧ v = w ∧ ¬ Dom o mapSeg (g :: b) x) := by
      intro x w
      have := hp.joint x x w (dg_self c x)
      simp only [joint_self, Fill, maps_reverse, btw_self, forall_eq, true_and, and_self_left] at this
      clear * - this
      grind
    dsimp only at hm
    split at hm
    · simp at hm
    · rename_i he
      simp only [mem_thrown_bind, insertAtX_thrown, List.mem_singleton, thrown_ofOption, List.not_mem_nil,
        and_false, exists_false, or_false] at hm
      rw [hm]
      refine ⟨hwl, ?_, ?_⟩
      · intro x w hw
        rw [maps_append, maps_reverse] at hw
        rcases hw with hw | hw
        · rcases (hcur x w).1 (Or.inl hw) with h1 | h1 | h1
          · exact Or.inl (by simp only [maps_append]; exact Or.inl (Or.inl h1))
          · exact Or.inl (by simp only [maps_append]; exact Or.inl (Or.inr h1))
          · exact Or.inr ⟨h1.1, hout x h1.1 h1.2.2, h1.2.1⟩
        · exact Or.inl (by rw [maps_append]; exact Or.inr hw)
      · intro x w hw
        rw [maps_append, maps_reverse]
        simp only [maps_append] at hw
        have hd : Dom o mapSeg a x ∨ Dom o mapSeg (g :: b) x → ¬ o.Mem x rest := by
          intro hd hx
          refine lt_irrefl _ (hp.past x x ?_ hx)
          rw [dom_reverse]; exact hd
        rcases hw with (hw | hw) | hw
        · rcases (hcur x w).2 (Or.inl hw) with h1 | h1
          · exact Or.inl h1
          · exact absurd h1.1 (hd (Or.inl hw.dom))
        · rcases (hcur x w).2 (Or.inr (Or.inl hw)) with h1 | h1
          · exact Or.inl h1
          · exact absurd h1.1 (hd (Or.inr hw.dom))
        · exact Or.inr hw

/-- What an exception in `insert(segment)` leaves behind: nothing is lost -/
theorem insertX_thrown {c : MapCfg V} {l : List (I × V)} (hl : WF o mapSeg l) {k : I} {v : V} {m : List (I × V)}
    (hm : m ∈ (insertX o c l k v).thrown) : MLeaves o (InsB o v l k) (Maps o mapSeg l) m := by
  unfold insertX at hm
  split at hm
  · simp at hm
  rename_i he
  have hk : o.Nonempty k := (nonempty_iff h).2 (by simpa using he)
  split at hm
  · simp at hm
  rw [mem_thrown_bind] at hm
  rcases hm with hm | ⟨_, _, hm⟩
  · rw [thrown_mayThrow, List.mem_singleton] at hm
    rw [hm]
    exact ⟨hl, fun x w hw => Or.inl hw, fun x w hc => hc⟩
  · rw [mem_thrown_bind] at hm
    rcases hm with hm | ⟨⟨a, b, c'⟩, e, hm⟩
    · simp at hm
    · rw [result_ofOption] at e
      rcases range_cases h hl hk with ⟨a', c', e', rfl, _⟩ | ⟨a', g, b', c', e', rfl, hr⟩ <;>
        rw [e'] at e <;> cases e
      · simp at hm
      · exact insertMainX_thrown h hr hm

/-- What an exception in `insert(prior, segment)` leaves behind: nothing is lost -/
theorem insertHintX_thrown {c : MapCfg V} {n : Nat} {q : Bool} {l : List (I × V)} (hl : WF o mapSeg l) {k : I}
    {v : V} {m : List (I × V)}
    (hm : m ∈ (insertHintX o c n q l k v).thrown) : MLeaves o (InsB o v l k) (Maps o mapSeg l) m := by
  unfold insertHintX at hm
  split at hm
  · simp at hm
  rename_i he
  have hk : o.Nonempty k := (nonempty_iff h).2 (by simpa using he)
  split at hm
  · simp at hm
  rw [mem_thrown_bind] at hm
  rcases hm with hm | ⟨_, _, hm⟩
  · rw [thrown_mayThrow, List.mem_singleton] at hm
    rw [hm]
    exact ⟨hl, fun x w hw => Or.inl hw, fun x w hc => hc⟩
  · rw [mem_thrown_bind] at hm
    rcases hm with hm | ⟨⟨a, b, c'⟩, e, hm⟩
    · simp at hm
    · rw [result_ofOption] at e
      rcases range_cases h hl hk with ⟨a', c', e', rfl, _⟩ | ⟨a', g, b', c', e', rfl, hr⟩ <;>
        rw [e'] at e <;> cases e
      · simp at hm
      · dsimp only at hm
        split at hm
        · simp at hm
        · exact insertMainX_thrown h hr hm

/-- The state between the two changes when a node is split by an erasure -/
theorem erase_split {a : List (I × V)} {g : I × V} {post : List (I × V)} {k : I}
    (hr : Range o mapSeg a g [] post k) (hne : o.isEmpty (o.rightSubtract g.1 k) = false) :
    MLeaves o (fun x w => Maps o mapSeg (a ++ [g] ++ post) x w ∧ ¬ o.Mem x k) (Clear o (a ++ [g] ++ post) k)
      (((o.rightSubtract g.1 k, g.2) :: a.reverse).reverse ++ post) := by
  have hL := h.mem_rightSubtract g.1 k
  have hwf := hr.wf
  simp only [List.append_assoc, List.cons_append, List.nil_append] at hwf
  have hw1 := wf_append.1 hwf
  have hw2 := wf_cons.1 hw1.2.1
  simp only [mapSeg_key] at hw2
  obtain ⟨y, hy⟩ := hr.nonempty
  have hk : ∀ x, o.Mem x (o.rightSubtract g.1 k) → ¬ o.Mem x k := fun x hx hxk => lt_irrefl _ (((hL x).1 hx).2 x hxk)
  simp only [List.reverse_cons, List.reverse_reverse, List.append_assoc, List.cons_append, List.nil_append]
  refine ⟨?_, ?_, ?_⟩
  · rw [wf_append, wf_cons]
    refine ⟨hw1.1, ⟨(nonempty_iff h).2 hne, hw2.2.1, fun x y hx hy => hw2.2.2 x y ((hL x).1 hx).1 hy⟩, ?_⟩
    intro x y hx hy
    refine hw1.2.2 x y hx ?_
    rw [dom_cons] at hy ⊢
    exact hy.imp_left fun hy => ((hL y).1 hy).1
  · intro x w hw
    simp only [maps_append, maps_cons, mapSeg_key, mapSeg_val] at hw ⊢
    rcases hw with hw | hw | hw
    · exact ⟨Or.inl hw, fun hxk => lt_irrefl _ (hr.before x x hw.dom hxk)⟩
    · exact ⟨Or.inr (Or.inl ⟨((hL x).1 hw.1).1, hw.2⟩), hk x hw.1⟩
    · exact ⟨Or.inr (Or.inr hw), fun hxk => lt_irrefl _ (hr.after x x hxk hw.dom)⟩
  · intro x w hc
    have := clear_range hr (by simpa using hc)
    simp only [maps_append, maps_cons]
    tauto

/-- What an exception in `erase(segment)` leaves behind -/
theorem eraseSegX_thrown {c : MapCfg V} {l : List (I × V)} (hl : WF o mapSeg l) {k : I} {v : V} {m : List (I × V)}
    (hm : m ∈ (eraseSegX o c l k v).thrown) :
    MLeaves o (fun x w => Maps o mapSeg l x w ∧ ¬ o.Mem x k) (Clear o l k) m := by
  unfold eraseSegX at hm
  split at hm
  · simp at hm
  rename_i he
  have hk : o.Nonempty k := (nonempty_iff h).2 (by simpa using he)
  split at hm
  · simp at hm
  rw [mem_thrown_bind] at hm
  rcases hm with hm | ⟨⟨a, b, c'⟩, e, hm⟩
  · simp at hm
  rw [result_ofOption] at e
  rcases range_cases h hl hk with ⟨a', c', e', rfl, _⟩ | ⟨a', g, b', c', e', rfl, hr⟩ <;>
    rw [e'] at e <;> cases e
  · simp at hm
  · cases b' with
    | cons _ _ => simp at hm
    | nil =>
      dsimp only at hm
      split at hm
      · split at hm
        · rename_i hc
          simp only [Bool.and_eq_true, Bool.not_eq_true'] at hc
          simp only [mem_thrown_bind, insertAtX_thrown, List.mem_singleton, thrown_pure, List.not_mem_nil,
            and_false, exists_false, or_false] at hm
          rw [hm]
          exact erase_split h hr hc.1
        · simp at hm
      · simp at hm

/-- What an exception in `erase(interval)` leaves behind -/
theorem eraseItvX_thrown {l : List (I × V)} (hl : WF o mapSeg l) {k : I} {m : List (I × V)}
    (hm : m ∈ (eraseItvX o l k).thrown) :
    MLeaves o (fun x w => Maps o mapSeg l x w ∧ ¬ o.Mem x k) (Clear o l k) m := by
  unfold eraseItvX at hm
  split at hm
  · simp at hm
  rename_i he
  have hk : o.Nonempty k := (nonempty_iff h).2 (by simpa using he)
  rw [mem_thrown_bind] at hm
  rcases hm with hm | ⟨⟨a, b, c'⟩, e, hm⟩
  · simp at hm
  rw [result_ofOption] at e
  rcases range_cases h hl hk with ⟨a', c', e', rfl, _⟩ | ⟨a', g, b', c', e', rfl, hr⟩ <;>
    rw [e'] at e <;> cases e
  · simp at hm
  · cases b' with
    | cons _ _ => simp at hm
    | nil =>
      dsimp only at hm
      split at hm
      · rename_i hc
        simp only [Bool.and_eq_true, Bool.not_eq_true'] at hc
        simp only [mem_thrown_bind, insertAtX_thrown, List.mem_singleton, thrown_pure, List.not_mem_nil,
          and_false, exists_false, or_false] at hm
        rw [hm]
        exact erase_split h hr hc.1
      · simp at hm

/-- What an exception in `set(segment)` leaves behind -/
theorem setAtX_thrown {c : MapCfg V} {l : List (I × V)} (hl : WF o mapSeg l) {k : I} {v : V} {m : List (I × V)}
    (hm : m ∈ (setAtX o c l k v).thrown) :
    MLeaves o (fun x w => (Maps o mapSeg l x w ∧ ¬ o.Mem x k) ∨ (o.Mem x k ∧ v = w)) (Clear o l k) m := by
  unfold setAtX at hm
  rw [mem_thrown_bind] at hm
  rcases hm with hm | ⟨l1, e, hm⟩
  · have := eraseItvX_thrown h hl hm
    exact ⟨this.wf, fun x w hw => Or.inl (this.upper x w hw), this.lower⟩
  · rw [eraseItvX_result] at e
    obtain ⟨l2, e2, hs⟩ := eraseItv_spec h hl k
    rw [e2] at e
    obtain rfl := Option.some.inj e
    have hmp : ∀ x w, Maps o mapSeg l2 x w ↔ Maps o mapSeg l x w ∧ ¬ o.Mem x k := by
      intro x w
      have := hs.joint x x w
      simpa only [joint_self, btw_self, forall_eq, forall_const] using this
    have := insertX_thrown h hs.wf hm
    refine ⟨this.wf, fun x w hw => ?_, fun x w hc => this.lower x w ((hmp x w).2 ⟨hc.maps, hc.notMem⟩)⟩
    rcases this.upper x w hw with h1 | h1
    · exact Or.inl ((hmp x w).1 h1)
    · exact Or.inr ⟨h1.1, h1.2.2⟩

end
end IMap
end ICL
