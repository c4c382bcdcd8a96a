import Verif.Theory.MapSub
import Verif.Theory.Canon

/-!
# Erasure of segments and intervals: interval maps
-/

set_option linter.unusedSectionVars false
set_option linter.unusedSimpArgs false
set_option linter.unusedVariables false

namespace ICL

variable {D I V : Type} [LinearOrder D] {o : IntervalOps D I}

namespace IMap
variable [DecidableEq V]

/-- What is left of the node `s` when its elements in `k` are erased, given that `P` holds of its value. -/
def cut (o : IntervalOps D I) (P : V → Bool) (k : I) (s : I × V) : List (I × V) :=
  if P s.2 then
    (if o.isEmpty (o.rightSubtract s.1 k) then [] else [(o.rightSubtract s.1 k, s.2)]) ++
    (if o.isEmpty (o.leftSubtract s.1 k) then [] else [(o.leftSubtract s.1 k, s.2)])
  else [s]

/-- The elements of `k` whose value satisfies `P` are gone; nothing else changes. -/
structure EraSpec (o : IntervalOps D I) (P : V → Bool) (l : List (I × V)) (k : I) (l' : List (I × V)) :
    Prop where
  wf : WF o mapSeg l'
  joint : ∀ x y w, Joint o l' x y w ↔ Joint o l x y w ∧ (P w = true → ∀ z, Btw x y z → ¬ o.Mem z k)

section
variable (h : o.Lawful)
include h

theorem EraSpec.joined {P : V → Bool} {l l' : List (I × V)} {k : I} (hl : WF o mapSeg l)
    (hs : EraSpec o P l k l') (hj : Joined o mapSeg l) : Joined o mapSeg l' := by
  rw [joined_iff h hs.wf]
  rw [joined_iff h hl] at hj
  intro x y v hxy hm
  have hd : ∀ z, x ≤ z → z ≤ y → Maps o mapSeg l z v ∧ (P v = true → ¬ o.Mem z k) := by
    intro z h1 h2
    have := hm z h1 h2
    rw [← joint_self, hs.joint] at this
    exact ⟨(joint_self _ _ _).1 this.1, fun hp => this.2 hp z (btw_self.2 rfl)⟩
  obtain ⟨w, hw⟩ := joint_iff_same.1 (hj x y v hxy fun z h1 h2 => (hd z h1 h2).1)
  have : w = v := hl.maps_unique hw.maps (hd x le_rfl hxy).1
  subst this
  exact ((hs.joint x y w).2 ⟨hw, fun hp z hz => (hd z ((btw_iff_of_le hxy).1 hz).1 ((btw_iff_of_le hxy).1 hz).2).2 hp⟩).same

theorem cut_spec (P : V → Bool) {k : I} (hk : o.Nonempty k) {s : I × V} (hs : o.Nonempty s.1) :
    WF o mapSeg (cut o P k s) ∧ (∀ x, Dom o mapSeg (cut o P k s) x → o.Mem x s.1) ∧
    ∀ x y w, Joint o (cut o P k s) x y w ↔
      (o.Mem x s.1 ∧ o.Mem y s.1 ∧ s.2 = w) ∧ (P w = true → ∀ z, Btw x y z → ¬ o.Mem z k) := by
  have hL := h.mem_rightSubtract s.1 k
  have hR := h.mem_leftSubtract s.1 k
  have hlr : ∀ x y, o.Mem x (o.rightSubtract s.1 k) → o.Mem y (o.leftSubtract s.1 k) → x < y := by
    intro x y hx hy
    obtain ⟨z, hz⟩ := hk
    exact lt_trans (((hL x).1 hx).2 z hz) (((hR y).1 hy).2 z hz)
  have hkey : ∀ x y, (∀ z, Btw x y z → ¬ o.Mem z k) ↔
      ((∀ z, o.Mem z k → x < z) ∧ (∀ z, o.Mem z k → y < z)) ∨
      ((∀ z, o.Mem z k → z < x) ∧ (∀ z, o.Mem z k → z < y)) := by
    intro x y
    constructor
    · intro hn
      rcases point_tri h hk x with h1 | h1 | h1
      · exact absurd h1 (hn x (btw_left x y))
      · rcases point_tri h hk y with h2 | h2 | h2
        · exact absurd h2 (hn y (btw_right x y))
        · exact Or.inl ⟨h1, h2⟩
        · obtain ⟨z, hz⟩ := hk
          exact absurd hz (hn z ⟨(min_le_left _ _).trans (h1 z hz).le, (h2 z hz).le.trans (le_max_right _ _)⟩)
      · rcases point_tri h hk y with h2 | h2 | h2
        · exact absurd h2 (hn y (btw_right x y))
        · obtain ⟨z, hz⟩ := hk
          exact absurd hz (hn z ⟨(min_le_right _ _).trans (h2 z hz).le, (h1 z hz).le.trans (le_max_left _ _)⟩)
        · exact Or.inr ⟨h1, h2⟩
    · rintro (⟨h1, h2⟩ | ⟨h1, h2⟩) z hz hzk
      · exact absurd (lt_of_le_of_lt hz.2 (max_lt (h1 z hzk) (h2 z hzk))) (lt_irrefl _)
      · exact absurd (lt_of_lt_of_le (lt_min (h1 z hzk) (h2 z hzk)) hz.1) (lt_irrefl _)
  unfold cut
  cases hp : P s.2 with
  | false =>
    simp only [Bool.false_eq_true, if_false]
    refine ⟨wf_singleton.2 hs, by simp, fun x y w => ?_⟩
    simp only [joint_cons, joint_nil, or_false]
    constructor
    · rintro ⟨h1, h2, rfl⟩
      exact ⟨⟨h1, h2, rfl⟩, fun hp' => by rw [hp] at hp'; simp at hp'⟩
    · exact fun h1 => h1.1
  | true =>
    simp only [if_true]
    have hjl : ∀ x y w, Joint o (if o.isEmpty (o.rightSubtract s.1 k) then []
        else [(o.rightSubtract s.1 k, s.2)]) x y w ↔
        (o.Mem x s.1 ∧ o.Mem y s.1 ∧ s.2 = w) ∧ (∀ z, o.Mem z k → x < z) ∧ (∀ z, o.Mem z k → y < z) := by
      intro x y w
      cases he : o.isEmpty (o.rightSubtract s.1 k) with
      | true =>
        simp only [if_true, joint_nil, false_iff]
        rintro ⟨⟨h1, _⟩, h2, _⟩
        exact (h.isEmpty_iff _).1 he x ((hL x).2 ⟨h1, h2⟩)
      | false =>
        simp only [Bool.false_eq_true, if_false, joint_cons, joint_nil, or_false, hL]
        clear * -
        grind
    have hjr : ∀ x y w, Joint o (if o.isEmpty (o.leftSubtract s.1 k) then []
        else [(o.leftSubtract s.1 k, s.2)]) x y w ↔
        (o.Mem x s.1 ∧ o.Mem y s.1 ∧ s.2 = w) ∧ (∀ z, o.Mem z k → z < x) ∧ (∀ z, o.Mem z k → z < y) := by
      intro x y w
      cases he : o.isEmpty (o.leftSubtract s.1 k) with
      | true =>
        simp only [if_true, joint_nil, false_iff]
        rintro ⟨⟨h1, _⟩, h2, _⟩
        exact (h.isEmpty_iff _).1 he x ((hR x).2 ⟨h1, h2⟩)
      | false =>
        simp only [Bool.false_eq_true, if_false, joint_cons, joint_nil, or_false, hR]
        clear * -
        grind
    have hj : ∀ x y w, Joint o ((if o.isEmpty (o.rightSubtract s.1 k) then []
        else [(o.rightSubtract s.1 k, s.2)]) ++ (if o.isEmpty (o.leftSubtract s.1 k) then []
        else [(o.leftSubtract s.1 k, s.2)])) x y w ↔
        (o.Mem x s.1 ∧ o.Mem y s.1 ∧ s.2 = w) ∧ (∀ z, Btw x y z → ¬ o.Mem z k) := by
      intro x y w
      rw [joint_append, hjl, hjr, hkey]
      clear * -
      grind
    refine ⟨wf_append.2 ⟨?_, ?_, ?_⟩, ?_, fun x y w => ?_⟩
    · split
      · exact wf_nil
      · rename_i he
        exact wf_singleton.2 ((nonempty_iff h).2 (by simpa using he))
    · split
      · exact wf_nil
      · rename_i he
        exact wf_singleton.2 ((nonempty_iff h).2 (by simpa using he))
    · intro x y hx hy
      rw [dom_iff_joint] at hx hy
      obtain ⟨u, hx⟩ := hx
      obtain ⟨u', hy⟩ := hy
      have hx := (hjl x x u).1 hx
      have hy := (hjr y y u').1 hy
      obtain ⟨z, hz⟩ := hk
      exact lt_trans (hx.2.1 z hz) (hy.2.1 z hz)
    · intro x hx
      obtain ⟨u, hu⟩ := dom_iff_joint.1 hx
      exact ((hj x x u).1 hu).1.1
    · rw [hj]
      constructor
      · rintro ⟨h1, h2⟩; exact ⟨h1, fun _ => h2⟩
      · rintro ⟨h1, h2⟩; exact ⟨h1, h2 (by rw [← h1.2.2]; exact hp)⟩

/-- Cutting every node of a sequence. -/
theorem cuts_spec (P : V → Bool) {k : I} (hk : o.Nonempty k) {m : List (I × V)} (hm : WF o mapSeg m) :
    EraSpec o P m k (m.flatMap (cut o P k)) := by
  induction m with
  | nil => exact ⟨wf_nil, by simp⟩
  | cons s m ih =>
    have hw := wf_cons.1 hm
    obtain ⟨hc1, hc2, hc3⟩ := cut_spec h P hk (s := s) hw.1
    have ih := ih hw.2.1
    refine ⟨?_, fun x y w => ?_⟩
    · rw [List.flatMap_cons, wf_append]
      refine ⟨hc1, ih.wf, fun x y hx hy => hw.2.2 x y (hc2 x hx) ?_⟩
      obtain ⟨u, hu⟩ := dom_iff_joint.1 hy
      exact ((ih.joint y y u).1 hu).1.left
    · rw [List.flatMap_cons, joint_append, hc3, ih.joint, joint_cons]
      clear * -
      grind

/-- Cutting the collision sequence. -/
theorem range_cuts (P : V → Bool) {a : List (I × V)} {g : I × V} {b post : List (I × V)} {k : I}
    (hr : Range o mapSeg a g b post k) :
    EraSpec o P (a ++ g :: b ++ post) k (a ++ ((g :: b).flatMap (cut o P k)) ++ post) := by
  have hw1 := wf_append.1 hr.wf
  have hw2 := wf_append.1 hw1.1
  have hs := cuts_spec h P hr.nonempty hw2.2.1
  have hsub : ∀ x, Dom o mapSeg ((g :: b).flatMap (cut o P k)) x → Dom o mapSeg (g :: b) x := by
    intro x hx
    obtain ⟨u, hu⟩ := dom_iff_joint.1 hx
    exact ((hs.joint x x u).1 hu).1.left
  refine ⟨?_, fun x y w => ?_⟩
  · refine wf_append.2 ⟨wf_append.2 ⟨hw2.1, hs.wf, fun x y hx hy => hw2.2.2 x y hx (hsub y hy)⟩, hw1.2.1,
      fun x y hx hy => hw1.2.2 x y ?_ hy⟩
    rw [dom_append] at hx ⊢
    rcases hx with hx | hx
    · exact Or.inl hx
    · exact Or.inr (hsub x hx)
  · simp only [joint_append, hs.joint]
    have ha : Joint o a x y w → ∀ z, Btw x y z → ¬ o.Mem z k := by
      intro hj z hz hzk
      exact absurd (hr.before z z (joint_btw h hj hz).right hzk) (lt_irrefl _)
    have hp : Joint o post x y w → ∀ z, Btw x y z → ¬ o.Mem z k := by
      intro hj z hz hzk
      exact absurd (hr.after z z hzk (joint_btw h hj hz).right) (lt_irrefl _)
    clear * - ha hp
    grind

/-- A node that is followed by another one of the collision sequence has no residual on its right. -/
theorem resid_right {g : I × V} {m : List (I × V)} {k : I} (hw : WF o mapSeg (g :: m))
    (hm : ∃ t ∈ m, ∃ x, o.Mem x t.1 ∧ o.Mem x k) : o.isEmpty (o.leftSubtract g.1 k) = true := by
  rw [h.isEmpty_iff]
  intro x hx
  rw [h.mem_leftSubtract] at hx
  obtain ⟨t, ht, z, hz, hzk⟩ := hm
  exact lt_asymm (hx.2 z hzk) ((wf_cons.1 hw).2.2 x z hx.1 ⟨t, ht, hz⟩)

/-- A node that follows another one of the collision sequence has no residual on its left. -/
theorem resid_left {g t : I × V} {k : I} (hb : o.Before g.1 t.1) (hg : ∃ x, o.Mem x g.1 ∧ o.Mem x k) :
    o.isEmpty (o.rightSubtract t.1 k) = true := by
  rw [h.isEmpty_iff]
  intro x hx
  rw [h.mem_rightSubtract] at hx
  obtain ⟨z, hz, hzk⟩ := hg
  exact lt_asymm (hx.2 z hzk) (hb z x hz hx.1)

/-- `erase_rest`. -/
theorem eraseRest_eq {k : I} {v : V} {cur : I × V} {mid : List (I × V)} (hw : WF o mapSeg (cur :: mid))
    (hov : ∀ t ∈ mid, ∃ x, o.Mem x t.1 ∧ o.Mem x k)
    (hl : ∀ t ∈ cur :: mid, o.isEmpty (o.rightSubtract t.1 k) = true) :
    eraseRest o k v cur mid = (cur :: mid).flatMap (cut o (fun u => decide (u = v)) k) := by
  induction mid generalizing cur with
  | nil =>
    have := hl cur (by simp)
    simp only [eraseRest, List.flatMap_cons, List.flatMap_nil, List.append_nil, cut, this, if_true,
      List.nil_append, decide_eq_true_eq]
  | cons nxt more ih =>
    have hl1 := hl cur (by simp)
    have hr1 := resid_right h hw ⟨nxt, by simp, hov nxt (by simp)⟩
    have := ih (cur := nxt) (wf_cons.1 hw).2.1 (fun t ht => hov t (by simp [ht])) (fun t ht => hl t (by simp [List.mem_cons.1 ht]))
    rw [List.flatMap_cons]
    by_cases hv : cur.2 = v <;> simp [eraseRest, cut, hl1, hr1, hv, this]

/-- `erase(interval)`, the first and last node of a collision sequence of two or more. -/
theorem erase_ends {k : I} {mid : List (I × V)} {cur : I × V} (hw : WF o mapSeg (cur :: mid))
    (hov : ∀ t ∈ mid, ∃ x, o.Mem x t.1 ∧ o.Mem x k)
    (hl : ∀ t ∈ cur :: mid, o.isEmpty (o.rightSubtract t.1 k) = true) :
    (cur :: mid).flatMap (cut o (fun _ : V => true) k) =
      (if o.isEmpty (o.leftSubtract (mid.getLastD cur).1 k) then []
        else [(o.leftSubtract (mid.getLastD cur).1 k, (mid.getLastD cur).2)]) := by
  induction mid generalizing cur with
  | nil =>
    have := hl cur (by simp)
    simp [cut, this]
  | cons nxt more ih =>
    have hl1 := hl cur (by simp)
    have hr1 := resid_right h hw ⟨nxt, by simp, hov nxt (by simp)⟩
    have := ih (cur := nxt) (wf_cons.1 hw).2.1 (fun t ht => hov t (by simp [ht])) (fun t ht => hl t (by simp [List.mem_cons.1 ht]))
    rw [List.flatMap_cons, this, List.getLastD_cons]
    simp [cut, hl1, hr1]

theorem range_lefts {a : List (I × V)} {g : I × V} {b post : List (I × V)} {k : I}
    (hr : Range o mapSeg a g b post k) :
    ∀ t ∈ b, o.isEmpty (o.rightSubtract t.1 k) = true := by
  have hw2 := wf_cons.1 (wf_append.1 (wf_append.1 hr.wf).1).2.1
  intro t ht
  refine resid_left h (g := g) (fun x y hx hy => hw2.2.2 x y hx ⟨t, ht, hy⟩) (hr.overlap g (by simp))

/-- The insertion of the right residual of the only node of a collision sequence. -/
theorem insertResid_eq {a : List (I × V)} {g : I × V} {post : List (I × V)} {k : I} {v : V}
    (hr : Range o mapSeg a g [] post k) (h1 : o.isEmpty (o.rightSubtract g.1 k) = false)
    (h2 : o.isEmpty (o.leftSubtract g.1 k) = false) :
    insertAt o mapSeg ((o.rightSubtract g.1 k, g.2) :: a.reverse) (o.leftSubtract g.1 k, v) post =
      some ⟨(o.rightSubtract g.1 k, g.2) :: a.reverse, (o.leftSubtract g.1 k, v), post⟩ := by
  have hw1 := wf_append.1 hr.wf
  have hw2 := wf_append.1 hw1.1
  have hn1 := (nonempty_iff h).2 h1
  have hn2 := (nonempty_iff h).2 h2
  have hL := h.mem_rightSubtract g.1 k
  have hR := h.mem_leftSubtract g.1 k
  rw [insertAt_eq h]
  · intro p hp
    rcases List.mem_cons.1 hp with rfl | hp
    · exact hn1
    · exact hw2.1.nonempty p (by simpa using hp)
  · exact hw1.2.1.nonempty
  · exact hn2
  · intro x y hx hy
    rw [dom_cons] at hx
    rcases hx with hx | hx
    · obtain ⟨z, hz⟩ := hr.nonempty
      exact lt_trans (((hL x).1 hx).2 z hz) (((hR y).1 hy).2 z hz)
    · exact hw2.2.2 x y (by simpa using hx) (by simpa using ((hR y).1 hy).1)
  · intro x y hx hy
    exact hw1.2.2 x y (by simp only [dom_append, dom_cons, mapSeg_key]; exact Or.inr (Or.inl ((hR x).1 hx).1)) hy

/-- Erasing where nothing overlaps. -/
theorem era_free (P : V → Bool) {l : List (I × V)} {k : I} (hl : WF o mapSeg l)
    (hn : ∀ x, Dom o mapSeg l x → ¬ o.Mem x k) : EraSpec o P l k l :=
  ⟨hl, fun x y w => ⟨fun hj => ⟨hj, fun _ z hz => hn z (joint_btw h hj hz).right⟩, fun hj => hj.1⟩⟩

/-- `erase(segment)`. -/
theorem eraseSeg_spec (c : MapCfg V) {l : List (I × V)} (hl : WF o mapSeg l) (k : I) (v : V) :
    ∃ l', eraseSeg o c l k v = some l' ∧ (absorbable c v = true → l' = l) ∧
      (absorbable c v = false → EraSpec o (fun u => decide (u = v)) l k l') := by
  unfold eraseSeg
  by_cases hk : o.Nonempty k
  · rw [isEmpty_false h hk]
    simp only [Bool.false_eq_true, if_false]
    cases hv : absorbable c v with
    | true => exact ⟨l, by simp, by simp, by simp⟩
    | false =>
      simp only [Bool.false_eq_true, if_false]
      rcases range_cases h hl hk with ⟨a, p, e, rfl, h1, h2⟩ | ⟨a, g, b, p, e, rfl, hr⟩
      · refine ⟨a ++ p, by simp only [e, Option.bind_eq_bind, Option.bind_some], by simp, fun _ =>
          era_free h _ hl fun x hx hxk => ?_⟩
        rw [dom_append] at hx
        rcases hx with hx | hx
        · exact absurd (h1 x x hx hxk) (lt_irrefl _)
        · exact absurd (h2 x x hxk hx) (lt_irrefl _)
      · refine ⟨_, ?_, by simp, fun _ => range_cuts h _ hr⟩
        simp only [e, Option.bind_eq_bind, Option.bind_some]
        cases b with
        | nil =>
          by_cases hgv : g.2 = v
          · cases hL : o.isEmpty (o.rightSubtract g.1 k) <;> cases hR : o.isEmpty (o.leftSubtract g.1 k) <;>
              simp [cut, hgv, hL, hR]
            have := insertResid_eq h (v := v) hr hL hR
            rw [hgv] at this
            rw [this]
            simp [Zip.toList]
          · simp [cut, hgv]
        | cons second b =>
          have hw2 := (wf_append.1 (wf_append.1 hr.wf).1).2.1
          have hres := eraseRest_eq h (v := v) (wf_cons.1 hw2).2.1
            (fun t ht => hr.overlap t (by simp [ht])) (range_lefts h hr)
          have hR := resid_right h hw2 ⟨second, by simp, hr.overlap second (by simp)⟩
          rw [List.flatMap_cons, ← hres]
          by_cases hgv : g.2 = v
          · cases hL : o.isEmpty (o.rightSubtract g.1 k) <;> simp [cut, hgv, hL, hR]
          · simp [cut, hgv]
  · rw [(empty_iff h).2 hk]
    exact ⟨l, by simp, by simp, fun _ => era_free h _ hl fun x _ hx => hk ⟨x, hx⟩⟩

/-- `erase(interval)`. -/
theorem eraseItv_spec {l : List (I × V)} (hl : WF o mapSeg l) (k : I) :
    ∃ l', eraseItv o l k = some l' ∧ EraSpec o (fun _ => true) l k l' := by
  unfold eraseItv
  by_cases hk : o.Nonempty k
  · rw [isEmpty_false h hk]
    simp only [Bool.false_eq_true, if_false]
    rcases range_cases h hl hk with ⟨a, p, e, rfl, h1, h2⟩ | ⟨a, g, b, p, e, rfl, hr⟩
    · refine ⟨a ++ p, by simp only [e, Option.bind_eq_bind, Option.bind_some],
        era_free h _ hl fun x hx hxk => ?_⟩
      rw [dom_append] at hx
      rcases hx with hx | hx
      · exact absurd (h1 x x hx hxk) (lt_irrefl _)
      · exact absurd (h2 x x hxk hx) (lt_irrefl _)
    · refine ⟨_, ?_, range_cuts h _ hr⟩
      simp only [e, Option.bind_eq_bind, Option.bind_some]
      cases b with
      | nil =>
        cases hL : o.isEmpty (o.rightSubtract g.1 k) <;> cases hR : o.isEmpty (o.leftSubtract g.1 k) <;>
          simp [cut, hL, hR]
        rw [insertResid_eq h hr hL hR]
        simp [Zip.toList]
      | cons second b =>
        have hw2 := (wf_append.1 (wf_append.1 hr.wf).1).2.1
        have hres := erase_ends h (wf_cons.1 hw2).2.1
          (fun t ht => hr.overlap t (by simp [ht])) (range_lefts h hr)
        have hR := resid_right h hw2 ⟨second, by simp, hr.overlap second (by simp)⟩
        rw [List.flatMap_cons, hres]
        cases hL : o.isEmpty (o.rightSubtract g.1 k) <;> simp [cut, hL, hR]
  · rw [(empty_iff h).2 hk]
    exact ⟨l, by simp, era_free h _ hl fun x _ hx => hk ⟨x, hx⟩⟩

end
end IMap
end ICL
