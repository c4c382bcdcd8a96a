import Verif.Model.Map
import Verif.Theory.SetFun

/-!
# Addition of a segment: interval maps
-/

set_option linter.unusedSectionVars false
set_option linter.unusedSimpArgs false
set_option linter.unusedVariables false

namespace ICL

variable {D I V : Type} [LinearOrder D] {o : IntervalOps D I}

/-- Two elements lie in one segment, which has the value `w`. -/
def Joint (o : IntervalOps D I) (l : List (I × V)) (x y : D) (w : V) : Prop :=
  ∃ s ∈ l, o.Mem x s.1 ∧ o.Mem y s.1 ∧ s.2 = w

@[simp] theorem joint_nil (x y : D) (w : V) : Joint o [] x y w ↔ False := by simp [Joint]
@[simp] theorem joint_cons (s : I × V) (l : List (I × V)) (x y : D) (w : V) :
    Joint o (s :: l) x y w ↔ (o.Mem x s.1 ∧ o.Mem y s.1 ∧ s.2 = w) ∨ Joint o l x y w := by
  simp [Joint]
@[simp] theorem joint_append (a b : List (I × V)) (x y : D) (w : V) :
    Joint o (a ++ b) x y w ↔ Joint o a x y w ∨ Joint o b x y w := by
  simp only [Joint, List.mem_append, or_and_right, exists_or]
@[simp] theorem joint_reverse (a : List (I × V)) (x y : D) (w : V) :
    Joint o a.reverse x y w ↔ Joint o a x y w := by simp [Joint]
theorem joint_self (l : List (I × V)) (x : D) (w : V) : Joint o l x x w ↔ Maps o mapSeg l x w := by
  simp [Joint, Maps]
theorem Joint.left {l : List (I × V)} {x y : D} {w : V} (h : Joint o l x y w) : Dom o mapSeg l x :=
  let ⟨s, h1, h2, _⟩ := h; ⟨s, h1, h2⟩
theorem Joint.right {l : List (I × V)} {x y : D} {w : V} (h : Joint o l x y w) : Dom o mapSeg l y :=
  let ⟨s, h1, _, h2, _⟩ := h; ⟨s, h1, h2⟩
theorem Joint.same {l : List (I × V)} {x y : D} {w : V} (h : Joint o l x y w) : Same o mapSeg l x y :=
  let ⟨s, h1, h2, h3, _⟩ := h; ⟨s, h1, h2, h3⟩
theorem Joint.maps {l : List (I × V)} {x y : D} {w : V} (h : Joint o l x y w) : Maps o mapSeg l x w :=
  let ⟨s, h1, h2, _, h3⟩ := h; ⟨s, h1, h2, h3⟩
theorem joint_iff_same {l : List (I × V)} {x y : D} : Same o mapSeg l x y ↔ ∃ w, Joint o l x y w :=
  ⟨fun ⟨s, h1, h2, h3⟩ => ⟨s.2, s, h1, h2, h3, rfl⟩, fun ⟨_, h⟩ => h.same⟩
theorem dom_iff_joint {l : List (I × V)} {x : D} : Dom o mapSeg l x ↔ ∃ w, Joint o l x x w :=
  ⟨fun ⟨s, h1, h2⟩ => ⟨s.2, s, h1, h2, h2, rfl⟩, fun ⟨_, h⟩ => h.left⟩

/-- Joining maps are only compared element by element. -/
def Dg (c : MapCfg V) (x y : D) : Prop := c.joining = true → x = y

theorem dg_self (c : MapCfg V) (x : D) : Dg c x x := fun _ => rfl

/-- Same associations, and same segments unless the map joins. -/
def JointEq (o : IntervalOps D I) (c : MapCfg V) (a b : List (I × V)) : Prop :=
  ∀ (x y : D) w, Dg c x y → (Joint o a x y w ↔ Joint o b x y w)

theorem JointEq.refl (c : MapCfg V) (a : List (I × V)) : JointEq o c a a := fun _ _ _ _ => Iff.rfl

theorem JointEq.dom {c : MapCfg V} {a b : List (I × V)} (h : JointEq o c a b) (x : D) :
    Dom o mapSeg a x ↔ Dom o mapSeg b x := by
  simp only [dom_iff_joint, h x x _ (dg_self c x)]

theorem jointEq_of_maps {c : MapCfg V} (hc : c.joining = true) {a b : List (I × V)}
    (hm : ∀ x v, Maps o mapSeg a x v ↔ Maps o mapSeg b x v) : JointEq o c a b := by
  intro x y w hd
  obtain rfl := hd hc
  rw [joint_self, joint_self]
  exact hm x w

/-- The effect of an update at the elements of `k`: `up` changes or removes the values of `m`, `fill` fills the
gaps. -/
def Eff (o : IntervalOps D I) (up : V → Option V) (fill : Option V) (m : List (I × V)) (k : I) (x y : D) (w : V) :
    Prop :=
  (o.Mem x k ∧ o.Mem y k ∧ ((∃ u, Joint o m x y u ∧ up u = some w) ∨
    (fill = some w ∧ ∀ z, Btw x y z → ¬ Dom o mapSeg m z))) ∨
  ((∀ z, Btw x y z → ¬ o.Mem z k) ∧ Joint o m x y w)

section
variable (h : o.Lawful)
include h

theorem joint_btw {l : List (I × V)} {x y z : D} {w : V} (hj : Joint o l x y w) (hz : Btw x y z) :
    Joint o l x z w := by
  obtain ⟨s, hs, h1, h2, h3⟩ := hj
  exact ⟨s, hs, h1, mem_btw h h1 h2 hz, h3⟩

/-- One step of the loop over a collision sequence. -/
theorem eff_cons {up : V → Option V} {fill : Option V} {cur : I × V} {mid : List (I × V)} {rest : I}
    (hw : WF o mapSeg (cur :: mid)) (hc : ∀ x, o.Mem x cur.1 → o.Mem x rest) (x y : D) (w : V) :
    Eff o up fill (cur :: mid) rest x y w ↔
      (o.Mem x (o.rightSubtract rest cur.1) ∧ o.Mem y (o.rightSubtract rest cur.1) ∧ fill = some w) ∨
      (o.Mem x cur.1 ∧ o.Mem y cur.1 ∧ up cur.2 = some w) ∨
      Eff o up fill mid (o.leftSubtract rest cur.1) x y w := by
  have hw' := wf_cons.1 hw
  simp only [mapSeg_key] at hw'
  simp only [Eff, h.mem_rightSubtract, h.mem_leftSubtract]
  constructor
  · rintro (⟨hx, hy, (⟨u, hj, hu⟩ | ⟨hf, hfree⟩)⟩ | ⟨hn, hj⟩)
    · rw [joint_cons] at hj
      rcases hj with ⟨h1, h2, rfl⟩ | hj
      · exact Or.inr (Or.inl ⟨h1, h2, hu⟩)
      · refine Or.inr (Or.inr (Or.inl ⟨⟨hx, fun z hz => hw'.2.2 z x hz hj.left⟩,
          ⟨hy, fun z hz => hw'.2.2 z y hz hj.right⟩, Or.inl ⟨u, hj, hu⟩⟩))
    · have hno : ∀ z, o.Mem z cur.1 → ¬ Btw x y z := fun z hz hb => hfree z hb (by simp [hz])
      rcases point_tri h hw'.1 x with h1 | h1 | h1
      · exact absurd (btw_left x y) (hno x h1)
      · rcases point_tri h hw'.1 y with h2 | h2 | h2
        · exact absurd (btw_right x y) (hno y h2)
        · exact Or.inl ⟨⟨hx, h1⟩, ⟨hy, h2⟩, hf⟩
        · obtain ⟨z, hz⟩ := hw'.1
          exact absurd ⟨(min_le_left _ _).trans (h1 z hz).le, (h2 z hz).le.trans (le_max_right _ _)⟩
            (hno z hz)
      · rcases point_tri h hw'.1 y with h2 | h2 | h2
        · exact absurd (btw_right x y) (hno y h2)
        · obtain ⟨z, hz⟩ := hw'.1
          exact absurd ⟨(min_le_right _ _).trans (h2 z hz).le, (h1 z hz).le.trans (le_max_left _ _)⟩
            (hno z hz)
        · refine Or.inr (Or.inr (Or.inl ⟨⟨hx, h1⟩, ⟨hy, h2⟩, Or.inr ⟨hf, fun z hz hd => ?_⟩⟩))
          exact hfree z hz (by simp [hd])
    · rw [joint_cons] at hj
      rcases hj with ⟨h1, h2, rfl⟩ | hj
      · exact absurd (hc x h1) (hn x (btw_left x y))
      · exact Or.inr (Or.inr (Or.inr ⟨fun z hz h1 => hn z hz h1.1, hj⟩))
  · rintro (⟨⟨hx, h1⟩, ⟨hy, h2⟩, hf⟩ | ⟨hx, hy, hu⟩ |
      (⟨⟨hx, h1⟩, ⟨hy, h2⟩, (⟨u, hj, hu⟩ | ⟨hf, hfree⟩)⟩ | ⟨hn, hj⟩))
    · refine Or.inl ⟨hx, hy, Or.inr ⟨hf, fun z hz hd => ?_⟩⟩
      have hz' : ∀ u, o.Mem u cur.1 → z < u := fun u hu => lt_of_le_of_lt hz.2 (max_lt (h1 u hu) (h2 u hu))
      rw [dom_cons] at hd
      rcases hd with hd | hd
      · exact absurd (hz' z hd) (lt_irrefl _)
      · obtain ⟨u, hu⟩ := hw'.1
        exact lt_asymm (hz' u hu) (hw'.2.2 u z hu hd)
    · exact Or.inl ⟨hc x hx, hc y hy, Or.inl ⟨cur.2, by simp [hx, hy], hu⟩⟩
    · exact Or.inl ⟨hx, hy, Or.inl ⟨u, by simp [hj], hu⟩⟩
    · refine Or.inl ⟨hx, hy, Or.inr ⟨hf, fun z hz hd => ?_⟩⟩
      rw [dom_cons] at hd
      rcases hd with hd | hd
      · exact absurd (lt_of_lt_of_le (lt_min (h1 z hd) (h2 z hd)) hz.1) (lt_irrefl _)
      · exact hfree z hz hd
    · refine Or.inr ⟨fun z hz hr => ?_, by simp [hj]⟩
      refine hn z hz ⟨hr, fun u hu => ?_⟩
      exact hw'.2.2 u z hu (joint_btw h hj hz).right

/-- The last node of a collision sequence. -/
theorem eff_last {up : V → Option V} {fill : Option V} {cur : I × V} {rest : I}
    (hne : o.Nonempty cur.1) (hr : o.Nonempty rest)
    (hfront : ∀ x, o.Mem x cur.1 → ∃ y, o.Mem y rest ∧ y ≤ x) (x y : D) (w : V) :
    Eff o up fill [cur] rest x y w ↔
      (o.Mem x (o.rightSubtract rest cur.1) ∧ o.Mem y (o.rightSubtract rest cur.1) ∧ fill = some w) ∨
      ((o.Mem x cur.1 ∧ o.Mem x rest) ∧ (o.Mem y cur.1 ∧ o.Mem y rest) ∧ up cur.2 = some w) ∨
      (o.Mem x (o.leftSubtract rest cur.1) ∧ o.Mem y (o.leftSubtract rest cur.1) ∧ fill = some w) ∨
      (o.Mem x (o.leftSubtract cur.1 rest) ∧ o.Mem y (o.leftSubtract cur.1 rest) ∧ cur.2 = w) := by
  simp only [Eff, h.mem_rightSubtract, h.mem_leftSubtract]
  constructor
  · rintro (⟨hx, hy, (⟨u, hj, hu⟩ | ⟨hf, hfree⟩)⟩ | ⟨hn, hj⟩)
    · simp only [joint_cons, joint_nil, or_false] at hj
      obtain ⟨h1, h2, rfl⟩ := hj
      exact Or.inr (Or.inl ⟨⟨h1, hx⟩, ⟨h2, hy⟩, hu⟩)
    · have hno : ∀ z, o.Mem z cur.1 → ¬ Btw x y z := fun z hz hb => hfree z hb (by simp [hz])
      rcases point_tri h hne x with h1 | h1 | h1
      · exact absurd (btw_left x y) (hno x h1)
      · rcases point_tri h hne y with h2 | h2 | h2
        · exact absurd (btw_right x y) (hno y h2)
        · exact Or.inl ⟨⟨hx, h1⟩, ⟨hy, h2⟩, hf⟩
        · obtain ⟨z, hz⟩ := hne
          exact absurd ⟨(min_le_left _ _).trans (h1 z hz).le, (h2 z hz).le.trans (le_max_right _ _)⟩
            (hno z hz)
      · rcases point_tri h hne y with h2 | h2 | h2
        · exact absurd (btw_right x y) (hno y h2)
        · obtain ⟨z, hz⟩ := hne
          exact absurd ⟨(min_le_right _ _).trans (h2 z hz).le, (h1 z hz).le.trans (le_max_left _ _)⟩
            (hno z hz)
        · exact Or.inr (Or.inr (Or.inl ⟨⟨hx, h1⟩, ⟨hy, h2⟩, hf⟩))
    · simp only [joint_cons, joint_nil, or_false] at hj
      obtain ⟨h1, h2, h3⟩ := hj
      have key : ∀ u, o.Mem u cur.1 → ¬ o.Mem u rest → ∀ z, o.Mem z rest → z < u := by
        intro u hu hur
        rcases point_tri h hr u with h4 | h4 | h4
        · exact absurd h4 hur
        · obtain ⟨z, hz, hzu⟩ := hfront u hu
          exact absurd (h4 z hz) (not_lt.2 hzu)
        · exact h4
      exact Or.inr (Or.inr (Or.inr ⟨⟨h1, key x h1 (hn x (btw_left x y))⟩,
        ⟨h2, key y h2 (hn y (btw_right x y))⟩, h3⟩))
  · rintro (⟨⟨hx, h1⟩, ⟨hy, h2⟩, hf⟩ | ⟨⟨h1, hx⟩, ⟨h2, hy⟩, hu⟩ | ⟨⟨hx, h1⟩, ⟨hy, h2⟩, hf⟩ |
      ⟨⟨hx, h1⟩, ⟨hy, h2⟩, hw⟩)
    · refine Or.inl ⟨hx, hy, Or.inr ⟨hf, fun z hz hd => ?_⟩⟩
      simp only [dom_cons, dom_nil, or_false, mapSeg_key] at hd
      exact absurd (lt_of_le_of_lt hz.2 (max_lt (h1 z hd) (h2 z hd))) (lt_irrefl _)
    · exact Or.inl ⟨hx, hy, Or.inl ⟨cur.2, by simp [h1, h2], hu⟩⟩
    · refine Or.inl ⟨hx, hy, Or.inr ⟨hf, fun z hz hd => ?_⟩⟩
      simp only [dom_cons, dom_nil, or_false, mapSeg_key] at hd
      exact absurd (lt_of_lt_of_le (lt_min (h1 z hd) (h2 z hd)) hz.1) (lt_irrefl _)
    · refine Or.inr ⟨fun z hz hr => ?_, by simp [hx, hy, hw]⟩
      exact absurd (lt_of_lt_of_le (lt_min (h1 z hr) (h2 z hr)) hz.1) (lt_irrefl _)

/-- Removing a node from a joined map does not make its neighbours joinable. -/
theorem joined_drop [DecidableEq V] {a b : List (I × V)} {s : I × V} (hw : WF o mapSeg (a ++ s :: b))
    (ha : Joined o mapSeg a) (hb : Joined o mapSeg b) : Joined o mapSeg (a ++ b) := by
  have h1 := wf_append.1 hw
  have h2 := wf_cons.1 h1.2.1
  have hw' : WF o mapSeg (a ++ b) :=
    wf_append.2 ⟨h1.1, h2.2.1, fun x y hx hy => h1.2.2 x y hx (by simp [hy])⟩
  rw [joined_append h hw']
  refine ⟨ha, hb, fun p q hp hq => joinable_false_of_touches h ?_⟩
  have hp' := List.mem_of_getLast? hp
  have hq' := List.mem_of_head? hq
  refine not_touches_of_between h (h1.1.nonempty p hp') h2.1 (h2.2.1.nonempty q hq') ?_ ?_
  · intro x y hx hy; exact h1.2.2 x y ⟨p, hp', hx⟩ (by simp only [dom_cons]; exact Or.inl hy)
  · intro x y hx hy; exact h2.2.2 x y hx ⟨q, hq', hy⟩

end

section
variable [DecidableEq V] (h : o.Lawful)
include h

/-- Replacing the first node by one that reaches as far to the right. -/
theorem joined_cons_congr {s s' : I × V} {l : List (I × V)} (hw : WF o mapSeg (s' :: l))
    (hs : o.Nonempty s.1) (hv : s'.2 = s.2) (hsub : ∀ x, o.Mem x s'.1 → o.Mem x s.1)
    (hup : ∀ x, o.Mem x s.1 → ∃ y, o.Mem y s'.1 ∧ x ≤ y) (hj : Joined o mapSeg (s :: l)) :
    Joined o mapSeg (s' :: l) := by
  have hw' := wf_cons.1 hw
  rw [show s' :: l = [s'] ++ l from rfl, joined_append h hw]
  refine ⟨joined_singleton h hw'.1, hj.mono (by simp +contextual), ?_⟩
  intro p q hp hq
  simp only [List.getLast?_singleton, Option.some.injEq] at hp
  subst hp
  have hq' := List.mem_of_head? hq
  have hsq : o.Before s.1 q.1 := by
    intro x y hx hy
    obtain ⟨z, hz, hxz⟩ := hup x hx
    exact lt_of_le_of_lt hxz (hw'.2.2 z y hz ⟨q, hq', hy⟩)
  have := hj s (by simp) q (by simp [hq']) hsq
  simp only [joinable, Bool.and_eq_false_iff, decide_eq_false_iff_not] at this ⊢
  simp only [mapSeg_key, mapSeg_val] at this ⊢
  rw [hv, touches_congr h hw'.1 hs (hw'.2.1.nonempty q hq') (hw'.2.1.nonempty q hq')
    (fun x y hx hy => hw'.2.2 x y hx ⟨q, hq', hy⟩) (i := s'.1) (j := q.1) (i' := s.1) (j' := q.1)]
  · exact this
  · intro z
    constructor
    · intro hz x hx
      obtain ⟨y, hy, hxy⟩ := hup x hx
      exact lt_of_le_of_lt hxy (hz y hy)
    · intro hz x hx; exact hz x (hsub x hx)
  · intro z; rfl

/-- Replacing the last node by one that reaches as far to the left. -/
theorem joined_snoc_congr {s s' : I × V} {l : List (I × V)} (hw : WF o mapSeg (l ++ [s']))
    (hs : o.Nonempty s.1) (hv : s'.2 = s.2) (hsub : ∀ x, o.Mem x s'.1 → o.Mem x s.1)
    (hup : ∀ x, o.Mem x s.1 → ∃ y, o.Mem y s'.1 ∧ y ≤ x) (hj : Joined o mapSeg (l ++ [s])) :
    Joined o mapSeg (l ++ [s']) := by
  have hw' := wf_append.1 hw
  have hn : o.Nonempty s'.1 := wf_singleton.1 hw'.2.1
  rw [joined_append h hw]
  refine ⟨hj.mono (by simp +contextual), joined_singleton h hn, ?_⟩
  intro p q hp hq
  simp only [List.head?_cons, Option.some.injEq] at hq
  subst hq
  have hp' := List.mem_of_getLast? hp
  have hps' : o.Before p.1 s'.1 := fun x y hx hy => hw'.2.2 x y ⟨p, hp', hx⟩ ((dom_cons _ _ _).2 (Or.inl hy))
  have hps : o.Before p.1 s.1 := by
    intro x y hx hy
    obtain ⟨z, hz, hzy⟩ := hup y hy
    exact lt_of_lt_of_le (hps' x z hx hz) hzy
  have := hj p (by simp [hp']) s (by simp) hps
  simp only [joinable, Bool.and_eq_false_iff, decide_eq_false_iff_not] at this ⊢
  simp only [mapSeg_key, mapSeg_val] at this ⊢
  rw [hv, touches_congr h (hw'.1.nonempty p hp') (hw'.1.nonempty p hp') hn hs hps'
    (i := p.1) (j := s'.1) (i' := p.1) (j' := s.1)]
  · exact this
  · intro z; rfl
  · intro z
    constructor
    · intro hz x hx
      obtain ⟨y, hy, hxy⟩ := hup x hx
      exact lt_of_lt_of_le (hz y hy) hxy
    · intro hz x hx; exact hz x (hsub x hx)

end

namespace IMap
variable [DecidableEq V]

/-- The value after combination, `none` if it is absorbed. -/
def upd (c : MapCfg V) (f : Combiner V) (v u : V) : Option V :=
  if absorbable c (f.apply u v) then none else some (f.apply u v)

section
variable (h : o.Lawful)
include h

/-- `join_left` does not look at the nodes to the right. -/
theorem joinLeft_right (left : List (I × V)) (cur : I × V) (right : List (I × V)) :
    joinLeft o mapSeg ⟨left, cur, right⟩ =
      (joinLeft o mapSeg ⟨left, cur, []⟩).map fun z => ⟨z.left, z.cur, right⟩ := by
  cases left with
  | nil => rfl
  | cons p left =>
    simp only [joinLeft]
    cases joinableC o mapSeg p cur with
    | none => rfl
    | some b =>
      cases b with
      | true => cases joinNodes o mapSeg p cur <;> rfl
      | false => rfl

/-- A node appended to `left`, joined with its predecessor if the map joins. -/
theorem joinedLeft_spec (c : MapCfg V) {left : List (I × V)} {s : I × V} (right : List (I × V))
    (hl : WF o mapSeg left.reverse) (hs : o.Nonempty s.1)
    (hls : ∀ x y, Dom o mapSeg left x → o.Mem y s.1 → x < y) :
    ∃ l', (if c.joining then (joinLeft o mapSeg ⟨left, s, right⟩).map fun z => z.cur :: z.left
        else some (s :: left)) = some l' ∧ WF o mapSeg l'.reverse ∧ JointEq o c l' (s :: left) ∧
      (c.joining = true → Joined o mapSeg left → Joined o mapSeg l') := by
  have hw : WF o mapSeg (Zip.toList ⟨left, s, []⟩) := by
    simp only [Zip.toList]
    rw [wf_append]
    refine ⟨hl, wf_singleton.2 hs, fun x y hx hy => hls x y (by simpa using hx) (by simpa using hy)⟩
  cases hc : c.joining with
  | false =>
    refine ⟨s :: left, by simp, by simpa [Zip.toList] using hw, JointEq.refl _ _, by simp⟩
  | true =>
    obtain ⟨z, e, hw', hm, hr, _, _, hj⟩ := joinLeft_spec h mapSeg_lawful hw
    obtain ⟨zl, zc, zr⟩ := z
    simp only at hr
    subst hr
    refine ⟨zc :: zl, ?_, by simpa [Zip.toList] using hw', ?_, fun _ => hj⟩
    · rw [joinLeft_right h, e]; rfl
    · apply jointEq_of_maps hc
      intro x v
      have := hm x v
      simp only [Zip.toList, maps_append, maps_reverse, maps_cons, maps_nil, or_false] at this ⊢
      rw [or_comm, this, or_comm]

theorem handleLeftCombined_spec (c : MapCfg V) {left : List (I × V)} {s : I × V}
    (right : List (I × V)) (hl : WF o mapSeg left.reverse) (hs : o.Nonempty s.1)
    (hls : ∀ x y, Dom o mapSeg left x → o.Mem y s.1 → x < y) :
    ∃ l', handleLeftCombined o c left s right = some l' ∧ WF o mapSeg l'.reverse ∧
      (∀ x y w, Dg c x y → (Joint o l' x y w ↔ Joint o left x y w ∨
        (absorbable c s.2 = false ∧ o.Mem x s.1 ∧ o.Mem y s.1 ∧ s.2 = w))) ∧
      (c.joining = true → Joined o mapSeg left → Joined o mapSeg l') := by
  unfold handleLeftCombined
  cases ha : absorbable c s.2 with
  | true => exact ⟨left, rfl, hl, by simp, fun _ hj => hj⟩
  | false =>
    obtain ⟨l', e, hw, hj, hjo⟩ := joinedLeft_spec h c right hl hs hls
    refine ⟨l', by simpa using e, hw, fun x y w hd => ?_, hjo⟩
    rw [hj x y w hd]
    simp [or_comm]

theorem handleInsertedPrior_spec (c : MapCfg V) (first : Option (I × V)) {left : List (I × V)}
    {s : I × V} (hl : WF o mapSeg left.reverse) (hs : o.Nonempty s.1)
    (hls : ∀ x y, Dom o mapSeg left x → o.Mem y s.1 → x < y)
    (hf : ∀ p ∈ first, joinableC o mapSeg p s = some false) :
    ∃ l', handleInsertedPrior o c first left s = some l' ∧ WF o mapSeg l'.reverse ∧
      JointEq o c l' (s :: left) ∧
      (c.joining = true → Joined o mapSeg left → Joined o mapSeg l') := by
  have : handleInsertedPrior o c first left s =
      if c.joining then (joinLeft o mapSeg ⟨left, s, []⟩).map fun z => z.cur :: z.left
        else some (s :: left) := by
    unfold handleInsertedPrior
    cases left with
    | nil =>
      cases first with
      | none => simp [joinLeft]
      | some p => cases hc : c.joining <;> simp [joinLeft, joinsTo, hc, hf p rfl]
    | cons p left =>
      cases hc : c.joining <;> simp [joinLeft, joinsTo, hc]
      cases joinableC o mapSeg p s with
      | none => rfl
      | some b => cases b <;> simp; cases joinNodes o mapSeg p s <;> rfl
  rw [this]
  exact joinedLeft_spec h c [] hl hs hls

/-- `handle_inserted`. -/
theorem handleInserted_spec (c : MapCfg V) {z : Zip (I × V)} (hw : WF o mapSeg z.toList) :
    ∃ z', handleInserted o c z = some z' ∧ WF o mapSeg z'.toList ∧ JointEq o c z'.toList z.toList ∧
      (c.joining = true → Joined o mapSeg z.left → Joined o mapSeg z.right →
        Joined o mapSeg z'.toList) := by
  unfold handleInserted
  cases hc : c.joining with
  | false => exact ⟨z, by simp, hw, JointEq.refl _ _, by simp⟩
  | true =>
    obtain ⟨z', e, hw', hm, hj⟩ := joinNeighbours_spec h mapSeg_lawful hw
    exact ⟨z', by simpa using e, hw', jointEq_of_maps hc hm, fun _ => hj⟩

theorem handleCombined_spec (c : MapCfg V) {z : Zip (I × V)} (hw : WF o mapSeg z.toList) :
    ∃ l, handleCombined o c z = some l ∧ WF o mapSeg l ∧
      (∀ x y w, Dg c x y → (Joint o l x y w ↔ Joint o z.left x y w ∨ Joint o z.right x y w ∨
        (absorbable c z.cur.2 = false ∧ o.Mem x z.cur.1 ∧ o.Mem y z.cur.1 ∧ z.cur.2 = w))) ∧
      (c.joining = true → Joined o mapSeg z.left → Joined o mapSeg z.right → Joined o mapSeg l) := by
  unfold handleCombined
  cases ha : absorbable c z.cur.2 with
  | true =>
    have h1 := wf_append.1 hw
    have h2 := wf_cons.1 h1.2.1
    refine ⟨_, rfl, ?_, ?_, ?_⟩
    · exact wf_append.2 ⟨h1.1, h2.2.1, fun x y hx hy => h1.2.2 x y hx (by simp [hy])⟩
    · intro x y w _
      simp
    · intro _ hl hr
      exact joined_drop h hw (joined_reverse.2 hl) hr
  | false =>
    obtain ⟨z', e, hw', hj, hjo⟩ := handleInserted_spec h c hw
    refine ⟨z'.toList, ?_, hw', ?_, hjo⟩
    · unfold handleInserted at e
      cases hc : c.joining with
      | false => simp [hc] at e; simp [e]
      | true => simp [hc] at e; simp [e]
    · intro x y w hd
      rw [hj x y w hd]
      simp only [Zip.toList, joint_append, joint_reverse, joint_cons]
      tauto

/-- The nodes that `add_main`/`add_rear` see from position `cur` on: `cur` has no part left of
`rest`. -/
structure Inv (o : IntervalOps D I) (left : List (I × V)) (cur : I × V) (mid post : List (I × V))
    (rest : I) : Prop where
  wfl : WF o mapSeg left.reverse
  wfr : WF o mapSeg (cur :: mid ++ post)
  sep : ∀ x y, Dom o mapSeg left x → Dom o mapSeg (cur :: mid ++ post) y → x < y
  nonempty : o.Nonempty rest
  before : ∀ x y, Dom o mapSeg left x → o.Mem y rest → x < y
  overlap : ∀ s ∈ cur :: mid, ∃ x, o.Mem x s.1 ∧ o.Mem x rest
  after : ∀ x y, o.Mem x rest → Dom o mapSeg post y → x < y
  front : ∀ x, o.Mem x cur.1 → ∃ y, o.Mem y rest ∧ y ≤ x

/-- `add_front`. -/
theorem addFront_spec {a : List (I × V)} {f : I × V} {b c : List (I × V)} {k : I}
    (hr : Range o mapSeg a f b c k) :
    ∃ left cur, addFront o a.reverse f (b ++ c) k = some (left, cur) ∧ Inv o left cur b c k ∧
      (∀ x y w, Joint o left x y w ∨ (o.Mem x cur.1 ∧ o.Mem y cur.1 ∧ cur.2 = w) ↔ Joint o a x y w ∨
        ((o.Mem x f.1 ∧ o.Mem y f.1 ∧ f.2 = w) ∧
          ((∀ z, o.Mem z k → x < z) ↔ (∀ z, o.Mem z k → y < z)))) ∧
      (Joined o mapSeg (a ++ f :: b ++ c) →
        Joined o mapSeg left ∧ Joined o mapSeg (cur :: b ++ c)) := by
  have hw1 := wf_append.1 hr.wf
  have hw2 := wf_append.1 hw1.1
  have hw3 := wf_cons.1 hw2.2.1
  have hfbc : WF o mapSeg (f :: b ++ c) :=
    wf_append.2 ⟨hw2.2.1, hw1.2.1, fun x y hx hy => hw1.2.2 x y (by simp only [dom_append]; exact Or.inr hx) hy⟩
  have hsep : ∀ x y, Dom o mapSeg a x → Dom o mapSeg (f :: b ++ c) y → x < y := by
    intro x y hx hy
    rw [dom_append] at hy
    rcases hy with hy | hy
    · exact hw2.2.2 x y hx hy
    · exact hw1.2.2 x y (by simp only [dom_append]; exact Or.inl hx) hy
  obtain ⟨w, hwf, hwk⟩ := hr.overlap f (by simp)
  simp only [mapSeg_key] at hwf
  have hlr := h.mem_rightSubtract f.1 k
  unfold addFront
  dsimp only
  cases he : o.isEmpty (o.rightSubtract f.1 k) with
  | true =>
    simp only [if_true]
    rw [h.isEmpty_iff] at he
    have hno : ∀ x, o.Mem x f.1 → ∃ y, o.Mem y k ∧ y ≤ x := by
      intro x hx
      by_contra hc
      push Not at hc
      exact he x ((hlr x).2 ⟨hx, fun y hy => hc y hy⟩)
    refine ⟨a.reverse, f, rfl, ⟨by simpa using hw2.1, hfbc, by simpa only [dom_reverse] using hsep,
      hr.nonempty, by simpa using hr.before, hr.overlap, hr.after, hno⟩, ?_, ?_⟩
    · intro x y w
      rw [joint_reverse]
      have hn : ∀ x, o.Mem x f.1 → ¬ ∀ z, o.Mem z k → x < z := by
        intro x hx h2
        obtain ⟨z, hz, hzx⟩ := hno x hx
        exact absurd (h2 z hz) (not_lt.2 hzx)
      constructor
      · rintro (h1 | h1)
        · exact Or.inl h1
        · exact Or.inr ⟨h1, iff_of_false (hn x h1.1) (hn y h1.2.1)⟩
      · rintro (h1 | h1)
        · exact Or.inl h1
        · exact Or.inr h1.1
    · intro hj
      exact ⟨joined_reverse.2 (hj.mono (by simp +contextual)), hj.mono (by simp +contextual)⟩
  | false =>
    simp only [Bool.false_eq_true, if_false]
    have hne : o.Nonempty (o.rightSubtract f.1 k) := (nonempty_iff h).2 he
    have hcur : ∀ x, o.Mem x (o.leftSubtract f.1 (o.rightSubtract f.1 k)) ↔
        o.Mem x f.1 ∧ ¬ (∀ z, o.Mem z k → x < z) := by
      intro x
      rw [h.mem_leftSubtract]
      constructor
      · rintro ⟨h1, h2⟩
        refine ⟨h1, fun h3 => ?_⟩
        exact absurd (h2 x ((hlr x).2 ⟨h1, h3⟩)) (lt_irrefl _)
      · rintro ⟨h1, h2⟩
        refine ⟨h1, fun y hy => ?_⟩
        push Not at h2
        obtain ⟨z, hz, hzx⟩ := h2
        exact lt_of_lt_of_le (((hlr y).1 hy).2 z hz) hzx
    have hlc : ∀ x y, o.Mem x (o.rightSubtract f.1 k) →
        o.Mem y (o.leftSubtract f.1 (o.rightSubtract f.1 k)) → x < y :=
      fun x y hx hy => ((h.mem_leftSubtract _ _ _).1 hy).2 x hx
    have hne' : o.Nonempty (o.leftSubtract f.1 (o.rightSubtract f.1 k)) :=
      ⟨w, (hcur w).2 ⟨hwf, fun h1 => absurd (h1 w hwk) (lt_irrefl _)⟩⟩
    have hbc := wf_cons.1 (by simpa using hfbc : WF o mapSeg (f :: (b ++ c)))
    simp only [mapSeg_key] at hbc
    have hwr : WF o mapSeg ((o.leftSubtract f.1 (o.rightSubtract f.1 k), f.2) :: (b ++ c)) := by
      rw [wf_cons]
      exact ⟨hne', hbc.2.1, fun x y hx hy => hbc.2.2 x y ((hcur x).1 hx).1 hy⟩
    have hal : ∀ x y, Dom o mapSeg a x → o.Mem y (o.rightSubtract f.1 k) → x < y := by
      intro x y hx hy
      exact hw2.2.2 x y hx (by simp [((hlr y).1 hy).1])
    have hres : ∀ x y, o.Mem x (o.rightSubtract f.1 k) →
        Dom o mapSeg ((o.leftSubtract f.1 (o.rightSubtract f.1 k), f.2) :: (b ++ c)) y → x < y := by
      intro x y hx hy
      rw [dom_cons] at hy
      rcases hy with hy | hy
      · exact hlc x y hx hy
      · exact hbc.2.2 x y ((hlr x).1 hx).1 hy
    rw [insertAt_eq h]
    rotate_left
    · intro p hp; exact hw2.1.nonempty p (by simpa using hp)
    · exact hwr.nonempty
    · exact hne
    · intro x y hx hy; exact hal x y (by simpa using hx) hy
    · exact hres
    refine ⟨_, _, rfl, ⟨?_, by simpa using hwr, ?_, hr.nonempty, ?_, ?_, hr.after, ?_⟩, ?_, ?_⟩
    · simp only [List.reverse_cons, List.reverse_reverse]
      rw [wf_append]
      refine ⟨hw2.1, wf_singleton.2 hne, fun x y hx hy => hal x y hx (by simpa using hy)⟩
    · intro x y hx hy
      simp only [dom_cons, dom_reverse, mapSeg_key] at hx
      simp only [List.cons_append] at hy
      rcases hx with hx | hx
      · exact hres x y hx hy
      · obtain ⟨u, hu⟩ := hne
        exact (hal x u hx hu).trans (hres u y hu hy)
    · intro x y hx hy
      simp only [dom_cons, dom_reverse, mapSeg_key] at hx
      rcases hx with hx | hx
      · exact ((hlr x).1 hx).2 y hy
      · exact hr.before x y hx hy
    · intro s hs
      rcases List.mem_cons.1 hs with rfl | hs
      · exact ⟨w, (hcur w).2 ⟨hwf, fun h1 => absurd (h1 w hwk) (lt_irrefl _)⟩, hwk⟩
      · exact hr.overlap s (by simp [hs])
    · intro x hx
      have := ((hcur x).1 hx).2
      push Not at this
      exact this
    · intro x y w
      simp only [joint_cons, joint_reverse, hlr, hcur]
      constructor
      · rintro ((⟨h1, h2, h5⟩ | h1) | ⟨h1, h2, h5⟩)
        · exact Or.inr ⟨⟨h1.1, h2.1, h5⟩, fun _ => h2.2, fun _ => h1.2⟩
        · exact Or.inl h1
        · exact Or.inr ⟨⟨h1.1, h2.1, h5⟩, iff_of_false h1.2 h2.2⟩
      · rintro (h1 | ⟨⟨h1, h2, h5⟩, h3⟩)
        · exact Or.inl (Or.inr h1)
        · by_cases h4 : ∀ z, o.Mem z k → x < z
          · exact Or.inl (Or.inl ⟨⟨h1, h4⟩, ⟨h2, h3.1 h4⟩, h5⟩)
          · exact Or.inr ⟨⟨h1, h4⟩, ⟨h2, fun h5 => h4 (h3.2 h5)⟩, h5⟩
    · intro hj
      constructor
      · rw [← joined_reverse]
        simp only [List.reverse_cons, List.reverse_reverse]
        refine joined_snoc_congr h (s := f) ?_ hw3.1 rfl (fun x hx => ((hlr x).1 hx).1) ?_ (hj.mono ?_)
        · rw [wf_append]
          exact ⟨hw2.1, wf_singleton.2 hne, fun x y hx hy => hal x y hx (by simpa using hy)⟩
        · intro x hx
          by_cases hk : ∀ z, o.Mem z k → x < z
          · exact ⟨x, (hlr x).2 ⟨hx, hk⟩, le_refl _⟩
          · obtain ⟨u, hu⟩ := hne
            exact ⟨u, hu, (hlc u x hu ((hcur x).2 ⟨hx, hk⟩)).le⟩
        · intro s hs
          simp only [List.mem_append, List.mem_singleton] at hs
          simp only [List.mem_append, List.mem_cons]
          tauto
      · rw [List.cons_append]
        refine joined_cons_congr h (s := f) hwr hw3.1 rfl (fun x hx => ((hcur x).1 hx).1) ?_ (hj.mono ?_)
        · intro x hx
          by_cases hk : ∀ z, o.Mem z k → x < z
          · exact ⟨w, (hcur w).2 ⟨hwf, fun h1 => absurd (h1 w hwk) (lt_irrefl _)⟩, (hk w hwk).le⟩
          · exact ⟨x, (hcur x).2 ⟨hx, hk⟩, le_refl _⟩
        · intro s hs
          simp only [List.mem_append, List.mem_cons] at hs ⊢
          tauto

/-- The part of the addend in front of the current node. -/
theorem addLeadGap_spec (c : MapCfg V) (f : Combiner V) {v : V} (hv : absorbable c v = false)
    {first : Option (I × V)} {left : List (I × V)} {cur : I × V} {right : List (I × V)} {rest : I}
    (hfirst : ∀ p ∈ first, p = cur ∧ ∃ t, t ∈ right)
    (hl : WF o mapSeg left.reverse) (hr : WF o mapSeg (cur :: right))
    (hbefore : ∀ x y, Dom o mapSeg left x → o.Mem y rest → x < y) :
    ∃ l', addLeadGap o c f first left cur right rest v = some l' ∧ WF o mapSeg l'.reverse ∧
      (∀ x y w, Dg c x y → (Joint o l' x y w ↔ Joint o left x y w ∨
        (o.Mem x (o.rightSubtract rest cur.1) ∧ o.Mem y (o.rightSubtract rest cur.1) ∧
          f.version v = w))) ∧
      (c.joining = true → Joined o mapSeg left → Joined o mapSeg l') := by
  have hr' := wf_cons.1 hr
  have hlg := h.mem_rightSubtract rest cur.1
  unfold addLeadGap
  dsimp only
  cases he : o.isEmpty (o.rightSubtract rest cur.1) with
  | true =>
    rw [h.isEmpty_iff] at he
    exact ⟨left, by simp, hl, by simp [he], fun _ hj => hj⟩
  | false =>
    have hne : o.Nonempty (o.rightSubtract rest cur.1) := (nonempty_iff h).2 he
    have hb : ∀ x y, Dom o mapSeg left x → o.Mem y (o.rightSubtract rest cur.1) → x < y :=
      fun x y hx hy => hbefore x y hx ((hlg y).1 hy).1
    have hins : insertAt o mapSeg left (o.rightSubtract rest cur.1, f.version v) (cur :: right) =
        some ⟨left, (o.rightSubtract rest cur.1, f.version v), cur :: right⟩ := by
      apply insertAt_eq h
      · intro p hp; exact hl.nonempty p (by simpa using hp)
      · exact hr.nonempty
      · exact hne
      · exact hb
      · intro x y hx hy
        rw [dom_cons] at hy
        rcases hy with hy | hy
        · exact ((hlg x).1 hx).2 y hy
        · obtain ⟨u, hu⟩ := hr'.1
          exact (((hlg x).1 hx).2 u hu).trans (hr'.2.2 u y hu hy)
    simp only [gapInsert, hv, hins, Bool.false_eq_true, if_false, Option.bind_eq_bind, Option.bind_some]
    obtain ⟨l', e, hw, hj, hjo⟩ := handleInsertedPrior_spec h c first (left := left)
      (s := (o.rightSubtract rest cur.1, f.version v)) hl hne hb (by
        intro p hp
        obtain ⟨rfl, t, ht⟩ := hfirst p hp
        obtain ⟨z, hz⟩ := hr'.2.1.nonempty t ht
        unfold joinableC
        rw [h.touchesC_eq _ (mapSeg.key (o.rightSubtract rest p.1, f.version v)) hr'.1 hne
          ⟨z, fun x hx => hr'.2.2 x z hx ⟨t, ht, hz⟩⟩]
        refine congrArg some (joinable_false_of_touches (g := mapSeg) h ?_)
        rw [← Bool.not_eq_true]
        intro htc
        obtain ⟨hc, _⟩ := (h.touches_below _ _ hr'.1 hne ⟨z, fun x hx => hr'.2.2 x z hx ⟨t, ht, hz⟩⟩).1 htc
        exact before_asymm h hr'.1 hne hc fun x y hx hy => ((hlg x).1 hx).2 y hy)
    refine ⟨l', e, hw, fun x y w hd => ?_, hjo⟩
    rw [hj x y w hd, joint_cons, or_comm]

/-- `gap_insert`. -/
theorem gapInsert_eq (c : MapCfg V) (f : Combiner V) {v : V} (hv : absorbable c v = false)
    {left : List (I × V)} {k : I} {right : List (I × V)}
    (hl : WF o mapSeg left.reverse) (hr : WF o mapSeg right) (hk : o.Nonempty k)
    (h1 : ∀ x y, Dom o mapSeg left x → o.Mem y k → x < y)
    (h2 : ∀ x y, o.Mem x k → Dom o mapSeg right y → x < y) :
    gapInsert o c f left k v right = some ⟨left, (k, f.version v), right⟩ ∧
    WF o mapSeg (Zip.toList ⟨left, (k, f.version v), right⟩) := by
  constructor
  · simp only [gapInsert, hv, Bool.false_eq_true, if_false]
    apply insertAt_eq h
    · intro p hp; exact hl.nonempty p (by simpa using hp)
    · exact hr.nonempty
    · exact hk
    · exact h1
    · exact h2
  · simp only [Zip.toList]
    rw [wf_append, wf_cons]
    refine ⟨hl, ⟨hk, hr, h2⟩, fun x y hx hy => ?_⟩
    simp only [dom_reverse, dom_cons, mapSeg_key] at hx hy
    rcases hy with hy | hy
    · exact h1 x y hx hy
    · obtain ⟨u, hu⟩ := hk
      exact (h1 x u hx hu).trans (h2 u y hu hy)

/-- `gap_insert_at`: the last node `cur` has been combined, and the addend has a part `k` behind it. -/
theorem gapInsertAt_spec (c : MapCfg V) (f : Combiner V) {v : V} (hv : absorbable c v = false)
    {left : List (I × V)} {cur : I × V} {right : List (I × V)} {k : I}
    (hl : WF o mapSeg left.reverse) (hcur : o.Nonempty cur.1) (hr : WF o mapSeg right)
    (hk : o.Nonempty k)
    (hlc : ∀ x y, Dom o mapSeg left x → o.Mem y cur.1 → x < y)
    (hck : ∀ x y, o.Mem x cur.1 → o.Mem y k → x < y)
    (hkr : ∀ x y, o.Mem x k → Dom o mapSeg right y → x < y) :
    ∃ l, gapInsertAt o c f left cur right k v = some l ∧ WF o mapSeg l ∧
      (∀ x y w, Dg c x y → (Joint o l x y w ↔ Joint o left x y w ∨ Joint o right x y w ∨
        (absorbable c cur.2 = false ∧ o.Mem x cur.1 ∧ o.Mem y cur.1 ∧ cur.2 = w) ∨
        (o.Mem x k ∧ o.Mem y k ∧ f.version v = w))) ∧
      (c.joining = true → Joined o mapSeg left → Joined o mapSeg right → Joined o mapSeg l) := by
  have hlk : ∀ x y, Dom o mapSeg left x → o.Mem y k → x < y := by
    intro x y hx hy
    obtain ⟨u, hu⟩ := hcur
    exact (hlc x u hx hu).trans (hck u y hu hy)
  unfold gapInsertAt
  cases ha : absorbable c cur.2 with
  | true =>
    obtain ⟨e, hw⟩ := gapInsert_eq h c f hv hl hr hk hlk hkr
    simp only [if_true, e, Option.bind_eq_bind, Option.bind_some]
    cases hc : c.joining with
    | false =>
      refine ⟨_, rfl, hw, fun x y w hd => ?_, by simp⟩
      simp only [Zip.toList, joint_append, joint_reverse, joint_cons, Bool.true_eq_false, false_and, false_or]
      tauto
    | true =>
      obtain ⟨z, e2, hw2, hm, hzl, _, hjn, hjo⟩ := joinRight_spec h mapSeg_lawful hw
      refine ⟨z.toList, by simp [e2], hw2, fun x y w hd => ?_, fun _ hjl hjr => ?_⟩
      · rw [jointEq_of_maps hc hm x y w hd]
        simp only [Zip.toList, joint_append, joint_reverse, joint_cons, Bool.true_eq_false, false_and, false_or]
        clear * -
        tauto
      · simp only [Zip.toList] at hw2 ⊢
        rw [joined_append h hw2]
        refine ⟨joined_reverse.2 (hzl ▸ hjl), hjo hjr, ?_⟩
        intro p q hp hq
        simp only [List.head?_cons, Option.some.injEq] at hq
        subst hq
        have hp' : p ∈ left := by have := List.mem_of_getLast? hp; rw [hzl] at this; simpa using this
        have hpn := hl.nonempty p (by simpa using hp')
        rw [hjn p hpn fun x y hx hy => hlk x y ⟨p, hp', hx⟩ hy]
        refine joinable_false_of_touches h (not_touches_of_between h hpn hcur hk ?_ hck)
        intro x y hx hy; exact hlc x y ⟨p, hp', hx⟩ hy
  | false =>
    simp only [Bool.false_eq_true, if_false]
    obtain ⟨l1, e1, hw1, hj1, hjo1⟩ := joinedLeft_spec h c right hl hcur hlc
    have hl1 : ∀ x y, Dom o mapSeg l1 x → o.Mem y k → x < y := by
      intro x y hx hy
      rw [hj1.dom, dom_cons] at hx
      rcases hx with hx | hx
      · exact hck x y hx hy
      · exact hlk x y hx hy
    obtain ⟨e2, hw2⟩ := gapInsert_eq h c f hv hw1 hr hk hl1 hkr
    obtain ⟨z, e3, hw3, hj3, hjo3⟩ := handleInserted_spec h c hw2
    have hjoint : ∀ x y w, Dg c x y → (Joint o z.toList x y w ↔ Joint o left x y w ∨ Joint o right x y w ∨
        (true = true ∧ o.Mem x cur.1 ∧ o.Mem y cur.1 ∧ cur.2 = w) ∨
        (o.Mem x k ∧ o.Mem y k ∧ f.version v = w)) := by
      intro x y w hd
      rw [hj3 x y w hd]
      simp only [Zip.toList, joint_append, joint_reverse, joint_cons]
      rw [hj1 x y w hd, joint_cons]
      clear * -
      tauto
    refine ⟨z.toList, ?_, hw3, by simpa using hjoint, fun hc hjl hjr => hjo3 hc (hjo1 hc hjl) hjr⟩
    cases hc : c.joining with
    | false =>
      simp only [hc, Bool.false_eq_true, if_false, Option.some.injEq] at e1
      subst e1
      simp only [handleInserted, hc, Bool.false_eq_true, if_false, Option.some.injEq] at e3
      simp [e2, e3]
    | true =>
      simp only [hc, if_true] at e1
      simp only [handleInserted, hc, if_true] at e3
      rw [joinLeft_right h] at e1 ⊢
      cases hz : joinLeft o mapSeg ⟨left, cur, []⟩ with
      | none => rw [hz] at e1; simp at e1
      | some z0 =>
        rw [hz] at e1
        simp only [Option.map_some, Option.some.injEq] at e1
        simp only [if_true, Option.map_some, Option.bind_eq_bind, Option.bind_some, e1, e2, e3]

/-- Splitting off the part of the last node behind the addend. -/
theorem mem_rightResid {cur rest : I} (hr : o.Nonempty rest)
    (hfront : ∀ x, o.Mem x cur → ∃ y, o.Mem y rest ∧ y ≤ x) (x : D) :
    (o.Mem x (o.rightSubtract cur (o.leftSubtract cur rest)) ↔ o.Mem x cur ∧ o.Mem x rest) ∧
    (o.Mem x cur → o.Mem x rest ∨ o.Mem x (o.leftSubtract cur rest)) := by
  have hrr := h.mem_leftSubtract cur rest
  have hcr : ∀ x, o.Mem x cur → o.Mem x rest ∨ o.Mem x (o.leftSubtract cur rest) := by
    intro x hx
    rcases point_tri h hr x with h1 | h1 | h1
    · exact Or.inl h1
    · obtain ⟨y, hy, hyx⟩ := hfront x hx
      exact absurd (h1 y hy) (not_lt.2 hyx)
    · exact Or.inr ((hrr x).2 ⟨hx, h1⟩)
  refine ⟨?_, hcr x⟩
  rw [h.mem_rightSubtract]
  constructor
  · rintro ⟨h1, h2⟩
    refine ⟨h1, ?_⟩
    rcases hcr x h1 with h3 | h3
    · exact h3
    · exact absurd (h2 x h3) (lt_irrefl _)
  · rintro ⟨h1, h2⟩
    exact ⟨h1, fun y hy => ((hrr y).1 hy).2 x h2⟩

omit h in
theorem upd_eq (c : MapCfg V) (f : Combiner V) (v u w : V) :
    upd c f v u = some w ↔ absorbable c (f.apply u v) = false ∧ f.apply u v = w := by
  unfold upd
  cases absorbable c (f.apply u v) <;> simp

/-- `handle_reinserted`: a node is joined to its successor if the map joins. -/
theorem reinsert_spec (c : MapCfg V) (left : List (I × V)) {s : I × V} {post : List (I × V)}
    (hw : WF o mapSeg (s :: post)) :
    ∃ rc rr, (if c.joining then joinRight o mapSeg ⟨left, s, post⟩ else some ⟨left, s, post⟩) =
        some ⟨left, rc, rr⟩ ∧
      WF o mapSeg (rc :: rr) ∧ JointEq o c (rc :: rr) (s :: post) ∧
      (c.joining = true → Joined o mapSeg post → Joined o mapSeg (rc :: rr)) := by
  cases hc : c.joining with
  | false => exact ⟨_, _, by simp, hw, JointEq.refl _ _, by simp⟩
  | true =>
    obtain ⟨z, e2, hwz, hm, hzl, _, _, hjz⟩ := joinRight_spec h mapSeg_lawful
      (z := ⟨[], s, post⟩) (by simpa [Zip.toList] using hw)
    obtain ⟨zl, zc, zr⟩ := z
    simp only at hzl
    subst hzl
    refine ⟨zc, zr, ?_, by simpa [Zip.toList] using hwz, ?_, fun _ => hjz⟩
    · simp only [if_true]
      cases post with
      | nil => simp only [joinRight, Option.some.injEq, Zip.mk.injEq] at e2 ⊢; simp [← e2.2.1, ← e2.2.2]
      | cons q post =>
        simp only [joinRight] at e2 ⊢
        split at e2
        · cases e2
        · rename_i hjq
          cases hjn : joinNodes o mapSeg s q with
          | none => rw [hjn] at e2; simp at e2
          | some j =>
            rw [hjn] at e2
            simp at e2 ⊢
            exact e2
        · rename_i hjq
          simp at e2 ⊢
          exact e2
    · apply jointEq_of_maps hc
      intro x v
      simpa [Zip.toList] using hm x v

/-- `add_rear`. -/
theorem addRear_spec (c : MapCfg V) (f : Combiner V) {v : V} (hv : absorbable c v = false)
    {left : List (I × V)} {cur : I × V} {post : List (I × V)} {rest : I}
    (hi : Inv o left cur [] post rest) :
    ∃ l, addRear o c f v left cur post rest = some l ∧ WF o mapSeg l ∧
      (∀ x y w, Dg c x y → (Joint o l x y w ↔ Joint o left x y w ∨ Joint o post x y w ∨
        Eff o (upd c f v) (some (f.version v)) [cur] rest x y w)) ∧
      (c.joining = true → Joined o mapSeg left → Joined o mapSeg (cur :: post) → Joined o mapSeg l) := by
  have hwr : WF o mapSeg (cur :: post) := by simpa using hi.wfr
  have hwr' := wf_cons.1 hwr
  simp only [mapSeg_key] at hwr'
  have hsep : ∀ x y, Dom o mapSeg left x → Dom o mapSeg (cur :: post) y → x < y := by
    simpa using hi.sep
  obtain ⟨l1, e1, hw1, hj1, hjo1⟩ := addLeadGap_spec h c f hv (first := none) (by simp) hi.wfl hwr hi.before
  have hd1 : ∀ x, Dom o mapSeg l1 x ↔ Dom o mapSeg left x ∨ o.Mem x (o.rightSubtract rest cur.1) := by
    intro x
    simp only [dom_iff_joint, hj1 x x _ (dg_self c x)]
    constructor
    · rintro ⟨w, hw | hw⟩
      · exact Or.inl ⟨w, hw⟩
      · exact Or.inr hw.1
    · rintro (⟨w, hw⟩ | hw)
      · exact ⟨w, Or.inl hw⟩
      · exact ⟨_, Or.inr ⟨hw, hw, rfl⟩⟩
  have hl1c : ∀ x y, Dom o mapSeg l1 x → o.Mem y cur.1 → x < y := by
    intro x y hx hy
    rcases (hd1 x).1 hx with hx | hx
    · exact hsep x y hx (by simp [hy])
    · exact ((h.mem_rightSubtract _ _ _).1 hx).2 y hy
  have heff := eff_last h (up := upd c f v) (fill := some (f.version v)) hwr'.1 hi.nonempty hi.front
  unfold addRear
  simp only [e1, Option.bind_eq_bind, Option.bind_some]
  cases he : o.isEmpty (o.leftSubtract rest cur.1) with
  | false =>
    simp only [Bool.not_false, if_true]
    have hne : o.Nonempty (o.leftSubtract rest cur.1) := (nonempty_iff h).2 he
    have heg := h.mem_leftSubtract rest cur.1
    obtain ⟨l, e, hw, hj, hjo⟩ := gapInsertAt_spec h c f hv (cur := combine f cur v)
      (right := post) (k := o.leftSubtract rest cur.1) hw1 hwr'.1 hwr'.2.1 hne hl1c
      (fun x y hx hy => ((heg y).1 hy).2 x hx) (fun x y hx hy => hi.after x y ((heg x).1 hx).1 hy)
    refine ⟨l, e, hw, fun x y w hd => ?_, fun hc hjl hjr => hjo hc (hjo1 hc hjl) (hjr.mono (by simp +contextual))⟩
    rw [hj x y w hd, hj1 x y w hd, heff x y w]
    have hsub : ∀ x, o.Mem x cur.1 → o.Mem x rest := by
      intro x hx
      obtain ⟨u, hu⟩ := hne
      obtain ⟨z, hz, hzx⟩ := hi.front x hx
      exact h.convex rest z x u hz ((heg u).1 hu).1 hzx (((heg u).1 hu).2 x hx).le
    have hno : ¬ o.Mem x (o.leftSubtract cur.1 rest) := by
      intro hx
      have := (h.mem_leftSubtract _ _ _).1 hx
      exact absurd (this.2 x (hsub x this.1)) (lt_irrefl _)
    simp only [upd_eq, combine, Option.some.injEq]
    have h1 := hsub x
    have h2 := hsub y
    clear * - h1 h2 hno
    grind
  | true =>
    simp only [Bool.not_true, Bool.false_eq_true, if_false]
    rw [h.isEmpty_iff] at he
    cases he2 : o.isEmpty (o.leftSubtract cur.1 rest) with
    | true =>
      simp only [if_true]
      rw [h.isEmpty_iff] at he2
      have hwz : WF o mapSeg (Zip.toList ⟨l1, combine f cur v, post⟩) := by
        simp only [Zip.toList]
        rw [wf_append, wf_cons]
        refine ⟨hw1, ⟨hwr'.1, hwr'.2.1, hwr'.2.2⟩, fun x y hx hy => ?_⟩
        simp only [dom_reverse, dom_cons] at hx hy
        rcases hy with hy | hy
        · exact hl1c x y hx hy
        · obtain ⟨u, hu⟩ := hwr'.1
          exact (hl1c x u hx hu).trans (hwr'.2.2 u y hu hy)
      obtain ⟨l, e, hw, hj, hjo⟩ := handleCombined_spec h c hwz
      refine ⟨l, e, hw, fun x y w hd => ?_, fun hc hjl hjr => hjo hc (hjo1 hc hjl) (hjr.mono (by simp +contextual))⟩
      rw [hj x y w hd, heff x y w]
      simp only
      rw [hj1 x y w hd]
      have hsub : ∀ x, o.Mem x cur.1 → o.Mem x rest := by
        intro x hx
        rcases (mem_rightResid h hi.nonempty hi.front x).2 hx with h1 | h1
        · exact h1
        · exact absurd h1 (he2 x)
      have hno := he2 x
      have hno2 := he x
      simp only [upd_eq, combine, Option.some.injEq]
      have h1 := hsub x
      have h2 := hsub y
      clear * - h1 h2 hno hno2
      grind
    | false =>
      simp only [Bool.false_eq_true, if_false]
      have hne : o.Nonempty (o.leftSubtract cur.1 rest) := (nonempty_iff h).2 he2
      have hrr := h.mem_leftSubtract cur.1 rest
      have hc' := fun x => (mem_rightResid h hi.nonempty hi.front x).1
      obtain ⟨w, hwc, hwr0⟩ := hi.overlap cur (by simp)
      have hne' : o.Nonempty (o.rightSubtract cur.1 (o.leftSubtract cur.1 rest)) :=
        ⟨w, (hc' w).2 ⟨hwc, hwr0⟩⟩
      have hcrr : ∀ x y, o.Mem x (o.rightSubtract cur.1 (o.leftSubtract cur.1 rest)) →
          o.Mem y (o.leftSubtract cur.1 rest) → x < y :=
        fun x y hx hy => ((hrr y).1 hy).2 x ((hc' x).1 hx).2
      have hrp : ∀ x y, o.Mem x (o.leftSubtract cur.1 rest) → Dom o mapSeg post y → x < y :=
        fun x y hx hy => hwr'.2.2 x y ((hrr x).1 hx).1 hy
      rw [insertAt_eq h]
      rotate_left
      · intro p hp
        rcases List.mem_cons.1 hp with rfl | hp
        · exact hne'
        · exact hw1.nonempty p (by simpa using hp)
      · exact hwr'.2.1.nonempty
      · exact hne
      · intro x y hx hy
        rw [dom_cons] at hx
        rcases hx with hx | hx
        · exact hcrr x y hx hy
        · exact hl1c x y hx ((hrr y).1 hy).1
      · exact hrp
      simp only
      have hw0 : WF o mapSeg ((o.leftSubtract cur.1 rest, cur.2) :: post) := by
        rw [wf_cons]; exact ⟨hne, hwr'.2.1, hrp⟩
      obtain ⟨rc, rr, e2, hwrr, hjrr, hjorr⟩ := reinsert_spec h c
        ((o.rightSubtract cur.1 (o.leftSubtract cur.1 rest), cur.2) :: l1) hw0
      rw [e2]
      simp only
      have hdr : ∀ y, Dom o mapSeg (rc :: rr) y ↔ o.Mem y (o.leftSubtract cur.1 rest) ∨ Dom o mapSeg post y := by
        intro y; rw [hjrr.dom y, dom_cons, mapSeg_key]
      have hcr : ∀ x y, o.Mem x (o.rightSubtract cur.1 (o.leftSubtract cur.1 rest)) →
          Dom o mapSeg (rc :: rr) y → x < y := by
        intro x y hx hy
        rcases (hdr y).1 hy with hy | hy
        · exact hcrr x y hx hy
        · exact hwr'.2.2 x y ((hc' x).1 hx).1 hy
      have hwz : WF o mapSeg (Zip.toList ⟨l1, combine f (o.rightSubtract cur.1 (o.leftSubtract cur.1 rest),
          cur.2) v, rc :: rr⟩) := by
        simp only [Zip.toList, combine]
        rw [wf_append, wf_cons]
        refine ⟨hw1, ⟨hne', hwrr, hcr⟩, fun x y hx hy => ?_⟩
        rw [dom_reverse] at hx
        rw [dom_cons] at hy
        rcases hy with hy | hy
        · exact hl1c x y hx ((hc' y).1 hy).1
        · exact (hl1c x w hx hwc).trans (hcr w y ((hc' w).2 ⟨hwc, hwr0⟩) hy)
      obtain ⟨l, e, hw, hj, hjo⟩ := handleCombined_spec h c hwz
      refine ⟨l, e, hw, fun x y w hd => ?_, fun hc hjl hjr =>
        hjo hc (hjo1 hc hjl) (hjorr hc (hjr.mono (by simp +contextual)))⟩
      rw [hj x y w hd, heff x y w]
      simp only
      rw [hj1 x y w hd, hjrr x y w hd, joint_cons]
      simp only [combine, upd_eq, hc', Option.some.injEq]
      have h1 := he x
      clear * - h1
      grind

/-- A step of `add_main`. -/
theorem main_step (c : MapCfg V) (f : Combiner V) {v : V} (hv : absorbable c v = false)
    {left : List (I × V)} {cur nxt : I × V} {more post : List (I × V)} {rest : I}
    (hi : Inv o left cur (nxt :: more) post rest) :
    ∃ l1 l2, addLeadGap o c f (some cur) left cur (nxt :: more ++ post) rest v = some l1 ∧
      handleLeftCombined o c l1 (combine f cur v) (nxt :: more ++ post) = some l2 ∧
      WF o mapSeg l1.reverse ∧
      (∀ x y w, Dg c x y → (Joint o l1 x y w ↔ Joint o left x y w ∨
        (o.Mem x (o.rightSubtract rest cur.1) ∧ o.Mem y (o.rightSubtract rest cur.1) ∧ f.version v = w))) ∧
      (∀ x y, Dom o mapSeg l1 x → o.Mem y cur.1 → x < y) ∧
      (∀ x, o.Mem x cur.1 → o.Mem x rest) ∧
      Inv o l2 nxt more post (o.leftSubtract rest cur.1) ∧
      (∀ x y w, Dg c x y → (Joint o l2 x y w ↔ Joint o left x y w ∨
        (o.Mem x (o.rightSubtract rest cur.1) ∧ o.Mem y (o.rightSubtract rest cur.1) ∧ f.version v = w) ∨
        (o.Mem x cur.1 ∧ o.Mem y cur.1 ∧ upd c f v cur.2 = some w))) ∧
      (c.joining = true → Joined o mapSeg left → Joined o mapSeg l2) := by
  have hwr := hi.wfr
  rw [List.cons_append] at hwr
  have hwr' := wf_cons.1 hwr
  simp only [mapSeg_key] at hwr'
  obtain ⟨w0, hwn0, hwr0⟩ := hi.overlap nxt (by simp)
  have hlg := h.mem_rightSubtract rest cur.1
  have hrest := h.mem_leftSubtract rest cur.1
  have hcr : ∀ x, o.Mem x cur.1 → o.Mem x rest := by
    intro x hx
    obtain ⟨y, hy, hyx⟩ := hi.front x hx
    exact h.convex rest y x w0 hy hwr0 hyx (hwr'.2.2 x w0 hx (by simp [hwn0])).le
  have hwc : WF o mapSeg (cur :: nxt :: more) := (wf_append.1 hi.wfr).1
  obtain ⟨l1, e1, hw1, hj1, hjo1⟩ := addLeadGap_spec h c f hv (first := some cur)
    (left := left) (cur := cur) (right := nxt :: more ++ post) (rest := rest) (by simp) hi.wfl hwr hi.before
  have hl1c : ∀ x y, Dom o mapSeg l1 x → o.Mem y cur.1 → x < y := by
    intro x y hx hy
    obtain ⟨u, hu⟩ := dom_iff_joint.1 hx
    rcases (hj1 x x u (dg_self c x)).1 hu with hx | hx
    · exact hi.sep x y hx.left (by simp [hy])
    · exact ((hlg x).1 hx.1).2 y hy
  obtain ⟨l2, e2, hw2, hj2, hjo2⟩ := handleLeftCombined_spec h c (s := combine f cur v)
    (nxt :: more ++ post) hw1 hwr'.1 hl1c
  have hj : ∀ x y w, Dg c x y → (Joint o l2 x y w ↔ Joint o left x y w ∨
      (o.Mem x (o.rightSubtract rest cur.1) ∧ o.Mem y (o.rightSubtract rest cur.1) ∧ f.version v = w) ∨
      (o.Mem x cur.1 ∧ o.Mem y cur.1 ∧ upd c f v cur.2 = some w)) := by
    intro x y w hd
    rw [hj2 x y w hd, hj1 x y w hd, upd_eq]
    simp only [combine]
    clear * -
    grind
  have hd2 : ∀ x, Dom o mapSeg l2 x → Dom o mapSeg left x ∨ o.Mem x (o.rightSubtract rest cur.1) ∨
      o.Mem x cur.1 := by
    intro x hx
    obtain ⟨u, hu⟩ := dom_iff_joint.1 hx
    rcases (hj x x u (dg_self c x)).1 hu with hx | hx | hx
    · exact Or.inl hx.left
    · exact Or.inr (Or.inl hx.1)
    · exact Or.inr (Or.inr hx.1)
  have hi' : Inv o l2 nxt more post (o.leftSubtract rest cur.1) := by
    refine ⟨hw2, hwr'.2.1, ?_, ⟨w0, (hrest w0).2 ⟨hwr0, fun y hy => hwr'.2.2 y w0 hy (by simp [hwn0])⟩⟩,
      ?_, ?_, ?_, ?_⟩
    · intro x y hx hy
      rcases hd2 x hx with hx | hx | hx
      · exact hi.sep x y hx (by rw [List.cons_append, dom_cons]; exact Or.inr hy)
      · obtain ⟨u, hu⟩ := hwr'.1
        exact (((hlg x).1 hx).2 u hu).trans (hwr'.2.2 u y hu hy)
      · exact hwr'.2.2 x y hx hy
    · intro x y hx hy
      have hy' := (hrest y).1 hy
      rcases hd2 x hx with hx | hx | hx
      · exact hi.before x y hx hy'.1
      · obtain ⟨u, hu⟩ := hwr'.1
        exact (((hlg x).1 hx).2 u hu).trans (hy'.2 u hu)
      · exact hy'.2 x hx
    · intro s hs
      obtain ⟨x, hx, hxr⟩ := hi.overlap s (by simp only [List.mem_cons] at hs ⊢; tauto)
      refine ⟨x, hx, (hrest x).2 ⟨hxr, fun y hy => hwr'.2.2 y x hy ?_⟩⟩
      rw [dom_append]
      exact Or.inl ⟨s, hs, hx⟩
    · intro x y hx hy
      exact hi.after x y ((hrest x).1 hx).1 hy
    · intro x hx
      have hxc : ∀ y, o.Mem y cur.1 → y < x := fun y hy => hwr'.2.2 y x hy (by simp [hx])
      by_cases hxr : o.Mem x rest
      · exact ⟨x, (hrest x).2 ⟨hxr, hxc⟩, le_refl _⟩
      · refine ⟨w0, (hrest w0).2 ⟨hwr0, fun y hy => hwr'.2.2 y w0 hy (by simp [hwn0])⟩, ?_⟩
        by_contra hc
        obtain ⟨u, hu⟩ := hwr'.1
        exact hxr (h.convex rest u x w0 (hcr u hu) hwr0 (hxc u hu).le (not_le.1 hc).le)
  exact ⟨l1, l2, e1, e2, hw1, hj1, hl1c, hcr, hi', hj, fun hc hjl => hjo2 hc (hjo1 hc hjl)⟩

/-- `add_main` followed by `add_rear`. -/
theorem addMainRear_spec (c : MapCfg V) (f : Combiner V) {v : V} (hv : absorbable c v = false)
    {left : List (I × V)} {cur : I × V} {mid post : List (I × V)} {rest : I}
    (hi : Inv o left cur mid post rest) :
    ∃ l, (do
        let (left, cur, rest) ← addMain o c f v left rest cur mid post
        addRear o c f v left cur post rest) = some l ∧ WF o mapSeg l ∧
      (∀ x y w, Dg c x y → (Joint o l x y w ↔ Joint o left x y w ∨ Joint o post x y w ∨
        Eff o (upd c f v) (some (f.version v)) (cur :: mid) rest x y w)) ∧
      (c.joining = true → Joined o mapSeg left → Joined o mapSeg (cur :: mid ++ post) →
        Joined o mapSeg l) := by
  induction mid generalizing left cur rest with
  | nil => simpa [addMain] using addRear_spec h c f hv hi
  | cons nxt more ih =>
    have hwc : WF o mapSeg (cur :: nxt :: more) := (wf_append.1 hi.wfr).1
    obtain ⟨l1, l2, e1, e2, hw1, hj1, hl1c, hcr, hi', hj, hjo2⟩ := main_step h c f hv hi
    obtain ⟨l, e, hw, hjl, hjo⟩ := ih hi'
    refine ⟨l, ?_, hw, fun x y w hd => ?_, fun hc hjl hjr => ?_⟩
    · simp only [addMain, addSegment, e1, Option.bind_eq_bind, Option.bind_some, e2]
      simpa using e
    · rw [hjl x y w hd, hj x y w hd, eff_cons h hwc hcr x y w]
      simp only [Option.some.injEq]
      clear * -
      grind
    · exact hjo hc (hjo2 hc hjl) (hjr.mono (by simp +contextual))

/-- The effect on the nodes of a map: outside a collision sequence nothing changes. -/
theorem eff_range {up : V → Option V} {fill : Option V} {a : List (I × V)} {g : I × V}
    {b c : List (I × V)} {k : I} (hr : Range o mapSeg a g b c k) (x y : D) (w : V) :
    Eff o up fill (a ++ g :: b ++ c) k x y w ↔
      Joint o a x y w ∨ Joint o c x y w ∨ Eff o up fill (g :: b) k x y w := by
  have hna : ∀ z, Dom o mapSeg a z → ¬ o.Mem z k := fun z hz hk => absurd (hr.before z z hz hk) (lt_irrefl _)
  have hnc : ∀ z, Dom o mapSeg c z → ¬ o.Mem z k := fun z hz hk => absurd (hr.after z z hk hz) (lt_irrefl _)
  simp only [Eff]
  constructor
  · rintro (⟨hx, hy, (⟨u, hj, hu⟩ | ⟨hf, hfree⟩)⟩ | ⟨hn, hj⟩)
    · simp only [joint_append] at hj
      rcases hj with (hj | hj) | hj
      · exact absurd hx (hna x hj.left)
      · exact Or.inr (Or.inr (Or.inl ⟨hx, hy, Or.inl ⟨u, hj, hu⟩⟩))
      · exact absurd hx (hnc x hj.left)
    · refine Or.inr (Or.inr (Or.inl ⟨hx, hy, Or.inr ⟨hf, fun z hz hd => hfree z hz ?_⟩⟩))
      simp only [dom_append]
      exact Or.inl (Or.inr hd)
    · simp only [joint_append] at hj
      rcases hj with (hj | hj) | hj
      · exact Or.inl hj
      · exact Or.inr (Or.inr (Or.inr ⟨hn, hj⟩))
      · exact Or.inr (Or.inl hj)
  · rintro (hj | hj | (⟨hx, hy, (⟨u, hj, hu⟩ | ⟨hf, hfree⟩)⟩ | ⟨hn, hj⟩))
    · refine Or.inr ⟨fun z hz => hna z (joint_btw h hj hz).right, ?_⟩
      simp only [joint_append]; exact Or.inl (Or.inl hj)
    · refine Or.inr ⟨fun z hz => hnc z (joint_btw h hj hz).right, ?_⟩
      simp only [joint_append]; exact Or.inr hj
    · refine Or.inl ⟨hx, hy, Or.inl ⟨u, ?_, hu⟩⟩
      simp only [joint_append]; exact Or.inl (Or.inr hj)
    · refine Or.inl ⟨hx, hy, Or.inr ⟨hf, fun z hz hd => ?_⟩⟩
      simp only [dom_append] at hd
      rcases hd with (hd | hd) | hd
      · exact hna z hd (mem_btw h hx hy hz)
      · exact hfree z hz hd
      · exact hnc z hd (mem_btw h hx hy hz)
    · refine Or.inr ⟨hn, ?_⟩
      simp only [joint_append]; exact Or.inl (Or.inr hj)

/-- The effect on a collision sequence is that on the one with the first node split. -/
theorem eff_front {up : V → Option V} {fill : Option V} {a : List (I × V)} {g : I × V}
    {b c : List (I × V)} {k : I} (hr : Range o mapSeg a g b c k) {left : List (I × V)} {cur : I × V}
    (hi : Inv o left cur b c k)
    (hj : ∀ x y w, Joint o left x y w ∨ (o.Mem x cur.1 ∧ o.Mem y cur.1 ∧ cur.2 = w) ↔ Joint o a x y w ∨
        ((o.Mem x g.1 ∧ o.Mem y g.1 ∧ g.2 = w) ∧
          ((∀ z, o.Mem z k → x < z) ↔ (∀ z, o.Mem z k → y < z)))) (x y : D) (w : V) :
    Joint o left x y w ∨ Eff o up fill (cur :: b) k x y w ↔
      Joint o a x y w ∨ Eff o up fill (g :: b) k x y w := by
  have hka : ∀ z, Dom o mapSeg a z → ¬ o.Mem z k := fun z hz hk => absurd (hr.before z z hz hk) (lt_irrefl _)
  have hkl : ∀ z, Dom o mapSeg left z → ¬ o.Mem z k := fun z hz hk => absurd (hi.before z z hz hk) (lt_irrefl _)
  -- within k
  have hin : ∀ x y w, o.Mem x k → o.Mem y k →
      ((o.Mem x cur.1 ∧ o.Mem y cur.1 ∧ cur.2 = w) ↔ (o.Mem x g.1 ∧ o.Mem y g.1 ∧ g.2 = w)) := by
    intro x y w hx hy
    have := hj x y w
    have h1 : ¬ Joint o left x y w := fun h1 => hkl x h1.left hx
    have h2 : ¬ Joint o a x y w := fun h1 => hka x h1.left hx
    have h3 : ¬ ∀ z, o.Mem z k → x < z := fun h3 => absurd (h3 x hx) (lt_irrefl _)
    have h4 : ¬ ∀ z, o.Mem z k → y < z := fun h3 => absurd (h3 y hy) (lt_irrefl _)
    clear * - this h1 h2 h3 h4
    grind
  have hdom : ∀ z, o.Mem z k → (Dom o mapSeg (cur :: b) z ↔ Dom o mapSeg (g :: b) z) := by
    intro z hz
    simp only [dom_cons, mapSeg_key]
    have h1 := hin z z cur.2 hz hz
    have h2 := hin z z g.2 hz hz
    clear * - h1 h2
    grind
  have hcurk : ∀ u, o.Mem u cur.1 → ¬ o.Mem u k → ∀ z, o.Mem z k → z < u := by
    intro u hu hnk
    rcases point_tri h hr.nonempty u with h1 | h1 | h1
    · exact absurd h1 hnk
    · obtain ⟨z, hz, hzu⟩ := hi.front u hu
      exact absurd (h1 z hz) (not_lt.2 hzu)
    · exact h1
  simp only [Eff]
  constructor
  · rintro (hl | (⟨hx, hy, (⟨u, hju, hu⟩ | ⟨hf, hfree⟩)⟩ | ⟨hn, hju⟩))
    · rcases (hj x y w).1 (Or.inl hl) with h1 | ⟨h1, h2⟩
      · exact Or.inl h1
      · refine Or.inr (Or.inr ⟨fun z hz hk => ?_, by rw [joint_cons]; exact Or.inl h1⟩)
        exact hkl z (joint_btw h hl hz).right hk
    · refine Or.inr (Or.inl ⟨hx, hy, Or.inl ⟨u, ?_, hu⟩⟩)
      rw [joint_cons] at hju ⊢
      rcases hju with h1 | h1
      · exact Or.inl ((hin x y u hx hy).1 h1)
      · exact Or.inr h1
    · refine Or.inr (Or.inl ⟨hx, hy, Or.inr ⟨hf, fun z hz hd => hfree z hz ?_⟩⟩)
      exact (hdom z (mem_btw h hx hy hz)).2 hd
    · rw [joint_cons] at hju
      rcases hju with h1 | h1
      · rcases (hj x y w).1 (Or.inr h1) with h2 | ⟨h2, _⟩
        · exact Or.inl h2
        · exact Or.inr (Or.inr ⟨hn, by rw [joint_cons]; exact Or.inl h2⟩)
      · exact Or.inr (Or.inr ⟨hn, by rw [joint_cons]; exact Or.inr h1⟩)
  · rintro (ha | (⟨hx, hy, (⟨u, hju, hu⟩ | ⟨hf, hfree⟩)⟩ | ⟨hn, hju⟩))
    · rcases (hj x y w).2 (Or.inl ha) with h1 | h1
      · exact Or.inl h1
      · refine Or.inr (Or.inr ⟨fun z hz hk => ?_, by rw [joint_cons]; exact Or.inl h1⟩)
        exact hka z (joint_btw h ha hz).right hk
    · refine Or.inr (Or.inl ⟨hx, hy, Or.inl ⟨u, ?_, hu⟩⟩)
      rw [joint_cons] at hju ⊢
      rcases hju with h1 | h1
      · exact Or.inl ((hin x y u hx hy).2 h1)
      · exact Or.inr h1
    · refine Or.inr (Or.inl ⟨hx, hy, Or.inr ⟨hf, fun z hz hd => hfree z hz ?_⟩⟩)
      exact (hdom z (mem_btw h hx hy hz)).1 hd
    · rw [joint_cons] at hju
      rcases hju with h1 | h1
      · have hside : (∀ z, o.Mem z k → x < z) ↔ (∀ z, o.Mem z k → y < z) := by
          obtain ⟨u, hu⟩ := hr.nonempty
          rcases point_tri h hr.nonempty x with h2 | h2 | h2
          · exact absurd h2 (hn x (btw_left x y))
          · rcases point_tri h hr.nonempty y with h3 | h3 | h3
            · exact absurd h3 (hn y (btw_right x y))
            · exact iff_of_true h2 h3
            · exact absurd hu (hn u ⟨(min_le_left _ _).trans (h2 u hu).le,
                (h3 u hu).le.trans (le_max_right _ _)⟩)
          · rcases point_tri h hr.nonempty y with h3 | h3 | h3
            · exact absurd h3 (hn y (btw_right x y))
            · exact absurd hu (hn u ⟨(min_le_right _ _).trans (h3 u hu).le,
                (h2 u hu).le.trans (le_max_left _ _)⟩)
            · exact iff_of_false (fun h4 => lt_asymm (h2 u hu) (h4 u hu))
                (fun h4 => lt_asymm (h3 u hu) (h4 u hu))
        rcases (hj x y w).2 (Or.inr ⟨h1, hside⟩) with h2 | h2
        · exact Or.inl h2
        · exact Or.inr (Or.inr ⟨hn, by rw [joint_cons]; exact Or.inl h2⟩)
      · exact Or.inr (Or.inr ⟨hn, by rw [joint_cons]; exact Or.inr h1⟩)

/-- Specification of an update of the elements of `k`. -/
structure UpdSpec (o : IntervalOps D I) (c : MapCfg V) (up : V → Option V) (fill : Option V)
    (l : List (I × V)) (k : I) (l' : List (I × V)) : Prop where
  wf : WF o mapSeg l'
  joint : ∀ x y w, Dg c x y → (Joint o l' x y w ↔ Eff o up fill l k x y w)
  joined : c.joining = true → Joined o mapSeg l → Joined o mapSeg l'

theorem addOver_spec (c : MapCfg V) (f : Combiner V) {v : V} (hv : absorbable c v = false)
    {a : List (I × V)} {g : I × V} {b post : List (I × V)} {k : I} (hr : Range o mapSeg a g b post k) :
    ∃ l', addOver o c f a g b post k v = some l' ∧
      UpdSpec o c (upd c f v) (some (f.version v)) (a ++ g :: b ++ post) k l' := by
  obtain ⟨left, cur, e1, hi, hj1, hjo1⟩ := addFront_spec h hr
  obtain ⟨l, e, hw, hj, hjo⟩ := addMainRear_spec h c f hv hi
  refine ⟨l, ?_, hw, fun x y w hd => ?_, fun hc hjl => hjo hc (hjo1 hjl).1 (hjo1 hjl).2⟩
  · simp only [addOver, e1, Option.bind_eq_bind, Option.bind_some]
    exact e
  · rw [hj x y w hd, eff_range h hr]
    have := eff_front h (up := upd c f v) (fill := some (f.version v)) hr hi hj1 x y w
    clear * - this
    grind

omit h in
theorem eff_free {up : V → Option V} {fill : Option V} {l : List (I × V)} {k : I}
    (hd : ∀ x, Dom o mapSeg l x → ¬ o.Mem x k) (h : o.Lawful) (x y : D) (w : V) :
    Eff o up fill l k x y w ↔ Joint o l x y w ∨ (o.Mem x k ∧ o.Mem y k ∧ fill = some w) := by
  simp only [Eff]
  constructor
  · rintro (⟨hx, hy, (⟨u, hj, hu⟩ | ⟨hf, hfree⟩)⟩ | ⟨hn, hj⟩)
    · exact absurd hx (hd x hj.left)
    · exact Or.inr ⟨hx, hy, hf⟩
    · exact Or.inl hj
  · rintro (hj | ⟨hx, hy, hf⟩)
    · exact Or.inr ⟨fun z hz => hd z (joint_btw h hj hz).right, hj⟩
    · exact Or.inl ⟨hx, hy, Or.inr ⟨hf, fun z hz h1 => hd z h1 (mem_btw h hx hy hz)⟩⟩

/-- Insertion of a segment where nothing overlaps. -/
theorem insertFree_spec (c : MapCfg V) (up : V → Option V) {a post : List (I × V)} {k : I} {u : V}
    (hw : WF o mapSeg (a ++ post)) (hk : o.Nonempty k)
    (h1 : ∀ x y, Dom o mapSeg a x → o.Mem y k → x < y)
    (h2 : ∀ x y, o.Mem x k → Dom o mapSeg post y → x < y) :
    ∃ l', (handleInserted o c ⟨a.reverse, (k, u), post⟩).map Zip.toList = some l' ∧
      UpdSpec o c up (some u) (a ++ post) k l' := by
  have hw' := wf_append.1 hw
  have hwz : WF o mapSeg (Zip.toList ⟨a.reverse, (k, u), post⟩) := by
    simp only [Zip.toList, List.reverse_reverse]
    rw [wf_append, wf_cons]
    refine ⟨hw'.1, ⟨hk, hw'.2.1, h2⟩, fun x y hx hy => ?_⟩
    rw [dom_cons] at hy
    rcases hy with hy | hy
    · exact h1 x y hx hy
    · exact hw'.2.2 x y hx hy
  obtain ⟨z, e, hwz', hj, hjo⟩ := handleInserted_spec h c hwz
  refine ⟨z.toList, by simp [e], hwz', fun x y w hd => ?_, fun hc hjl => hjo hc ?_ ?_⟩
  · rw [hj x y w hd, eff_free _ h]
    · simp only [Zip.toList, joint_append, joint_reverse, joint_cons, Option.some.injEq]
      clear * -
      grind
    · intro x hx hxk
      rw [dom_append] at hx
      rcases hx with hx | hx
      · exact absurd (h1 x x hx hxk) (lt_irrefl _)
      · exact absurd (h2 x x hxk hx) (lt_irrefl _)
  · exact joined_reverse.2 (hjl.mono (by simp +contextual))
  · exact hjl.mono (by simp +contextual)

/-- The effect on a map of an addend with an empty interval. -/
theorem updSpec_empty (c : MapCfg V) (up : V → Option V) (fill : Option V) {l : List (I × V)} {k : I}
    (hw : WF o mapSeg l) (hk : ¬ o.Nonempty k) : UpdSpec o c up fill l k l := by
  have hn : ∀ x, ¬ o.Mem x k := fun x hx => hk ⟨x, hx⟩
  refine ⟨hw, fun x y w _ => ?_, fun _ hj => hj⟩
  simp [Eff, hn]

/-- `add(segment)`: elements of `k` that had a value get the combined one, unless it is absorbed; those that had
none get the (pro- or in-)version of `v`. -/
theorem addC_spec (c : MapCfg V) (f : Combiner V) {l : List (I × V)} (hl : WF o mapSeg l) (k : I) (v : V) :
    ∃ l', addC o c f l k v = some l' ∧
      (absorbable c v = true → l' = l) ∧
      (absorbable c v = false → UpdSpec o c (upd c f v) (some (f.version v)) l k l') := by
  unfold addC
  by_cases hk : o.Nonempty k
  · rw [isEmpty_false h hk]
    simp only [Bool.false_eq_true, if_false]
    cases hv : absorbable c v with
    | true => exact ⟨l, by simp, by simp, by simp⟩
    | false =>
      simp only [Bool.false_eq_true, if_false]
      rcases range_cases h hl hk with ⟨a, p, e, rfl, h1, h2⟩ | ⟨a, g, b, p, e, rfl, hr⟩
      · obtain ⟨l', e', hs⟩ := insertFree_spec h c (upd c f v) (u := f.version v) hl hk h1 h2
        exact ⟨l', by simp only [e, Option.bind_eq_bind, Option.bind_some]; exact e', by simp, fun _ => hs⟩
      · obtain ⟨l', e', hs⟩ := addOver_spec h c f hv hr
        exact ⟨l', by simp only [e, Option.bind_eq_bind, Option.bind_some]; exact e', by simp, fun _ => hs⟩
  · rw [(empty_iff h).2 hk]
    exact ⟨l, by simp, by simp, fun _ => updSpec_empty h c _ _ hl hk⟩

end
end IMap
end ICL
