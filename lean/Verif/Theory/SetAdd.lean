import Verif.Model.Set
import Verif.Theory.Seg

/-!
# Addition and subtraction of a segment: interval sets
-/

set_option linter.unusedSectionVars false
set_option linter.unusedVariables false

namespace ICL

variable {D I V S : Type} [LinearOrder D] {o : IntervalOps D I} {g : SegOps I V S}

/-- Two elements lie in one segment. -/
def Same (o : IntervalOps D I) (g : SegOps I V S) (l : List S) (x y : D) : Prop :=
  ∃ s ∈ l, o.Mem x (g.key s) ∧ o.Mem y (g.key s)

@[simp] theorem same_nil (x y : D) : Same o g [] x y ↔ False := by simp [Same]
@[simp] theorem same_cons (s : S) (l : List S) (x y : D) :
    Same o g (s :: l) x y ↔ (o.Mem x (g.key s) ∧ o.Mem y (g.key s)) ∨ Same o g l x y := by
  simp [Same]
@[simp] theorem same_append (a b : List S) (x y : D) :
    Same o g (a ++ b) x y ↔ Same o g a x y ∨ Same o g b x y := by
  simp only [Same, List.mem_append, or_and_right, exists_or]
@[simp] theorem same_reverse (a : List S) (x y : D) :
    Same o g a.reverse x y ↔ Same o g a x y := by simp [Same]
theorem same_self (l : List S) (x : D) : Same o g l x x ↔ Dom o g l x := by simp [Same, Dom]
theorem Same.left {l : List S} {x y : D} (h : Same o g l x y) : Dom o g l x :=
  let ⟨s, h1, h2, _⟩ := h; ⟨s, h1, h2⟩
theorem Same.right {l : List S} {x y : D} (h : Same o g l x y) : Dom o g l y :=
  let ⟨s, h1, _, h2⟩ := h; ⟨s, h1, h2⟩
theorem Same.symm {l : List S} {x y : D} (h : Same o g l x y) : Same o g l y x :=
  let ⟨s, h1, h2, h3⟩ := h; ⟨s, h1, h3, h2⟩

section
variable (h : o.Lawful)
include h

/-- Position of a point relative to a non-empty interval. -/
theorem point_tri {i : I} (hi : o.Nonempty i) (x : D) :
    o.Mem x i ∨ (∀ y, o.Mem y i → x < y) ∨ (∀ y, o.Mem y i → y < x) := by
  by_contra hc
  push Not at hc
  obtain ⟨h1, ⟨a, ha, hax⟩, ⟨b, hb, hxb⟩⟩ := hc
  exact h1 (h.convex i a x b ha hb hax hxb)

theorem empty_iff {i : I} : o.isEmpty i = true ↔ ¬ o.Nonempty i := by
  rw [nonempty_iff h]; simp

end

/-- The nodes of a collision sequence: `l = a ++ (f :: b) ++ c`, where exactly the nodes `f :: b`
overlap with `k`. -/
structure Range (o : IntervalOps D I) (g : SegOps I V S) (a : List S) (f : S) (b c : List S) (k : I) :
    Prop where
  wf : WF o g (a ++ f :: b ++ c)
  nonempty : o.Nonempty k
  before : ∀ x y, Dom o g a x → o.Mem y k → x < y
  overlap : ∀ s ∈ f :: b, ∃ x, o.Mem x (g.key s) ∧ o.Mem x k
  after : ∀ x y, o.Mem x k → Dom o g c y → x < y

/-- The last node of a collision sequence. -/
theorem getLastD_mem {S : Type} (f : S) (b : List S) : b.getLastD f ∈ f :: b := by
  cases b with
  | nil => simp
  | cons x xs => rw [List.getLastD_cons]; simp [List.getLastD_eq_getLast?]; right
                 cases h : xs.getLast? with
                 | none => simp
                 | some y => simp [List.mem_of_getLast? h]

theorem eq_last_or_before {f : S} {b : List S} (hw : WF o g (f :: b)) {s : S} (hs : s ∈ f :: b) :
    s = b.getLastD f ∨ o.Before (g.key s) (g.key (b.getLastD f)) := by
  induction b generalizing f with
  | nil => left; simpa using hs
  | cons x xs ih =>
    rw [List.getLastD_cons]
    have hw' := wf_cons.1 hw
    rcases List.mem_cons.1 hs with rfl | hs
    · right
      intro u v hu hv
      exact hw'.2.2 u v hu ⟨_, getLastD_mem x xs, hv⟩
    · exact ih hw'.2.1 hs

section
variable (h : o.Lawful)
include h

/-- What `equal_range` tells about a non-empty key: either no node overlaps, or there is a
collision sequence. -/
theorem range_cases {l : List S} {k : I} (hl : WF o g l) (hk : o.Nonempty k) :
    (∃ a c, equalRange o g l k = some (a, [], c) ∧ l = a ++ c ∧
      (∀ x y, Dom o g a x → o.Mem y k → x < y) ∧ (∀ x y, o.Mem x k → Dom o g c y → x < y)) ∨
    (∃ a f b c, equalRange o g l k = some (a, f :: b, c) ∧ l = a ++ f :: b ++ c ∧
      Range o g a f b c k) := by
  obtain ⟨a, b, c, e, rfl, h1, h2, h3⟩ := equalRange_spec h hl hk
  have h1' : ∀ x y, Dom o g a x → o.Mem y k → x < y := by
    rintro x y ⟨s, hs, hx⟩ hy; exact h1 s hs x y hx hy
  have h3' : ∀ x y, o.Mem x k → Dom o g c y → x < y := by
    rintro x y hx ⟨s, hs, hy⟩; exact h3 s hs x y hx hy
  cases b with
  | nil => left; exact ⟨a, c, e, by simp, h1', h3'⟩
  | cons f b => right; exact ⟨a, f, b, c, e, rfl, hl, hk, h1', h2, h3'⟩

/-! ### The interval that replaces a collision sequence -/

theorem mem_joinUnder {a : List I} {f : I} {b c : List I} {k : I}
    (hr : Range o setSeg a f b c k) (x : D) :
    o.Mem x (o.hull (o.hull (o.rightSubtract f k) k) (o.leftSubtract (b.getLastD f) k)) ↔
      o.Mem x k ∨ Dom o setSeg (f :: b) x := by
  have hwm : WF o setSeg (f :: b) := (wf_append.1 (wf_append.1 hr.wf).1).2.1
  obtain ⟨w1, hf1, hk1⟩ := hr.overlap f (by simp)
  obtain ⟨w2, hl2, hk2⟩ := hr.overlap (b.getLastD f) (getLastD_mem f b)
  change o.Mem w1 f at hf1
  change o.Mem w2 (b.getLastD f) at hl2
  constructor
  · intro hx
    -- bounds of x within the three parts
    have key : ∃ u v, (o.Mem u (o.rightSubtract f k) ∨ o.Mem u k ∨
          o.Mem u (o.leftSubtract (b.getLastD f) k)) ∧
        (o.Mem v (o.rightSubtract f k) ∨ o.Mem v k ∨
          o.Mem v (o.leftSubtract (b.getLastD f) k)) ∧ u ≤ x ∧ x ≤ v := by
      obtain ⟨p, q, hp, hq, hpx, hxq⟩ := (h.mem_hull _ _ _).1 hx
      have hp' : ∃ u, (o.Mem u (o.rightSubtract f k) ∨ o.Mem u k ∨
          o.Mem u (o.leftSubtract (b.getLastD f) k)) ∧ u ≤ p := by
        rcases hp with hp | hp
        · obtain ⟨u, _, hu, _, h1, _⟩ := (h.mem_hull _ _ _).1 hp
          exact ⟨u, by tauto, h1⟩
        · exact ⟨p, by tauto, le_refl _⟩
      have hq' : ∃ u, (o.Mem u (o.rightSubtract f k) ∨ o.Mem u k ∨
          o.Mem u (o.leftSubtract (b.getLastD f) k)) ∧ q ≤ u := by
        rcases hq with hq | hq
        · obtain ⟨_, u, _, hu, _, h1⟩ := (h.mem_hull _ _ _).1 hq
          exact ⟨u, by tauto, h1⟩
        · exact ⟨q, by tauto, le_refl _⟩
      obtain ⟨u, hu, hup⟩ := hp'
      obtain ⟨v, hv, hqv⟩ := hq'
      exact ⟨u, v, hu, hv, hup.trans hpx, hxq.trans hqv⟩
    obtain ⟨u, v, hu, hv, hux, hxv⟩ := key
    rw [h.mem_rightSubtract, h.mem_leftSubtract] at hu hv
    rcases lt_or_ge x w1 with hx1 | hx1
    · rcases hu with ⟨hu, _⟩ | hu | ⟨_, hu⟩
      · exact Or.inr ⟨f, by simp, h.convex f u x w1 hu hf1 hux (le_of_lt hx1)⟩
      · exact Or.inl (h.convex k u x w1 hu hk1 hux (le_of_lt hx1))
      · have := hu w1 hk1; order
    · rcases hv with ⟨_, hv⟩ | hv | ⟨hv, _⟩
      · have := hv w1 hk1; order
      · exact Or.inl (h.convex k w1 x v hk1 hv hx1 hxv)
      · rcases le_total x w2 with h2 | h2
        · exact Or.inl (h.convex k w1 x w2 hk1 hk2 hx1 h2)
        · exact Or.inr ⟨_, getLastD_mem f b, h.convex _ w2 x v hl2 hv h2 hxv⟩
  · intro hx
    have hin : o.Mem x (o.rightSubtract f k) ∨ o.Mem x k ∨
        o.Mem x (o.leftSubtract (b.getLastD f) k) := by
      rcases hx with hx | ⟨s, hs, hx⟩
      · exact Or.inr (Or.inl hx)
      · change o.Mem x s at hx
        rcases point_tri h hr.nonempty x with h1 | h1 | h1
        · exact Or.inr (Or.inl h1)
        · left
          rw [h.mem_rightSubtract]
          refine ⟨?_, h1⟩
          rcases List.mem_cons.1 hs with rfl | hs
          · exact hx
          · have h2 := (wf_cons.1 hwm).2.2 w1 x hf1 ⟨s, hs, hx⟩
            have h3 := h1 w1 hk1
            order
        · right; right
          rw [h.mem_leftSubtract]
          refine ⟨?_, h1⟩
          rcases eq_last_or_before hwm hs with rfl | hb
          · exact hx
          · have h2 := hb x w2 hx hl2
            have h3 := h1 w2 hk2
            order
    rw [h.mem_hull]
    rcases hin with hx | hx | hx
    · have : o.Mem x (o.hull (o.rightSubtract f k) k) :=
        (h.mem_hull _ _ _).2 ⟨x, x, Or.inl hx, Or.inl hx, le_refl _, le_refl _⟩
      exact ⟨x, x, Or.inl this, Or.inl this, le_refl _, le_refl _⟩
    · have : o.Mem x (o.hull (o.rightSubtract f k) k) :=
        (h.mem_hull _ _ _).2 ⟨x, x, Or.inr hx, Or.inr hx, le_refl _, le_refl _⟩
      exact ⟨x, x, Or.inl this, Or.inl this, le_refl _, le_refl _⟩
    · exact ⟨x, x, Or.inr hx, Or.inr hx, le_refl _, le_refl _⟩

/-- `join_under`. -/
theorem joinUnder_spec {a : List I} {f : I} {b c : List I} {k : I}
    (hr : Range o setSeg a f b c k) :
    WF o setSeg (ISet.joinUnder o a f b c k).toList ∧
    (∀ x y, Same o setSeg (ISet.joinUnder o a f b c k).toList x y ↔
      Same o setSeg a x y ∨ Same o setSeg c x y ∨
      ((o.Mem x k ∨ Dom o setSeg (f :: b) x) ∧ (o.Mem y k ∨ Dom o setSeg (f :: b) y))) := by
  have hm := mem_joinUnder h hr
  have hw1 := wf_append.1 hr.wf
  have hw2 := wf_append.1 hw1.1
  constructor
  · simp only [ISet.joinUnder, Zip.toList, List.reverse_reverse]
    rw [wf_append, wf_cons]
    refine ⟨hw2.1, ⟨?_, hw1.2.1, ?_⟩, ?_⟩
    · obtain ⟨x, hx⟩ := hr.nonempty
      exact ⟨x, (hm x).2 (Or.inl hx)⟩
    · intro x y hx hy
      rcases (hm x).1 hx with hx | hx
      · exact hr.after x y hx hy
      · exact hw1.2.2 x y (by simp only [dom_append]; exact Or.inr hx) hy
    · intro x y hx hy
      rw [dom_cons] at hy
      rcases hy with hy | hy
      · rcases (hm y).1 hy with hy | hy
        · exact hr.before x y hx hy
        · exact hw2.2.2 x y hx hy
      · exact hw1.2.2 x y (by simp only [dom_append]; exact Or.inl hx) hy
  · intro x y
    simp only [ISet.joinUnder, Zip.toList, List.reverse_reverse, same_append, same_cons]
    have e1 := hm x
    have e2 := hm y
    rw [setSeg_key, e1, e2]
    tauto

/-! ### split_interval_set -/

/-- Elements `x`, `y` of `k` with no element of the segments `m` between them. -/
def GapSame (o : IntervalOps D I) (m : List I) (k : I) (x y : D) : Prop :=
  o.Mem x k ∧ o.Mem y k ∧ ∀ z, min x y ≤ z → z ≤ max x y → ¬ Dom o setSeg m z

omit h in
theorem GapSame.not_dom {m : List I} {k : I} {x y : D} (hg : GapSame o m k x y) :
    ¬ Dom o setSeg m x ∧ ¬ Dom o setSeg m y :=
  ⟨hg.2.2 x (min_le_left _ _) (le_max_left _ _), hg.2.2 y (min_le_right _ _) (le_max_right _ _)⟩

/-- The nodes that `add_main`/`add_rear` see from position `cur` on: `cur` has no part left of
`rest`. -/
structure SplitInv (o : IntervalOps D I) (left : List I) (cur : I) (mid post : List I) (rest : I) :
    Prop where
  wf : WF o setSeg (left.reverse ++ cur :: mid ++ post)
  nonempty : o.Nonempty rest
  before : ∀ x y, Dom o setSeg left x → o.Mem y rest → x < y
  overlap : ∀ s ∈ cur :: mid, ∃ x, o.Mem x s ∧ o.Mem x rest
  after : ∀ x y, o.Mem x rest → Dom o setSeg post y → x < y
  front : ∀ x, o.Mem x cur → ∃ y, o.Mem y rest ∧ y ≤ x

/-- `add_front`. -/
theorem addFront_spec {a : List I} {f : I} {b c : List I} {k : I}
    (hr : Range o setSeg a f b c k) :
    ∃ left cur, ISet.addFront o a.reverse f (b ++ c) k = some (left, cur) ∧
      SplitInv o left cur b c k ∧
      (∀ x y, Same o setSeg left x y ∨ (o.Mem x cur ∧ o.Mem y cur) ↔
        Same o setSeg a x y ∨ ((o.Mem x f ∧ o.Mem y f) ∧
          ((∀ z, o.Mem z k → x < z) ↔ (∀ z, o.Mem z k → y < z)))) ∧
      (∀ x, Dom o setSeg left x → ∀ z, o.Mem z k → x < z) ∧
      (∀ x, o.Mem x cur → o.Mem x f) := by
  have hw1 := wf_append.1 hr.wf
  have hw2 := wf_append.1 hw1.1
  have hw3 := wf_cons.1 hw2.2.1
  obtain ⟨w, hwf, hwk⟩ := hr.overlap f (by simp)
  simp only [setSeg_key] at hwf
  have hlr := h.mem_rightSubtract f k
  unfold ISet.addFront
  dsimp only
  cases he : o.isEmpty (o.rightSubtract f k) with
  | true =>
    simp only [if_true]
    rw [h.isEmpty_iff] at he
    have hno : ∀ x, o.Mem x f → ∃ y, o.Mem y k ∧ y ≤ x := by
      intro x hx
      by_contra hc
      push Not at hc
      exact he x ((hlr x).2 ⟨hx, fun y hy => hc y hy⟩)
    refine ⟨a.reverse, f, rfl, ⟨by simpa using hr.wf, hr.nonempty, by simpa using hr.before,
      hr.overlap, hr.after, hno⟩, ?_, fun x hx z hz => hr.before x z (by simpa using hx) hz,
      fun x hx => hx⟩
    intro x y
    rw [same_reverse]
    constructor
    · rintro (h1 | h1)
      · exact Or.inl h1
      · refine Or.inr ⟨h1, ?_⟩
        constructor
        · intro h2
          obtain ⟨z, hz, hzx⟩ := hno x h1.1
          exact absurd (h2 z hz) (not_lt.2 hzx)
        · intro h2
          obtain ⟨z, hz, hzx⟩ := hno y h1.2
          exact absurd (h2 z hz) (not_lt.2 hzx)
    · rintro (h1 | h1)
      · exact Or.inl h1
      · exact Or.inr h1.1
  | false =>
    simp only [Bool.false_eq_true, if_false]
    have hne : o.Nonempty (o.rightSubtract f k) := (nonempty_iff h).2 he
    have hcur : ∀ x, o.Mem x (o.leftSubtract f (o.rightSubtract f k)) ↔
        o.Mem x f ∧ ¬ (∀ z, o.Mem z k → x < z) := by
      intro x
      rw [h.mem_leftSubtract]
      constructor
      · rintro ⟨h1, h2⟩
        refine ⟨h1, fun h3 => ?_⟩
        exact absurd (h2 x ((hlr x).2 ⟨h1, h3⟩)) (lt_irrefl _)
      · rintro ⟨h1, h2⟩
        refine ⟨h1, fun y hy => ?_⟩
        push Not at h2
        obtain ⟨z, hz, hzx⟩ := h2
        exact lt_of_lt_of_le (((hlr y).1 hy).2 z hz) hzx
    have hlc : ∀ x y, o.Mem x (o.rightSubtract f k) →
        o.Mem y (o.leftSubtract f (o.rightSubtract f k)) → x < y :=
      fun x y hx hy => ((h.mem_leftSubtract _ _ _).1 hy).2 x hx
    have hne' : o.Nonempty (o.leftSubtract f (o.rightSubtract f k)) :=
      ⟨w, (hcur w).2 ⟨hwf, fun h1 => absurd (h1 w hwk) (lt_irrefl _)⟩⟩
    have hbc : ∀ x y, o.Mem x f → Dom o setSeg (b ++ c) y → x < y := by
      intro x y hx hy
      rw [dom_append] at hy
      rcases hy with hy | hy
      · exact hw3.2.2 x y hx hy
      · exact hw1.2.2 x y (by simp [hx]) hy
    have hwbc : WF o setSeg (b ++ c) := by
      rw [wf_append]
      exact ⟨hw3.2.1, hw1.2.1, fun x y hx hy => hw1.2.2 x y (by simp [hx]) hy⟩
    have hwr : WF o setSeg (o.leftSubtract f (o.rightSubtract f k) :: (b ++ c)) := by
      rw [wf_cons]
      exact ⟨hne', hwbc, fun x y hx hy => hbc x y ((hcur x).1 hx).1 hy⟩
    have hal : ∀ x y, Dom o setSeg a x → o.Mem y (o.rightSubtract f k) → x < y := by
      intro x y hx hy
      exact hw2.2.2 x y hx (by simp [((hlr y).1 hy).1])
    have hins : insertAt o setSeg a.reverse (o.rightSubtract f k)
        (o.leftSubtract f (o.rightSubtract f k) :: (b ++ c)) = some ⟨a.reverse, o.rightSubtract f k,
          o.leftSubtract f (o.rightSubtract f k) :: (b ++ c)⟩ := by
      apply insertAt_eq h
      · intro p hp; exact hw2.1.nonempty p (by simpa using hp)
      · exact hwr.nonempty
      · exact hne
      · intro x y hx hy; exact hal x y (by simpa using hx) hy
      · intro x y hx hy
        rw [dom_cons] at hy
        rcases hy with hy | hy
        · exact hlc x y hx hy
        · exact hbc x y ((hlr x).1 hx).1 hy
    rw [hins]
    refine ⟨_, _, rfl, ⟨?_, hr.nonempty, ?_, ?_, hr.after, ?_⟩, ?_, ?_, fun x hx => ((hcur x).1 hx).1⟩
    · simp only [List.reverse_cons, List.reverse_reverse, List.append_assoc, List.cons_append,
        List.nil_append]
      rw [wf_append]
      refine ⟨hw2.1, ?_, ?_⟩
      · rw [wf_cons]
        refine ⟨hne, hwr, ?_⟩
        intro x y hx hy
        rw [dom_cons] at hy
        rcases hy with hy | hy
        · exact hlc x y hx hy
        · exact hbc x y ((hlr x).1 hx).1 hy
      · intro x y hx hy
        simp only [dom_cons, setSeg_key] at hy
        rcases hy with hy | hy | hy
        · exact hal x y hx hy
        · exact hw2.2.2 x y hx (by simp [((hcur y).1 hy).1])
        · obtain ⟨u, hu⟩ := hw3.1
          exact lt_trans (hw2.2.2 x u hx (by simpa using Or.inl hu)) (hbc u y hu hy)
    · intro x y hx hy
      simp only [dom_cons, dom_reverse, setSeg_key] at hx
      rcases hx with hx | hx
      · exact ((hlr x).1 hx).2 y hy
      · exact hr.before x y hx hy
    · intro s hs
      rcases List.mem_cons.1 hs with rfl | hs
      · exact ⟨w, (hcur w).2 ⟨hwf, fun h1 => absurd (h1 w hwk) (lt_irrefl _)⟩, hwk⟩
      · exact hr.overlap s (by simp [hs])
    · intro x hx
      have := ((hcur x).1 hx).2
      push Not at this
      exact this
    · intro x y
      simp only [same_cons, same_reverse, setSeg_key, hlr, hcur]
      constructor
      · rintro ((⟨h1, h2⟩ | h1) | ⟨h1, h2⟩)
        · exact Or.inr ⟨⟨h1.1, h2.1⟩, fun _ => h2.2, fun _ => h1.2⟩
        · exact Or.inl h1
        · exact Or.inr ⟨⟨h1.1, h2.1⟩, by tauto⟩
      · rintro (h1 | ⟨⟨h1, h2⟩, h3⟩)
        · exact Or.inl (Or.inr h1)
        · by_cases h4 : ∀ z, o.Mem z k → x < z
          · exact Or.inl (Or.inl ⟨⟨h1, h4⟩, h2, h3.1 h4⟩)
          · exact Or.inr ⟨⟨h1, h4⟩, h2, fun h5 => h4 (h3.2 h5)⟩
    · intro x hx z hz
      simp only [dom_cons, dom_reverse, setSeg_key] at hx
      rcases hx with hx | hx
      · exact ((hlr x).1 hx).2 z hz
      · exact hr.before x z hx hz

/-- The segments produced from the collision sequence `m` and the addend `k`. -/
def SplitSame (o : IntervalOps D I) (m : List I) (k : I) (x y : D) : Prop :=
  (Same o setSeg m x y ∧ (o.Mem x k ↔ o.Mem y k)) ∨ GapSame o m k x y

/-- `add_rear`. -/
theorem addRear_spec {left : List I} {cur : I} {post : List I} {rest : I}
    (hi : SplitInv o left cur [] post rest) :
    ∃ l, ISet.addRear o left cur post rest = some l ∧ WF o setSeg l ∧
      ∀ x y, Same o setSeg l x y ↔ Same o setSeg left x y ∨ Same o setSeg post x y ∨
        SplitSame o [cur] rest x y := by
  have hwf := hi.wf
  simp only [List.append_assoc, List.cons_append, List.nil_append] at hwf
  have hw1 := wf_append.1 hwf
  have hw2 := wf_cons.1 hw1.2.1
  obtain ⟨w, hwc, hwr⟩ := hi.overlap cur (by simp)
  have hlg := h.mem_rightSubtract rest cur
  have hlgc : ∀ x y, o.Mem x (o.rightSubtract rest cur) → o.Mem y cur → x < y :=
    fun x y hx hy => ((hlg x).1 hx).2 y hy
  have hleftcur : ∀ x y, Dom o setSeg left x → o.Mem y cur → x < y :=
    fun x y hx hy => hw1.2.2 x y (by simpa using hx) (by simp [hy])
  have hcurpost : ∀ x y, o.Mem x cur → Dom o setSeg post y → x < y :=
    fun x y hx hy => hw2.2.2 x y hx hy
  -- the lead gap
  have hlead : ∃ left', ISet.addLeadGap o left cur post rest = some left' ∧
      WF o setSeg left'.reverse ∧
      (∀ x, Dom o setSeg left' x ↔ Dom o setSeg left x ∨ o.Mem x (o.rightSubtract rest cur)) ∧
      (∀ x y, Same o setSeg left' x y ↔ Same o setSeg left x y ∨
        (o.Mem x (o.rightSubtract rest cur) ∧ o.Mem y (o.rightSubtract rest cur))) := by
    unfold ISet.addLeadGap
    dsimp only
    cases he : o.isEmpty (o.rightSubtract rest cur) with
    | true =>
      rw [h.isEmpty_iff] at he
      refine ⟨left, by simp, hw1.1, ?_, ?_⟩
      · intro x; simp [he]
      · intro x y; simp [he]
    | false =>
      have hne : o.Nonempty (o.rightSubtract rest cur) := (nonempty_iff h).2 he
      have hb : ∀ x y, Dom o setSeg left x → o.Mem y (o.rightSubtract rest cur) → x < y :=
        fun x y hx hy => hi.before x y hx ((hlg y).1 hy).1
      rw [insertAt_eq h]
      · refine ⟨_, rfl, ?_, ?_, ?_⟩
        · simp only [List.reverse_cons]
          rw [wf_append]
          refine ⟨hw1.1, wf_singleton.2 hne, ?_⟩
          intro x y hx hy
          simp only [dom_cons, dom_nil, or_false] at hy
          exact hb x y (by simpa using hx) hy
        · intro x; simp [or_comm]
        · intro x y; simp [or_comm]
      · intro p hp; exact hw1.1.nonempty p (by simpa using hp)
      · exact hw1.2.1.nonempty
      · exact hne
      · exact hb
      · intro x y hx hy
        rw [dom_cons] at hy
        rcases hy with hy | hy
        · exact hlgc x y hx hy
        · exact lt_trans (hlgc x w hx hwc) (hcurpost w y hwc hy)
  obtain ⟨left', e1, hwl, hdl, hsl⟩ := hlead
  have hl'cur : ∀ x y, Dom o setSeg left' x → o.Mem y cur → x < y := by
    intro x y hx hy
    rcases (hdl x).1 hx with hx | hx
    · exact hleftcur x y hx hy
    · exact hlgc x y hx hy
  have heg := h.mem_leftSubtract rest cur
  have hrr := h.mem_leftSubtract cur rest
  -- the part of the rest below/above cur
  have hgap : ∀ x y, GapSame o [cur] rest x y ↔
      (o.Mem x (o.rightSubtract rest cur) ∧ o.Mem y (o.rightSubtract rest cur)) ∨
      (o.Mem x (o.leftSubtract rest cur) ∧ o.Mem y (o.leftSubtract rest cur)) := by
    intro x y
    simp only [hlg, heg]
    constructor
    · intro hg
      have hn := hg.not_dom
      simp only [dom_cons, dom_nil, or_false, setSeg_key] at hn
      have hno : ∀ u, o.Mem u cur → ¬ (min x y ≤ u ∧ u ≤ max x y) := by
        rintro u hu ⟨h1, h2⟩
        exact hg.2.2 u h1 h2 (by simpa using hu)
      rcases point_tri h hw2.1 x with h1 | h1 | h1
      · exact absurd h1 hn.1
      · left
        refine ⟨⟨hg.1, h1⟩, hg.2.1, ?_⟩
        intro u hu
        by_contra hc
        exact hno u hu ⟨(min_le_left _ _).trans (le_of_lt (h1 u hu)),
          (not_lt.1 hc).trans (le_max_right _ _)⟩
      · right
        refine ⟨⟨hg.1, h1⟩, hg.2.1, ?_⟩
        intro u hu
        by_contra hc
        exact hno u hu ⟨(min_le_right _ _).trans (not_lt.1 hc),
          (le_of_lt (h1 u hu)).trans (le_max_left _ _)⟩
    · rintro (⟨⟨h1, h2⟩, h3, h4⟩ | ⟨⟨h1, h2⟩, h3, h4⟩)
      · refine ⟨h1, h3, fun z _ hz hd => ?_⟩
        simp only [dom_cons, dom_nil, or_false] at hd
        exact absurd (max_lt (h2 z hd) (h4 z hd)) (not_lt.2 hz)
      · refine ⟨h1, h3, fun z hz _ hd => ?_⟩
        simp only [dom_cons, dom_nil, or_false] at hd
        exact absurd (lt_min (h2 z hd) (h4 z hd)) (not_lt.2 hz)
  -- an element of cur is in rest or right of it
  have hcr : ∀ x, o.Mem x cur → o.Mem x rest ∨ o.Mem x (o.leftSubtract cur rest) := by
    intro x hx
    rcases point_tri h hi.nonempty x with h1 | h1 | h1
    · exact Or.inl h1
    · obtain ⟨y, hy, hyx⟩ := hi.front x hx
      exact absurd (h1 y hy) (not_lt.2 hyx)
    · exact Or.inr ((hrr x).2 ⟨hx, h1⟩)
  unfold ISet.addRear
  rw [e1]
  simp only [Option.bind_eq_bind, Option.bind_some]
  cases he : o.isEmpty (o.leftSubtract rest cur) with
  | false =>
    simp only [Bool.not_false, if_true]
    have hne : o.Nonempty (o.leftSubtract rest cur) := (nonempty_iff h).2 he
    have hcl : ∀ x y, Dom o setSeg (cur :: left') x → o.Mem y (o.leftSubtract rest cur) → x < y := by
      intro x y hx hy
      rw [dom_cons] at hx
      rcases hx with hx | hx
      · exact ((heg y).1 hy).2 x hx
      · exact lt_trans (hl'cur x w hx hwc) (((heg y).1 hy).2 w hwc)
    have hegpost : ∀ x y, o.Mem x (o.leftSubtract rest cur) → Dom o setSeg post y → x < y :=
      fun x y hx hy => hi.after x y ((heg x).1 hx).1 hy
    rw [insertAt_eq h]
    · refine ⟨_, rfl, ?_, ?_⟩
      · simp only [Zip.toList, List.reverse_cons, List.append_assoc, List.cons_append,
          List.nil_append]
        rw [wf_append, wf_cons, wf_cons]
        refine ⟨hwl, ⟨hw2.1, ⟨hne, hw2.2.1, hegpost⟩, ?_⟩, ?_⟩
        · intro x y hx hy
          rw [dom_cons] at hy
          rcases hy with hy | hy
          · exact ((heg y).1 hy).2 x hx
          · exact hcurpost x y hx hy
        · intro x y hx hy
          simp only [dom_reverse, dom_cons] at hx hy
          rcases hy with hy | hy | hy
          · exact hl'cur x y hx hy
          · exact hcl x y (by simp [hx]) hy
          · exact lt_trans (hl'cur x w hx hwc) (hcurpost w y hwc hy)
      · intro x y
        simp only [Zip.toList, same_append, same_reverse, same_cons, hsl, SplitSame, hgap,
          setSeg_key, same_nil, or_false]
        have : ∀ x, o.Mem x cur → o.Mem x rest := by
          intro x hx
          rcases hcr x hx with h1 | h1
          · exact h1
          · obtain ⟨y, hy⟩ := hne
            have h2 := ((hrr x).1 h1).2 y ((heg y).1 hy).1
            have h3 := ((heg y).1 hy).2 x hx
            order
        have h1 := this x
        have h2 := this y
        tauto
    · intro p hp
      rcases List.mem_cons.1 hp with rfl | hp
      · exact hw2.1
      · exact hwl.nonempty p (by simpa using hp)
    · exact hw2.2.1.nonempty
    · exact hne
    · exact hcl
    · exact hegpost
  | true =>
    simp only [Bool.not_true, Bool.false_eq_true, if_false]
    rw [h.isEmpty_iff] at he
    cases he2 : o.isEmpty (o.leftSubtract cur rest) with
    | false =>
      simp only [Bool.not_false, if_true]
      have hne : o.Nonempty (o.leftSubtract cur rest) := (nonempty_iff h).2 he2
      have hc' : ∀ x, o.Mem x (o.rightSubtract cur (o.leftSubtract cur rest)) ↔
          o.Mem x cur ∧ o.Mem x rest := by
        intro x
        rw [h.mem_rightSubtract]
        constructor
        · rintro ⟨h1, h2⟩
          refine ⟨h1, ?_⟩
          rcases hcr x h1 with h3 | h3
          · exact h3
          · exact absurd (h2 x h3) (lt_irrefl _)
        · rintro ⟨h1, h2⟩
          exact ⟨h1, fun y hy => ((hrr y).1 hy).2 x h2⟩
      have hcrr : ∀ x y, o.Mem x (o.rightSubtract cur (o.leftSubtract cur rest)) →
          o.Mem y (o.leftSubtract cur rest) → x < y :=
        fun x y hx hy => ((hrr y).1 hy).2 x ((hc' x).1 hx).2
      have hcl : ∀ x y, Dom o setSeg (o.rightSubtract cur (o.leftSubtract cur rest) :: left') x →
          o.Mem y (o.leftSubtract cur rest) → x < y := by
        intro x y hx hy
        rw [dom_cons] at hx
        rcases hx with hx | hx
        · exact hcrr x y hx hy
        · exact hl'cur x y hx ((hrr y).1 hy).1
      have hrrpost : ∀ x y, o.Mem x (o.leftSubtract cur rest) → Dom o setSeg post y → x < y :=
        fun x y hx hy => hcurpost x y ((hrr x).1 hx).1 hy
      have hne' : o.Nonempty (o.rightSubtract cur (o.leftSubtract cur rest)) :=
        ⟨w, (hc' w).2 ⟨hwc, hwr⟩⟩
      rw [insertAt_eq h]
      · refine ⟨_, rfl, ?_, ?_⟩
        · simp only [Zip.toList, List.reverse_cons, List.append_assoc, List.cons_append,
            List.nil_append]
          rw [wf_append, wf_cons, wf_cons]
          refine ⟨hwl, ⟨hne', ⟨hne, hw2.2.1, hrrpost⟩, ?_⟩, ?_⟩
          · intro x y hx hy
            rw [dom_cons] at hy
            rcases hy with hy | hy
            · exact hcrr x y hx hy
            · exact hcurpost x y ((hc' x).1 hx).1 hy
          · intro x y hx hy
            simp only [dom_reverse, dom_cons] at hx hy
            rcases hy with hy | hy | hy
            · exact hl'cur x y hx ((hc' y).1 hy).1
            · exact hl'cur x y hx ((hrr y).1 hy).1
            · exact lt_trans (hl'cur x w hx hwc) (hcurpost w y hwc hy)
        · intro x y
          simp only [Zip.toList, same_append, same_reverse, same_cons, hsl, SplitSame, hgap,
            setSeg_key, same_nil, or_false, hc', he, false_and]
          have h1 : ∀ x, o.Mem x (o.leftSubtract cur rest) ↔ o.Mem x cur ∧ ¬ o.Mem x rest := by
            intro x
            constructor
            · intro hx
              refine ⟨((hrr x).1 hx).1, fun h2 => ?_⟩
              exact absurd (((hrr x).1 hx).2 x h2) (lt_irrefl _)
            · rintro ⟨h2, h3⟩
              rcases hcr x h2 with h4 | h4
              · exact absurd h4 h3
              · exact h4
          rw [h1, h1]
          tauto
      · intro p hp
        rcases List.mem_cons.1 hp with rfl | hp
        · exact hne'
        · exact hwl.nonempty p (by simpa using hp)
      · exact hw2.2.1.nonempty
      · exact hne
      · exact hcl
      · exact hrrpost
    | true =>
      simp only [Bool.not_true, Bool.false_eq_true, if_false]
      rw [h.isEmpty_iff] at he2
      refine ⟨_, rfl, ?_, ?_⟩
      · simp only [Zip.toList]
        rw [wf_append]
        refine ⟨hwl, hw1.2.1, ?_⟩
        intro x y hx hy
        simp only [dom_reverse, dom_cons] at hx hy
        rcases hy with hy | hy
        · exact hl'cur x y hx hy
        · exact lt_trans (hl'cur x w hx hwc) (hcurpost w y hwc hy)
      · intro x y
        simp only [Zip.toList, same_append, same_reverse, same_cons, hsl, SplitSame, hgap,
          setSeg_key, same_nil, or_false, he, false_and]
        have h1 : ∀ x, o.Mem x cur → o.Mem x rest := by
          intro x hx
          rcases hcr x hx with h4 | h4
          · exact h4
          · exact absurd h4 (he2 x)
        have h2 := h1 x
        have h3 := h1 y
        tauto

/-- One step of `add_main`. -/
theorem split_step {left : List I} {cur nxt : I} {more post : List I} {rest : I}
    (hi : SplitInv o left cur (nxt :: more) post rest) :
    ∃ left', ISet.addSegment o left cur (nxt :: more ++ post) rest = some left' ∧
      SplitInv o left' nxt more post (o.leftSubtract rest cur) ∧
      (∀ x, Dom o setSeg left' x ↔ Dom o setSeg left x ∨ o.Mem x (o.rightSubtract rest cur) ∨
        o.Mem x cur) ∧
      (∀ x y, Same o setSeg left' x y ↔ Same o setSeg left x y ∨
        (o.Mem x (o.rightSubtract rest cur) ∧ o.Mem y (o.rightSubtract rest cur)) ∨
        (o.Mem x cur ∧ o.Mem y cur)) := by
  have hwf := hi.wf
  simp only [List.append_assoc, List.cons_append] at hwf
  have hw1 := wf_append.1 hwf
  have hw2 := wf_cons.1 hw1.2.1
  obtain ⟨w, hwc, hwr⟩ := hi.overlap cur (by simp)
  obtain ⟨w', hwn', hwr'⟩ := hi.overlap nxt (by simp)
  have hlg := h.mem_rightSubtract rest cur
  have hrest := h.mem_leftSubtract rest cur
  have hcur_rest : ∀ x, o.Mem x cur → o.Mem x rest := by
    intro x hx
    obtain ⟨y, hy, hyx⟩ := hi.front x hx
    exact h.convex rest y x w' hy hwr' hyx (le_of_lt (hw2.2.2 x w' hx (by simp [hwn'])))
  have hlgc : ∀ x y, o.Mem x (o.rightSubtract rest cur) → o.Mem y cur → x < y :=
    fun x y hx hy => ((hlg x).1 hx).2 y hy
  have hleftcur : ∀ x y, Dom o setSeg left x → o.Mem y cur → x < y :=
    fun x y hx hy => hw1.2.2 x y (by simpa using hx) (by simp [hy])
  -- add_segment
  have hseg : ∃ left', ISet.addSegment o left cur (nxt :: more ++ post) rest = some left' ∧
      WF o setSeg (left'.reverse ++ nxt :: more ++ post) ∧
      (∀ x, Dom o setSeg left' x ↔ Dom o setSeg left x ∨ o.Mem x (o.rightSubtract rest cur) ∨
        o.Mem x cur) ∧
      (∀ x y, Same o setSeg left' x y ↔ Same o setSeg left x y ∨
        (o.Mem x (o.rightSubtract rest cur) ∧ o.Mem y (o.rightSubtract rest cur)) ∨
        (o.Mem x cur ∧ o.Mem y cur)) := by
    unfold ISet.addSegment ISet.addLeadGap
    dsimp only
    cases he : o.isEmpty (o.rightSubtract rest cur) with
    | true =>
      rw [h.isEmpty_iff] at he
      refine ⟨cur :: left, by simp, by simpa using hwf, ?_, ?_⟩
      · intro x; simp [he, or_comm]
      · intro x y; simp [he, or_comm]
    | false =>
      have hne : o.Nonempty (o.rightSubtract rest cur) := (nonempty_iff h).2 he
      have hb : ∀ x y, Dom o setSeg left x → o.Mem y (o.rightSubtract rest cur) → x < y :=
        fun x y hx hy => hi.before x y hx ((hlg y).1 hy).1
      have ha : ∀ x y, o.Mem x (o.rightSubtract rest cur) →
          Dom o setSeg (cur :: (nxt :: (more ++ post))) y → x < y := by
        intro x y hx hy
        rw [dom_cons] at hy
        rcases hy with hy | hy
        · exact hlgc x y hx hy
        · exact lt_trans (hlgc x w hx hwc) (hw2.2.2 w y hwc hy)
      simp only [Bool.false_eq_true, if_false, List.cons_append]
      rw [insertAt_eq h]
      · refine ⟨_, rfl, ?_, ?_, ?_⟩
        · simp only [List.reverse_cons, List.append_assoc, List.cons_append, List.nil_append]
          rw [wf_append, wf_cons]
          refine ⟨hw1.1, ⟨hne, hw1.2.1, ha⟩, ?_⟩
          intro x y hx hy
          rw [dom_cons] at hy
          rcases hy with hy | hy
          · exact hb x y (by simpa using hx) hy
          · exact hw1.2.2 x y hx hy
        · intro x; simp only [dom_cons, setSeg_key]; tauto
        · intro x y; simp only [same_cons, setSeg_key]; tauto
      · intro p hp; exact hw1.1.nonempty p (by simpa using hp)
      · exact hw1.2.1.nonempty
      · exact hne
      · exact hb
      · exact ha
  obtain ⟨left', e1, hwl, hdl, hsl⟩ := hseg
  -- elements behind cur
  have hbeh : ∀ s ∈ nxt :: more, ∀ x, o.Mem x s → ∀ y, o.Mem y cur → y < x := by
    intro s hs x hx y hy
    refine hw2.2.2 y x hy ?_
    simp only [← List.cons_append, dom_append]
    exact Or.inl ⟨s, hs, hx⟩
  have hrest_iff : ∀ s ∈ nxt :: more, ∀ x, o.Mem x s →
      (o.Mem x rest ↔ o.Mem x (o.leftSubtract rest cur)) := by
    intro s hs x hx
    rw [hrest]
    exact ⟨fun h1 => ⟨h1, fun y hy => hbeh s hs x hx y hy⟩, fun h1 => h1.1⟩
  have hinv : SplitInv o left' nxt more post (o.leftSubtract rest cur) := by
    refine ⟨hwl, ⟨w', (hrest_iff nxt (by simp) w' hwn').1 hwr'⟩, ?_, ?_, ?_, ?_⟩
    · intro x y hx hy
      obtain ⟨hy1, hy2⟩ := (hrest y).1 hy
      rcases (hdl x).1 hx with hx | hx | hx
      · exact hi.before x y hx hy1
      · exact lt_trans (hlgc x w hx hwc) (hy2 w hwc)
      · exact hy2 x hx
    · intro s hs
      obtain ⟨x, hx, hxr⟩ := hi.overlap s (List.mem_cons_of_mem _ hs)
      exact ⟨x, hx, (hrest_iff s hs x hx).1 hxr⟩
    · intro x y hx hy
      exact hi.after x y ((hrest x).1 hx).1 hy
    · intro x hx
      rcases le_total w' x with h1 | h1
      · exact ⟨w', (hrest_iff nxt (by simp) w' hwn').1 hwr', h1⟩
      · refine ⟨x, (hrest_iff nxt (by simp) x hx).1 ?_, le_refl _⟩
        exact h.convex rest w x w' hwr hwr' (le_of_lt (hbeh nxt (by simp) x hx w hwc)) h1
  exact ⟨left', e1, hinv, hdl, hsl⟩

/-- `add_main` followed by `add_rear`. -/
theorem addMainRear_spec {left : List I} {cur : I} {mid post : List I} {rest : I}
    (hi : SplitInv o left cur mid post rest) :
    ∃ l, (do
        let (left, cur, rest) ← ISet.addMain o left rest cur mid post
        ISet.addRear o left cur post rest) = some l ∧ WF o setSeg l ∧
      ∀ x y, Same o setSeg l x y ↔ Same o setSeg left x y ∨ Same o setSeg post x y ∨
        SplitSame o (cur :: mid) rest x y := by
  induction mid generalizing left cur rest with
  | nil => simpa [ISet.addMain] using addRear_spec h hi
  | cons nxt more ih =>
    have hwf := hi.wf
    simp only [List.append_assoc, List.cons_append] at hwf
    have hw1 := wf_append.1 hwf
    have hw2 := wf_cons.1 hw1.2.1
    obtain ⟨w, hwc, hwr⟩ := hi.overlap cur (by simp)
    obtain ⟨w', hwn', hwr'⟩ := hi.overlap nxt (by simp)
    have hlg := h.mem_rightSubtract rest cur
    have hrest := h.mem_leftSubtract rest cur
    have hcur_rest : ∀ x, o.Mem x cur → o.Mem x rest := by
      intro x hx
      obtain ⟨y, hy, hyx⟩ := hi.front x hx
      exact h.convex rest y x w' hy hwr' hyx (le_of_lt (hw2.2.2 x w' hx (by simp [hwn'])))
    have hlgc : ∀ x y, o.Mem x (o.rightSubtract rest cur) → o.Mem y cur → x < y :=
      fun x y hx hy => ((hlg x).1 hx).2 y hy
    have hleftcur : ∀ x y, Dom o setSeg left x → o.Mem y cur → x < y :=
      fun x y hx hy => hw1.2.2 x y (by simpa using hx) (by simp [hy])
    obtain ⟨left', e1, hinv, hdl, hsl⟩ := split_step h hi
    -- elements behind cur
    have hbeh : ∀ s ∈ nxt :: more, ∀ x, o.Mem x s → ∀ y, o.Mem y cur → y < x := by
      intro s hs x hx y hy
      refine hw2.2.2 y x hy ?_
      simp only [← List.cons_append, dom_append]
      exact Or.inl ⟨s, hs, hx⟩
    have hrest_iff : ∀ s ∈ nxt :: more, ∀ x, o.Mem x s →
        (o.Mem x rest ↔ o.Mem x (o.leftSubtract rest cur)) := by
      intro s hs x hx
      rw [hrest]
      exact ⟨fun h1 => ⟨h1, fun y hy => hbeh s hs x hx y hy⟩, fun h1 => h1.1⟩
    obtain ⟨l, e2, hwf', hs'⟩ := ih hinv
    refine ⟨l, ?_, hwf', ?_⟩
    · rw [← e2]
      simp only [ISet.addMain, e1, Option.bind_eq_bind, Option.bind_some]
    · intro x y
      rw [hs', hsl]
      have hsplit : SplitSame o (cur :: nxt :: more) rest x y ↔
          (o.Mem x (o.rightSubtract rest cur) ∧ o.Mem y (o.rightSubtract rest cur)) ∨
          (o.Mem x cur ∧ o.Mem y cur) ∨
          SplitSame o (nxt :: more) (o.leftSubtract rest cur) x y := by
        unfold SplitSame
        constructor
        · rintro (⟨hs, hiff⟩ | hg)
          · rw [same_cons] at hs
            rcases hs with hs | hs
            · exact Or.inr (Or.inl hs)
            · refine Or.inr (Or.inr (Or.inl ⟨hs, ?_⟩))
              obtain ⟨s, hsm, hx, hy⟩ := hs
              rw [← hrest_iff s hsm x hx, ← hrest_iff s hsm y hy]
              exact hiff
          · have hn := hg.not_dom
            simp only [dom_cons (s := cur), setSeg_key, not_or] at hn
            have hno : ∀ u, o.Mem u cur → ¬ (min x y ≤ u ∧ u ≤ max x y) := by
              rintro u hu ⟨h1, h2⟩
              exact hg.2.2 u h1 h2 (by simp [hu])
            rcases point_tri h hw2.1 x with h1 | h1 | h1
            · exact absurd h1 hn.1.1
            · left
              rw [hlg, hlg]
              refine ⟨⟨hg.1, h1⟩, hg.2.1, ?_⟩
              intro u hu
              by_contra hc
              exact hno u hu ⟨(min_le_left _ _).trans (le_of_lt (h1 u hu)),
                (not_lt.1 hc).trans (le_max_right _ _)⟩
            · right; right; right
              refine ⟨(hrest x).2 ⟨hg.1, h1⟩, (hrest y).2 ⟨hg.2.1, ?_⟩, ?_⟩
              · intro u hu
                by_contra hc
                exact hno u hu ⟨(min_le_right _ _).trans (not_lt.1 hc),
                  (le_of_lt (h1 u hu)).trans (le_max_left _ _)⟩
              · intro z h2 h3 h4
                exact hg.2.2 z h2 h3 (by rw [dom_cons]; exact Or.inr h4)
        · rintro (⟨h1, h2⟩ | ⟨h1, h2⟩ | ⟨hs, hiff⟩ | hg)
          · right
            rw [hlg] at h1 h2
            refine ⟨h1.1, h2.1, ?_⟩
            intro z _ hz hd
            have hz' : ∀ u, o.Mem u cur → z < u :=
              fun u hu => lt_of_le_of_lt hz (max_lt (h1.2 u hu) (h2.2 u hu))
            rw [dom_cons] at hd
            rcases hd with hd | ⟨s, hs, hd⟩
            · exact absurd (hz' z hd) (lt_irrefl _)
            · exact absurd (hz' w hwc) (not_lt.2 (le_of_lt (hbeh s hs z hd w hwc)))
          · left
            rw [same_cons]
            exact ⟨Or.inl ⟨h1, h2⟩, by simp [hcur_rest x h1, hcur_rest y h2]⟩
          · left
            refine ⟨by rw [same_cons]; exact Or.inr hs, ?_⟩
            obtain ⟨s, hsm, hx, hy⟩ := hs
            rw [hrest_iff s hsm x hx, hrest_iff s hsm y hy]
            exact hiff
          · right
            obtain ⟨g1, g2, g3⟩ := hg
            rw [hrest] at g1 g2
            refine ⟨g1.1, g2.1, ?_⟩
            intro z h2 h3 hd
            rw [dom_cons] at hd
            rcases hd with hd | hd
            · exact absurd (lt_of_lt_of_le (lt_min (g1.2 z hd) (g2.2 z hd)) h2) (lt_irrefl _)
            · exact g3 z h2 h3 hd
      rw [hsplit]
      tauto

end
end ICL
