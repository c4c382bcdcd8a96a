import Verif.Model.Compare
import Verif.Theory.Lookup
import Mathlib.Tactic.Order
import Mathlib.Tactic.Push
import Mathlib.Tactic.ByContra
import Mathlib.Tactic.Tauto

/-!
# Correctness of the inclusion comparison
-/

set_option linter.unusedSectionVars false
set_option linter.unusedVariables false
set_option linter.unusedSimpArgs false

namespace ICL

variable {D I V W S T : Type} [LinearOrder D] {o : IntervalOps D I} {g : SegOps I V S} {k : SegOps I W T}

/-- In the region `P`, every association of `l` is met by one of `r`, related by `c`. -/
def Cov (o : IntervalOps D I) (g : SegOps I V S) (k : SegOps I W T) (c : V → W → Bool) (P : D → Prop)
    (l : List S) (r : List T) : Prop :=
  ∀ x v, P x → Maps o g l x v → ∃ w, Maps o k r x w ∧ c v w = true

/-- `x` is greater than all elements of `p`. -/
def Beyond (o : IntervalOps D I) (p : I) (x : D) : Prop := ∀ a, o.Mem a p → a < x

@[simp] theorem restrict_sub (a b : Incl) : (a.restrict b).sub = (a.sub && b.sub) := rfl
@[simp] theorem restrict_sup (a b : Incl) : (a.restrict b).sup = (a.sup && b.sup) := rfl
@[simp] theorem subset_sub : Incl.subset.sub = true := rfl
@[simp] theorem subset_sup : Incl.subset.sup = false := rfl
@[simp] theorem superset_sub : Incl.superset.sub = false := rfl
@[simp] theorem superset_sup : Incl.superset.sup = true := rfl
@[simp] theorem equal_sub : Incl.equal.sub = true := rfl
@[simp] theorem equal_sup : Incl.equal.sup = true := rfl
@[simp] theorem unrelated_sub : Incl.unrelated.sub = false := rfl
@[simp] theorem unrelated_sup : Incl.unrelated.sup = false := rfl
theorem incl_unrelated {a : Incl} : a = .unrelated ↔ a.sub = false ∧ a.sup = false := by
  cases a; simp [Incl.unrelated]

section
variable (h : o.Lawful)
include h

/-- The list whose first segment ends first is covered. -/
theorem cov_first {c : V → W → Bool} {P : D → Prop} {s : S} {l : List S} {t : T} {r : List T}
    (hl : WF o g (s :: l)) (hr : WF o k (t :: r)) (hP : ∀ x, Beyond o (g.key s) x → P x)
    (hu : ∀ x, o.Mem x (g.key s) → ∃ y, o.Mem y (k.key t) ∧ x ≤ y) :
    Cov o g k c P (s :: l) (t :: r) ↔
      (∀ x, P x → o.Mem x (g.key s) → o.Mem x (k.key t) ∧ c (g.val s) (k.val t) = true) ∧
      Cov o g k c (Beyond o (g.key s)) l (t :: r) := by
  rw [wf_cons] at hl hr
  constructor
  · intro hc
    refine ⟨fun x hp hx => ?_, fun x v hb hm => ?_⟩
    · obtain ⟨w, hm, hw⟩ := hc x (g.val s) hp (by simp [hx])
      rw [maps_cons] at hm
      rcases hm with ⟨h1, h2⟩ | hm
      · exact ⟨h1, h2 ▸ hw⟩
      · obtain ⟨y, hy, hxy⟩ := hu x hx
        exact absurd (hr.2.2 y x hy hm.dom) (not_lt.2 hxy)
    · exact hc x v (hP x hb) (by simp [hm])
  · rintro ⟨h1, h2⟩ x v hp hm
    rw [maps_cons] at hm
    rcases hm with ⟨hx, rfl⟩ | hm
    · obtain ⟨h3, h4⟩ := h1 x hp hx
      exact ⟨k.val t, by simp [h3], h4⟩
    · exact h2 x v (fun a ha => hl.2.2 a x ha hm.dom) hm

/-- The list whose first segment ends first covers. -/
theorem cov_second {c : W → V → Bool} {P : D → Prop} {s : S} {l : List S} {t : T} {r : List T}
    (hl : WF o g (s :: l)) (hr : WF o k (t :: r)) (hP : ∀ x, Beyond o (g.key s) x → P x)
    (hu : ∀ x, o.Mem x (g.key s) → ∃ y, o.Mem y (k.key t) ∧ x ≤ y) :
    Cov o k g c P (t :: r) (s :: l) ↔
      (∀ x, P x → ¬ Beyond o (g.key s) x → o.Mem x (k.key t) → o.Mem x (g.key s) ∧ c (k.val t) (g.val s) = true) ∧
      Cov o k g c (Beyond o (g.key s)) (t :: r) l := by
  rw [wf_cons] at hl hr
  constructor
  · intro hc
    refine ⟨fun x hp hb hx => ?_, fun x w hb hm => ?_⟩
    · obtain ⟨v, hm, hv⟩ := hc x (k.val t) hp (by simp [hx])
      rw [maps_cons] at hm
      rcases hm with ⟨h1, h2⟩ | hm
      · exact ⟨h1, h2 ▸ hv⟩
      · exact absurd (fun a ha => hl.2.2 a x ha hm.dom) hb
    · obtain ⟨v, hm', hv⟩ := hc x w (hP x hb) hm
      rw [maps_cons] at hm'
      rcases hm' with ⟨h1, h2⟩ | hm'
      · exact absurd (hb x h1) (lt_irrefl _)
      · exact ⟨v, hm', hv⟩
  · rintro ⟨h1, h2⟩ x w hp hm
    by_cases hb : Beyond o (g.key s) x
    · obtain ⟨v, hm', hv⟩ := h2 x w hb hm
      exact ⟨v, by simp [hm'], hv⟩
    · rw [maps_cons] at hm
      rcases hm with ⟨hx, rfl⟩ | hm
      · obtain ⟨h3, h4⟩ := h1 x hp hb hx
        exact ⟨g.val s, by simp [h3], h4⟩
      · exfalso
        apply hb
        intro a ha
        obtain ⟨y, hy, hay⟩ := hu a ha
        exact lt_of_le_of_lt hay (hr.2.2 y x hy hm.dom)

/-- The part of the comparison that the first segments decide. -/
def LocSub (o : IntervalOps D I) (c : Bool) (P : D → Prop) (i j : I) : Prop :=
  ∀ x, P x → ¬ (Beyond o i x) → ¬ Beyond o j x → o.Mem x i → o.Mem x j ∧ c = true

theorem LocSub_first {c : Bool} {P : D → Prop} {i j : I}
    (hu : ∀ x, o.Mem x i → ∃ y, o.Mem y j ∧ x ≤ y) :
    (∀ x, P x → o.Mem x i → o.Mem x j ∧ c = true) ↔ LocSub o c P i j := by
  constructor
  · intro hc x hp _ _ hx; exact hc x hp hx
  · intro hc x hp hx
    refine hc x hp (fun hb => lt_irrefl _ (hb x hx)) (fun hb => ?_) hx
    obtain ⟨y, hy, hxy⟩ := hu x hx
    exact absurd (hb y hy) (not_lt.2 hxy)

theorem LocSub_second {c : Bool} {P : D → Prop} {i j : I}
    (hu : ∀ x, o.Mem x i → ∃ y, o.Mem y j ∧ x ≤ y) :
    (∀ x, P x → ¬ Beyond o i x → o.Mem x j → o.Mem x i ∧ c = true) ↔ LocSub o c P j i := by
  constructor
  · intro hc x hp _ h2 hx; exact hc x hp h2 hx
  · intro hc x hp hb hx
    exact hc x hp (fun hb => lt_irrefl _ (hb x hx)) hb hx

/-- The comparison of intersecting segments. -/
theorem locSub_inter {c : Bool} {P : D → Prop} {i j : I} {a : D} (ha : P a) (hi : o.Mem a i) (hj : o.Mem a j) :
    LocSub o c P i j ↔ (¬ ∃ x, P x ∧ o.Mem x i ∧ ∀ y, o.Mem y j → x < y) ∧ c = true := by
  constructor
  · intro hc
    refine ⟨?_, (hc a ha (fun hb => lt_irrefl _ (hb a hi)) (fun hb => lt_irrefl _ (hb a hj)) hi).2⟩
    rintro ⟨x, hp, hx, hlt⟩
    have := (hc x hp (fun hb => lt_irrefl _ (hb x hx)) (fun hb => absurd (hb a hj) (not_lt.2 (le_of_lt (hlt a hj)))) hx).1
    exact lt_irrefl _ (hlt x this)
  · rintro ⟨h1, h2⟩ x hp hb1 hb2 hx
    refine ⟨?_, h2⟩
    by_contra hn
    apply h1
    refine ⟨x, hp, hx, fun y hy => ?_⟩
    by_contra hc
    rw [not_lt] at hc
    unfold Beyond at hb2
    push Not at hb2
    obtain ⟨z, hz, hxz⟩ := hb2
    exact hn (h.convex j y x z hy hz hc hxz)

omit h in
theorem locSub_before {c : Bool} {P : D → Prop} {i j : I} (hb : o.Before i j) :
    (LocSub o c P j i) ∧ ((∃ x, P x ∧ o.Mem x i) → o.Nonempty j → ¬ LocSub o c P i j) := by
  constructor
  · intro x hp h1 h2 hx
    exfalso; exact h2 fun a ha => hb a x ha hx
  · rintro ⟨x, hp, hx⟩ ⟨y, hy⟩ hc
    have := (hc x hp (fun hb => lt_irrefl _ (hb x hx))
      (fun hb' => absurd (hb' y hy) (not_lt.2 (le_of_lt (hb x y hx hy)))) hx).1
    exact lt_irrefl _ (hb x x hx this)

/-- A result is right for the region `P`. -/
def Right (o : IntervalOps D I) (g : SegOps I V S) (k : SegOps I W T) (co : CoCompare V W) (P : D → Prop)
    (l : List S) (r : List T) (res res' : Incl) : Prop :=
  (res'.sub = true ↔ res.sub = true ∧ Cov o g k (fun v w => (co v w).sub) P l r) ∧
  (res'.sup = true ↔ res.sup = true ∧ Cov o k g (fun w v => (co v w).sup) P r l)

/-- No value that is greater than `p` and not greater than `j` is missing in `j`. -/
def NoGap (o : IntervalOps D I) (p j : I) : Prop :=
  ∀ x, Beyond o p x → (∃ y, o.Mem y j ∧ x ≤ y) → o.Mem x j

/-- What holds in a state of the comparison. -/
def CmpInv (o : IntervalOps D I) (g : SegOps I V S) (k : SegOps I W T) (res : Incl) (l : List S) (r : List T) :
    CmpState I → Prop
  | .both => True
  | .left p => o.Nonempty p ∧ (∀ s ∈ l, o.Before p (g.key s)) ∧ ∃ t r', r = t :: r' ∧
      (∃ y, o.Mem y (k.key t) ∧ Beyond o p y) ∧ (NoGap o p (k.key t) ∨ (o.Before p (k.key t) ∧ res.sub = false))
  | .right p => o.Nonempty p ∧ (∀ t ∈ r, o.Before p (k.key t)) ∧ ∃ s l', l = s :: l' ∧
      (∃ y, o.Mem y (g.key s) ∧ Beyond o p y) ∧ (NoGap o p (g.key s) ∨ (o.Before p (g.key s) ∧ res.sup = false))

/-- The region that is still to be compared. -/
def CmpState.region (o : IntervalOps D I) : CmpState I → D → Prop
  | .both => fun _ => True
  | .left p => Beyond o p
  | .right p => Beyond o p

/-- `proceed` is right. -/
theorem proceed_right {co : CoCompare V W} {n : Nat} {P : D → Prop} {res res1 : Incl} {s : S} {l : List S} {t : T}
    {r : List T} (hl : WF o g (s :: l)) (hr : WF o k (t :: r))
    (hP : ∀ x, Beyond o (g.key s) x ∨ Beyond o (k.key t) x → P x)
    (ih : ∀ (st : CmpState I) (res : Incl) (l : List S) (r : List T), l.length + r.length < n → WF o g l →
      WF o k r → CmpInv o g k res l r st →
      ∃ res', compareLoop o g k co n st res l r = some res' ∧ Right o g k co (st.region o) l r res res')
    (hn : l.length + r.length + 2 ≤ n)
    (h1 : res1.sub = true ↔ res.sub = true ∧ LocSub o (co (g.val s) (k.val t)).sub P (g.key s) (k.key t))
    (h2 : res1.sup = true ↔ res.sup = true ∧ LocSub o (co (g.val s) (k.val t)).sup P (k.key t) (g.key s))
    (hs : ∃ x, P x ∧ o.Mem x (g.key s)) (ht : ∃ x, P x ∧ o.Mem x (k.key t)) :
    ∃ res', (if o.upperLess (g.key s) (k.key t) then compareLoop o g k co n (.left (g.key s)) res1 l (t :: r)
      else if o.upperLess (k.key t) (g.key s) then compareLoop o g k co n (.right (k.key t)) res1 (s :: l) r
      else compareLoop o g k co n .both res1 l r) = some res' ∧ Right o g k co P (s :: l) (t :: r) res res' := by
  have hl' := wf_cons.1 hl
  have hr' := wf_cons.1 hr
  have us := h.upperLess_iff (g.key s) (k.key t) hl'.1 hr'.1
  have ut := h.upperLess_iff (k.key t) (g.key s) hr'.1 hl'.1
  -- reach of the segments
  have hu1 : o.upperLess (k.key t) (g.key s) = false → ∀ x, o.Mem x (g.key s) → ∃ y, o.Mem y (k.key t) ∧ x ≤ y := by
    intro he x hx
    by_contra hc
    push Not at hc
    rw [Bool.eq_false_iff, ne_eq, ut] at he
    exact he ⟨x, hx, hc⟩
  have hu2 : o.upperLess (g.key s) (k.key t) = false → ∀ x, o.Mem x (k.key t) → ∃ y, o.Mem y (g.key s) ∧ x ≤ y := by
    intro he x hx
    by_contra hc
    push Not at hc
    rw [Bool.eq_false_iff, ne_eq, us] at he
    exact he ⟨x, hx, hc⟩
  have hex : o.upperLess (g.key s) (k.key t) = true → o.upperLess (k.key t) (g.key s) = false := by
    intro he
    rw [us] at he
    rw [Bool.eq_false_iff, ne_eq, ut]
    rintro ⟨a, ha, hal⟩
    obtain ⟨b, hb, hbl⟩ := he
    exact lt_irrefl _ (lt_trans (hal b hb) (hbl a ha))
  -- without gap, or known to be unrelated
  have gap1 : o.upperLess (g.key s) (k.key t) = true →
      NoGap o (g.key s) (k.key t) ∨ (o.Before (g.key s) (k.key t) ∧ res1.sub = false) := by
    intro he
    by_cases hb : o.Before (g.key s) (k.key t)
    · refine Or.inr ⟨hb, ?_⟩
      rw [Bool.eq_false_iff, ne_eq, h1]
      exact fun hc => (locSub_before hb).2 hs hr'.1 hc.2
    · left
      unfold IntervalOps.Before at hb
      push Not at hb
      obtain ⟨a, b, ha, hb, hba⟩ := hb
      rintro x hx ⟨y, hy, hxy⟩
      exact h.convex _ b x y hb hy (le_trans hba (le_of_lt (hx a ha))) hxy
  have gap2 : o.upperLess (k.key t) (g.key s) = true →
      NoGap o (k.key t) (g.key s) ∨ (o.Before (k.key t) (g.key s) ∧ res1.sup = false) := by
    intro he
    by_cases hb : o.Before (k.key t) (g.key s)
    · refine Or.inr ⟨hb, ?_⟩
      rw [Bool.eq_false_iff, ne_eq, h2]
      exact fun hc => (locSub_before hb).2 ht hl'.1 hc.2
    · left
      unfold IntervalOps.Before at hb
      push Not at hb
      obtain ⟨a, b, ha, hb, hba⟩ := hb
      rintro x hx ⟨y, hy, hxy⟩
      exact h.convex _ b x y hb hy (le_trans hba (le_of_lt (hx a ha))) hxy
  have hPs : ∀ x, Beyond o (g.key s) x → P x := fun x hx => hP x (Or.inl hx)
  have hPt : ∀ x, Beyond o (k.key t) x → P x := fun x hx => hP x (Or.inr hx)
  by_cases e1 : o.upperLess (g.key s) (k.key t) = true
  · rw [if_pos e1]
    have e2 := hu1 (hex e1)
    obtain ⟨res', hr1, hR⟩ := ih (.left (g.key s)) res1 l (t :: r) (by simp; omega) hl'.2.1 hr ⟨hl'.1,
      fun s' hs' x y hx hy => hl'.2.2 x y hx ⟨s', hs', hy⟩, t, r, rfl, us.1 e1, gap1 e1⟩
    refine ⟨res', hr1, ?_, ?_⟩
    · rw [hR.1, h1, cov_first h hl hr hPs e2, LocSub_first h e2, and_assoc]; rfl
    · rw [hR.2, h2, cov_second h hl hr hPs e2, LocSub_second h e2, and_assoc]; rfl
  · rw [if_neg e1]
    rw [Bool.not_eq_true] at e1
    have e3 := hu2 e1
    by_cases e2 : o.upperLess (k.key t) (g.key s) = true
    · rw [if_pos e2]
      obtain ⟨res', hr1, hR⟩ := ih (.right (k.key t)) res1 (s :: l) r (by simp; omega) hl hr'.2.1 ⟨hr'.1,
        fun s' hs' x y hx hy => hr'.2.2 x y hx ⟨s', hs', hy⟩, s, l, rfl, ut.1 e2, gap2 e2⟩
      refine ⟨res', hr1, ?_, ?_⟩
      · rw [hR.1, h1, cov_second h hr hl hPt e3, LocSub_second h e3, and_assoc]; rfl
      · rw [hR.2, h2, cov_first h hr hl hPt e3, LocSub_first h e3, and_assoc]; rfl
    · rw [if_neg e2]
      rw [Bool.not_eq_true] at e2
      obtain ⟨res', hr1, hR⟩ := ih .both res1 l r (by omega) hl'.2.1 hr'.2.1 trivial
      have e4 := hu1 e2
      refine ⟨res', hr1, ?_, ?_⟩
      · rw [hR.1, h1, cov_first h hl hr hPs e4, LocSub_first h e4, and_assoc]
        refine and_congr_right fun _ => and_congr_right fun _ => ⟨fun hc x v hb hm => ?_, fun hc x v _ hm => ?_⟩
        · obtain ⟨w, hw, hc'⟩ := hc x v trivial hm
          exact ⟨w, by simp [hw], hc'⟩
        · have hb : Beyond o (g.key s) x := fun a ha => hl'.2.2 a x ha hm.dom
          obtain ⟨w, hw, hc'⟩ := hc x v hb hm
          rw [maps_cons] at hw
          rcases hw with ⟨hx, _⟩ | hw
          · obtain ⟨y, hy, hxy⟩ := e3 x hx
            exact absurd (hb y hy) (not_lt.2 hxy)
          · exact ⟨w, hw, hc'⟩
      · rw [hR.2, h2, cov_first h hr hl hPt e3, LocSub_first h e3, and_assoc]
        refine and_congr_right fun _ => and_congr_right fun _ => ⟨fun hc x v hb hm => ?_, fun hc x v _ hm => ?_⟩
        · obtain ⟨w, hw, hc'⟩ := hc x v trivial hm
          exact ⟨w, by simp [hw], hc'⟩
        · have hb : Beyond o (k.key t) x := fun a ha => hr'.2.2 a x ha hm.dom
          obtain ⟨w, hw, hc'⟩ := hc x v hb hm
          rw [maps_cons] at hw
          rcases hw with ⟨hx, _⟩ | hw
          · obtain ⟨y, hy, hxy⟩ := e4 x hx
            exact absurd (hb y hy) (not_lt.2 hxy)
          · exact ⟨w, hw, hc'⟩

/-- The first segments already show that the operands are unrelated. -/
theorem stop_right {co : CoCompare V W} {P : D → Prop} {res res1 : Incl} {s : S} {l : List S} {t : T}
    {r : List T} (hl : WF o g (s :: l)) (hr : WF o k (t :: r)) (hu : res1 = .unrelated)
    (h1 : res.sub = true ∧ LocSub o (co (g.val s) (k.val t)).sub P (g.key s) (k.key t) → res1.sub = true)
    (h2 : res.sup = true ∧ LocSub o (co (g.val s) (k.val t)).sup P (k.key t) (g.key s) → res1.sup = true) :
    Right o g k co P (s :: l) (t :: r) res res1 := by
  have hl' := wf_cons.1 hl
  have hr' := wf_cons.1 hr
  rw [hu] at h1 h2 ⊢
  simp only [unrelated_sub, unrelated_sup, Bool.false_eq_true, imp_false, not_and] at h1 h2
  constructor
  · simp only [unrelated_sub, Bool.false_eq_true, false_iff, not_and]
    intro hres hc
    refine h1 hres fun x hp hb1 hb2 hx => ?_
    obtain ⟨w, hw, hc'⟩ := hc x _ hp (maps_cons _ _ _ _ |>.2 (Or.inl ⟨hx, rfl⟩))
    rw [maps_cons] at hw
    rcases hw with ⟨h3, h4⟩ | hw
    · exact ⟨h3, h4 ▸ hc'⟩
    · exact absurd (fun a ha => hr'.2.2 a x ha hw.dom) hb2
  · simp only [unrelated_sup, Bool.false_eq_true, false_iff, not_and]
    intro hres hc
    refine h2 hres fun x hp hb1 hb2 hx => ?_
    obtain ⟨w, hw, hc'⟩ := hc x _ hp (maps_cons _ _ _ _ |>.2 (Or.inl ⟨hx, rfl⟩))
    rw [maps_cons] at hw
    rcases hw with ⟨h3, h4⟩ | hw
    · exact ⟨h3, h4 ▸ hc'⟩
    · exact absurd (fun a ha => hl'.2.2 a x ha hw.dom) hb2

/-- The nodes that `lower_bound` skips are less than the key. -/
theorem dropped {l : List S} {i : I} (hl : WF o g l) (hi : o.Nonempty i) :
    cmpOk o g l i = true ∧ ∀ s ∈ l, s ∈ l.dropWhile (fun s => o.neLess (g.key s) i) ∨ o.Before (g.key s) i := by
  have he : o.isEmpty i = false := by
    rw [Bool.eq_false_iff, ne_eq, h.isEmpty_iff]
    obtain ⟨x, hx⟩ := hi
    exact fun hc => hc x hx
  refine ⟨?_, fun s hs => ?_⟩
  · unfold cmpOk
    rw [Bool.or_eq_true, Bool.and_eq_true, List.all_eq_true]
    refine Or.inr ⟨by simp [he], fun s hs => ?_⟩
    have : o.isEmpty (g.key s) = false := by
      rw [Bool.eq_false_iff, ne_eq, h.isEmpty_iff]
      obtain ⟨x, hx⟩ := hl.nonempty s hs
      exact fun hc => hc x hx
    simp [this]
  · rw [← List.takeWhile_append_dropWhile (p := fun s => o.neLess (g.key s) i) (l := l), List.mem_append] at hs
    rcases hs with hs | hs
    · exact Or.inr ((h.neLess_iff _ _ (hl.nonempty s (List.takeWhile_subset _ hs)) hi).1 (mem_takeWhile_prop (p := fun s => o.neLess (g.key s) i) hs))
    · exact Or.inl hs

/-- Skipping the nodes that are less than the first segment of the other operand. -/
theorem skip_right {co : V → W → Bool} {s : S} {l : List S} {t : T} {r : List T}
    (hl : WF o g (s :: l)) (hr : WF o k (t :: r)) (hb : o.Before (g.key s) (k.key t)) :
    ¬ Cov o g k co (fun _ => True) (s :: l) (t :: r) ∧
    ∀ c, (Cov o k g c (fun _ => True) (t :: r) (s :: l) ↔
      Cov o k g c (fun _ => True) (t :: r) (l.dropWhile fun s => o.neLess (g.key s) (k.key t))) := by
  have hl' := wf_cons.1 hl
  have hr' := wf_cons.1 hr
  have hd := dropped h hl'.2.1 hr'.1
  have hbt : ∀ i, o.Before i (k.key t) → ∀ x y, o.Mem x i → Dom o k (t :: r) y → x < y := by
    intro i hi x y hx hy
    rw [dom_cons] at hy
    rcases hy with hy | hy
    · exact hi x y hx hy
    · obtain ⟨z, hz⟩ := hr'.1
      exact lt_trans (hi x z hx hz) (hr'.2.2 z y hz hy)
  constructor
  · intro hc
    obtain ⟨x, hx⟩ := hl'.1
    obtain ⟨w, hw, _⟩ := hc x _ trivial (maps_cons _ _ _ _ |>.2 (Or.inl ⟨hx, rfl⟩))
    exact lt_irrefl _ (hbt _ hb x x hx hw.dom)
  · intro c
    constructor
    · intro hc x w _ hm
      obtain ⟨v, ⟨s', hs', hx, hv⟩, hc'⟩ := hc x w trivial hm
      refine ⟨v, ⟨s', ?_, hx, hv⟩, hc'⟩
      rcases List.mem_cons.1 hs' with rfl | hs'
      · exact absurd (hbt _ hb x x hx hm.dom) (lt_irrefl _)
      · rcases hd.2 s' hs' with h1 | h1
        · exact h1
        · exact absurd (hbt _ h1 x x hx hm.dom) (lt_irrefl _)
    · intro hc x w _ hm
      obtain ⟨v, ⟨s', hs', hx, hv⟩, hc'⟩ := hc x w trivial hm
      exact ⟨v, ⟨s', List.mem_cons_of_mem _ ((List.dropWhile_sublist _).subset hs'), hx, hv⟩, hc'⟩

theorem wf_sublist' {l l' : List S} (hl : WF o g l) (hs : l'.Sublist l) : WF o g l' :=
  ⟨fun s h => hl.nonempty s (hs.subset h), hl.sorted.sublist hs⟩

/-- Three ways two segments can lie. -/
theorem tri (i j : I) : (∃ a, o.Mem a i ∧ o.Mem a j) ∨ o.Before i j ∨ o.Before j i := by
  by_contra hc
  push Not at hc
  obtain ⟨h1, h2, h3⟩ := hc
  unfold IntervalOps.Before at h2 h3
  push Not at h2 h3
  obtain ⟨a, b, ha, hb, hba⟩ := h2
  obtain ⟨c, d, hc, hd, hdc⟩ := h3
  rcases le_total a c with hac | hac
  · exact h1 a ha (h.convex j b a c hb hc hba hac)
  · exact h1 c (h.convex i d c a hd ha hdc hac) hc

theorem intersectsI_iff' (i j : I) : o.intersectsI i j = true ↔ ∃ a, o.Mem a i ∧ o.Mem a j := by
  unfold IntervalOps.intersectsI
  rw [Bool.not_eq_true', Bool.eq_false_iff]
  simp only [ne_eq, Bool.or_eq_true, h.isEmpty_iff, h.exclusiveLess_iff]
  constructor
  · intro hc
    push Not at hc
    rcases tri h i j with ha | ha | ha
    · exact ha
    · exact absurd ha hc.1.2
    · exact absurd ha hc.2
  · rintro ⟨a, h1, h2⟩ (((hc | hc) | hc) | hc)
    · exact hc a h1
    · exact hc a h2
    · exact lt_irrefl _ (hc a a h1 h2)
    · exact lt_irrefl _ (hc a a h2 h1)

/-- What the next segment `i` behind `p` shows in comparison to the segment `j` that reaches beyond `p`. -/
theorem side_facts {p i j : I} {b : Bool} (c c' : Bool) (hp : o.Nonempty p) (hi : o.Nonempty i)
    (hb : o.Before p i) (hy : ∃ y, o.Mem y j ∧ Beyond o p y)
    (hgap : NoGap o p j ∨ (o.Before p j ∧ b = false)) :
    ((b = true ∧ LocSub o c (Beyond o p) i j) ↔ (b = true ∧ (o.intersectsI i j = true → c = true))) ∧
    (LocSub o c' (Beyond o p) j i ↔
      (!o.touches p i && o.lowerLess j i) = false ∧ (o.intersectsI i j = true → c' = true)) := by
  obtain ⟨y, hyj, hyp⟩ := hy
  have hj : o.Nonempty j := ⟨y, hyj⟩
  have hib : ∀ x, o.Mem x i → Beyond o p x := fun x hx a ha => hb a x ha hx
  have hg : ∀ q : Bool, q = false ↔ ¬ q = true := by decide
  rw [hg (!o.touches p i && o.lowerLess j i), Bool.and_eq_true, Bool.not_eq_true', hg (o.touches p i),
    h.touches_iff p i hp hi hb, h.lowerLess_iff j i hj hi, intersectsI_iff' h]
  rcases tri h i j with ⟨a, ha1, ha2⟩ | hbe | hbe
  · rw [locSub_inter h (hib a ha1) ha1 ha2, locSub_inter h (hib a ha1) ha2 ha1]
    have hex : (∃ a, o.Mem a i ∧ o.Mem a j) := ⟨a, ha1, ha2⟩
    constructor
    · constructor
      · rintro ⟨h1, h2, h3⟩; exact ⟨h1, fun _ => h3⟩
      · rintro ⟨h1, h2⟩
        refine ⟨h1, ?_, h2 hex⟩
        rintro ⟨x, hxp, hxi, hxj⟩
        rcases hgap with hgap | hgap
        · exact lt_irrefl _ (hxj x (hgap x hxp ⟨a, ha2, le_of_lt (hxj a ha2)⟩))
        · rw [h1] at hgap; exact absurd hgap.2 (by simp)
    · constructor
      · rintro ⟨h1, h2⟩
        refine ⟨?_, fun _ => h2⟩
        rintro ⟨h3, x, hxj, hxi⟩
        have h4 : ∃ z, (∀ x, o.Mem x p → x < z) ∧ ∀ y, o.Mem y i → z < y := by
          by_contra hc; exact h3 hc
        obtain ⟨z, hz1, hz2⟩ := h4
        apply h1
        rcases hgap with hgap | hgap
        · exact ⟨z, hz1, hgap z hz1 ⟨a, ha2, le_of_lt (hz2 a ha1)⟩, hz2⟩
        · exact ⟨x, fun q hq => hgap.1 q x hq hxj, hxj, hxi⟩
      · rintro ⟨h1, h2⟩
        refine ⟨?_, h2 hex⟩
        rintro ⟨x, hxp, hxj, hxi⟩
        exact h1 ⟨fun hc => hc ⟨x, hxp, hxi⟩, x, hxj, hxi⟩
  · have hno : ¬ ∃ a, o.Mem a i ∧ o.Mem a j := by
      rintro ⟨a, h1, h2⟩; exact lt_irrefl _ (hbe a a h1 h2)
    have hbf : b = false := by
      rcases hgap with hgap | hgap
      · obtain ⟨x, hx⟩ := hi
        exact absurd ⟨x, hx, hgap x (hib x hx) ⟨y, hyj, le_of_lt (hbe x y hx hyj)⟩⟩ hno
      · exact hgap.2
    refine ⟨by simp [hbf], ?_⟩
    simp only [(locSub_before hbe).1, hno, false_implies, and_true, true_iff]
    rintro ⟨_, x, hxj, hxi⟩
    obtain ⟨z, hz⟩ := hi
    exact lt_irrefl _ (lt_trans (hxi z hz) (hbe z x hz hxj))
  · have hno : ¬ ∃ a, o.Mem a i ∧ o.Mem a j := by
      rintro ⟨a, h1, h2⟩; exact lt_irrefl _ (hbe a a h2 h1)
    simp only [(locSub_before hbe).1, hno, false_implies, and_true, true_and]
    constructor
    · intro hc
      exact absurd hc ((locSub_before hbe).2 ⟨y, hyp, hyj⟩ hi)
    · intro hc
      exact absurd ⟨fun ht => ht ⟨y, hyp, fun z hz => hbe y z hyj hz⟩, y, hyj, fun z hz => hbe y z hyj hz⟩ hc

/-- The comparison loop is right. -/
theorem compareLoop_spec (co : CoCompare V W) (n : Nat) : ∀ (st : CmpState I) (res : Incl) (l : List S)
    (r : List T), l.length + r.length < n → WF o g l → WF o k r → CmpInv o g k res l r st →
    ∃ res', compareLoop o g k co n st res l r = some res' ∧ Right o g k co (st.region o) l r res res' := by
  induction n with
  | zero => intro _ _ _ _ hn; omega
  | succ n ih =>
    intro st res l r hn hl hr hinv
    cases st with
    | both =>
      cases l with
      | nil =>
        cases r with
        | nil => exact ⟨res, rfl, by simp [Right, Cov]⟩
        | cons t r =>
          refine ⟨_, rfl, by simp [Right, Cov], ?_⟩
          simp only [restrict_sup, subset_sup, Bool.and_false, Bool.false_eq_true, false_iff, not_and]
          intro _ hc
          obtain ⟨x, hx⟩ := (wf_cons.1 hr).1
          obtain ⟨v, hv, _⟩ := hc x _ trivial (maps_cons _ _ _ _ |>.2 (Or.inl ⟨hx, rfl⟩))
          simp at hv
      | cons s l =>
        cases r with
        | nil =>
          refine ⟨_, rfl, ?_, by simp [Right, Cov]⟩
          simp only [restrict_sub, superset_sub, Bool.and_false, Bool.false_eq_true, false_iff, not_and]
          intro _ hc
          obtain ⟨x, hx⟩ := (wf_cons.1 hl).1
          obtain ⟨v, hv, _⟩ := hc x _ trivial (maps_cons _ _ _ _ |>.2 (Or.inl ⟨hx, rfl⟩))
          simp at hv
        | cons t r =>
          have hl' := wf_cons.1 hl
          have hr' := wf_cons.1 hr
          simp only [List.length_cons] at hn
          rw [compareLoop]
          simp only
          by_cases e1 : o.exclusiveLess (g.key s) (k.key t) = true
          · rw [if_pos e1]
            rw [h.exclusiveLess_iff] at e1
            obtain ⟨k1, k2⟩ := skip_right h (co := fun v w => (co v w).sub) hl hr e1
            have hd := dropped h hl'.2.1 hr'.1
            split
            · rename_i hu
              refine ⟨_, rfl, ?_⟩
              have hu' := hu
              rw [hu]
              rw [incl_unrelated] at hu'
              simp only [restrict_sub, superset_sub, Bool.and_false, restrict_sup, superset_sup, Bool.and_true,
                true_and] at hu'
              constructor
              · simp only [unrelated_sub, Bool.false_eq_true, false_iff, not_and]; exact fun _ => k1
              · simp [hu']
            · rw [hd.1]
              simp only [Bool.not_true, Bool.false_eq_true, if_false]
              split
              · rename_i hnil
                refine ⟨_, rfl, ?_, ?_⟩
                · simp only [unrelated_sub, Bool.false_eq_true, false_iff, not_and]; exact fun _ => k1
                · simp only [unrelated_sup, Bool.false_eq_true, false_iff, not_and]
                  intro _ hc
                  rw [show CmpState.region o .both = fun _ => True from rfl, k2, hnil] at hc
                  obtain ⟨x, hx⟩ := hr'.1
                  obtain ⟨v, hv, _⟩ := hc x _ trivial (maps_cons _ _ _ _ |>.2 (Or.inl ⟨hx, rfl⟩))
                  simp at hv
              · have hsub := List.dropWhile_sublist (fun s => o.neLess (g.key s) (k.key t)) (l := l)
                have hlen := hsub.length_le
                obtain ⟨res', hr1, hR⟩ := ih .both (res.restrict .superset)
                  (l.dropWhile fun s => o.neLess (g.key s) (k.key t)) (t :: r) (by simp only [List.length_cons]; omega)
                  (wf_sublist' h hl'.2.1 hsub) hr trivial
                refine ⟨res', hr1, ?_, ?_⟩
                · rw [hR.1]
                  simp only [restrict_sub, superset_sub, Bool.and_false, Bool.false_eq_true, false_and, false_iff, not_and]
                  exact fun _ => k1
                · rw [hR.2]
                  simp only [restrict_sup, superset_sup, Bool.and_true]
                  exact and_congr_right fun _ => (k2 _).symm
          · rw [if_neg e1]
            by_cases e2 : o.exclusiveLess (k.key t) (g.key s) = true
            · rw [if_pos e2]
              rw [h.exclusiveLess_iff] at e2
              obtain ⟨k1, k2⟩ := skip_right h (co := fun w v => (co v w).sup) hr hl e2
              have hd := dropped h hr'.2.1 hl'.1
              split
              · rename_i hu
                refine ⟨_, rfl, ?_⟩
                have hu' := hu
                rw [hu]
                rw [incl_unrelated] at hu'
                simp only [restrict_sub, subset_sub, Bool.and_false, restrict_sup, subset_sup, Bool.and_true,
                  and_true] at hu'
                constructor
                · simp [hu']
                · simp only [unrelated_sup, Bool.false_eq_true, false_iff, not_and]; exact fun _ => k1
              · rw [hd.1]
                simp only [Bool.not_true, Bool.false_eq_true, if_false]
                split
                · rename_i hnil
                  refine ⟨_, rfl, ?_, ?_⟩
                  · simp only [unrelated_sub, Bool.false_eq_true, false_iff, not_and]
                    intro _ hc
                    rw [show CmpState.region o .both = fun _ => True from rfl, k2, hnil] at hc
                    obtain ⟨x, hx⟩ := hl'.1
                    obtain ⟨v, hv, _⟩ := hc x _ trivial (maps_cons _ _ _ _ |>.2 (Or.inl ⟨hx, rfl⟩))
                    simp at hv
                  · simp only [unrelated_sup, Bool.false_eq_true, false_iff, not_and]; exact fun _ => k1
                · have hsub := List.dropWhile_sublist (fun t => o.neLess (k.key t) (g.key s)) (l := r)
                  have hlen := hsub.length_le
                  obtain ⟨res', hr1, hR⟩ := ih .both (res.restrict .subset)
                    (s :: l) (r.dropWhile fun t => o.neLess (k.key t) (g.key s)) (by simp only [List.length_cons]; omega)
                    hl (wf_sublist' h hr'.2.1 hsub) trivial
                  refine ⟨res', hr1, ?_, ?_⟩
                  · rw [hR.1]
                    simp only [restrict_sub, subset_sub, Bool.and_true]
                    exact and_congr_right fun _ => (k2 _).symm
                  · rw [hR.2]
                    simp only [restrict_sup, subset_sup, Bool.and_false, Bool.false_eq_true, false_and, false_iff, not_and]
                    exact fun _ => k1
            · rw [if_neg e2]
              rw [h.exclusiveLess_iff] at e1 e2
              obtain ⟨a, ha1, ha2⟩ : ∃ a, o.Mem a (g.key s) ∧ o.Mem a (k.key t) := by
                rcases tri h (g.key s) (k.key t) with ha | ha | ha
                · exact ha
                · exact absurd ha e1
                · exact absurd ha e2
              have L1 := locSub_inter h (c := (co (g.val s) (k.val t)).sub) (P := fun _ => True) trivial ha1 ha2
              have L2 := locSub_inter h (c := (co (g.val s) (k.val t)).sup) (P := fun _ => True) trivial ha2 ha1
              have q1 := h.lowerLess_iff _ _ hl'.1 hr'.1
              have q2 := h.lowerLess_iff _ _ hr'.1 hl'.1
              simp only [true_and] at L1 L2
              rw [← q1] at L1
              rw [← q2] at L2
              have hex : o.lowerLess (g.key s) (k.key t) = true → o.lowerLess (k.key t) (g.key s) = false := by
                intro he
                rw [Bool.eq_false_iff, ne_eq, q2]
                rw [q1] at he
                rintro ⟨a, ha, hal⟩
                obtain ⟨b, hb, hbl⟩ := he
                exact lt_irrefl _ (lt_trans (hal b hb) (hbl a ha))
              have fin : ∀ res1 : Incl,
                  (res1.sub = true ↔ res.sub = true ∧ LocSub o (co (g.val s) (k.val t)).sub (fun _ => True) (g.key s) (k.key t)) →
                  (res1.sup = true ↔ res.sup = true ∧ LocSub o (co (g.val s) (k.val t)).sup (fun _ => True) (k.key t) (g.key s)) → _ :=
                fun res1 h1 h2 => proceed_right h (n := n) (co := co) (P := fun _ => True) hl hr (fun _ _ => trivial) ih (by omega)
                  h1 h2 ⟨a, trivial, ha1⟩ ⟨a, trivial, ha2⟩
              split
              · rename_i hu
                refine ⟨_, rfl, stop_right h hl hr hu ?_ ?_⟩
                · rw [show CmpState.region o .both = fun _ => True from rfl, L1]
                  rintro ⟨h1, h2, h3⟩; simp [h1, h3]
                · rw [show CmpState.region o .both = fun _ => True from rfl, L2]
                  rintro ⟨h1, h2, h3⟩; simp [h1, h3]
              · cases e3 : o.lowerLess (g.key s) (k.key t)
                · rw [e3] at L1 hex
                  simp only [Bool.false_eq_true, if_false]
                  cases e4 : o.lowerLess (k.key t) (g.key s)
                  · rw [e4] at L2
                    simp only [Bool.false_eq_true, if_false]
                    refine fin _ ?_ ?_
                    · rw [L1]; simp
                    · rw [L2]; simp
                  · rw [e4] at L2
                    simp only [if_true]
                    split
                    · rename_i hu
                      refine ⟨_, rfl, stop_right h hl hr hu ?_ ?_⟩
                      · rw [show CmpState.region o .both = fun _ => True from rfl, L1]; simp
                      · rw [show CmpState.region o .both = fun _ => True from rfl, L2]; simp
                    · refine fin _ ?_ ?_
                      · rw [L1]; simp
                      · rw [L2]; simp
                · have e4 := hex e3
                  rw [e3] at L1
                  rw [e4] at L2
                  simp only [if_true]
                  split
                  · rename_i hu
                    refine ⟨_, rfl, stop_right h hl hr hu ?_ ?_⟩
                    · rw [show CmpState.region o .both = fun _ => True from rfl, L1]; simp
                    · rw [show CmpState.region o .both = fun _ => True from rfl, L2]; simp
                  · refine fin _ ?_ ?_
                    · rw [L1]; simp
                    · rw [L2]; simp
    | left p =>
      obtain ⟨hp, hbl, t, r, rfl, hy, hgap⟩ := hinv
      have hr' := wf_cons.1 hr
      cases l with
      | nil =>
        refine ⟨_, rfl, by simp [Right, Cov], ?_⟩
        simp only [restrict_sup, subset_sup, Bool.and_false, Bool.false_eq_true, false_iff, not_and]
        intro _ hc
        obtain ⟨x, hx, hb⟩ := hy
        obtain ⟨v, hv, _⟩ := hc x _ hb (maps_cons _ _ _ _ |>.2 (Or.inl ⟨hx, rfl⟩))
        simp at hv
      | cons s l =>
        have hl' := wf_cons.1 hl
        simp only [List.length_cons] at hn
        have hbs := hbl s (by simp)
        obtain ⟨F1, F2⟩ := side_facts h (co (g.val s) (k.val t)).sub (co (g.val s) (k.val t)).sup hp hl'.1 hbs hy hgap
        have hP : ∀ x, Beyond o (g.key s) x ∨ Beyond o (k.key t) x → Beyond o p x := by
          rintro x (hx | hx) a ha
          · obtain ⟨z, hz⟩ := hl'.1
            exact lt_trans (hbs a z ha hz) (hx z hz)
          · obtain ⟨z, hz, hzp⟩ := hy
            exact lt_trans (hzp a ha) (hx z hz)
        have hs : ∃ x, Beyond o p x ∧ o.Mem x (g.key s) := by
          obtain ⟨z, hz⟩ := hl'.1
          exact ⟨z, fun a ha => hbs a z ha hz, hz⟩
        have ht : ∃ x, Beyond o p x ∧ o.Mem x (k.key t) := by
          obtain ⟨z, hz, hzp⟩ := hy
          exact ⟨z, hzp, hz⟩
        have fin := fun res1 h1 h2 => proceed_right h (res := res) (res1 := res1) (n := n) (co := co)
          (P := Beyond o p) hl hr hP ih (by omega) h1 h2 hs ht
        have sto := fun res1 => stop_right h (co := co) (P := Beyond o p) (res := res) (res1 := res1) hl hr
        rw [F1, F2] at fin sto
        rw [compareLoop]
        simp only
        have hes : o.isEmpty (g.key s) = false := (nonempty_iff h).1 (hs.imp fun _ hx => hx.2)
        have het : o.isEmpty (k.key t) = false := (nonempty_iff h).1 (ht.imp fun _ hx => hx.2)
        rw [hes, het, h.touchesC_before p (g.key s) hp hl'.1 hbs]
        simp only [Bool.or_self, Bool.false_eq_true, if_false]
        generalize (!o.touches p (g.key s) && o.lowerLess (k.key t) (g.key s)) = gap at fin sto ⊢
        generalize o.intersectsI (g.key s) (k.key t) = x at fin sto ⊢
        cases gap <;> cases x
        · simp only [Bool.false_eq_true, if_false, Bool.false_and, decide_eq_true_eq]
          exact fin _ (by simp) (by simp)
        · simp only [Bool.false_eq_true, if_false, Bool.false_and, decide_eq_true_eq, if_true]
          split
          · rename_i hu
            exact ⟨_, rfl, sto _ hu (by simp) (by simp)⟩
          · exact fin _ (by simp) (by simp)
        · simp only [Bool.false_eq_true, if_false, Bool.true_and, decide_eq_true_eq, if_true]
          split
          · rename_i hu
            exact ⟨_, rfl, sto _ hu (by simp) (by simp)⟩
          · exact fin _ (by simp) (by simp)
        · simp only [Bool.false_eq_true, if_false, Bool.true_and, decide_eq_true_eq, if_true]
          split
          · rename_i hu
            refine ⟨_, rfl, sto _ hu ?_ (by simp)⟩
            have := (incl_unrelated.1 hu).1
            simp only [restrict_sub, subset_sub, Bool.and_true] at this ⊢
            simp [this]
          · split
            · rename_i hu
              exact ⟨_, rfl, sto _ hu (by simp) (by simp)⟩
            · exact fin _ (by simp) (by simp)
    | right p =>
      obtain ⟨hp, hbr, s, l, rfl, hy, hgap⟩ := hinv
      have hl' := wf_cons.1 hl
      cases r with
      | nil =>
        refine ⟨_, rfl, ?_, by simp [Right, Cov]⟩
        simp only [restrict_sub, superset_sub, Bool.and_false, Bool.false_eq_true, false_iff, not_and]
        intro _ hc
        obtain ⟨x, hx, hb⟩ := hy
        obtain ⟨v, hv, _⟩ := hc x _ hb (maps_cons _ _ _ _ |>.2 (Or.inl ⟨hx, rfl⟩))
        simp at hv
      | cons t r =>
        have hr' := wf_cons.1 hr
        simp only [List.length_cons] at hn
        have hbs := hbr t (by simp)
        obtain ⟨F1, F2⟩ := side_facts h (co (g.val s) (k.val t)).sup (co (g.val s) (k.val t)).sub hp hr'.1 hbs hy hgap
        have hP : ∀ x, Beyond o (g.key s) x ∨ Beyond o (k.key t) x → Beyond o p x := by
          rintro x (hx | hx) a ha
          · obtain ⟨z, hz, hzp⟩ := hy
            exact lt_trans (hzp a ha) (hx z hz)
          · obtain ⟨z, hz⟩ := hr'.1
            exact lt_trans (hbs a z ha hz) (hx z hz)
        have hs : ∃ x, Beyond o p x ∧ o.Mem x (g.key s) := by
          obtain ⟨z, hz, hzp⟩ := hy
          exact ⟨z, hzp, hz⟩
        have ht : ∃ x, Beyond o p x ∧ o.Mem x (k.key t) := by
          obtain ⟨z, hz⟩ := hr'.1
          exact ⟨z, fun a ha => hbs a z ha hz, hz⟩
        have fin := fun res1 h1 h2 => proceed_right h (res := res) (res1 := res1) (n := n) (co := co)
          (P := Beyond o p) hl hr hP ih (by omega) h1 h2 hs ht
        have sto := fun res1 => stop_right h (co := co) (P := Beyond o p) (res := res) (res1 := res1) hl hr
        rw [F1, F2] at fin sto
        rw [compareLoop]
        simp only
        have hcomm : o.intersectsI (k.key t) (g.key s) = o.intersectsI (g.key s) (k.key t) := by
          rw [Bool.eq_iff_iff, intersectsI_iff' h, intersectsI_iff' h]; simp only [and_comm]
        rw [hcomm] at fin sto
        have hes : o.isEmpty (g.key s) = false := (nonempty_iff h).1 (hs.imp fun _ hx => hx.2)
        have het : o.isEmpty (k.key t) = false := (nonempty_iff h).1 (ht.imp fun _ hx => hx.2)
        rw [hes, het, h.touchesC_before p (k.key t) hp hr'.1 hbs]
        simp only [Bool.or_self, Bool.false_eq_true, if_false]
        generalize (!o.touches p (k.key t) && o.lowerLess (g.key s) (k.key t)) = gap at fin sto ⊢
        generalize o.intersectsI (g.key s) (k.key t) = x at fin sto ⊢
        cases gap <;> cases x
        · simp only [Bool.false_eq_true, if_false, Bool.false_and, decide_eq_true_eq]
          exact fin _ (by simp) (by simp)
        · simp only [Bool.false_eq_true, if_false, Bool.false_and, decide_eq_true_eq, if_true]
          split
          · rename_i hu
            exact ⟨_, rfl, sto _ hu (by simp) (by simp)⟩
          · exact fin _ (by simp) (by simp)
        · simp only [Bool.false_eq_true, if_false, Bool.true_and, decide_eq_true_eq, if_true]
          split
          · rename_i hu
            exact ⟨_, rfl, sto _ hu (by simp) (by simp)⟩
          · exact fin _ (by simp) (by simp)
        · simp only [Bool.false_eq_true, if_false, Bool.true_and, decide_eq_true_eq, if_true]
          split
          · rename_i hu
            refine ⟨_, rfl, sto _ hu (by simp) ?_⟩
            have := (incl_unrelated.1 hu).2
            simp only [restrict_sup, superset_sup, Bool.and_true] at this ⊢
            simp [this]
          · split
            · rename_i hu
              exact ⟨_, rfl, sto _ hu (by simp) (by simp)⟩
            · exact fin _ (by simp) (by simp)

/-- `inclusion_compare` decides inclusion in both directions. -/
theorem inclusionCompare_spec (co : CoCompare V W) {l : List S} {r : List T} (hl : WF o g l) (hr : WF o k r) :
    ∃ c, inclusionCompare o g k co l r = some c ∧
      (c.sub = true ↔ ∀ x v, Maps o g l x v → ∃ w, Maps o k r x w ∧ (co v w).sub = true) ∧
      (c.sup = true ↔ ∀ x w, Maps o k r x w → ∃ v, Maps o g l x v ∧ (co v w).sup = true) := by
  obtain ⟨c, h1, h2, h3⟩ := compareLoop_spec h co (l.length + r.length + 1) .both .equal l r (by omega) hl hr trivial
  refine ⟨c, h1, ?_, ?_⟩
  · rw [h2]; simp [Cov, CmpState.region]
  · rw [h3]; simp [Cov, CmpState.region]

/-- `lower_bound` in the whole container and behind a node that is less than the key. -/
theorem lowerBound_suffix {l : List S} {a b : List S} {s : S} {i : I} (hl : WF o g l) (hi : o.Nonempty i)
    (he : l = a ++ s :: b) (hs : o.Before (g.key s) i) :
    l.dropWhile (fun s => o.neLess (g.key s) i) = b.dropWhile fun s => o.neLess (g.key s) i := by
  subst he
  have hall : ∀ t ∈ a ++ [s], o.neLess (g.key t) i = true := by
    intro t ht
    rw [wf_append, wf_cons] at hl
    rw [List.mem_append, List.mem_singleton] at ht
    rcases ht with ht | rfl
    · rw [h.neLess_iff _ _ (hl.1.nonempty t ht) hi]
      intro x y hx hy
      obtain ⟨z, hz⟩ := hl.2.1.1
      exact lt_trans (hl.2.2 x z ⟨t, ht, hx⟩ (by simp [hz])) (hs z y hz hy)
    · rw [h.neLess_iff _ _ hl.2.1.1 hi]; exact hs
  rw [show a ++ s :: b = (a ++ [s]) ++ b by simp, List.dropWhile_append_of_pos hall]

end
end ICL
