import Verif.Theory.SetFlip

/-!
# Observers: containment of an interval, hull, gaps, conversion, join, equality
-/

set_option linter.unusedSectionVars false
set_option linter.unusedVariables false
set_option linter.unusedSimpArgs false

namespace ICL

variable {D I V S : Type} [LinearOrder D] {o : IntervalOps D I} {g : SegOps I V S}

section pure
variable (o : IntervalOps D I) (g : SegOps I V S)
omit [LinearOrder D]

/-- `allTouch`, if nothing overflows -/
def allTouchP : List S → Bool
  | [] => true
  | [_] => true
  | s :: t :: l => o.touches (g.key s) (g.key t) && allTouchP (t :: l)

/-- `joinRun`, if nothing overflows -/
def joinRunP [DecidableEq V] (fst cur : S) : List S → S × List S
  | [] => (g.setKey cur (o.hull (g.key cur) (g.key fst)), [])
  | nxt :: l =>
    if joinable o g cur nxt then joinRunP fst nxt l
    else (g.setKey cur (o.hull (g.key cur) (g.key fst)), nxt :: l)

theorem joinRunP_length [DecidableEq V] (fst cur : S) (l : List S) :
    (joinRunP o g fst cur l).2.length ≤ l.length := by
  induction l generalizing cur with
  | nil => simp [joinRunP]
  | cons n l ih =>
    unfold joinRunP
    split
    · have := ih n; simp; omega
    · simp

/-- `joinAll`, if nothing overflows -/
def joinAllP [DecidableEq V] : List S → List S
  | [] => []
  | [s] => [s]
  | s :: nxt :: l =>
    if joinable o g s nxt then
      (joinRunP o g s nxt l).1 :: joinAllP (joinRunP o g s nxt l).2
    else s :: joinAllP (nxt :: l)
termination_by l => l.length
decreasing_by
  · have := joinRunP_length o g s nxt l; simp; omega
  · simp

end pure

section
variable (h : o.Lawful)
include h

/-- In a well-formed container `is_joinable` does not overflow. -/
theorem allTouch_eq {l : List S} (hl : WF o g l) : allTouch o g l = some (allTouchP o g l) := by
  induction l with
  | nil => rfl
  | cons s l ih =>
    cases l with
    | nil => rfl
    | cons t l =>
      have hw := wf_cons.1 hl
      have hw2 := wf_cons.1 hw.2.1
      unfold allTouch allTouchP
      rw [h.touchesC_before _ _ hw.1 hw2.1 fun x y hx hy => hw.2.2 x y hx ⟨t, by simp, hy⟩]
      cases o.touches (g.key s) (g.key t) <;> simp [ih hw.2.1]

/-- `is_joinable` of a run of nodes: there is no gap between its elements. -/
theorem allTouchP_iff {l : List S} (hl : WF o g l) : allTouchP o g l = true ↔
    ∀ x y z, Dom o g l x → Dom o g l y → x ≤ z → z ≤ y → Dom o g l z := by
  induction l with
  | nil => simp [allTouchP]
  | cons s l ih =>
    cases l with
    | nil =>
      simp only [allTouchP, dom_cons, dom_nil, or_false, true_iff]
      intro x y z hx hy h1 h2
      exact h.convex _ x z y hx hy h1 h2
    | cons t l =>
      have hw := wf_cons.1 hl
      have hw2 := wf_cons.1 hw.2.1
      have hst : o.Before (g.key s) (g.key t) := fun x y hx hy => hw.2.2 x y hx ⟨t, by simp, hy⟩
      have ht := h.touches_iff (g.key s) (g.key t) hw.1 hw2.1 hst
      obtain ⟨w, hwt⟩ := hw2.1
      have hwd : Dom o g (t :: l) w := ⟨t, by simp, hwt⟩
      simp only [allTouchP, Bool.and_eq_true]
      rw [ih hw.2.1]
      constructor
      · rintro ⟨h1, h2⟩ x y z hx hy hxz hzy
        rw [dom_cons] at hx hy ⊢
        rcases hx with hx | hx
        · rcases hy with hy | hy
          · exact Or.inl (h.convex _ x z y hx hy hxz hzy)
          · rcases le_total w z with h3 | h3
            · exact Or.inr (h2 w y z hwd hy h3 hzy)
            · have := (mem_hull_of_before h hst h1 hw.1 hw2.1 z).1
                ((h.mem_hull _ _ _).2 ⟨x, w, Or.inl hx, Or.inr hwt, hxz, h3⟩)
              rcases this with h4 | h4
              · exact Or.inl h4
              · exact Or.inr ⟨t, by simp, h4⟩
        · rcases hy with hy | hy
          · exact absurd (hw.2.2 y x hy hx) (not_lt.2 (le_trans hxz hzy))
          · exact Or.inr (h2 x y z hx hy hxz hzy)
      · intro hc
        constructor
        · rw [ht]
          rintro ⟨z, hz1, hz2⟩
          obtain ⟨x, hx⟩ := hw.1
          have := hc x w z ⟨s, by simp, hx⟩ ((dom_cons _ _ _).2 (Or.inr hwd)) (le_of_lt (hz1 x hx)) (le_of_lt (hz2 w hwt))
          rw [dom_cons, dom_cons] at this
          rcases this with h1 | h1 | h1
          · exact lt_irrefl _ (hz1 z h1)
          · exact lt_irrefl _ (hz2 z h1)
          · exact lt_irrefl _ (lt_trans (hw2.2.2 w z hwt h1) (hz2 w hwt))
        · intro x y z hx hy hxz hzy
          have := hc x y z ((dom_cons _ _ _).2 (Or.inr hx)) ((dom_cons _ _ _).2 (Or.inr hy)) hxz hzy
          rw [dom_cons] at this
          rcases this with h1 | h1
          · exact absurd (hw.2.2 z x h1 hx) (not_lt.2 hxz)
          · exact h1

theorem mem_hull_run {f : S} {b : List S} (hw : WF o g (f :: b)) (x : D) :
    o.Mem x (o.hull (g.key f) (g.key (b.getLastD f))) ↔
      ∃ y z, Dom o g (f :: b) y ∧ Dom o g (f :: b) z ∧ y ≤ x ∧ x ≤ z := by
  rw [h.mem_hull]
  have hlm := getLastD_mem f b
  constructor
  · rintro ⟨y, z, hy, hz, h1, h2⟩
    have hd : ∀ u, o.Mem u (g.key f) ∨ o.Mem u (g.key (b.getLastD f)) → Dom o g (f :: b) u := by
      rintro u (h | h)
      · exact ⟨f, by simp, h⟩
      · exact ⟨_, hlm, h⟩
    exact ⟨y, z, hd y hy, hd z hz, h1, h2⟩
  · rintro ⟨y, z, hy, hz, h1, h2⟩
    obtain ⟨y', hy', h3⟩ := first_dom_le h hw hy
    obtain ⟨z', hz', h4⟩ := last_dom_le h hw hz
    exact ⟨y', z', Or.inl hy', Or.inr hz', le_trans h3 h1, le_trans h2 h4⟩

/-- `contains(container, interval)`; the body serves sets and maps. -/
theorem containsRun_spec {l : List S} (hl : WF o g l) {k : I} (hk : o.Nonempty k) :
    ∃ a b c, equalRange o g l k = some (a, b, c) ∧ WF o g b ∧
      ((match b with
        | [] => false
        | f :: b => o.containsI (o.hull (g.key f) (g.key (b.getLastD f))) k && allTouchP o g (f :: b)) = true ↔
        ∀ x, o.Mem x k → Dom o g l x) := by
  obtain ⟨a, b, c, e, rfl, h1, h2, h3⟩ := equalRange_spec h hl hk
  have hwb : WF o g b := (wf_append.1 (wf_append.1 hl).1).2.1
  refine ⟨a, b, c, e, hwb, ?_⟩
  have hb : ∀ x, o.Mem x k → (Dom o g (a ++ b ++ c) x ↔ Dom o g b x) := by
    intro x hx
    rw [dom_append, dom_append]
    constructor
    · rintro ((⟨s, hs, hm⟩ | h4) | ⟨s, hs, hm⟩)
      · exact absurd (h1 s hs x x hm hx) (lt_irrefl _)
      · exact h4
      · exact absurd (h3 s hs x x hx hm) (lt_irrefl _)
    · exact fun h4 => Or.inl (Or.inr h4)
  rw [show (∀ x, o.Mem x k → Dom o g (a ++ b ++ c) x) ↔ ∀ x, o.Mem x k → Dom o g b x from
    forall_congr' fun x => ⟨fun hh hx => (hb x hx).1 (hh hx), fun hh hx => (hb x hx).2 (hh hx)⟩]
  cases b with
  | nil =>
    obtain ⟨x, hx⟩ := hk
    simp only [Bool.false_eq_true, dom_nil, false_iff]
    exact fun hc => hc x hx
  | cons f b =>
    simp only [Bool.and_eq_true]
    rw [h.containsI_iff _ _ (nonempty_hull_left h (wf_cons.1 hwb).1), allTouchP_iff h hwb]
    simp only [mem_hull_run h hwb]
    constructor
    · rintro ⟨h4, h5⟩ x hx
      obtain ⟨y, z, hy, hz, h6, h7⟩ := h4 x hx
      exact h5 y z x hy hz h6 h7
    · intro hc
      refine ⟨fun x hx => ⟨x, x, hc x hx, hc x hx, le_refl _, le_refl _⟩, ?_⟩
      rintro x y z ⟨s, hs, hx⟩ ⟨t, ht, hy⟩ hxz hzy
      obtain ⟨u, hus, huk⟩ := h2 s hs
      obtain ⟨w, hwt, hwk⟩ := h2 t ht
      rcases le_total z u with h4 | h4
      · exact ⟨s, hs, h.convex _ x z u hx hus hxz h4⟩
      · rcases le_total w z with h5 | h5
        · exact ⟨t, ht, h.convex _ w z y hwt hy h5 hzy⟩
        · exact hc z (h.convex _ u z w huk hwk h4 h5)

/-- `contains(set, interval)`. -/
theorem ISet.containsSeg_spec {l : List I} (hl : WF o setSeg l) (k : I) :
    ∃ r, ISet.containsSeg o l k = some r ∧ (r = true ↔ ∀ x, o.Mem x k → Dom o setSeg l x) := by
  cases he : o.isEmpty k with
  | true =>
    refine ⟨true, by simp [ISet.containsSeg, he], ?_⟩
    rw [h.isEmpty_iff] at he
    simp only [true_iff]
    exact fun x hx => absurd hx (he x)
  | false =>
    obtain ⟨a, b, c, e, hw, hb⟩ := containsRun_spec h hl ((nonempty_iff h).2 he)
    simp only [ISet.containsSeg, he, Bool.false_eq_true, if_false, e, Option.bind_some]
    cases b with
    | nil => exact ⟨_, rfl, hb⟩
    | cons f b =>
      refine ⟨_, ?_, hb⟩
      show (if o.containsI (o.hull f (b.getLastD f)) k then allTouch o setSeg (f :: b) else some false) = _
      rw [allTouch_eq h hw]
      show (if o.containsI (o.hull f (b.getLastD f)) k then _ else _) =
        some (o.containsI (o.hull f (b.getLastD f)) k && _)
      cases o.containsI (o.hull f (b.getLastD f)) k <;> rfl

/-- `hull(container)`. -/
theorem hullC_spec {l : List S} (hl : WF o g l) (x : D) :
    o.Mem x (hullC o g l) ↔ ∃ y z, Dom o g l y ∧ Dom o g l z ∧ y ≤ x ∧ x ≤ z := by
  cases l with
  | nil => simp [hullC, h.not_mem_empty x]
  | cons f b => exact mem_hull_run h hl x

theorem dom_gaps {l : List I} (hl : WF o setSeg l) (x : D) : Dom o setSeg (ISet.gaps o l) x ↔
    ¬ Dom o setSeg l x ∧ ∃ y z, Dom o setSeg l y ∧ Dom o setSeg l z ∧ y < x ∧ x < z := by
  induction l with
  | nil => simp [ISet.gaps]
  | cons s l ih =>
    cases l with
    | nil =>
      simp only [ISet.gaps, dom_nil, false_iff, dom_cons, or_false, setSeg_key]
      rintro ⟨h1, y, z, hy, hz, h2, h3⟩
      exact h1 (h.convex _ y x z hy hz (le_of_lt h2) (le_of_lt h3))
    | cons t l =>
      have hw := wf_cons.1 hl
      have hw2 := wf_cons.1 hw.2.1
      simp only [ISet.gaps]
      rw [dom_cons, ih hw.2.1]
      simp only [setSeg_key] at hw hw2 ⊢
      rw [h.mem_innerComplement]
      obtain ⟨u, hu⟩ := hw.1
      obtain ⟨w, hwt⟩ := hw2.1
      have huw : u < w := hw.2.2 u w hu ⟨t, by simp, hwt⟩
      constructor
      · rintro (⟨_, _, ⟨h1, h2⟩ | ⟨h1, h2⟩⟩ | ⟨h1, y, z, hy, hz, h2, h3⟩)
        · refine ⟨?_, u, w, ⟨s, by simp, hu⟩, ⟨t, by simp, hwt⟩, h1 u hu, h2 w hwt⟩
          rw [dom_cons, dom_cons]
          rintro (h3 | h3 | h3)
          · exact lt_irrefl _ (h1 x h3)
          · exact lt_irrefl _ (h2 x h3)
          · exact lt_irrefl _ (lt_trans (h2 w hwt) (hw2.2.2 w x hwt h3))
        · exact absurd (lt_trans (lt_trans (h1 w hwt) (h2 u hu)) huw) (lt_irrefl _)
        · refine ⟨?_, y, z, (dom_cons _ _ _).2 (Or.inr hy), (dom_cons _ _ _).2 (Or.inr hz), h2, h3⟩
          rw [dom_cons]
          rintro (h4 | h4)
          · exact lt_irrefl _ (lt_trans (hw.2.2 x y h4 hy) h2)
          · exact h1 h4
      · rintro ⟨h1, y, z, hy, hz, h2, h3⟩
        rw [dom_cons, not_or] at h1
        rw [dom_cons] at hy hz
        have hz' : Dom o setSeg (t :: l) z := by
          rcases hz with hz | hz
          · rcases hy with hy | hy
            · exact absurd (h.convex _ y x z hy hz (le_of_lt h2) (le_of_lt h3)) h1.1
            · exact absurd (lt_trans (lt_trans (hw.2.2 z y hz hy) h2) h3) (lt_irrefl _)
          · exact hz
        by_cases hy' : ∃ v, Dom o setSeg (t :: l) v ∧ v < x
        · obtain ⟨v, hv, hvx⟩ := hy'
          exact Or.inr ⟨h1.2, v, z, hv, hz', hvx, h3⟩
        · push Not at hy'
          left
          refine ⟨⟨u, hu⟩, ⟨w, hwt⟩, Or.inl ⟨fun a ha => ?_, fun b hb => ?_⟩⟩
          · have hy2 : o.Mem y s := by
              rcases hy with hy | hy
              · exact hy
              · exact absurd h2 (not_lt.2 (hy' y hy))
            rcases lt_or_ge a x with h4 | h4
            · exact h4
            · exact absurd (h.convex _ y x a hy2 ha (le_of_lt h2) h4) h1.1
          · have hbd : Dom o setSeg (t :: l) b := ⟨t, by simp, hb⟩
            refine lt_of_le_of_ne (hy' b hbd) ?_
            rintro rfl
            exact h1.2 hbd

/-- `between(in_between, set)`. -/
theorem ISet.between_spec (st : Style) (oracle : List I → I → Nat) {l : List I}
    (hl : WF o setSeg l) : ∃ l', ISet.between o st oracle l = some l' ∧ WF o setSeg l' ∧
      (st = .joining → Joined o setSeg l') ∧
      ∀ x, Dom o setSeg l' x ↔
        ¬ Dom o setSeg l x ∧ ∃ y z, Dom o setSeg l y ∧ Dom o setSeg l z ∧ y < x ∧ x < z := by
  obtain ⟨l', e, s⟩ := ISet.addSet_spec h st oracle wf_nil (ISet.gaps o l)
  refine ⟨l', e, s.wf, fun hst => s.joined hst joined_nil, fun x => ?_⟩
  rw [s.dom, dom_gaps h hl]
  simp

/-- Inserting nodes behind all others appends them. -/
theorem fold_stdInsert {acc src : List I} (hw : WF o setSeg (acc ++ src)) :
    ISet.fold (fun l k => stdInsert o setSeg l k) acc src = some (acc ++ src) := by
  induction src generalizing acc with
  | nil => simp [ISet.fold]
  | cons k src ih =>
    have hw1 := wf_append.1 hw
    have hw2 := wf_cons.1 hw1.2.1
    have hk : o.Nonempty k := hw2.1
    obtain ⟨a, b, c, e, hl, h1, h2, h3⟩ := equalRange_spec h hw1.1 hk
    have hb : b = [] := by
      cases b with
      | nil => rfl
      | cons f b =>
        obtain ⟨x, hx, hxk⟩ := h2 f (by simp)
        exact absurd (hw1.2.2 x x ⟨f, by simp [hl], hx⟩ ⟨k, by simp, hxk⟩) (lt_irrefl _)
    have hc : c = [] := by
      cases c with
      | nil => rfl
      | cons f c =>
        obtain ⟨y, hy⟩ := hw1.1.nonempty f (by simp [hl])
        obtain ⟨x, hx⟩ := hk
        exact absurd (lt_trans (h3 f (by simp) x y hx hy) (hw1.2.2 y x ⟨f, by simp [hl], hy⟩ ⟨k, by simp, hx⟩))
          (lt_irrefl _)
    subst hb; subst hc
    simp only [List.append_nil] at hl
    subst hl
    have es : stdInsert o setSeg acc k = some (acc ++ [k]) := by
      unfold stdInsert
      rw [show (setSeg : SegOps I Unit I).key k = k from rfl, e]
      rfl
    simp only [ISet.fold, Option.bind_eq_bind]
    rw [show stdInsert o setSeg acc k = some (acc ++ [k]) from es, Option.bind_some,
      ih (by simpa using hw)]
    simp

/-- Conversion to another class of interval sets. -/
theorem ISet.assign_spec (st : Style) (oracle : List I → I → Nat) {src : List I}
    (hw : WF o setSeg src) : ∃ l', ISet.assign o st oracle src = some l' ∧ WF o setSeg l' ∧
      (∀ x, Dom o setSeg l' x ↔ Dom o setSeg src x) ∧
      (st = .joining → Joined o setSeg l') ∧ (st ≠ .joining → l' = src) := by
  cases st with
  | joining =>
    obtain ⟨l', e, s⟩ := ISet.addSet_spec h .joining oracle wf_nil src
    exact ⟨l', e, s.wf, fun x => by rw [s.dom]; simp, fun _ => s.joined rfl joined_nil, by simp⟩
  | separating =>
    exact ⟨src, by simpa [ISet.assign] using fold_stdInsert h (acc := []) hw, hw, fun _ => Iff.rfl, by simp, fun _ => rfl⟩
  | splitting =>
    exact ⟨src, by simpa [ISet.assign] using fold_stdInsert h (acc := []) hw, hw, fun _ => Iff.rfl, by simp, fun _ => rfl⟩

/-! ### join -/

section join
variable [DecidableEq V] (gl : g.Lawful)
include gl

theorem joinRun_base {fst cur : S} {rest : List S} (hw : WF o g (cur :: rest))
    (hf : o.Nonempty (g.key fst)) (hv : g.val fst = g.val cur)
    (h1 : ∀ x, o.Mem x (g.key fst) → ∃ y, o.Mem y (g.key cur) ∧ x ≤ y)
    (h2 : ∀ y, o.Mem y (g.key cur) → ∃ x, o.Mem x (g.key fst) ∧ x ≤ y) :
    WF o g (g.setKey cur (o.hull (g.key cur) (g.key fst)) :: rest) ∧
    (∀ t, o.Nonempty (g.key t) → o.Before (g.key cur) (g.key t) → joinable o g (g.setKey cur (o.hull (g.key cur) (g.key fst))) t =
      joinable o g cur t) ∧
    (∀ t, o.Nonempty (g.key t) → o.Before (g.key t) (g.key fst) → joinable o g t (g.setKey cur (o.hull (g.key cur) (g.key fst))) =
      joinable o g t fst) := by
  have hwc := wf_cons.1 hw
  refine ⟨wf_cons.2 ⟨?_, hwc.2.1, ?_⟩, ?_, ?_⟩
  · rw [gl.key_setKey]; exact nonempty_hull_left h hwc.1
  · intro x y hx hy
    rw [gl.key_setKey, h.mem_hull] at hx
    obtain ⟨a, b, _, hb, _, hxb⟩ := hx
    have hb' : ∃ c, o.Mem c (g.key cur) ∧ b ≤ c := by
      rcases hb with hb | hb
      · exact ⟨b, hb, le_refl _⟩
      · exact h1 b hb
    obtain ⟨c, hc, hbc⟩ := hb'
    exact lt_of_le_of_lt (le_trans hxb hbc) (hwc.2.2 c y hc hy)
  · intro t ht hct
    unfold joinable
    rw [gl.key_setKey, gl.val_setKey]
    congr 1
    have hbt : o.Before (o.hull (g.key cur) (g.key fst)) (g.key t) := by
      intro x y hx hy
      obtain ⟨a, b, _, hb, _, hxb⟩ := (h.mem_hull _ _ _).1 hx
      rcases hb with hb | hb
      · exact lt_of_le_of_lt hxb (hct b y hb hy)
      · obtain ⟨c, hc, hbc⟩ := h1 b hb
        exact lt_of_le_of_lt (le_trans hxb hbc) (hct c y hc hy)
    refine touches_congr h (nonempty_hull_left h hwc.1) hwc.1 ht ht hbt (fun z => ?_) (fun z => Iff.rfl)
    simp only [h.mem_hull]
    constructor
    · intro hh x hx
      exact hh x ⟨x, x, Or.inl hx, Or.inl hx, le_refl _, le_refl _⟩
    · rintro hh x ⟨a, b, _, hb, _, hxb⟩
      rcases hb with hb | hb
      · exact lt_of_le_of_lt hxb (hh b hb)
      · obtain ⟨c, hc, hbc⟩ := h1 b hb
        exact lt_of_le_of_lt (le_trans hxb hbc) (hh c hc)
  · intro t ht htf
    unfold joinable
    rw [gl.key_setKey, gl.val_setKey, hv]
    congr 1
    have hbt : o.Before (g.key t) (o.hull (g.key cur) (g.key fst)) := by
      intro x y hx hy
      obtain ⟨a, b, ha, _, hay, _⟩ := (h.mem_hull _ _ _).1 hy
      rcases ha with ha | ha
      · obtain ⟨c, hc, hca⟩ := h2 a ha
        exact lt_of_lt_of_le (htf x c hx hc) (le_trans hca hay)
      · exact lt_of_lt_of_le (htf x a hx ha) hay
    refine touches_congr h ht ht (nonempty_hull_left h hwc.1) hf hbt (fun z => Iff.rfl) (fun z => ?_)
    simp only [h.mem_hull]
    constructor
    · intro hh x hx
      exact hh x ⟨x, x, Or.inr hx, Or.inr hx, le_refl _, le_refl _⟩
    · rintro hh x ⟨a, b, ha, _, hax, _⟩
      rcases ha with ha | ha
      · obtain ⟨c, hc, hca⟩ := h2 a ha
        exact lt_of_lt_of_le (hh c hc) (le_trans hca hax)
      · exact lt_of_lt_of_le (hh a ha) hax

theorem joinRunP_spec {fst cur : S} {l : List S}
    (hw : WF o g (cur :: l)) (hf : o.Nonempty (g.key fst)) (hv : g.val fst = g.val cur)
    (h1 : ∀ x, o.Mem x (g.key fst) → ∃ y, o.Mem y (g.key cur) ∧ x ≤ y)
    (h2 : ∀ y, o.Mem y (g.key cur) → ∃ x, o.Mem x (g.key fst) ∧ x ≤ y) :
    WF o g ((joinRunP o g fst cur l).1 :: (joinRunP o g fst cur l).2) ∧
    (∀ x v, Maps o g ((joinRunP o g fst cur l).1 :: (joinRunP o g fst cur l).2) x v ↔
      (o.Mem x (o.hull (g.key cur) (g.key fst)) ∧ g.val cur = v) ∨ Maps o g l x v) ∧
    (∀ q, (joinRunP o g fst cur l).2.head? = some q → joinable o g (joinRunP o g fst cur l).1 q = false) ∧
    (∀ t, o.Nonempty (g.key t) → o.Before (g.key t) (g.key fst) →
      joinable o g t (joinRunP o g fst cur l).1 = joinable o g t fst) := by
  have hwc := wf_cons.1 hw
  have bm : ∀ (rest : List S) x v, Maps o g (g.setKey cur (o.hull (g.key cur) (g.key fst)) :: rest) x v ↔
      (o.Mem x (o.hull (g.key cur) (g.key fst)) ∧ g.val cur = v) ∨ Maps o g rest x v := by
    intro rest x v
    rw [maps_cons, gl.key_setKey, gl.val_setKey]
  induction l generalizing cur with
  | nil =>
    obtain ⟨b1, b2, b3⟩ := joinRun_base h gl hw hf hv h1 h2
    exact ⟨b1, bm [], by simp [joinRunP], b3⟩
  | cons nxt l ih =>
    have hw2 := wf_cons.1 hwc.2.1
    unfold joinRunP
    cases hj : joinable o g cur nxt with
    | false =>
      obtain ⟨b1, b2, b3⟩ := joinRun_base h gl hw hf hv h1 h2
      simp only [Bool.false_eq_true, if_false]
      refine ⟨b1, bm _, ?_, b3⟩
      intro q hq
      simp only [List.head?_cons, Option.some.injEq] at hq
      subst hq
      rw [b2 _ hw2.1 fun x y hx hy => hwc.2.2 x y hx ((dom_cons _ _ _).2 (Or.inl hy)), hj]
    | true =>
      simp only [if_true]
      have hj' := hj
      simp only [joinable, Bool.and_eq_true, decide_eq_true_eq] at hj'
      have hb : o.Before (g.key cur) (g.key nxt) :=
        fun x y hx hy => hwc.2.2 x y hx ((dom_cons _ _ _).2 (Or.inl hy))
      have n1 : ∀ x, o.Mem x (g.key fst) → ∃ y, o.Mem y (g.key nxt) ∧ x ≤ y := by
        intro x hx
        obtain ⟨y, hy, hxy⟩ := h1 x hx
        obtain ⟨z, hz⟩ := hw2.1
        exact ⟨z, hz, le_trans hxy (le_of_lt (hb y z hy hz))⟩
      have n2 : ∀ y, o.Mem y (g.key nxt) → ∃ x, o.Mem x (g.key fst) ∧ x ≤ y := by
        intro y hy
        obtain ⟨z, hz⟩ := hwc.1
        obtain ⟨x, hx, hxz⟩ := h2 z hz
        exact ⟨x, hx, le_trans hxz (le_of_lt (hb z y hz hy))⟩
      have := ih hwc.2.1 (hv.trans hj'.2) n1 n2 hw2 (by
        intro rest x v
        rw [maps_cons, gl.key_setKey, gl.val_setKey])
      · obtain ⟨r1, r2, r3, r4⟩ := this
        refine ⟨r1, fun x v => ?_, r3, r4⟩
        rw [r2, maps_cons, ← hj'.2]
        have key : o.Mem x (o.hull (g.key nxt) (g.key fst)) ↔
            o.Mem x (o.hull (g.key cur) (g.key fst)) ∨ o.Mem x (g.key nxt) := by
          constructor
          · intro hx
            rw [h.mem_hull] at hx
            obtain ⟨a, b, ha, hbb, hax, hxb⟩ := hx
            obtain ⟨z, hz⟩ := hwc.1
            have hb' : ∃ c, o.Mem c (g.key nxt) ∧ x ≤ c := by
              rcases hbb with hb1 | hb1
              · exact ⟨b, hb1, hxb⟩
              · obtain ⟨c, hc, hbc⟩ := n1 b hb1
                exact ⟨c, hc, le_trans hxb hbc⟩
            obtain ⟨c, hc, hxc⟩ := hb'
            have ha' : ∃ d, o.Mem d (g.key fst) ∧ d ≤ x := by
              rcases ha with ha | ha
              · obtain ⟨d, hd, hda⟩ := n2 a ha
                exact ⟨d, hd, le_trans hda hax⟩
              · exact ⟨a, ha, hax⟩
            obtain ⟨d, hd, hdx⟩ := ha'
            rcases le_total x z with h3 | h3
            · exact Or.inl ((h.mem_hull _ _ _).2 ⟨d, z, Or.inr hd, Or.inl hz, hdx, h3⟩)
            · have := (mem_hull_of_before h hb hj'.1 hwc.1 hw2.1 x).1
                ((h.mem_hull _ _ _).2 ⟨z, c, Or.inl hz, Or.inr hc, h3, hxc⟩)
              rcases this with h4 | h4
              · exact Or.inl ((h.mem_hull _ _ _).2 ⟨x, x, Or.inl h4, Or.inl h4, le_refl _, le_refl _⟩)
              · exact Or.inr h4
          · rintro (hx | hx)
            · rw [h.mem_hull] at hx ⊢
              obtain ⟨a, b, ha, hbb, hax, hxb⟩ := hx
              have ha' : ∃ d, o.Mem d (g.key fst) ∧ d ≤ x := by
                rcases ha with ha | ha
                · obtain ⟨d, hd, hda⟩ := h2 a ha
                  exact ⟨d, hd, le_trans hda hax⟩
                · exact ⟨a, ha, hax⟩
              obtain ⟨d, hd, hdx⟩ := ha'
              rcases hbb with hb1 | hb1
              · obtain ⟨z, hz⟩ := hw2.1
                exact ⟨d, z, Or.inr hd, Or.inl hz, hdx, le_trans hxb (le_of_lt (hb b z hb1 hz))⟩
              · exact ⟨d, b, Or.inr hd, Or.inr hb1, hdx, hxb⟩
            · exact (h.mem_hull _ _ _).2 ⟨x, x, Or.inl hx, Or.inl hx, le_refl _, le_refl _⟩
        rw [key, or_and_right, or_assoc]

/-- `join(object)`. -/
theorem joinAllP_spec {l : List S} (hw : WF o g l) : WF o g (joinAllP o g l) ∧
    (∀ x v, Maps o g (joinAllP o g l) x v ↔ Maps o g l x v) ∧ Joined o g (joinAllP o g l) ∧
    (∀ t, o.Nonempty (g.key t) → (∀ x y, o.Mem x (g.key t) → Dom o g l y → x < y) →
      ∀ q, (joinAllP o g l).head? = some q → ∃ p, l.head? = some p ∧ joinable o g t q = joinable o g t p) := by
  have comb : ∀ (n : S) (r : List S), WF o g (n :: r) → Joined o g r →
      (∀ q, r.head? = some q → joinable o g n q = false) → Joined o g (n :: r) := by
    intro n r hwr hj hq
    have := joined_append h (a := [n]) (b := r) hwr
    refine this.2 ⟨joined_singleton h (wf_cons.1 hwr).1, hj, ?_⟩
    intro s t hs ht
    simp only [List.getLast?_singleton, Option.some.injEq] at hs
    subst hs
    exact hq t ht
  have cwf : ∀ (n : S) (r r' : List S), WF o g (n :: r) → WF o g r' →
      (∀ x v, Maps o g r' x v ↔ Maps o g r x v) → WF o g (n :: r') := by
    intro n r r' hwr hw' hm
    have := wf_cons.1 hwr
    refine wf_cons.2 ⟨this.1, hw', fun x y hx hy => this.2.2 x y hx ?_⟩
    rw [dom_iff] at hy ⊢
    obtain ⟨v, hv⟩ := hy
    exact ⟨v, (hm y v).1 hv⟩
  induction hn : l.length using Nat.strongRecOn generalizing l with
  | _ n ih =>
  match l, hw, hn, ih with
  | [], hw, hn, ih => exact ⟨by simpa [joinAllP] using hw, by simp [joinAllP], by simpa [joinAllP] using joined_nil, by simp [joinAllP]⟩
  | [s], hw, hn, ih =>
    refine ⟨by simpa [joinAllP] using hw, by simp [joinAllP], ?_, by simp [joinAllP]⟩
    simpa [joinAllP] using joined_singleton h (wf_cons.1 hw).1
  | s :: nxt :: l, hw, hn, ih =>
    have hwc := wf_cons.1 hw
    have hw2 := wf_cons.1 hwc.2.1
    unfold joinAllP
    cases hj : joinable o g s nxt with
    | false =>
      simp only [Bool.false_eq_true, if_false]
      obtain ⟨i1, i2, i3, i4⟩ := ih (nxt :: l).length (by simp [← hn]) hwc.2.1 rfl
      have w := cwf s _ _ hw i1 i2
      refine ⟨w, ?_, comb s _ w i3 ?_, ?_⟩
      · intro x v; rw [maps_cons, maps_cons, i2]
      · intro q hq
        obtain ⟨p, hp, e⟩ := i4 s hwc.1 hwc.2.2 q hq
        simp only [List.head?_cons, Option.some.injEq] at hp
        subst hp
        rw [e, hj]
      · intro t ht htl q hq
        simp only [List.head?_cons, Option.some.injEq] at hq
        subst hq
        exact ⟨s, rfl, rfl⟩
    | true =>
      simp only [if_true]
      have hj' := hj
      simp only [joinable, Bool.and_eq_true, decide_eq_true_eq] at hj'
      have hb : o.Before (g.key s) (g.key nxt) :=
        fun x y hx hy => hwc.2.2 x y hx ((dom_cons _ _ _).2 (Or.inl hy))
      obtain ⟨r1, r2, r3, r4⟩ := joinRunP_spec h gl hwc.2.1 hwc.1 hj'.2
        (fun x hx => by obtain ⟨z, hz⟩ := hw2.1; exact ⟨z, hz, le_of_lt (hb x z hx hz)⟩)
        (fun y hy => by obtain ⟨z, hz⟩ := hwc.1; exact ⟨z, hz, le_of_lt (hb z y hz hy)⟩)
      have hlen := joinRunP_length o g s nxt l
      obtain ⟨i1, i2, i3, i4⟩ := ih (joinRunP o g s nxt l).2.length (by simp [← hn]; omega)
        (wf_cons.1 r1).2.1 rfl
      have w := cwf _ _ _ r1 i1 i2
      refine ⟨w, ?_, comb _ _ w i3 ?_, ?_⟩
      · intro x v
        rw [maps_cons, i2, ← maps_cons, r2, maps_cons, maps_cons]
        have key : o.Mem x (o.hull (g.key nxt) (g.key s)) ↔ o.Mem x (g.key s) ∨ o.Mem x (g.key nxt) := by
          rw [← mem_hull_of_before h hb hj'.1 hwc.1 hw2.1, h.mem_hull, h.mem_hull]
          simp only [or_comm]
        rw [key, or_and_right, hj'.2, or_assoc]
      · intro q hq
        obtain ⟨p, hp, e⟩ := i4 _ (wf_cons.1 r1).1 (wf_cons.1 r1).2.2 q hq
        rw [e, r3 p hp]
      · intro t ht htl q hq
        simp only [List.head?_cons, Option.some.injEq] at hq
        subst hq
        exact ⟨s, rfl, r4 t ht fun x y hx hy => htl x y hx ((dom_cons _ _ _).2 (Or.inl hy))⟩

omit gl in
theorem joinGo_eq {cur : S} {l : List S} (hw : WF o g (cur :: l)) :
    joinGo o g none cur l = some (joinAllP o g (cur :: l)) ∧
    ∀ fst, joinGo o g (some fst) cur l =
      some ((joinRunP o g fst cur l).1 :: joinAllP o g (joinRunP o g fst cur l).2) := by
  induction l generalizing cur with
  | nil => exact ⟨by simp [joinGo, joinAllP], fun fst => by simp [joinGo, joinRunP, joinAllP]⟩
  | cons nxt l ih =>
    have hwc := wf_cons.1 hw
    have hw2 := wf_cons.1 hwc.2.1
    have hj := joinableC_before h hwc.1 hw2.1
      fun x y hx hy => hwc.2.2 x y hx ((dom_cons _ _ _).2 (Or.inl hy))
    obtain ⟨i1, i2⟩ := ih hwc.2.1
    constructor
    · unfold joinGo joinAllP
      rw [hj]
      cases joinable o g cur nxt <;> simp [i1, i2]
    · intro fst
      unfold joinGo joinRunP
      rw [hj]
      cases joinable o g cur nxt <;> simp [i1, i2]

omit gl in
theorem joinAll_eq {l : List S} (hw : WF o g l) : joinAll o g l = some (joinAllP o g l) := by
  cases l with
  | nil => simp [joinAll, joinAllP]
  | cons s l => exact (joinGo_eq h hw).1

/-- `join(object)` does not fail. -/
theorem joinAll_spec {l : List S} (hw : WF o g l) : ∃ l', joinAll o g l = some l' ∧ WF o g l' ∧
    (∀ x v, Maps o g l' x v ↔ Maps o g l x v) ∧ Joined o g l' := by
  obtain ⟨h1, h2, h3, _⟩ := joinAllP_spec h gl hw
  exact ⟨_, joinAll_eq h hw, h1, h2, h3⟩

end join

/-! ### Equality -/

section eq
variable [DecidableEq V]

theorem eqC_forall2 {l r : List S} (hl : WF o g l) (hr : WF o g r) : eqC o g l r = true ↔
    List.Forall₂ (fun s t => (∀ x, o.Mem x (g.key s) ↔ o.Mem x (g.key t)) ∧ g.val s = g.val t) l r := by
  induction l generalizing r with
  | nil => cases r <;> simp [eqC]
  | cons s l ih =>
    cases r with
    | nil => simp [eqC]
    | cons t r =>
      have hl' := wf_cons.1 hl
      have hr' := wf_cons.1 hr
      simp only [eqC, Bool.and_eq_true, decide_eq_true_eq, List.forall₂_cons, ih hl'.2.1 hr'.2.1,
        h.eq_iff _ _ hl'.1 hr'.1]

/-- `operator ==` compares the segmentation and the associations. -/
theorem eqC_spec {l r : List S} (hl : WF o g l) (hr : WF o g r) : eqC o g l r = true ↔
    (∀ x y, Same o g l x y ↔ Same o g r x y) ∧ (∀ x v, Maps o g l x v ↔ Maps o g r x v) := by
  rw [eqC_forall2 h hl hr]
  constructor
  · intro hf
    clear hl hr
    induction hf with
    | nil => simp
    | cons hst _ ih =>
      obtain ⟨h1, h2⟩ := hst
      refine ⟨fun x y => ?_, fun x v => ?_⟩
      · rw [same_cons, same_cons, h1, h1, ih.1]
      · rw [maps_cons, maps_cons, h1, h2, ih.2]
  · rintro ⟨h1, h2⟩
    exact forall2_of_same_maps hl hr h1 h2

/-- Joined containers are equal if they have the same associations. -/
theorem eqC_joined {l r : List S} (hl : WF o g l) (hr : WF o g r) (jl : Joined o g l)
    (jr : Joined o g r) : eqC o g l r = true ↔ ∀ x v, Maps o g l x v ↔ Maps o g r x v := by
  rw [eqC_spec h hl hr]
  refine ⟨fun hh => hh.2, fun hm => ⟨fun x y => ?_, hm⟩⟩
  have : ∀ x y, x ≤ y → (Same o g l x y ↔ Same o g r x y) := by
    intro x y hxy
    rw [joined_same_iff h hl jl hxy, joined_same_iff h hr jr hxy]
    simp only [hm]
  rcases le_total x y with hxy | hxy
  · exact this x y hxy
  · have := this y x hxy
    exact ⟨fun hs => (this.1 hs.symm).symm, fun hs => (this.2 hs.symm).symm⟩

end eq

end
end ICL
