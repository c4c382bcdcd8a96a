import Verif.Model.Seg
import Verif.Cuts

/-!
# Lemmas on segment sequences
-/

set_option linter.unusedSectionVars false
set_option linter.unusedSimpArgs false
set_option linter.unusedVariables false

namespace ICL

/-- `key`/`val` after `setKey`. -/
structure SegOps.Lawful {I V S : Type} (g : SegOps I V S) : Prop where
  key_setKey : ∀ s k, g.key (g.setKey s k) = k
  val_setKey : ∀ s k, g.val (g.setKey s k) = g.val s

theorem setSeg_lawful {I : Type} : (setSeg : SegOps I Unit I).Lawful := ⟨fun _ _ => rfl, fun _ _ => rfl⟩
theorem mapSeg_lawful {I V : Type} : (mapSeg : SegOps I V (I × V)).Lawful :=
  ⟨fun _ _ => rfl, fun _ _ => rfl⟩

@[simp] theorem setSeg_key {I : Type} (i : I) : (setSeg : SegOps I Unit I).key i = i := rfl
@[simp] theorem mapSeg_key {I V : Type} (s : I × V) : (mapSeg : SegOps I V _).key s = s.1 := rfl
@[simp] theorem mapSeg_val {I V : Type} (s : I × V) : (mapSeg : SegOps I V _).val s = s.2 := rfl

variable {D I V S : Type} [LinearOrder D] (o : IntervalOps D I) (g : SegOps I V S)

theorem mem_takeWhile_prop {α : Type} {p : α → Bool} {l : List α} {a : α}
    (ha : a ∈ l.takeWhile p) : p a = true := by
  induction l with
  | nil => simp at ha
  | cons b l ih =>
    rw [List.takeWhile_cons] at ha
    split at ha
    · rcases List.mem_cons.1 ha with rfl | ha
      · assumption
      · exact ih ha
    · simp at ha

/-- `x` is an element of some segment of `l`. -/
def Dom (l : List S) (x : D) : Prop := ∃ s ∈ l, o.Mem x (g.key s)

/-- `x` is an element of a segment of `l` with value `v`. -/
def Maps (l : List S) (x : D) (v : V) : Prop := ∃ s ∈ l, o.Mem x (g.key s) ∧ g.val s = v

/-- All segments are non-empty, and sorted without overlap. -/
structure WF (l : List S) : Prop where
  nonempty : ∀ s ∈ l, o.Nonempty (g.key s)
  sorted : l.Pairwise fun s t => o.Before (g.key s) (g.key t)

/-- No two segments with equal values touch.  (`touches` is only used, and only right, for intervals in their
order.) -/
def Joined [DecidableEq V] (l : List S) : Prop :=
  ∀ s ∈ l, ∀ t ∈ l, o.Before (g.key s) (g.key t) → joinable o g s t = false

variable {o g}

section basic

theorem joined_of [DecidableEq V] {l : List S} (hl : ∀ s ∈ l, ∀ t ∈ l, joinable o g s t = false) :
    Joined o g l := fun s hs t ht _ => hl s hs t ht

@[simp] theorem dom_nil (x : D) : Dom o g [] x ↔ False := by simp [Dom]
@[simp] theorem dom_cons (s : S) (l : List S) (x : D) :
    Dom o g (s :: l) x ↔ o.Mem x (g.key s) ∨ Dom o g l x := by simp [Dom]
@[simp] theorem dom_append (a b : List S) (x : D) :
    Dom o g (a ++ b) x ↔ Dom o g a x ∨ Dom o g b x := by
  simp only [Dom, List.mem_append, or_and_right, exists_or]
@[simp] theorem dom_reverse (a : List S) (x : D) : Dom o g a.reverse x ↔ Dom o g a x := by
  simp [Dom]

@[simp] theorem maps_nil (x : D) (v : V) : Maps o g [] x v ↔ False := by simp [Maps]
@[simp] theorem maps_cons (s : S) (l : List S) (x : D) (v : V) :
    Maps o g (s :: l) x v ↔ (o.Mem x (g.key s) ∧ g.val s = v) ∨ Maps o g l x v := by simp [Maps]
@[simp] theorem maps_append (a b : List S) (x : D) (v : V) :
    Maps o g (a ++ b) x v ↔ Maps o g a x v ∨ Maps o g b x v := by
  simp only [Maps, List.mem_append, or_and_right, exists_or]
@[simp] theorem maps_reverse (a : List S) (x : D) (v : V) :
    Maps o g a.reverse x v ↔ Maps o g a x v := by simp [Maps]

theorem Maps.dom {l : List S} {x : D} {v : V} (h : Maps o g l x v) : Dom o g l x :=
  let ⟨s, h1, h2, _⟩ := h; ⟨s, h1, h2⟩
theorem dom_iff {l : List S} {x : D} : Dom o g l x ↔ ∃ v, Maps o g l x v :=
  ⟨fun ⟨s, h1, h2⟩ => ⟨_, s, h1, h2, rfl⟩, fun ⟨_, h⟩ => h.dom⟩

theorem Dom.mono {a b : List S} {x : D} (h : Dom o g a x) (hs : ∀ s ∈ a, s ∈ b) : Dom o g b x :=
  let ⟨s, h1, h2⟩ := h; ⟨s, hs s h1, h2⟩

theorem wf_nil : WF o g [] := ⟨by simp, List.Pairwise.nil⟩

theorem wf_append {a b : List S} : WF o g (a ++ b) ↔
    WF o g a ∧ WF o g b ∧ ∀ x y, Dom o g a x → Dom o g b y → x < y := by
  constructor
  · rintro ⟨hn, hs⟩
    rw [List.pairwise_append] at hs
    refine ⟨⟨fun s h => hn s (by simp [h]), hs.1⟩, ⟨fun s h => hn s (by simp [h]), hs.2.1⟩, ?_⟩
    rintro x y ⟨s, h1, h2⟩ ⟨t, h3, h4⟩
    exact hs.2.2 s h1 t h3 x y h2 h4
  · rintro ⟨ha, hb, hab⟩
    refine ⟨?_, ?_⟩
    · intro s hs
      rw [List.mem_append] at hs
      exact hs.elim (ha.nonempty s) (hb.nonempty s)
    · rw [List.pairwise_append]
      refine ⟨ha.sorted, hb.sorted, ?_⟩
      intro s hs t ht x y hx hy
      exact hab x y ⟨s, hs, hx⟩ ⟨t, ht, hy⟩

theorem wf_cons {s : S} {l : List S} : WF o g (s :: l) ↔
    o.Nonempty (g.key s) ∧ WF o g l ∧ ∀ x y, o.Mem x (g.key s) → Dom o g l y → x < y := by
  constructor
  · rintro ⟨hn, hs⟩
    rw [List.pairwise_cons] at hs
    refine ⟨hn s (by simp), ⟨fun t h => hn t (by simp [h]), hs.2⟩, ?_⟩
    rintro x y hx ⟨t, h1, h2⟩
    exact hs.1 t h1 x y hx h2
  · rintro ⟨h1, h2, h3⟩
    refine ⟨?_, ?_⟩
    · intro t ht
      rcases List.mem_cons.1 ht with rfl | ht
      · exact h1
      · exact h2.nonempty t ht
    · rw [List.pairwise_cons]
      exact ⟨fun t ht x y hx hy => h3 x y hx ⟨t, ht, hy⟩, h2.sorted⟩

theorem wf_singleton {s : S} : WF o g [s] ↔ o.Nonempty (g.key s) := by
  simp [wf_cons, wf_nil]

/-- A node belongs to at most one segment of a well-formed sequence. -/
theorem WF.unique {l : List S} (hl : WF o g l) {s t : S} (hs : s ∈ l) (ht : t ∈ l) {x : D}
    (h1 : o.Mem x (g.key s)) (h2 : o.Mem x (g.key t)) : s = t := by
  induction l with
  | nil => cases hs
  | cons a l ih =>
    rw [wf_cons] at hl
    rcases List.mem_cons.1 hs with rfl | hs'
    · rcases List.mem_cons.1 ht with rfl | ht'
      · rfl
      · exact absurd (hl.2.2 x x h1 ⟨t, ht', h2⟩) (lt_irrefl _)
    · rcases List.mem_cons.1 ht with rfl | ht'
      · exact absurd (hl.2.2 x x h2 ⟨s, hs', h1⟩) (lt_irrefl _)
      · exact ih hl.2.1 hs' ht'

theorem WF.maps_unique {l : List S} (hl : WF o g l) {x : D} {v w : V} (h1 : Maps o g l x v)
    (h2 : Maps o g l x w) : v = w := by
  obtain ⟨s, hs, hx, rfl⟩ := h1
  obtain ⟨t, ht, hy, rfl⟩ := h2
  rw [hl.unique hs ht hx hy]

end basic

section lawful
variable (h : o.Lawful)
include h

theorem nonempty_iff {i : I} : o.Nonempty i ↔ o.isEmpty i = false := by
  rw [← Bool.not_eq_true, h.isEmpty_iff]; simp [IntervalOps.Nonempty]

theorem isEmpty_false {i : I} (hi : o.Nonempty i) : o.isEmpty i = false := (nonempty_iff h).1 hi

theorem cmpOk_of {l : List S} {k : I} (hl : ∀ s ∈ l, o.Nonempty (g.key s)) (hk : o.Nonempty k) :
    cmpOk o g l k = true := by
  unfold cmpOk
  rw [isEmpty_false h hk]
  simp only [Bool.not_false, Bool.true_and, Bool.or_eq_true, List.all_eq_true, Bool.not_eq_true']
  right
  intro s hs
  exact isEmpty_false h (hl s hs)

/-- Overlap of two non-empty intervals, in terms of the comparator. -/
theorem overlap_of_not_less {i j : I} (hi : o.Nonempty i) (hj : o.Nonempty j)
    (h1 : o.neLess i j = false) (h2 : o.neLess j i = false) : ∃ x, o.Mem x i ∧ o.Mem x j := by
  have n1 : ¬ o.Before i j := by rw [← h.neLess_iff i j hi hj]; simp [h1]
  have n2 : ¬ o.Before j i := by rw [← h.neLess_iff j i hj hi]; simp [h2]
  simp only [IntervalOps.Before] at n1 n2
  push Not at n1 n2
  obtain ⟨a, b, ha, hb, hab⟩ := n1
  obtain ⟨c, d, hc, hd, hcd⟩ := n2
  -- b ≤ a with a ∈ i, b ∈ j ; d ≤ c with c ∈ j, d ∈ i
  rcases le_total b d with h3 | h3
  · -- b ≤ d ≤ c, b c ∈ j
    exact ⟨d, hd, h.convex j b d c hb hc h3 hcd⟩
  · -- d ≤ b ≤ a
    exact ⟨b, h.convex i d b a hd ha h3 hab, hb⟩

/-- `equal_range` on a well-formed container with a non-empty key. -/
theorem equalRange_spec {l : List S} {k : I} (hl : WF o g l) (hk : o.Nonempty k) :
    ∃ a b c, equalRange o g l k = some (a, b, c) ∧ l = a ++ b ++ c ∧
      (∀ s ∈ a, o.Before (g.key s) k) ∧
      (∀ s ∈ b, ∃ x, o.Mem x (g.key s) ∧ o.Mem x k) ∧
      (∀ s ∈ c, o.Before k (g.key s)) := by
  refine ⟨_, _, _, by rw [equalRange, if_pos (cmpOk_of h hl.nonempty hk)], ?_, ?_, ?_, ?_⟩
  · simp
  · intro s hs
    have := mem_takeWhile_prop hs
    rwa [h.neLess_iff _ _ (hl.nonempty s (List.takeWhile_subset _ hs)) hk] at this
  · -- nodes between lower_bound and upper_bound
    generalize hm : l.dropWhile (fun s => o.neLess (g.key s) k) = m
    have hml : ∀ s ∈ m, s ∈ l := by
      intro s hs; rw [← hm] at hs; exact List.dropWhile_subset _ hs
    have hsuf : m <:+ l := by rw [← hm]; exact List.dropWhile_suffix _
    have hmw : WF o g m := ⟨fun s hs => hl.nonempty s (hml s hs), hl.sorted.sublist hsuf.sublist⟩
    intro s hs
    have h1 := mem_takeWhile_prop hs
    have hsm : s ∈ m := List.takeWhile_subset _ hs
    simp only [Bool.not_eq_true'] at h1
    refine overlap_of_not_less h (hmw.nonempty s hsm) hk ?_ h1
    -- the head of m is not before k, hence none of m is
    cases m with
    | nil => cases hsm
    | cons f m =>
      have hf : o.neLess (g.key f) k = false := by
        have := List.head?_dropWhile_not (fun s => o.neLess (g.key s) k) l
        rw [hm] at this
        simpa using this
      rcases List.mem_cons.1 hsm with rfl | hsm'
      · exact hf
      · rw [← Bool.not_eq_true]
        intro hc
        rw [h.neLess_iff _ _ (hmw.nonempty s hsm) hk] at hc
        rw [← Bool.not_eq_true, h.neLess_iff _ _ (hmw.nonempty f (by simp)) hk] at hf
        apply hf
        intro x y hx hy
        rw [wf_cons] at hmw
        obtain ⟨z, hz⟩ := hmw.2.1.nonempty s hsm'
        exact lt_trans (hmw.2.2 x z hx ⟨s, hsm', hz⟩) (hc z y hz hy)
  · generalize hm : l.dropWhile (fun s => o.neLess (g.key s) k) = m
    have hsuf : m <:+ l := by rw [← hm]; exact List.dropWhile_suffix _
    have hmw : WF o g m := ⟨fun s hs => hl.nonempty s (hsuf.subset hs),
      hl.sorted.sublist hsuf.sublist⟩
    generalize hc : m.dropWhile (fun s => !o.neLess k (g.key s)) = c
    have hsuf' : c <:+ m := by rw [← hc]; exact List.dropWhile_suffix _
    have hcw : WF o g c := ⟨fun s hs => hmw.nonempty s (hsuf'.subset hs),
      hmw.sorted.sublist hsuf'.sublist⟩
    intro s hs
    cases c with
    | nil => cases hs
    | cons f c =>
      have hf : o.neLess k (g.key f) = true := by
        have := List.head?_dropWhile_not (fun s => !o.neLess k (g.key s)) m
        rw [hc] at this
        simpa using this
      rw [h.neLess_iff _ _ hk (hcw.nonempty f (by simp))] at hf
      rcases List.mem_cons.1 hs with rfl | hs'
      · exact hf
      · rw [wf_cons] at hcw
        intro x y hx hy
        obtain ⟨z, hz⟩ := hcw.1
        exact lt_trans (hf x z hx hz) (hcw.2.2 z y hz ⟨s, hs', hy⟩)

theorem insertAt_eq {left : List S} {s : S} {right : List S}
    (hl : ∀ p ∈ left, o.Nonempty (g.key p)) (hr : ∀ p ∈ right, o.Nonempty (g.key p))
    (hs : o.Nonempty (g.key s))
    (h1 : ∀ x y, Dom o g left x → o.Mem y (g.key s) → x < y)
    (h2 : ∀ x y, o.Mem x (g.key s) → Dom o g right y → x < y) :
    insertAt o g left s right = some ⟨left, s, right⟩ := by
  unfold insertAt
  rw [if_pos]
  simp only [Bool.and_eq_true, List.all_eq_true]
  refine ⟨⟨⟨cmpOk_of h hl hs, cmpOk_of h hr hs⟩, ?_⟩, ?_⟩
  · intro p hp
    rw [h.neLess_iff _ _ (hl p hp) hs]
    intro x y hx hy; exact h1 x y ⟨p, hp, hx⟩ hy
  · intro q hq
    rw [h.neLess_iff _ _ hs (hr q hq)]
    intro x y hx hy; exact h2 x y hx ⟨q, hq, hy⟩

theorem mem_hull_of_before {i j : I} (hb : o.Before i j) (hij : o.touches i j = true) (hi : o.Nonempty i)
    (hj : o.Nonempty j) (x : D) : o.Mem x (o.hull i j) ↔ o.Mem x i ∨ o.Mem x j := by
  rw [h.mem_hull]
  have hn := (h.touches_iff i j hi hj hb).1 hij
  constructor
  · rintro ⟨a, b, ha, hb', hax, hxb⟩
    by_contra hc
    push Not at hc
    apply hn
    refine ⟨x, ?_, ?_⟩
    · intro y hy
      by_contra hyx
      rcases ha with ha | ha
      · exact hc.1 (h.convex i a x y ha hy hax (not_lt.1 hyx))
      · have := hb y a hy ha
        order
    · intro y hy
      by_contra hyx
      rcases hb' with hb' | hb'
      · have := hb b y hb' hy
        order
      · exact hc.2 (h.convex j y x b hy hb' (not_lt.1 hyx) hxb)
  · rintro (hx | hx)
    · exact ⟨x, x, Or.inl hx, Or.inl hx, le_refl _, le_refl _⟩
    · exact ⟨x, x, Or.inr hx, Or.inr hx, le_refl _, le_refl _⟩

variable [DecidableEq V]

theorem touches_congr {i i' j j' : I} (hi : o.Nonempty i) (hi' : o.Nonempty i') (hj : o.Nonempty j)
    (hj' : o.Nonempty j') (hbf : o.Before i j)
    (hu : ∀ z, (∀ x, o.Mem x i → x < z) ↔ (∀ x, o.Mem x i' → x < z))
    (hl : ∀ z, (∀ x, o.Mem x j → z < x) ↔ (∀ x, o.Mem x j' → z < x)) :
    o.touches i j = o.touches i' j' := by
  have hbf' : o.Before i' j' := fun x y hx hy =>
    (hu y).1 (fun a ha => (hl a).1 (fun b hb' => hbf a b ha hb') y hy) x hx
  rw [Bool.eq_iff_iff, h.touches_iff i j hi hj hbf, h.touches_iff i' j' hi' hj' hbf']
  simp only [hu, hl]

theorem nonempty_hull_left {i j : I} (hi : o.Nonempty i) : o.Nonempty (o.hull i j) := by
  obtain ⟨x, hx⟩ := hi
  exact ⟨x, (h.mem_hull i j x).2 ⟨x, x, Or.inl hx, Or.inl hx, le_refl _, le_refl _⟩⟩

theorem touches_hull_left {i j t : I} (hb : o.Before i j) (hi : o.Nonempty i) (hj : o.Nonempty j)
    (ht : o.Nonempty t) (hjt : o.Before j t) : o.touches (o.hull i j) t = o.touches j t := by
  symm
  apply touches_congr h hj (nonempty_hull_left h hi) ht ht hjt
  · intro z
    rw [iff_comm]
    constructor
    · intro hz x hx
      exact hz x ((h.mem_hull _ _ _).2 ⟨x, x, Or.inr hx, Or.inr hx, le_refl _, le_refl _⟩)
    · intro hz x hx
      obtain ⟨a, b, _, hb', _, hxb⟩ := (h.mem_hull _ _ _).1 hx
      rcases hb' with hb' | hb'
      · obtain ⟨y, hy⟩ := hj
        have h1 := hb b y hb' hy
        have h2 := hz y hy
        order
      · have := hz b hb'
        order
  · intro z; rfl

theorem touches_hull_right {i j t : I} (hb : o.Before i j) (hi : o.Nonempty i) (hj : o.Nonempty j)
    (ht : o.Nonempty t) (hti : o.Before t i) : o.touches t (o.hull i j) = o.touches t i := by
  symm
  apply touches_congr h ht ht hi (nonempty_hull_left h hi) hti
  · intro z; rfl
  · intro z
    rw [iff_comm]
    constructor
    · intro hz x hx
      exact hz x ((h.mem_hull _ _ _).2 ⟨x, x, Or.inl hx, Or.inl hx, le_refl _, le_refl _⟩)
    · intro hz x hx
      obtain ⟨a, b, ha, _, hax, _⟩ := (h.mem_hull _ _ _).1 hx
      rcases ha with ha | ha
      · have := hz a ha
        order
      · obtain ⟨y, hy⟩ := hi
        have h1 := hb y a hy ha
        have h2 := hz y hy
        order

theorem not_touches_of_between {i j k : I} (hi : o.Nonempty i) (hj : o.Nonempty j)
    (hk : o.Nonempty k) (h1 : o.Before i j) (h2 : o.Before j k) : o.touches i k = false := by
  obtain ⟨z, hz⟩ := hj
  rw [← Bool.not_eq_true, h.touches_iff i k hi hk fun x y hx hy => lt_trans (h1 x z hx hz) (h2 z y hz hy)]
  intro hn
  exact hn ⟨z, fun x hx => h1 x z hx hz, fun y hy => h2 z y hz hy⟩

theorem before_asymm {i j : I} (hi : o.Nonempty i) (hj : o.Nonempty j) (h1 : o.Before i j) : ¬ o.Before j i := by
  intro hb
  obtain ⟨x, hx⟩ := hi
  obtain ⟨y, hy⟩ := hj
  exact absurd (h1 x y hx hy) (not_lt.2 (le_of_lt (hb y x hy hx)))

theorem joinable_false_of_touches {s t : S} (ht : o.touches (g.key s) (g.key t) = false) :
    joinable o g s t = false := by simp [joinable, ht]

/-- `joinable` does not fail for neighbours. -/
theorem joinableC_before {s t : S} (hs : o.Nonempty (g.key s)) (ht : o.Nonempty (g.key t))
    (hb : o.Before (g.key s) (g.key t)) : joinableC o g s t = some (joinable o g s t) := by
  unfold joinableC joinable
  rw [h.touchesC_before _ _ hs ht hb]
  rfl

end lawful

section joined
variable [DecidableEq V]

theorem Joined.mono {a b : List S} (hb : Joined o g b) (hs : ∀ s ∈ a, s ∈ b) : Joined o g a :=
  fun s h1 t h2 => hb s (hs s h1) t (hs t h2)

theorem joined_reverse {a : List S} : Joined o g a.reverse ↔ Joined o g a := by
  simp [Joined]

theorem joined_nil : Joined o g [] := by simp [Joined]

variable (h : o.Lawful)
include h

theorem joined_singleton {s : S} (hs : o.Nonempty (g.key s)) : Joined o g [s] := by
  intro a ha b hb hab
  simp only [List.mem_singleton] at ha hb
  subst ha; subst hb
  exact absurd hab (before_asymm h hs hs hab)

/-- Joinedness of a concatenation only depends on the two nodes that meet. -/
theorem joined_append {a b : List S} (hw : WF o g (a ++ b)) :
    Joined o g (a ++ b) ↔ Joined o g a ∧ Joined o g b ∧
      ∀ s t, a.getLast? = some s → b.head? = some t → joinable o g s t = false := by
  constructor
  · intro hj
    refine ⟨hj.mono (by simp +contextual), hj.mono (by simp +contextual), ?_⟩
    intro s t hs ht
    exact hj s (by simp [List.mem_of_getLast? hs]) t (by simp [List.mem_of_head? ht])
      fun x y hx hy => (wf_append.1 hw).2.2 x y ⟨s, List.mem_of_getLast? hs, hx⟩ ⟨t, List.mem_of_head? ht, hy⟩
  · rintro ⟨ha, hb, hab⟩
    have hw' := wf_append.1 hw
    have hba : ∀ s ∈ a, ∀ t ∈ b, o.Before (g.key s) (g.key t) :=
      fun s hs t ht x y hx hy => hw'.2.2 x y ⟨s, hs, hx⟩ ⟨t, ht, hy⟩
    intro s hs t ht hst
    rcases List.mem_append.1 hs with hs | hs <;> rcases List.mem_append.1 ht with ht | ht
    · exact ha s hs t ht hst
    · -- s in a, t in b
      obtain ⟨l, hl⟩ : ∃ l, a.getLast? = some l := by
        cases a with
        | nil => cases hs
        | cons x xs => exact ⟨_, List.getLast?_eq_some_getLast (by simp)⟩
      obtain ⟨f, hf⟩ : ∃ f, b.head? = some f := by
        cases b with
        | nil => cases ht
        | cons x xs => exact ⟨x, rfl⟩
      have hla := List.mem_of_getLast? hl
      have hfb := List.mem_of_head? hf
      have ns := hw'.1.nonempty s hs
      have nt := hw'.2.1.nonempty t ht
      have nl := hw'.1.nonempty l hla
      have nf := hw'.2.1.nonempty f hfb
      by_cases h1 : s = l
      · subst h1
        by_cases h2 : t = f
        · subst h2; exact hab s t hl hf
        · apply joinable_false_of_touches h
          refine not_touches_of_between h ns nf nt (hba s hs f hfb) ?_
          -- f is the head of b, t another member
          cases b with
          | nil => cases ht
          | cons x xs =>
            simp only [List.head?_cons, Option.some.injEq] at hf
            subst hf
            rcases List.mem_cons.1 ht with rfl | ht
            · exact absurd rfl h2
            · exact (List.pairwise_cons.1 hw'.2.1.sorted).1 t ht
      · apply joinable_false_of_touches h
        refine not_touches_of_between h ns nl nt ?_ (hba l hla t ht)
        have ha' : a = a.dropLast ++ [l] := by
          rw [List.getLast?_eq_some_iff] at hl
          obtain ⟨ys, rfl⟩ := hl
          simp
        have hs' : s ∈ a.dropLast := by
          rw [ha'] at hs
          rcases List.mem_append.1 hs with h3 | h3
          · exact h3
          · simp at h3; exact absurd h3 h1
        have := hw'.1.sorted
        rw [ha', List.pairwise_append] at this
        exact this.2.2 s hs' l (by simp)
    · exact absurd hst (before_asymm h (hw'.1.nonempty t ht) (hw'.2.1.nonempty s hs) (hba t ht s hs))
    · exact hb s hs t ht hst

end joined

section join
variable [DecidableEq V] (h : o.Lawful) (gl : g.Lawful)
include h gl

/-- Specification of the node replacing two joinable neighbours. -/
theorem joinNodes_spec {a b : S} (ha : o.Nonempty (g.key a)) (hb : o.Nonempty (g.key b))
    (hbf : o.Before (g.key a) (g.key b)) (hj : joinable o g a b = true) :
    ∃ j, joinNodes o g a b = some j ∧ g.key j = o.hull (g.key a) (g.key b) ∧ g.val j = g.val a ∧
      g.val a = g.val b ∧ (∀ x, o.Mem x (g.key j) ↔ o.Mem x (g.key a) ∨ o.Mem x (g.key b)) := by
  have hj' := hj
  simp only [joinable, Bool.and_eq_true, decide_eq_true_eq] at hj'
  refine ⟨g.setKey a (o.hull (g.key a) (g.key b)), ?_, gl.key_setKey _ _, gl.val_setKey _ _, hj'.2,
    ?_⟩
  · unfold joinNodes
    rw [if_pos]
    simp only [Bool.and_eq_true]
    exact ⟨(h.exclusiveLess_iff _ _).2 hbf, hj⟩
  · intro x
    rw [gl.key_setKey]
    exact mem_hull_of_before h hbf hj'.1 ha hb x

/-- `join_left`. -/
theorem joinLeft_spec {z : Zip S} (hw : WF o g z.toList) :
    ∃ z', joinLeft o g z = some z' ∧ WF o g z'.toList ∧
      (∀ x v, Maps o g z'.toList x v ↔ Maps o g z.toList x v) ∧
      z'.right = z.right ∧ g.val z'.cur = g.val z.cur ∧
      (∀ t, o.Nonempty (g.key t) → o.Before (g.key z.cur) (g.key t) →
        joinable o g z'.cur t = joinable o g z.cur t) ∧
      (Joined o g z.left → Joined o g (z'.cur :: z'.left)) := by
  obtain ⟨left, cur, right⟩ := z
  cases left with
  | nil =>
    refine ⟨_, rfl, hw, fun _ _ => Iff.rfl, rfl, rfl, fun _ _ _ => rfl, fun _ => ?_⟩
    exact joined_singleton h (hw.nonempty cur (by simp [Zip.toList]))
  | cons p left =>
    simp only [Zip.toList, List.reverse_cons, List.append_assoc, List.cons_append,
      List.nil_append] at hw ⊢
    have hw1 := wf_append.1 hw
    have hw2 := wf_cons.1 hw1.2.1
    have hw3 := wf_cons.1 hw2.2.1
    have hjc := joinableC_before h hw2.1 hw3.1
      (fun x y hx hy => hw2.2.2 x y hx ((dom_cons _ _ _).2 (Or.inl hy)))
    cases hj : joinable o g p cur with
    | false =>
      refine ⟨⟨p :: left, cur, right⟩, by simp [joinLeft, hjc, hj], by simpa using hw, by simp,
        rfl, rfl, fun _ _ _ => rfl, ?_⟩
      intro hjl
      have : Joined o g ((p :: left).reverse ++ [cur]) := by
        rw [joined_append h]
        · refine ⟨joined_reverse.2 hjl, joined_singleton h hw3.1, ?_⟩
          intro s t hs ht
          simp only [List.reverse_cons, List.getLast?_append, List.getLast?_singleton,
            Option.some_or, Option.some.injEq, List.head?_cons] at hs ht
          subst hs; subst ht; exact hj
        · have : WF o g ((left.reverse ++ p :: [cur]) ++ right) := by simpa using hw
          simpa using (wf_append.1 this).1
      exact this.mono (by simp [or_comm, or_assoc])
    | true =>
      have hj6 : o.Before (g.key p) (g.key cur) := fun x y hx hy => hw2.2.2 x y hx (by simp [hy])
      obtain ⟨j, hj1, hj2, hj3, hj4, hj5⟩ := joinNodes_spec h gl hw2.1 hw3.1 hj6 hj
      refine ⟨⟨left, j, right⟩, by simp [joinLeft, hjc, hj, hj1], ?_, ?_, rfl, ?_, ?_, ?_⟩
      · rw [wf_append]
        refine ⟨hw1.1, ?_, ?_⟩
        · rw [wf_cons]
          refine ⟨?_, hw3.2.1, ?_⟩
          · obtain ⟨x, hx⟩ := hw2.1
            exact ⟨x, (hj5 x).2 (Or.inl hx)⟩
          · intro x y hx hy
            rcases (hj5 x).1 hx with hx | hx
            · exact hw2.2.2 x y hx (by simp [hy])
            · exact hw3.2.2 x y hx hy
        · intro x y hx hy
          apply hw1.2.2 x y hx
          simp only [dom_cons] at hy ⊢
          rcases hy with hy | hy
          · rcases (hj5 y).1 hy with hy | hy
            · exact Or.inl hy
            · exact Or.inr (Or.inl hy)
          · exact Or.inr (Or.inr hy)
      · intro x v
        simp only [maps_append, maps_cons, hj5, hj3, hj4]
        tauto
      · simp only; rw [hj3, hj4]
      · intro t ht htb
        simp only [joinable, hj2, hj3, hj4]
        rw [touches_hull_left h hj6 hw2.1 hw3.1 ht htb]
      · intro hjl
        have hjl' : Joined o g left := hjl.mono (by simp +contextual)
        have : Joined o g (left.reverse ++ [j]) := by
          rw [joined_append h]
          · refine ⟨joined_reverse.2 hjl', joined_singleton h ?_, ?_⟩
            · rw [hj2]; exact nonempty_hull_left h hw2.1
            · intro s t hs ht
              simp only [List.head?_cons, Option.some.injEq] at ht
              subst ht
              have hs' : s ∈ left := by simpa using List.mem_of_getLast? hs
              have hsp : o.Before (g.key s) (g.key p) :=
                fun x y hx hy => hw1.2.2 x y ⟨s, by simpa using hs', hx⟩ (by simp [hy])
              have := hjl s (by simp [hs']) p (by simp) hsp
              simp only [joinable, hj2, hj3] at this ⊢
              rwa [touches_hull_right h hj6 hw2.1 hw3.1 (hw1.1.nonempty s (by simpa using hs')) hsp]
          · rw [wf_append]
            refine ⟨hw1.1, wf_singleton.2 (by rw [hj2]; exact nonempty_hull_left h hw2.1), ?_⟩
            intro x y hx hy
            apply hw1.2.2 x y hx
            simp only [dom_cons, dom_nil, or_false, hj5] at hy ⊢
            tauto
        exact this.mono (by simp [or_comm])

/-- `join_right`. -/
theorem joinRight_spec {z : Zip S} (hw : WF o g z.toList) :
    ∃ z', joinRight o g z = some z' ∧ WF o g z'.toList ∧
      (∀ x v, Maps o g z'.toList x v ↔ Maps o g z.toList x v) ∧
      z'.left = z.left ∧ g.val z'.cur = g.val z.cur ∧
      (∀ t, o.Nonempty (g.key t) → o.Before (g.key t) (g.key z.cur) →
        joinable o g t z'.cur = joinable o g t z.cur) ∧
      (Joined o g z.right → Joined o g (z'.cur :: z'.right)) := by
  obtain ⟨left, cur, right⟩ := z
  cases right with
  | nil =>
    refine ⟨_, rfl, hw, fun _ _ => Iff.rfl, rfl, rfl, fun _ _ _ => rfl, fun _ => ?_⟩
    exact joined_singleton h (hw.nonempty cur (by simp [Zip.toList]))
  | cons q right =>
    simp only [Zip.toList] at hw ⊢
    have hw1 := wf_append.1 hw
    have hw2 := wf_cons.1 hw1.2.1
    have hw3 := wf_cons.1 hw2.2.1
    have hjc := joinableC_before h hw2.1 hw3.1
      (fun x y hx hy => hw2.2.2 x y hx ((dom_cons _ _ _).2 (Or.inl hy)))
    cases hj : joinable o g cur q with
    | false =>
      refine ⟨⟨left, cur, q :: right⟩, by simp [joinRight, hjc, hj], by simpa using hw, by simp,
        rfl, rfl, fun _ _ _ => rfl, ?_⟩
      intro hjl
      show Joined o g ([cur] ++ q :: right)
      rw [joined_append h hw1.2.1]
      refine ⟨joined_singleton h hw2.1, hjl, ?_⟩
      intro s t hs ht
      simp only [List.getLast?_singleton, Option.some.injEq, List.head?_cons] at hs ht
      subst hs; subst ht; exact hj
    | true =>
      have hj6 : o.Before (g.key cur) (g.key q) := fun x y hx hy => hw2.2.2 x y hx (by simp [hy])
      obtain ⟨j, hj1, hj2, hj3, hj4, hj5⟩ := joinNodes_spec h gl hw2.1 hw3.1 hj6 hj
      have hwj : WF o g (j :: right) := by
        rw [wf_cons]
        refine ⟨?_, hw3.2.1, ?_⟩
        · obtain ⟨x, hx⟩ := hw2.1
          exact ⟨x, (hj5 x).2 (Or.inl hx)⟩
        · intro x y hx hy
          rcases (hj5 x).1 hx with hx | hx
          · exact hw2.2.2 x y hx (by simp [hy])
          · exact hw3.2.2 x y hx hy
      refine ⟨⟨left, j, right⟩, by simp [joinRight, hjc, hj, hj1], ?_, ?_, rfl, hj3, ?_, ?_⟩
      · rw [wf_append]
        refine ⟨hw1.1, hwj, ?_⟩
        intro x y hx hy
        apply hw1.2.2 x y hx
        simp only [dom_cons, hj5] at hy ⊢
        tauto
      · intro x v
        simp only [maps_append, maps_cons, hj5, hj3, hj4]
        tauto
      · intro t ht htb
        simp only [joinable, hj2, hj3]
        rw [touches_hull_right h hj6 hw2.1 hw3.1 ht htb]
      · intro hjl
        show Joined o g ([j] ++ right)
        rw [joined_append h hwj]
        refine ⟨joined_singleton h (by rw [hj2]; exact nonempty_hull_left h hw2.1),
          hjl.mono (by simp +contextual), ?_⟩
        intro s t hs ht
        simp only [List.getLast?_singleton, Option.some.injEq] at hs
        subst hs
        have ht' : t ∈ right := List.mem_of_head? ht
        have hqt : o.Before (g.key q) (g.key t) := fun x y hx hy => hw3.2.2 x y hx ⟨t, ht', hy⟩
        have := hjl q (by simp) t (by simp [ht']) hqt
        simp only [joinable, hj2, hj3, hj4] at this ⊢
        rwa [touches_hull_left h hj6 hw2.1 hw3.1 (hw3.2.1.nonempty t ht') hqt]

theorem joined_zip {z : Zip S} (hw : WF o g z.toList) :
    Joined o g z.toList ↔ Joined o g (z.cur :: z.left) ∧ Joined o g (z.cur :: z.right) := by
  unfold Zip.toList at *
  constructor
  · intro hj
    exact ⟨hj.mono (by simp +contextual [or_imp]), hj.mono (by simp +contextual [or_imp])⟩
  · rintro ⟨h1, h2⟩
    rw [joined_append h hw]
    refine ⟨joined_reverse.2 (h1.mono (by simp +contextual)), h2, ?_⟩
    intro s t hs ht
    simp only [List.head?_cons, Option.some.injEq] at ht
    subst ht
    have hs' : s ∈ z.left.reverse := List.mem_of_getLast? hs
    exact h1 s (by simpa using Or.inr (by simpa using hs')) _ (by simp)
      fun x y hx hy => (wf_append.1 hw).2.2 x y ⟨s, hs', hx⟩ (by simp [hy])

/-- `join_neighbours`. -/
theorem joinNeighbours_spec {z : Zip S} (hw : WF o g z.toList) :
    ∃ z', joinNeighbours o g z = some z' ∧ WF o g z'.toList ∧
      (∀ x v, Maps o g z'.toList x v ↔ Maps o g z.toList x v) ∧
      (Joined o g z.left → Joined o g z.right → Joined o g z'.toList) := by
  obtain ⟨z1, e1, w1, m1, r1, _, _, j1⟩ := joinLeft_spec h gl hw
  obtain ⟨z2, e2, w2, m2, l2, _, t2, j2⟩ := joinRight_spec h gl w1
  refine ⟨z2, by simp [joinNeighbours, e1, e2], w2, fun x v => (m2 x v).trans (m1 x v), ?_⟩
  intro hl hr
  rw [joined_zip h gl w2]
  refine ⟨?_, j2 (by rw [r1]; exact hr)⟩
  have j1' := j1 hl
  have hw2 : WF o g (z2.left.reverse ++ [z2.cur]) := by
    have : WF o g ((z2.left.reverse ++ [z2.cur]) ++ z2.right) := by simpa [Zip.toList] using w2
    exact (wf_append.1 this).1
  have : Joined o g (z2.left.reverse ++ [z2.cur]) := by
    rw [joined_append h hw2]
    refine ⟨joined_reverse.2 ?_, joined_singleton h (w2.nonempty _ (by simp [Zip.toList])), ?_⟩
    · rw [l2]; exact j1'.mono (by simp +contextual)
    · intro s t hs ht
      simp only [List.head?_cons, Option.some.injEq] at ht
      subst ht
      have hs' : s ∈ z1.left := by rw [← l2]; simpa using List.mem_of_getLast? hs
      have hb : o.Before (g.key s) (g.key z1.cur) :=
        fun x y hx hy => (wf_append.1 w1).2.2 x y ⟨s, by simpa using hs', hx⟩ (by simp [hy])
      rw [t2 s (w1.nonempty s (by simp [Zip.toList, hs'])) hb]
      exact j1' s (by simp [hs']) z1.cur (by simp) hb
  exact this.mono (by simp [or_comm])

end join
end ICL
