import Verif.Model.Observers
import Verif.Theory.Observe
import Verif.Theory.Canon
import Mathlib.Order.Bounds.Basic
import Mathlib.Order.Interval.Set.Infinite
import Mathlib.Data.Set.Card
import Mathlib.Algebra.BigOperators.Group.List.Basic
import Mathlib.Tactic.Abel

/-!
# Lemmas on length and cardinality over continuous domains
-/

set_option linter.unusedSectionVars false

namespace ICL

section
variable {D I V S : Type} [LinearOrder D] {o : IntervalOps D I} {card : I → ℕ∞} {lo up : I → D}

theorem ContinuousClass.dense (h : ContinuousClass o card lo up) : DenselyOrdered D := by
  cases h <;> assumption

/-- What the classes over continuous domains have in common. -/
theorem ContinuousClass.mem_of_lt (h : ContinuousClass o card lo up) {i : I} {x : D} (h1 : lo i < x) (h2 : x < up i) :
    o.Mem x i := by
  unfold IntervalOps.Mem
  cases h with
  | rightOpen zero => simp [rightOpenOps, le_of_lt h1, h2]
  | leftOpen zero => simp [leftOpenOps, h1, le_of_lt h2]
  | customRightOpen T hT => simp [Traits.rightOpenOps, le_of_lt h1, h2]
  | customLeftOpen T hT => simp [Traits.leftOpenOps, h1, le_of_lt h2]
  | continuous zero =>
    obtain ⟨a, b, ⟨_ | _, _ | _⟩⟩ := i <;>
      simp_all [continuousOps, Dyn.contains, Bounds.isLeftClosed, Bounds.isRightClosed, le_of_lt]

theorem ContinuousClass.le_of_mem (h : ContinuousClass o card lo up) {i : I} {x : D} (hm : o.Mem x i) :
    lo i ≤ x ∧ x ≤ up i := by
  unfold IntervalOps.Mem at hm
  cases h with
  | rightOpen zero => simp [rightOpenOps] at hm; exact ⟨hm.1, le_of_lt hm.2⟩
  | leftOpen zero => simp [leftOpenOps] at hm; exact ⟨le_of_lt hm.1, hm.2⟩
  | customRightOpen T hT => simp [Traits.rightOpenOps] at hm; exact ⟨hm.1, le_of_lt hm.2⟩
  | customLeftOpen T hT => simp [Traits.leftOpenOps] at hm; exact ⟨le_of_lt hm.1, hm.2⟩
  | continuous zero =>
    obtain ⟨a, b, ⟨_ | _, _ | _⟩⟩ := i <;>
      simp [continuousOps, Dyn.contains, Bounds.isLeftClosed, Bounds.isRightClosed] at hm ⊢ <;>
        exact ⟨by order, by order⟩

theorem ContinuousClass.isGLB (h : ContinuousClass o card lo up) {i : I} (hi : o.Nonempty i) :
    IsGLB {x | o.Mem x i} (lo i) := by
  have := h.dense
  refine ⟨fun x hx => (h.le_of_mem hx).1, fun b hb => ?_⟩
  by_contra hc
  rw [not_le] at hc
  obtain ⟨x, hx⟩ := hi
  have hx' := h.le_of_mem hx
  have hbx := hb hx
  obtain ⟨y, hy1, hy2⟩ := exists_between hc
  exact absurd (hb (show y ∈ {x | o.Mem x i} from h.mem_of_lt hy1 (by order))) (not_le.2 hy2)

theorem ContinuousClass.isLUB (h : ContinuousClass o card lo up) {i : I} (hi : o.Nonempty i) :
    IsLUB {x | o.Mem x i} (up i) := by
  have := h.dense
  refine ⟨fun x hx => (h.le_of_mem hx).2, fun b hb => ?_⟩
  by_contra hc
  rw [not_le] at hc
  obtain ⟨x, hx⟩ := hi
  have hx' := h.le_of_mem hx
  have hbx := hb hx
  obtain ⟨y, hy1, hy2⟩ := exists_between hc
  exact absurd (hb (show y ∈ {x | o.Mem x i} from h.mem_of_lt (by order) hy2)) (not_le.2 hy1)

theorem ContinuousClass.lo_eq (h : ContinuousClass o card lo up) {i : I} (hi : o.Nonempty i) {a : D}
    (ha : IsGLB {x | o.Mem x i} a) : lo i = a := (h.isGLB hi).unique ha

theorem ContinuousClass.up_eq (h : ContinuousClass o card lo up) {i : I} (hi : o.Nonempty i) {a : D}
    (ha : IsLUB {x | o.Mem x i} a) : up i = a := (h.isLUB hi).unique ha

theorem ContinuousClass.lo_le_up (h : ContinuousClass o card lo up) {i : I} (hi : o.Nonempty i) : lo i ≤ up i := by
  obtain ⟨x, hx⟩ := hi
  exact le_trans (h.le_of_mem hx).1 (h.le_of_mem hx).2

theorem ContinuousClass.before (h : ContinuousClass o card lo up) {i j : I} (hi : o.Nonempty i) (hj : o.Nonempty j)
    (hb : o.Before i j) : up i ≤ lo j :=
  (h.isLUB hi).2 fun x hx => (h.isGLB hj).2 fun y hy => le_of_lt (hb x y hx hy)

/-! ### Cardinality -/

theorem ContinuousClass.card_eq (h : ContinuousClass o card lo up) (i : I) : card i = {x | o.Mem x i}.encard := by
  have := h.dense
  have hl := h.cls.lawful
  cases he : o.isEmpty i with
  | true =>
    have hz : {x | o.Mem x i} = ∅ := by
      ext x
      simp only [Set.mem_ofPred_eq, Set.mem_empty_iff_false, iff_false]
      exact (hl.isEmpty_iff i).1 he x
    rw [hz, Set.encard_empty]
    cases h <;> simp_all [cardinalityHalfOpen, cardinalityDyn]
  | false =>
    have hi : o.Nonempty i := (nonempty_iff hl).2 he
    have hinf : lo i < up i → {x | o.Mem x i}.encard = ⊤ := by
      intro hlt
      rw [Set.encard_eq_top_iff]
      exact (Set.Ioo_infinite hlt).mono fun x hx => h.mem_of_lt hx.1 hx.2
    have hle := h.lo_le_up hi
    cases h with
    | rightOpen zero =>
      rw [hinf]
      · simp [cardinalityHalfOpen, he]
      · obtain ⟨x, hx⟩ := hi
        simp [IntervalOps.Mem, rightOpenOps] at hx
        exact lt_of_le_of_lt hx.1 hx.2
    | leftOpen zero =>
      rw [hinf]
      · simp [cardinalityHalfOpen, he]
      · obtain ⟨x, hx⟩ := hi
        simp [IntervalOps.Mem, leftOpenOps] at hx
        exact lt_of_lt_of_le hx.1 hx.2
    | customRightOpen T hT =>
      rw [hinf]
      · simp [cardinalityHalfOpen, he]
      · obtain ⟨x, hx⟩ := hi
        simp [IntervalOps.Mem, Traits.rightOpenOps] at hx
        exact lt_of_le_of_lt hx.1 hx.2
    | customLeftOpen T hT =>
      rw [hinf]
      · simp [cardinalityHalfOpen, he]
      · obtain ⟨x, hx⟩ := hi
        simp [IntervalOps.Mem, Traits.leftOpenOps] at hx
        exact lt_of_lt_of_le hx.1 hx.2
    | continuous zero =>
      simp only [cardinalityDyn, he, Bool.false_eq_true, if_false]
      rcases lt_or_eq_of_le hle with hlt | heq
      · rw [hinf hlt]
        simp [ne_of_lt hlt]
      · obtain ⟨a, b, bnd⟩ := i
        simp only at heq
        subst heq
        obtain ⟨x, hx⟩ := hi
        have hb : bnd = Bounds.closed := by
          obtain ⟨_ | _, _ | _⟩ := bnd <;>
            simp [IntervalOps.Mem, continuousOps, Dyn.contains, Bounds.isLeftClosed, Bounds.isRightClosed] at hx
          · exact absurd (lt_trans hx.1 hx.2) (lt_irrefl _)
          · exact absurd (lt_of_lt_of_le hx.1 hx.2) (lt_irrefl _)
          · exact absurd (lt_of_le_of_lt hx.1 hx.2) (lt_irrefl _)
          · rfl
        subst hb
        simp only [Bool.and_self, decide_true, if_true]
        rw [show {x | (continuousOps zero).Mem x ⟨a, a, Bounds.closed⟩} = {a} from by
          ext x; exact mem_dynSingleton a x, Set.encard_singleton]

theorem cardinalityLoop_eq (g : SegOps I V S) (l : List S) (n : ℕ∞) :
    cardinalityLoop card g n l = n + (l.map fun s => card (g.key s)).sum := by
  induction l generalizing n with
  | nil => simp [cardinalityLoop]
  | cons s l ih =>
    simp only [cardinalityLoop, List.map_cons, List.sum_cons]
    split
    · rename_i ht
      rw [ht]; simp
    · rw [ih, add_assoc]

theorem ContinuousClass.cardinality_eq (h : ContinuousClass o card lo up) {g : SegOps I V S} {l : List S}
    (hl : WF o g l) : cardinalityC card g l = {x | Dom o g l x}.encard := by
  rw [cardinalityC, cardinalityLoop_eq, zero_add]
  induction l with
  | nil => simp
  | cons s l ih =>
    have hw := wf_cons.1 hl
    rw [List.map_cons, List.sum_cons, ih hw.2.1, h.card_eq, ← Set.encard_union_eq]
    · congr 1
      ext x
      simp [dom_cons]
    · rw [Set.disjoint_left]
      intro x hx hy
      exact absurd (hw.2.2 x x hx hy) (lt_irrefl _)

end

/-! ### Length -/

section
variable {D I V S : Type} [LinearOrder D] [AddCommGroup D] {o : IntervalOps D I} {card : I → ℕ∞} {lo up : I → D}

theorem foldl_addC {A : Type} (f : A → D) (l : List A) (a : D) :
    l.foldl (fun n s => n + f s) a = a + (l.map f).sum := by
  induction l generalizing a with
  | nil => simp
  | cons s l ih => simp [ih, add_assoc]

theorem lengthC_eq (g : SegOps I V S) (l : List S) :
    lengthC o lo up g l = (l.map fun s => lengthCI o lo up (g.key s)).sum := by
  rw [lengthC, foldl_addC, zero_add]

theorem lengthC_keys (m : List (I × V)) : lengthC o lo up mapSeg m = lengthC o lo up setSeg (m.map Prod.fst) := by
  rw [lengthC_eq, lengthC_eq, List.map_map]; rfl

theorem lengthCI_congr (h : ContinuousClass o card lo up) {i j : I} (hij : ∀ x, o.Mem x i ↔ o.Mem x j) :
    lengthCI o lo up i = lengthCI o lo up j := by
  have hl := h.cls.lawful
  have he : o.isEmpty i = o.isEmpty j := by
    rw [Bool.eq_iff_iff, hl.isEmpty_iff, hl.isEmpty_iff]
    simp [hij]
  unfold lengthCI
  rw [he]
  split
  · rfl
  · rename_i hj
    have hj : o.Nonempty j := (nonempty_iff hl).2 (by simpa using hj)
    have hi : o.Nonempty i := by
      obtain ⟨x, hx⟩ := hj; exact ⟨x, (hij x).2 hx⟩
    have hs : {x | o.Mem x i} = {x | o.Mem x j} := by ext x; exact hij x
    rw [h.lo_eq hi (hs ▸ h.isGLB hj), h.up_eq hi (hs ▸ h.isLUB hj)]

/-! ### Cells -/

/-- The pairs of neighbours in a sequence of points. -/
def cells (P : List D) : List (D × D) := P.zip P.tail

theorem cells_cons (p q : D) (P : List D) : cells (p :: q :: P) = (p, q) :: cells (q :: P) := rfl

theorem mem_cells {P : List D} (hP : P.Pairwise (· < ·)) {c : D × D} (hc : c ∈ cells P) :
    c.1 < c.2 ∧ ∀ a ∈ P, a ≤ c.1 ∨ c.2 ≤ a := by
  induction P with
  | nil => simp [cells] at hc
  | cons p P ih =>
    cases P with
    | nil => simp [cells] at hc
    | cons q P =>
      rw [cells_cons, List.mem_cons] at hc
      obtain ⟨h1, h2⟩ := List.pairwise_cons.1 hP
      rcases hc with rfl | hc
      · refine ⟨h1 q (by simp), fun a ha => ?_⟩
        rcases List.mem_cons.1 ha with rfl | ha
        · exact Or.inl (le_refl _)
        · rcases List.mem_cons.1 ha with rfl | ha
          · exact Or.inr (le_refl _)
          · exact Or.inr (le_of_lt ((List.pairwise_cons.1 h2).1 a ha))
      · obtain ⟨h3, h4⟩ := ih h2 hc
        refine ⟨h3, fun a ha => ?_⟩
        rcases List.mem_cons.1 ha with rfl | ha
        · have hm : c.1 ∈ q :: P := (List.of_mem_zip hc).1
          exact Or.inl (le_of_lt (h1 _ hm))
        · exact h4 a ha

open Classical in
/-- The sum of the differences over the cells that satisfy `Q`. -/
noncomputable def cellSum (P : List D) (Q : D → Prop) : D :=
  ((cells P).map fun c => if ∃ x, c.1 < x ∧ x < c.2 ∧ Q x then c.2 - c.1 else 0).sum

theorem telescope (f : D → D) (p : D) (P : List D) :
    ((cells (p :: P)).map fun c => f c.2 - f c.1).sum = f (P.getLastD p) - f p := by
  induction P generalizing p with
  | nil => simp [cells]
  | cons q P ih =>
    rw [cells_cons, List.map_cons, List.sum_cons, ih q]
    simp only [List.getLastD_cons]
    abel

theorem cellSum_interval (h : ContinuousClass o card lo up) {i : I} (hi : o.Nonempty i) {P : List D}
    (hP : P.Pairwise (· < ·)) (h1 : lo i ∈ P) (h2 : up i ∈ P) :
    cellSum P (fun x => o.Mem x i) = lengthCI o lo up i := by
  have hd := h.dense
  have hle := h.lo_le_up hi
  have e1 : cellSum P (fun x => o.Mem x i) =
      ((cells P).map fun c => max (lo i) (min c.2 (up i)) - max (lo i) (min c.1 (up i))).sum := by
    unfold cellSum
    congr 1
    apply List.map_congr_left
    intro c hc
    obtain ⟨hlt, hno⟩ := mem_cells hP hc
    have hm : (∃ x, c.1 < x ∧ x < c.2 ∧ o.Mem x i) ↔ lo i ≤ c.1 ∧ c.2 ≤ up i := by
      constructor
      · rintro ⟨x, hx1, hx2, hx⟩
        have := h.le_of_mem hx
        refine ⟨(hno _ h1).resolve_right (by order), (hno _ h2).resolve_left (by order)⟩
      · rintro ⟨h3, h4⟩
        obtain ⟨x, hx1, hx2⟩ := exists_between hlt
        exact ⟨x, hx1, hx2, h.mem_of_lt (by order) (by order)⟩
    rw [hm]
    split
    · rename_i hcc
      rw [min_eq_left hcc.2, max_eq_right (by order), min_eq_left (by order), max_eq_right hcc.1]
    · rename_i hcc
      rcases hno _ h1 with h3 | h3
      · rcases hno _ h2 with h4 | h4
        · rw [min_eq_right (by order), min_eq_right h4, sub_self]
        · exact absurd ⟨h3, h4⟩ hcc
      · have a1 : max (lo i) (min c.2 (up i)) = lo i := max_eq_left (le_trans (min_le_left _ _) h3)
        have a2 : max (lo i) (min c.1 (up i)) = lo i :=
          max_eq_left (le_trans (min_le_left _ _) (le_trans (le_of_lt hlt) h3))
        rw [a1, a2, sub_self]
  rw [e1]
  cases P with
  | nil => exact absurd h1 (by simp)
  | cons p P =>
    rw [telescope fun x => max (lo i) (min x (up i))]
    have hfst : p ≤ lo i := by
      rcases List.mem_cons.1 h1 with h3 | h3
      · exact le_of_eq h3.symm
      · exact le_of_lt ((List.pairwise_cons.1 hP).1 _ h3)
    have hlast : up i ≤ P.getLastD p := by
      have : ∀ (P : List D) (p : D), (p :: P).Pairwise (· < ·) → ∀ a ∈ p :: P, a ≤ P.getLastD p := by
        intro P
        induction P with
        | nil => intro p _ a ha; simp at ha; simp [ha]
        | cons q P ih =>
          intro p hp a ha
          rw [List.getLastD_cons]
          have hq := ih q (List.pairwise_cons.1 hp).2
          rcases List.mem_cons.1 ha with rfl | ha
          · exact le_trans (le_of_lt ((List.pairwise_cons.1 hp).1 q (by simp))) (hq q (by simp))
          · exact hq a ha
      exact this P p hP _ h2
    rw [min_eq_right hlast, max_eq_right hle, max_eq_left (le_trans (min_le_left _ _) hfst)]
    simp [lengthCI, (nonempty_iff h.cls.lawful).1 hi]

/-- All end points of the segments. -/
def ends (lo up : I → D) (g : SegOps I V S) (l : List S) : List D := l.flatMap fun s => [lo (g.key s), up (g.key s)]

theorem mem_ends {g : SegOps I V S} {l : List S} {s : S} (hs : s ∈ l) :
    lo (g.key s) ∈ ends lo up g l ∧ up (g.key s) ∈ ends lo up g l := by
  simp only [ends, List.mem_flatMap, List.mem_cons, List.not_mem_nil, or_false]
  exact ⟨⟨s, hs, Or.inl rfl⟩, ⟨s, hs, Or.inr rfl⟩⟩

/-- A cell between end points is in the container or disjoint to it. -/
theorem cell_all (h : ContinuousClass o card lo up) {g : SegOps I V S} {l : List S} {P : List D}
    (hP : P.Pairwise (· < ·)) (he : ∀ a ∈ ends lo up g l, a ∈ P) {c : D × D} (hc : c ∈ cells P)
    {x : D} (h1 : c.1 < x) (h2 : x < c.2) (hx : Dom o g l x) {y : D} (h3 : c.1 < y) (h4 : y < c.2) : Dom o g l y := by
  obtain ⟨s, hs, hx⟩ := hx
  obtain ⟨hlt, hno⟩ := mem_cells hP hc
  have hm := h.le_of_mem hx
  have a1 := (hno _ (he _ (mem_ends (lo := lo) (up := up) (g := g) hs).1)).resolve_right (by order)
  have a2 := (hno _ (he _ (mem_ends (lo := lo) (up := up) (g := g) hs).2)).resolve_left (by order)
  exact ⟨s, hs, h.mem_of_lt (by order) (by order)⟩

open Classical in
theorem length_cellSum (h : ContinuousClass o card lo up) {g : SegOps I V S} {l : List S} (hl : WF o g l)
    {P : List D} (hP : P.Pairwise (· < ·)) (he : ∀ a ∈ ends lo up g l, a ∈ P) :
    lengthC o lo up g l = cellSum P (Dom o g l) := by
  rw [lengthC_eq]
  induction l with
  | nil => simp [cellSum]
  | cons s l ih =>
    have hw := wf_cons.1 hl
    have hes := mem_ends (lo := lo) (up := up) (g := g) (List.mem_cons_self (a := s) (l := l))
    have he' : ∀ a ∈ ends lo up g l, a ∈ P := fun a ha => he a (by simp only [ends, List.flatMap_cons, List.mem_append]; exact Or.inr ha)
    rw [List.map_cons, List.sum_cons, ih hw.2.1 he', ← cellSum_interval h hw.1 hP (he _ hes.1) (he _ hes.2)]
    unfold cellSum
    rw [← List.sum_map_add]
    congr 1
    apply List.map_congr_left
    intro c hc
    obtain ⟨hlt, hno⟩ := mem_cells hP hc
    by_cases q1 : ∃ x, c.1 < x ∧ x < c.2 ∧ o.Mem x (g.key s)
    · have q2 : ¬ ∃ x, c.1 < x ∧ x < c.2 ∧ Dom o g l x := by
        rintro ⟨y, hy1, hy2, hy⟩
        obtain ⟨x, hx1, hx2, hx⟩ := q1
        have := cell_all h hP he' hc hy1 hy2 hy hx1 hx2
        exact lt_irrefl _ (hw.2.2 x x hx this)
      rw [if_pos q1, if_neg q2, if_pos, add_zero]
      obtain ⟨x, hx1, hx2, hx⟩ := q1
      exact ⟨x, hx1, hx2, (dom_cons _ _ _).2 (Or.inl hx)⟩
    · rw [if_neg q1, zero_add]
      refine if_congr ?_ rfl rfl
      constructor
      · rintro ⟨x, hx1, hx2, hx⟩
        exact ⟨x, hx1, hx2, (dom_cons _ _ _).2 (Or.inr hx)⟩
      · rintro ⟨x, hx1, hx2, hx⟩
        exact ⟨x, hx1, hx2, ((dom_cons _ _ _).1 hx).resolve_left fun hm => q1 ⟨x, hx1, hx2, hm⟩⟩

theorem exists_sorted (l : List D) : ∃ P : List D, P.Pairwise (· < ·) ∧ ∀ a ∈ l, a ∈ P := by
  induction l with
  | nil => exact ⟨[], .nil, by simp⟩
  | cons a l ih =>
    obtain ⟨P, h1, h2⟩ := ih
    have : ∃ Q : List D, Q.Pairwise (· < ·) ∧ a ∈ Q ∧ (∀ b ∈ P, b ∈ Q) ∧ ∀ b ∈ Q, b = a ∨ b ∈ P := by
      clear h2
      induction P with
      | nil => exact ⟨[a], by simp, by simp, by simp, by simp⟩
      | cons p P ih =>
        obtain ⟨h3, h4⟩ := List.pairwise_cons.1 h1
        rcases lt_trichotomy a p with hlt | heq | hgt
        · refine ⟨a :: p :: P, List.pairwise_cons.2 ⟨?_, h1⟩, by simp, fun b hb => List.mem_cons_of_mem _ hb,
            fun b hb => List.mem_cons.1 hb⟩
          intro b hb
          rcases List.mem_cons.1 hb with rfl | hb
          · exact hlt
          · exact lt_trans hlt (h3 b hb)
        · exact ⟨p :: P, h1, by simp [heq], fun b hb => hb, fun b hb => Or.inr hb⟩
        · obtain ⟨Q, q1, q2, q3, q4⟩ := ih h4
          refine ⟨p :: Q, List.pairwise_cons.2 ⟨?_, q1⟩, by simp [q2], ?_, ?_⟩
          · intro b hb
            rcases q4 b hb with rfl | hb
            · exact hgt
            · exact h3 b hb
          · intro b hb
            rcases List.mem_cons.1 hb with rfl | hb
            · simp
            · simp [q3 b hb]
          · intro b hb
            rcases List.mem_cons.1 hb with rfl | hb
            · exact Or.inr (by simp)
            · rcases q4 b hb with rfl | hb
              · exact Or.inl rfl
              · exact Or.inr (by simp [hb])
    obtain ⟨Q, q1, q2, q3, _⟩ := this
    refine ⟨Q, q1, fun b hb => ?_⟩
    rcases List.mem_cons.1 hb with rfl | hb
    · exact q2
    · exact q3 b (h2 b hb)

/-- The length depends on the elements only. -/
theorem lengthC_congr (h : ContinuousClass o card lo up) {l r : List I} (hl : WF o setSeg l) (hr : WF o setSeg r)
    (hd : ∀ x, Dom o setSeg l x ↔ Dom o setSeg r x) : lengthC o lo up setSeg l = lengthC o lo up setSeg r := by
  obtain ⟨P, h1, h2⟩ := exists_sorted (ends lo up setSeg l ++ ends lo up setSeg r)
  rw [length_cellSum h hl h1 fun a ha => h2 a (by simp [ha]), length_cellSum h hr h1 fun a ha => h2 a (by simp [ha])]
  rw [show Dom o setSeg l = Dom o setSeg r from funext fun x => propext (hd x)]

open Classical in
/-- The length is additive. -/
theorem lengthC_disjoint (h : ContinuousClass o card lo up) {l r u : List I} (hl : WF o setSeg l) (hr : WF o setSeg r)
    (hu : WF o setSeg u) (hdj : ∀ x, Dom o setSeg l x → ¬ Dom o setSeg r x)
    (hd : ∀ x, Dom o setSeg u x ↔ Dom o setSeg l x ∨ Dom o setSeg r x) :
    lengthC o lo up setSeg u = lengthC o lo up setSeg l + lengthC o lo up setSeg r := by
  obtain ⟨P, h1, h2⟩ := exists_sorted (ends lo up setSeg l ++ ends lo up setSeg r ++ ends lo up setSeg u)
  have hel : ∀ a ∈ ends lo up setSeg l, a ∈ P := fun a ha => h2 a (by simp [ha])
  have her : ∀ a ∈ ends lo up setSeg r, a ∈ P := fun a ha => h2 a (by simp [ha])
  rw [length_cellSum h hl h1 hel, length_cellSum h hr h1 her, length_cellSum h hu h1 fun a ha => h2 a (by simp [ha])]
  unfold cellSum
  rw [← List.sum_map_add]
  congr 1
  apply List.map_congr_left
  intro c hc
  by_cases q1 : ∃ x, c.1 < x ∧ x < c.2 ∧ Dom o setSeg l x
  · obtain ⟨x, hx1, hx2, hx⟩ := q1
    have q2 : ¬ ∃ x, c.1 < x ∧ x < c.2 ∧ Dom o setSeg r x := by
      rintro ⟨y, hy1, hy2, hy⟩
      exact hdj y (cell_all h h1 hel hc hx1 hx2 hx hy1 hy2) hy
    rw [if_pos ⟨x, hx1, hx2, (hd x).2 (Or.inl hx)⟩, if_pos ⟨x, hx1, hx2, hx⟩, if_neg q2, add_zero]
  · rw [if_neg q1, zero_add]
    refine if_congr ⟨?_, ?_⟩ rfl rfl
    · rintro ⟨x, hx1, hx2, hx⟩
      exact ⟨x, hx1, hx2, ((hd x).1 hx).resolve_left fun hm => q1 ⟨x, hx1, hx2, hm⟩⟩
    · rintro ⟨x, hx1, hx2, hx⟩
      exact ⟨x, hx1, hx2, (hd x).2 (Or.inr hx)⟩

/-! ### Distance -/

theorem ContinuousClass.distanceCI_before (h : ContinuousClass o card lo up) {i j : I} (hi : o.Nonempty i)
    (hj : o.Nonempty j) (hb : o.Before i j) :
    distanceCI o lo up i j = lengthCI o lo up (o.innerComplement i j) := by
  have hd := h.dense
  have hl := h.cls.lawful
  have hle := h.before hi hj hb
  have li := h.lo_le_up hi
  have lj := h.lo_le_up hj
  have hm : ∀ x, o.Mem x (o.innerComplement i j) ↔ (∀ y, o.Mem y i → y < x) ∧ ∀ z, o.Mem z j → x < z := by
    intro x
    rw [hl.mem_innerComplement]
    constructor
    · rintro ⟨_, _, h4 | ⟨h4, h5⟩⟩
      · exact h4
      · obtain ⟨y, hy⟩ := hi
        obtain ⟨z, hz⟩ := hj
        exact absurd (hb y z hy hz) (not_lt.2 (le_of_lt (lt_trans (h4 z hz) (h5 y hy))))
    · exact fun h4 => ⟨hi, hj, Or.inl h4⟩
  simp only [distanceCI, (nonempty_iff hl).1 hi, (nonempty_iff hl).1 hj, Bool.or_self, Bool.false_eq_true, if_false]
  rcases lt_or_eq_of_le hle with hlt | heq
  · rw [if_pos hlt]
    have hin : ∀ x, up i < x → x < lo j → o.Mem x (o.innerComplement i j) := fun x h1 h2 =>
      (hm x).2 ⟨fun y hy => lt_of_le_of_lt (h.le_of_mem hy).2 h1, fun z hz => lt_of_lt_of_le h2 (h.le_of_mem hz).1⟩
    have hne : o.Nonempty (o.innerComplement i j) := by
      obtain ⟨x, h1, h2⟩ := exists_between hlt
      exact ⟨x, hin x h1 h2⟩
    have e1 : lo (o.innerComplement i j) = up i := by
      refine h.lo_eq hne ⟨fun x hx => (h.isLUB hi).2 fun y hy => le_of_lt (((hm x).1 hx).1 y hy), fun b hb' => ?_⟩
      by_contra hc
      rw [not_le] at hc
      obtain ⟨x, h1, h2⟩ := exists_between (lt_min hc hlt)
      exact absurd (hb' (hin x h1 (lt_of_lt_of_le h2 (min_le_right _ _)))) (not_le.2 (lt_of_lt_of_le h2 (min_le_left _ _)))
    have e2 : up (o.innerComplement i j) = lo j := by
      refine h.up_eq hne ⟨fun x hx => (h.isGLB hj).2 fun y hy => le_of_lt (((hm x).1 hx).2 y hy), fun b hb' => ?_⟩
      by_contra hc
      rw [not_le] at hc
      obtain ⟨x, h1, h2⟩ := exists_between (max_lt hc hlt)
      exact absurd (hb' (hin x (lt_of_le_of_lt (le_max_right _ _) h1) h2)) (not_le.2 (lt_of_le_of_lt (le_max_left _ _) h1))
    simp [lengthCI, (nonempty_iff hl).1 hne, e1, e2]
  · rw [if_neg (by order), if_neg (by order)]
    unfold lengthCI
    split
    · rfl
    · rename_i he
      have hne : o.Nonempty (o.innerComplement i j) := (nonempty_iff hl).2 (by simpa using he)
      have hx : ∀ x, o.Mem x (o.innerComplement i j) → x = up i := by
        intro x hx
        have a1 : up i ≤ x := (h.isLUB hi).2 fun y hy => le_of_lt (((hm x).1 hx).1 y hy)
        have a2 : x ≤ lo j := (h.isGLB hj).2 fun y hy => le_of_lt (((hm x).1 hx).2 y hy)
        order
      obtain ⟨x, hxm⟩ := hne
      have e0 := hx x hxm
      have hs : {x | o.Mem x (o.innerComplement i j)} = {up i} := by
        ext y
        constructor
        · exact hx y
        · intro hy
          have hy' : y = up i := hy
          rw [hy', ← e0]; exact hxm
      rw [h.lo_eq ⟨x, hxm⟩ (hs ▸ isGLB_singleton), h.up_eq ⟨x, hxm⟩ (hs ▸ isLUB_singleton), sub_self]

theorem distanceLoop_addC {A : Type} (d : A → A → D) (l : List A) (a : D) :
    distanceLoop d a l = a + distanceLoop d 0 l := by
  induction l generalizing a with
  | nil => simp [distanceLoop]
  | cons s l ih =>
    cases l with
    | nil => simp [distanceLoop]
    | cons t l =>
      simp only [distanceLoop]
      rw [ih, ih (0 + d s t), zero_add, add_assoc]

theorem distanceC_gaps (h : ContinuousClass o card lo up) {l : List I} (hl : WF o setSeg l) :
    distanceC o lo up setSeg l = lengthC o lo up setSeg (ISet.gaps o l) := by
  rw [lengthC_eq]
  induction l with
  | nil => rfl
  | cons s l ih =>
    cases l with
    | nil => rfl
    | cons t l =>
      have hw := wf_cons.1 hl
      have hw2 := wf_cons.1 hw.2.1
      have := ih hw.2.1
      simp only [distanceC, distanceLoop, ISet.gaps] at this ⊢
      rw [distanceLoop_addC, this, List.map_cons, List.sum_cons, zero_add,
        h.distanceCI_before hw.1 hw2.1 fun x y hx hy => hw.2.2 x y hx ⟨t, by simp, hy⟩]
      rfl

theorem gaps_wf (h : o.Lawful) {l : List I} (hl : WF o setSeg l) :
    WF o setSeg ((ISet.gaps o l).filter fun i => !o.isEmpty i) := by
  induction l with
  | nil => exact wf_nil
  | cons s l ih =>
    cases l with
    | nil => exact wf_nil
    | cons t l =>
      have hw := wf_cons.1 hl
      have hw2 := wf_cons.1 hw.2.1
      simp only [ISet.gaps, List.filter_cons]
      split
      · rename_i he
        refine wf_cons.2 ⟨(nonempty_iff h).2 (by simpa using he), ih hw.2.1, ?_⟩
        rintro x y hx ⟨u, hu, hy⟩
        obtain ⟨_, b, _, hb, _, hby, _⟩ := (dom_gaps h hw.2.1 y).1 ⟨u, (List.mem_filter.1 hu).1, hy⟩
        rw [setSeg_key, h.mem_innerComplement] at hx
        obtain ⟨c, hc, hcb⟩ := first_dom_le h hw.2.1 hb
        obtain ⟨a, ha⟩ := hw.1
        have hac := hw.2.2 a c ha ⟨t, by simp, hc⟩
        rcases hx with ⟨_, _, ⟨h1, h2⟩ | ⟨h1, h2⟩⟩
        · have := h2 c hc
          order
        · have := h1 c hc
          have := h2 a ha
          order
      · exact ih hw.2.1

theorem lengthC_filter (l : List I) :
    lengthC o lo up setSeg (l.filter fun i => !o.isEmpty i) = lengthC o lo up setSeg l := by
  rw [lengthC_eq, lengthC_eq]
  induction l with
  | nil => rfl
  | cons s l ih =>
    rw [List.filter_cons]
    split
    · rw [List.map_cons, List.map_cons, List.sum_cons, List.sum_cons, ih]
    · rename_i he
      rw [List.map_cons, List.sum_cons, ih]
      have : o.isEmpty s = true := by simpa using he
      simp [lengthCI, this]

theorem dom_filter (h : o.Lawful) (l : List I) (x : D) :
    Dom o setSeg (l.filter fun i => !o.isEmpty i) x ↔ Dom o setSeg l x := by
  constructor
  · rintro ⟨i, hi, hx⟩; exact ⟨i, (List.mem_filter.1 hi).1, hx⟩
  · rintro ⟨i, hi, hx⟩
    refine ⟨i, List.mem_filter.2 ⟨hi, ?_⟩, hx⟩
    have := (nonempty_iff h).1 (show o.Nonempty i from ⟨x, hx⟩)
    simp [this]

/-- The distance is the length of the gaps. -/
theorem distanceC_spec (h : ContinuousClass o card lo up) {l r : List I} (hl : WF o setSeg l) (hr : WF o setSeg r)
    (hd : ∀ x, Dom o setSeg r x ↔
      ¬ Dom o setSeg l x ∧ ∃ y z, Dom o setSeg l y ∧ Dom o setSeg l z ∧ y < x ∧ x < z) :
    distanceC o lo up setSeg l = lengthC o lo up setSeg r := by
  rw [distanceC_gaps h hl, ← lengthC_filter]
  refine lengthC_congr h (gaps_wf h.cls.lawful hl) hr fun x => ?_
  rw [dom_filter h.cls.lawful, dom_gaps h.cls.lawful hl, hd]

end
end ICL
