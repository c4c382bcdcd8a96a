import Verif.Ops
import Mathlib.Tactic.Order
import Mathlib.Tactic.Push
import Mathlib.Tactic.ByContra
import Mathlib.Tactic.Tauto

/-!
# From cuts to the laws of intervals

Helper layer: an interval is the intersection of an upper set `Lo i` ("right of the lower bound") and a
lower set `Up i` ("left of the upper bound").  If the functions of an interval class are described
by these two cuts (`CutModel`), the class is `Lawful`.
-/

namespace ICL
namespace IntervalOps

variable {D I : Type} [LinearOrder D]

/-- Description of an interval class by its lower and upper cuts (proof device). -/
structure CutModel (o : IntervalOps D I) where
  Lo : I → D → Prop
  Up : I → D → Prop
  lo_mono : ∀ i x y, Lo i x → x ≤ y → Lo i y
  up_mono : ∀ i x y, Up i y → x ≤ y → Up i x
  mem : ∀ i x, o.Mem x i ↔ Lo i x ∧ Up i x
  isEmpty : ∀ i, o.isEmpty i = true ↔ ∀ x, ¬ (Lo i x ∧ Up i x)
  exLess : ∀ i j, o.exclusiveLess i j = (o.isEmpty i || o.isEmpty j || o.neLess i j)
  neLess : ∀ i j, o.isEmpty i = false → o.isEmpty j = false →
    (o.neLess i j = true ↔ ∀ x, ¬ (Lo j x ∧ Up i x))
  lowerLess : ∀ i j, o.isEmpty i = false → o.isEmpty j = false →
    (o.lowerLess i j = true ↔ ∃ x, Lo i x ∧ ¬ Lo j x)
  upperLess : ∀ i j, o.isEmpty i = false → o.isEmpty j = false →
    (o.upperLess i j = true ↔ ∃ x, Up j x ∧ ¬ Up i x)
  lowerEqual : ∀ i j, o.isEmpty i = false → o.isEmpty j = false →
    (o.lowerEqual i j = true ↔ ∀ x, Lo i x ↔ Lo j x)
  upperEqual : ∀ i j, o.isEmpty i = false → o.isEmpty j = false →
    (o.upperEqual i j = true ↔ ∀ x, Up i x ↔ Up j x)
  touches : ∀ i j, o.isEmpty i = false → o.isEmpty j = false → (∃ z, ¬ Up i z) →
    (o.touches i j = true ↔ ∀ x, Up i x ↔ ¬ Lo j x)
  touchesC : ∀ i j, o.isEmpty i = false → o.isEmpty j = false → (∃ z, ¬ Up i z) →
    o.touchesC i j = some (o.touches i j)
  hull_right : ∀ i j, o.isEmpty j = true → o.hull i j = i
  hull_left : ∀ i j, o.isEmpty j = false → o.isEmpty i = true → o.hull i j = j
  hull_mem : ∀ i j x, o.isEmpty i = false → o.isEmpty j = false →
    (o.Mem x (o.hull i j) ↔ (Lo i x ∨ Lo j x) ∧ (Up i x ∨ Up j x))
  leftSub_ex : ∀ i j, o.exclusiveLess j i = true → o.leftSubtract i j = i
  leftSub_mem : ∀ i j x, o.exclusiveLess j i = false →
    (o.Mem x (o.leftSubtract i j) ↔ ¬ Up j x ∧ Up i x)
  rightSub_ex : ∀ i j, o.exclusiveLess i j = true → o.rightSubtract i j = i
  rightSub_mem : ∀ i j x, o.exclusiveLess i j = false →
    (o.Mem x (o.rightSubtract i j) ↔ Lo i x ∧ ¬ Lo j x)
  inter_empty : ∀ i j, (o.isEmpty i || o.isEmpty j) = true → o.inter i j = o.empty
  inter_mem : ∀ i j x, (o.isEmpty i || o.isEmpty j) = false →
    (o.Mem x (o.inter i j) ↔ (Lo i x ∧ Lo j x) ∧ (Up i x ∧ Up j x))
  compl_empty : ∀ i j, (o.isEmpty i || o.isEmpty j) = true → o.innerComplement i j = o.empty
  compl_overlap : ∀ i j, o.exclusiveLess i j = false → o.exclusiveLess j i = false →
    o.innerComplement i j = o.empty
  compl_left : ∀ i j x, (o.isEmpty i || o.isEmpty j) = false → o.exclusiveLess i j = true →
    (o.Mem x (o.innerComplement i j) ↔ ¬ Up i x ∧ ¬ Lo j x)
  compl_right : ∀ i j x, (o.isEmpty i || o.isEmpty j) = false → o.exclusiveLess i j = false →
    o.exclusiveLess j i = true →
    (o.Mem x (o.innerComplement i j) ↔ ¬ Up j x ∧ ¬ Lo i x)
  empty : o.isEmpty o.empty = true

namespace CutModel
variable {o : IntervalOps D I} (c : CutModel o)
include c

theorem isEmpty_iff' (i : I) : o.isEmpty i = true ↔ ∀ x, ¬ o.Mem x i := by
  rw [c.isEmpty]; simp only [c.mem]

theorem nonempty_iff (i : I) : o.Nonempty i ↔ o.isEmpty i = false := by
  rw [← Bool.not_eq_true, c.isEmpty_iff']; simp [IntervalOps.Nonempty]

theorem before_iff (i j : I) (hi : o.Nonempty i) (hj : o.Nonempty j) :
    o.Before i j ↔ ∀ x, ¬ (c.Lo j x ∧ c.Up i x) := by
  obtain ⟨a, ha⟩ := hi
  obtain ⟨b, hb⟩ := hj
  rw [c.mem] at ha hb
  constructor
  · rintro h x ⟨hl, hu⟩
    have h1 : o.Mem (max a x) i := by
      rw [c.mem]
      refine ⟨c.lo_mono _ _ _ ha.1 (le_max_left _ _), ?_⟩
      rcases le_total a x with h | h
      · rw [max_eq_right h]; exact hu
      · rw [max_eq_left h]; exact ha.2
    have h2 : o.Mem (min b x) j := by
      rw [c.mem]
      refine ⟨?_, c.up_mono _ _ _ hb.2 (min_le_left _ _)⟩
      rcases le_total b x with h | h
      · rw [min_eq_left h]; exact hb.1
      · rw [min_eq_right h]; exact hl
    have := h _ _ h1 h2
    have h3 : x ≤ max a x := le_max_right _ _
    have h4 : min b x ≤ x := min_le_right _ _
    order
  · intro h x y hx hy
    rw [c.mem] at hx hy
    by_contra hxy
    exact h x ⟨c.lo_mono _ _ _ hy.1 (by order), hx.2⟩

theorem exLess_iff (i j : I) : o.exclusiveLess i j = true ↔ o.Before i j := by
  rw [c.exLess]
  by_cases hi : o.Nonempty i
  · by_cases hj : o.Nonempty j
    · rw [c.before_iff i j hi hj]
      rw [c.nonempty_iff] at hi hj
      rw [← c.neLess i j hi hj]
      simp [hi, hj]
    · have : o.isEmpty j = true := by
        rw [c.nonempty_iff] at hj; simpa using hj
      simp only [this, Bool.or_true, Bool.true_or, true_iff]
      intro x y _ hy; exact absurd ⟨y, hy⟩ hj
  · have : o.isEmpty i = true := by
      rw [c.nonempty_iff] at hi; simpa using hi
    simp only [this, Bool.true_or, true_iff]
    intro x y hx; exact absurd ⟨x, hx⟩ hi

theorem exLess_false (i j : I) (h : o.exclusiveLess i j = false) :
    o.Nonempty i ∧ o.Nonempty j ∧ ∃ x, c.Lo j x ∧ c.Up i x := by
  rw [c.exLess] at h
  simp only [Bool.or_eq_false_iff] at h
  obtain ⟨⟨hi, hj⟩, hn⟩ := h
  refine ⟨(c.nonempty_iff i).2 hi, (c.nonempty_iff j).2 hj, ?_⟩
  rw [← Bool.not_eq_true, c.neLess i j hi hj] at hn
  push Not at hn
  exact hn

theorem up_total (i j : I) : (∀ x, c.Up i x → c.Up j x) ∨ (∀ x, c.Up j x → c.Up i x) := by
  by_contra h
  push Not at h
  obtain ⟨⟨x, h1, h2⟩, ⟨y, h3, h4⟩⟩ := h
  rcases le_total x y with h | h
  · exact h2 (c.up_mono _ _ _ h3 h)
  · exact h4 (c.up_mono _ _ _ h1 h)

theorem lo_total (i j : I) : (∀ x, c.Lo i x → c.Lo j x) ∨ (∀ x, c.Lo j x → c.Lo i x) := by
  by_contra h
  push Not at h
  obtain ⟨⟨x, h1, h2⟩, ⟨y, h3, h4⟩⟩ := h
  rcases le_total x y with h | h
  · exact h4 (c.lo_mono _ _ _ h1 h)
  · exact h2 (c.lo_mono _ _ _ h3 h)

theorem lowerLessEqual_iff (i j : I) (hi : o.isEmpty i = false) (hj : o.isEmpty j = false) :
    o.lowerLessEqual i j = true ↔ ∀ x, c.Lo j x → c.Lo i x := by
  unfold lowerLessEqual
  rw [Bool.or_eq_true, c.lowerLess i j hi hj, c.lowerEqual i j hi hj]
  constructor
  · rintro (⟨y, h1, h2⟩ | h) x hx
    · by_contra hc
      rcases le_total x y with h | h
      · exact h2 (c.lo_mono _ _ _ hx h)
      · exact hc (c.lo_mono _ _ _ h1 h)
    · exact (h x).2 hx
  · intro h
    by_cases h' : ∃ x, c.Lo i x ∧ ¬ c.Lo j x
    · exact Or.inl h'
    · push Not at h'
      exact Or.inr fun x => ⟨h' x, h x⟩

theorem upperLessEqual_iff (i j : I) (hi : o.isEmpty i = false) (hj : o.isEmpty j = false) :
    o.upperLessEqual i j = true ↔ ∀ x, c.Up i x → c.Up j x := by
  unfold upperLessEqual
  rw [Bool.or_eq_true, c.upperLess i j hi hj, c.upperEqual i j hi hj]
  constructor
  · rintro (⟨y, h1, h2⟩ | h) x hx
    · by_contra hc
      rcases le_total x y with h | h
      · exact hc (c.up_mono _ _ _ h1 h)
      · exact h2 (c.up_mono _ _ _ hx h)
    · exact (h x).1 hx
  · intro h
    by_cases h' : ∃ x, c.Up j x ∧ ¬ c.Up i x
    · exact Or.inl h'
    · push Not at h'
      exact Or.inr fun x => ⟨h x, h' x⟩

/-- For non-empty intervals inclusion of elements is inclusion of the cuts. -/
theorem subset_iff (i j : I) (hj : o.Nonempty j) :
    (∀ x, o.Mem x j → o.Mem x i) ↔ (∀ x, c.Lo j x → c.Lo i x) ∧ (∀ x, c.Up j x → c.Up i x) := by
  obtain ⟨b, hb⟩ := hj
  constructor
  · intro h
    have hb' := h b hb
    rw [c.mem] at hb hb'
    constructor
    · intro x hx
      rcases le_total x b with hxb | hxb
      · exact ((c.mem _ _).1 (h x ((c.mem _ _).2 ⟨hx, c.up_mono _ _ _ hb.2 hxb⟩))).1
      · exact c.lo_mono _ _ _ hb'.1 hxb
    · intro x hx
      rcases le_total x b with hxb | hxb
      · exact c.up_mono _ _ _ hb'.2 hxb
      · exact ((c.mem _ _).1 (h x ((c.mem _ _).2 ⟨c.lo_mono _ _ _ hb.1 hxb, hx⟩))).2
  · rintro ⟨h1, h2⟩ x hx
    rw [c.mem] at *
    exact ⟨h1 _ hx.1, h2 _ hx.2⟩

theorem isEmpty_or (i : I) : o.isEmpty i = true ∨ o.Nonempty i := by
  rw [c.nonempty_iff]; cases o.isEmpty i <;> simp

theorem lawful : o.Lawful where
  isEmpty_iff := c.isEmpty_iff'
  convex i x y z hx hz hxy hyz := by
    rw [c.mem] at *
    exact ⟨c.lo_mono _ _ _ hx.1 hxy, c.up_mono _ _ _ hz.2 hyz⟩
  exclusiveLess_iff := c.exLess_iff
  neLess_iff i j hi hj := by rw [c.before_iff i j hi hj, c.neLess i j ((c.nonempty_iff i).1 hi) ((c.nonempty_iff j).1 hj)]
  lowerLess_iff i j hi hj := by
    rw [c.lowerLess i j ((c.nonempty_iff i).1 hi) ((c.nonempty_iff j).1 hj)]
    obtain ⟨a, ha⟩ := hi
    obtain ⟨b, hb⟩ := hj
    rw [c.mem] at ha hb
    constructor
    · rintro ⟨x, h1, h2⟩
      refine ⟨min a x, ?_, ?_⟩
      · rw [c.mem]
        refine ⟨?_, c.up_mono _ _ _ ha.2 (min_le_left _ _)⟩
        rcases le_total a x with h | h
        · rw [min_eq_left h]; exact ha.1
        · rw [min_eq_right h]; exact h1
      · intro y hy
        rw [c.mem] at hy
        by_contra hc
        have h3 : min a x ≤ x := min_le_right _ _
        exact h2 (c.lo_mono _ _ _ hy.1 (by order))
    · rintro ⟨x, h1, h2⟩
      rw [c.mem] at h1
      refine ⟨x, h1.1, fun h3 => ?_⟩
      have hxb := h2 b ((c.mem _ _).2 hb)
      have := h2 x ((c.mem _ _).2 ⟨h3, c.up_mono _ _ _ hb.2 (le_of_lt hxb)⟩)
      order
  upperLess_iff i j hi hj := by
    rw [c.upperLess i j ((c.nonempty_iff i).1 hi) ((c.nonempty_iff j).1 hj)]
    obtain ⟨a, ha⟩ := hi
    obtain ⟨b, hb⟩ := hj
    rw [c.mem] at ha hb
    constructor
    · rintro ⟨x, h1, h2⟩
      refine ⟨max b x, ?_, ?_⟩
      · rw [c.mem]
        refine ⟨c.lo_mono _ _ _ hb.1 (le_max_left _ _), ?_⟩
        rcases le_total b x with h | h
        · rw [max_eq_right h]; exact h1
        · rw [max_eq_left h]; exact hb.2
      · intro y hy
        rw [c.mem] at hy
        by_contra hc
        have h3 : x ≤ max b x := le_max_right _ _
        exact h2 (c.up_mono _ _ _ hy.2 (by order))
    · rintro ⟨x, h1, h2⟩
      rw [c.mem] at h1
      refine ⟨x, h1.2, fun h3 => ?_⟩
      have hxb := h2 a ((c.mem _ _).2 ha)
      have := h2 x ((c.mem _ _).2 ⟨c.lo_mono _ _ _ ha.1 (le_of_lt hxb), h3⟩)
      order
  lowerEqual_iff i j hi hj := by
    rw [c.nonempty_iff] at hi hj
    rw [c.lowerEqual i j hi hj, ← Bool.not_eq_true, ← Bool.not_eq_true, c.lowerLess i j hi hj, c.lowerLess j i hj hi]
    push Not
    constructor
    · intro h; exact ⟨fun x => (h x).1, fun x => (h x).2⟩
    · rintro ⟨h1, h2⟩ x; exact ⟨h1 x, h2 x⟩
  upperEqual_iff i j hi hj := by
    rw [c.nonempty_iff] at hi hj
    rw [c.upperEqual i j hi hj, ← Bool.not_eq_true, ← Bool.not_eq_true, c.upperLess i j hi hj, c.upperLess j i hj hi]
    push Not
    constructor
    · intro h; exact ⟨fun x => (h x).2, fun x => (h x).1⟩
    · rintro ⟨h1, h2⟩ x; exact ⟨h2 x, h1 x⟩
  containsI_iff i j hi := by
    unfold containsI
    rcases c.isEmpty_or j with hj | hj
    · simp only [hj, Bool.true_or, true_iff]
      intro x hx; exact absurd hx ((c.isEmpty_iff' j).1 hj x)
    · rw [c.subset_iff i j hj]
      rw [c.nonempty_iff] at hi hj
      rw [Bool.or_eq_true, Bool.and_eq_true, c.lowerLessEqual_iff i j hi hj, c.upperLessEqual_iff j i hj hi]
      simp [hj]
  eq_iff i j hi hj := by
    unfold eq
    have hi' := (c.nonempty_iff i).1 hi
    have hj' := (c.nonempty_iff j).1 hj
    rw [Bool.or_eq_true, Bool.and_eq_true, Bool.and_eq_true, c.lowerEqual i j hi' hj', c.upperEqual i j hi' hj']
    constructor
    · rintro (h | h)
      · simp [hj'] at h
      · intro x; rw [c.mem, c.mem, h.1, h.2]
    · intro h
      right
      have h1 := (c.subset_iff i j hj).1 (fun x => (h x).2)
      have h2 := (c.subset_iff j i hi).1 (fun x => (h x).1)
      exact ⟨fun x => ⟨h2.1 x, h1.1 x⟩, fun x => ⟨h2.2 x, h1.2 x⟩⟩
  touchesC_eq i j hi hj hz := by
    obtain ⟨z, hz⟩ := hz
    have ⟨a, ha⟩ := hi
    exact c.touchesC i j ((c.nonempty_iff i).1 hi) ((c.nonempty_iff j).1 hj)
      ⟨z, fun hu => lt_irrefl z (hz z ((c.mem _ _).2 ⟨c.lo_mono _ _ _ ((c.mem _ _).1 ha).1
        (le_of_lt (hz a ha)), hu⟩))⟩
  touches_below i j hi hj hz := by
    have hz' : ∃ z, ¬ c.Up i z := by
      obtain ⟨z, hz⟩ := hz
      obtain ⟨a, ha⟩ := hi
      refine ⟨z, fun hu => lt_irrefl z (hz z ((c.mem _ _).2 ⟨c.lo_mono _ _ _ ((c.mem _ _).1 ha).1
        (le_of_lt (hz a ha)), hu⟩))⟩
    rw [c.touches i j ((c.nonempty_iff i).1 hi) ((c.nonempty_iff j).1 hj) hz', c.before_iff i j hi hj]
    clear hz hz'
    obtain ⟨a, ha⟩ := hi
    obtain ⟨b, hb⟩ := hj
    constructor
    · intro h
      refine ⟨fun x hx => ((h x).1 hx.2) hx.1, ?_⟩
      rintro ⟨z, h1, h2⟩
      have haz := h1 a ha
      have hzb := h2 b hb
      rw [c.mem] at ha hb
      by_cases hz : c.Up i z
      · have := h1 z ((c.mem _ _).2 ⟨c.lo_mono _ _ _ ha.1 (le_of_lt haz), hz⟩)
        order
      · have hz' : c.Lo j z := by
          by_contra hc; exact hz ((h z).2 hc)
        have := h2 z ((c.mem _ _).2 ⟨hz', c.up_mono _ _ _ hb.2 (le_of_lt hzb)⟩)
        order
    · rintro ⟨h1, h2⟩ x
      constructor
      · intro hu hl; exact h1 x ⟨hl, hu⟩
      · intro hl
        by_contra hu
        refine h2 ⟨x, ?_, ?_⟩
        · intro y hy
          rw [c.mem] at hy
          by_contra hc
          exact hu (c.up_mono _ _ _ hy.2 (by order))
        · intro y hy
          rw [c.mem] at hy
          by_contra hc
          exact hl (c.lo_mono _ _ _ hy.1 (by order))
  mem_hull i j x := by
    rcases c.isEmpty_or j with hj | hj
    · rw [c.hull_right i j hj]
      rw [c.isEmpty_iff'] at hj
      simp only [hj, or_false]
      constructor
      · intro h; exact ⟨x, x, h, h, le_refl _, le_refl _⟩
      · rintro ⟨a, b, ha, hb, h1, h2⟩
        rw [c.mem] at *
        exact ⟨c.lo_mono _ _ _ ha.1 h1, c.up_mono _ _ _ hb.2 h2⟩
    · rcases c.isEmpty_or i with hi | hi
      · rw [c.hull_left i j ((c.nonempty_iff j).1 hj) hi]
        rw [c.isEmpty_iff'] at hi
        simp only [hi, false_or]
        constructor
        · intro h; exact ⟨x, x, h, h, le_refl _, le_refl _⟩
        · rintro ⟨a, b, ha, hb, h1, h2⟩
          rw [c.mem] at *
          exact ⟨c.lo_mono _ _ _ ha.1 h1, c.up_mono _ _ _ hb.2 h2⟩
      · rw [c.hull_mem i j x ((c.nonempty_iff i).1 hi) ((c.nonempty_iff j).1 hj)]
        constructor
        · rintro ⟨hl, hu⟩
          have hA : ∃ a, (o.Mem a i ∨ o.Mem a j) ∧ a ≤ x := by
            rcases hl with hl | hl
            · obtain ⟨a, ha⟩ := hi
              rcases le_total a x with h | h
              · exact ⟨a, Or.inl ha, h⟩
              · rw [c.mem] at ha
                exact ⟨x, Or.inl ((c.mem _ _).2 ⟨hl, c.up_mono _ _ _ ha.2 h⟩), le_refl _⟩
            · obtain ⟨a, ha⟩ := hj
              rcases le_total a x with h | h
              · exact ⟨a, Or.inr ha, h⟩
              · rw [c.mem] at ha
                exact ⟨x, Or.inr ((c.mem _ _).2 ⟨hl, c.up_mono _ _ _ ha.2 h⟩), le_refl _⟩
          have hB : ∃ b, (o.Mem b i ∨ o.Mem b j) ∧ x ≤ b := by
            rcases hu with hu | hu
            · obtain ⟨a, ha⟩ := hi
              rcases le_total x a with h | h
              · exact ⟨a, Or.inl ha, h⟩
              · rw [c.mem] at ha
                exact ⟨x, Or.inl ((c.mem _ _).2 ⟨c.lo_mono _ _ _ ha.1 h, hu⟩), le_refl _⟩
            · obtain ⟨a, ha⟩ := hj
              rcases le_total x a with h | h
              · exact ⟨a, Or.inr ha, h⟩
              · rw [c.mem] at ha
                exact ⟨x, Or.inr ((c.mem _ _).2 ⟨c.lo_mono _ _ _ ha.1 h, hu⟩), le_refl _⟩
          obtain ⟨a, ha, hax⟩ := hA
          obtain ⟨b, hb, hxb⟩ := hB
          exact ⟨a, b, ha, hb, hax, hxb⟩
        · rintro ⟨a, b, ha, hb, h1, h2⟩
          simp only [c.mem] at ha hb
          constructor
          · rcases ha with ha | ha
            · exact Or.inl (c.lo_mono _ _ _ ha.1 h1)
            · exact Or.inr (c.lo_mono _ _ _ ha.1 h1)
          · rcases hb with hb | hb
            · exact Or.inl (c.up_mono _ _ _ hb.2 h2)
            · exact Or.inr (c.up_mono _ _ _ hb.2 h2)
  mem_leftSubtract i j x := by
    cases h : o.exclusiveLess j i
    · rw [c.leftSub_mem i j x h]
      obtain ⟨⟨b, hb⟩, -, z, hz⟩ := c.exLess_false j i h
      rw [c.mem] at hb
      constructor
      · rintro ⟨h1, h2⟩
        have hzx : z < x := by
          by_contra hc; exact h1 (c.up_mono _ _ _ hz.2 (by order))
        refine ⟨(c.mem _ _).2 ⟨c.lo_mono _ _ _ hz.1 (le_of_lt hzx), h2⟩, ?_⟩
        intro y hy
        rw [c.mem] at hy
        by_contra hc
        exact h1 (c.up_mono _ _ _ hy.2 (by order))
      · rintro ⟨h1, h2⟩
        have hbx := h2 b ((c.mem _ _).2 hb)
        rw [c.mem] at h1
        refine ⟨fun hu => ?_, h1.2⟩
        have := h2 x ((c.mem _ _).2 ⟨c.lo_mono _ _ _ hb.1 (le_of_lt hbx), hu⟩)
        order
    · rw [c.leftSub_ex i j h]
      rw [c.exLess_iff] at h
      exact ⟨fun hx => ⟨hx, fun y hy => h y x hy hx⟩, fun hx => hx.1⟩
  mem_rightSubtract i j x := by
    cases h : o.exclusiveLess i j
    · rw [c.rightSub_mem i j x h]
      obtain ⟨-, ⟨b, hb⟩, z, hz⟩ := c.exLess_false i j h
      rw [c.mem] at hb
      constructor
      · rintro ⟨h1, h2⟩
        have hzx : x < z := by
          by_contra hc; exact h2 (c.lo_mono _ _ _ hz.1 (by order))
        refine ⟨(c.mem _ _).2 ⟨h1, c.up_mono _ _ _ hz.2 (le_of_lt hzx)⟩, ?_⟩
        intro y hy
        rw [c.mem] at hy
        by_contra hc
        exact h2 (c.lo_mono _ _ _ hy.1 (by order))
      · rintro ⟨h1, h2⟩
        have hbx := h2 b ((c.mem _ _).2 hb)
        rw [c.mem] at h1
        refine ⟨h1.1, fun hu => ?_⟩
        have := h2 x ((c.mem _ _).2 ⟨hu, c.up_mono _ _ _ hb.2 (le_of_lt hbx)⟩)
        order
    · rw [c.rightSub_ex i j h]
      rw [c.exLess_iff] at h
      exact ⟨fun hx => ⟨hx, fun y hy => h x y hx hy⟩, fun hx => hx.1⟩
  mem_inter i j x := by
    cases h : (o.isEmpty i || o.isEmpty j)
    · rw [c.inter_mem i j x h, c.mem, c.mem]; tauto
    · rw [c.inter_empty i j h]
      have h0 := (c.isEmpty_iff' _).1 c.empty x
      simp only [h0, false_iff]
      rintro ⟨h1, h2⟩
      rw [Bool.or_eq_true, c.isEmpty_iff', c.isEmpty_iff'] at h
      rcases h with h | h
      · exact h x h1
      · exact h x h2
  mem_innerComplement i j x := by
    have h0 := (c.isEmpty_iff' _).1 c.empty
    cases h : (o.isEmpty i || o.isEmpty j)
    · have hij := h
      rw [Bool.or_eq_false_iff, ← c.nonempty_iff, ← c.nonempty_iff] at hij
      obtain ⟨hi, hj⟩ := hij
      have hi' := hi
      have hj' := hj
      obtain ⟨a, ha⟩ := hi
      obtain ⟨b, hb⟩ := hj
      have keyU : ∀ k, o.Nonempty k → ((∀ y, o.Mem y k → y < x) ↔ ¬ c.Up k x) := by
        rintro k ⟨a, ha⟩
        constructor
        · intro h hu
          have hax := h a ha
          rw [c.mem] at ha
          have := h x ((c.mem _ _).2 ⟨c.lo_mono _ _ _ ha.1 (le_of_lt hax), hu⟩)
          order
        · intro h y hy
          rw [c.mem] at hy
          by_contra hc
          exact h (c.up_mono _ _ _ hy.2 (by order))
      have keyL : ∀ k, o.Nonempty k → ((∀ y, o.Mem y k → x < y) ↔ ¬ c.Lo k x) := by
        rintro k ⟨a, ha⟩
        constructor
        · intro h hu
          have hax := h a ha
          rw [c.mem] at ha
          have := h x ((c.mem _ _).2 ⟨hu, c.up_mono _ _ _ ha.2 (le_of_lt hax)⟩)
          order
        · intro h y hy
          rw [c.mem] at hy
          by_contra hc
          exact h (c.lo_mono _ _ _ hy.1 (by order))
      simp only [hi', hj', true_and]
      cases h1 : o.exclusiveLess i j
      · have hn : ¬ o.Before i j := by rw [← c.exLess_iff]; simp [h1]
        have hn1 : ¬ ((∀ y, o.Mem y i → y < x) ∧ (∀ y, o.Mem y j → x < y)) := by
          rintro ⟨h2, h3⟩
          exact hn fun u v hu hv => (h2 u hu).trans (h3 v hv)
        simp only [hn1, false_or]
        cases h2 : o.exclusiveLess j i
        · rw [c.compl_overlap i j h1 h2]
          have hn : ¬ o.Before j i := by rw [← c.exLess_iff]; simp [h2]
          simp only [h0, false_iff]
          rintro ⟨h2, h3⟩
          exact hn fun u v hu hv => (h2 u hu).trans (h3 v hv)
        · rw [c.compl_right i j x h h1 h2, keyU j hj', keyL i hi']
      · rw [c.compl_left i j x h h1, keyU i hi', keyL j hj']
        constructor
        · intro h; exact Or.inl h
        · rintro (h | h)
          · exact h
          · have hab := (c.exLess_iff i j).1 h1 a b ha hb
            have := h.1 b hb
            have := h.2 a ha
            order
    · rw [c.compl_empty i j h]
      simp only [h0, false_iff]
      rintro ⟨⟨a, ha⟩, ⟨b, hb⟩, -⟩
      rw [Bool.or_eq_true, c.isEmpty_iff', c.isEmpty_iff'] at h
      rcases h with h | h
      · exact h a ha
      · exact h b hb
  not_mem_empty := (c.isEmpty_iff' _).1 c.empty

end CutModel

/-- Description of an interval class by its cuts for all operands, empty ones included (proof device). -/
structure FullCuts (o : IntervalOps D I) extends CutModel o where
  lowerLess' : ∀ i j, o.lowerLess i j = true ↔ ∃ x, Lo i x ∧ ¬ Lo j x
  upperLess' : ∀ i j, o.upperLess i j = true ↔ ∃ x, Up j x ∧ ¬ Up i x
  lowerEqual' : ∀ i j, o.lowerEqual i j = true ↔ ∀ x, Lo i x ↔ Lo j x
  upperEqual' : ∀ i j, o.upperEqual i j = true ↔ ∀ x, Up i x ↔ Up j x
  touches' : ∀ i j, o.touches i j = true ↔ ∀ x, Up i x ↔ ¬ Lo j x

/-- A class described by its cuts, with all functions right for all operands (proof device). -/
def CutModel.full {o : IntervalOps D I} (c : CutModel o)
    (lowerLess' : ∀ i j, o.lowerLess i j = true ↔ ∃ x, c.Lo i x ∧ ¬ c.Lo j x)
    (upperLess' : ∀ i j, o.upperLess i j = true ↔ ∃ x, c.Up j x ∧ ¬ c.Up i x)
    (lowerEqual' : ∀ i j, o.lowerEqual i j = true ↔ ∀ x, c.Lo i x ↔ c.Lo j x)
    (upperEqual' : ∀ i j, o.upperEqual i j = true ↔ ∀ x, c.Up i x ↔ c.Up j x)
    (touches' : ∀ i j, o.touches i j = true ↔ ∀ x, c.Up i x ↔ ¬ c.Lo j x) : FullCuts o :=
  { c with lowerLess', upperLess', lowerEqual', upperEqual', touches' }

namespace FullCuts
variable {o : IntervalOps D I} (c : FullCuts o)
include c

theorem containsI_full (i j : I) : o.containsI i j = true ↔ ∀ x, o.Mem x j → o.Mem x i := by
  rcases c.isEmpty_or i with hi | hi
  · unfold containsI
    rcases c.isEmpty_or j with hj | hj
    · simp only [hj, Bool.true_or, true_iff]
      intro x hx; exact absurd hx ((c.isEmpty_iff' j).1 hj x)
    · obtain ⟨b, hb⟩ := hj
      have hj' := (c.nonempty_iff j).1 ⟨b, hb⟩
      have hn : ¬ ∀ x, o.Mem x j → o.Mem x i := fun h => (c.isEmpty_iff' i).1 hi b (h b hb)
      simp only [hj', Bool.false_or, Bool.and_eq_true, hn, iff_false, not_and]
      intro h1 h2
      apply hn
      rw [c.subset_iff i j ⟨b, hb⟩]
      unfold lowerLessEqual at h1
      unfold upperLessEqual at h2
      rw [Bool.or_eq_true, c.lowerLess', c.lowerEqual'] at h1
      rw [Bool.or_eq_true, c.upperLess', c.upperEqual'] at h2
      constructor
      · intro x hx
        rcases h1 with ⟨y, h3, h4⟩ | h
        · by_contra hc
          rcases le_total x y with h | h
          · exact h4 (c.lo_mono _ _ _ hx h)
          · exact hc (c.lo_mono _ _ _ h3 h)
        · exact (h x).2 hx
      · intro x hx
        rcases h2 with ⟨y, h3, h4⟩ | h
        · by_contra hc
          rcases le_total x y with h | h
          · exact hc (c.up_mono _ _ _ h3 h)
          · exact h4 (c.up_mono _ _ _ hx h)
        · exact (h x).1 hx
  · exact c.lawful.containsI_iff i j hi

theorem eq_full (i j : I) : o.eq i j = true ↔ ∀ x, o.Mem x i ↔ o.Mem x j := by
  rcases c.isEmpty_or j with hj | hj
  · unfold eq
    rw [Bool.or_eq_true, Bool.and_eq_true, Bool.and_eq_true, c.lowerEqual', c.upperEqual']
    rcases c.isEmpty_or i with hi | hi
    · simp only [hi, hj, and_self, true_or, true_iff]
      intro x
      rw [c.isEmpty_iff'] at hi hj
      simp [hi, hj]
    · constructor
      · rintro (h | h)
        · rw [c.nonempty_iff] at hi; simp [hi] at h
        · intro x; rw [c.mem, c.mem, h.1, h.2]
      · intro h
        obtain ⟨a, ha⟩ := hi
        exact absurd ((h a).1 ha) ((c.isEmpty_iff' j).1 hj a)
  · rcases c.isEmpty_or i with hi | hi
    · unfold eq
      rw [Bool.or_eq_true, Bool.and_eq_true, Bool.and_eq_true, c.lowerEqual', c.upperEqual']
      constructor
      · rintro (h | h)
        · rw [c.nonempty_iff] at hj; simp [hj] at h
        · intro x; rw [c.mem, c.mem, h.1, h.2]
      · intro h
        obtain ⟨a, ha⟩ := hj
        exact absurd ((h a).2 ha) ((c.isEmpty_iff' i).1 hi a)
    · exact c.lawful.eq_iff i j hi hj

theorem touches_full (i j : I) (hi : o.Nonempty i) (hj : o.Nonempty j) :
    o.touches i j = true ↔ o.Before i j ∧
      ¬ ∃ z, (∀ x, o.Mem x i → x < z) ∧ (∀ y, o.Mem y j → z < y) := by
  by_cases hb : o.Before i j
  · rw [c.lawful.touches_iff i j hi hj hb]; simp [hb]
  · simp only [hb, false_and, iff_false, c.touches']
    intro h
    exact hb ((c.before_iff i j hi hj).2 fun x hx => ((h x).1 hx.2) hx.1)

theorem fullyLawful : o.FullyLawful :=
  { c.lawful with
    containsI_full := c.containsI_full
    eq_full := c.eq_full
    touches_full := c.touches_full }

end FullCuts
end IntervalOps
end ICL
