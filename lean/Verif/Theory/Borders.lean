import Verif.BorderSpec
import Verif.Theory.Observe
import Verif.Theory.SetHistory
import Mathlib.Data.List.Perm.Subperm

/-!
# Where the borders of a segment come from

An interval *respects* the intervals `K` if it has no element outside their extent and does not separate two
values that no border of an interval of `K` separates. Such an interval has its borders from `K`.
-/

set_option linter.unusedSectionVars false
set_option linter.unusedVariables false

namespace ICL

variable {D I V S : Type} [LinearOrder D] {o : IntervalOps D I} {g : SegOps I V S}

theorem Btw.trans_left {x y z w : D} (hz : Btw x y z) (hw : Btw x z w) : Btw x y w := by
  unfold Btw at *
  rcases le_total x y with h1 | h1 <;> rcases le_total x z with h2 | h2 <;>
    simp only [min_eq_left, min_eq_right, max_eq_left, max_eq_right, h1, h2] at * <;>
    constructor <;> order

theorem togI_btw {k : I} {x y z : D} (ht : TogI o k x y) (hz : Btw x y z) : TogI o k x z :=
  fun w hw => ht w (hz.trans_left hw)

theorem tog_btw {K : List I} {x y z : D} (ht : Tog o K x y) (hz : Btw x y z) : Tog o K x z :=
  fun s hs => togI_btw (ht s hs) hz

theorem tog_symm {K : List I} {x y : D} (ht : Tog o K x y) : Tog o K y x :=
  fun s hs z hz => (ht s hs z hz.symm).trans (ht s hs y (btw_right x y)).symm

/-- `x` lies in the extent of `K`. -/
def Spanned (o : IntervalOps D I) (K : List I) (x : D) : Prop :=
  ∃ a b, Dom o setSeg K a ∧ Dom o setSeg K b ∧ a ≤ x ∧ x ≤ b

structure Respects (o : IntervalOps D I) (K : List I) (k : I) : Prop where
  span : ∀ x, o.Mem x k → Spanned o K x
  step : ∀ x y, Tog o K x y → o.Mem x k → o.Mem y k

/-- All segments respect `K`. -/
def Fits (o : IntervalOps D I) (g : SegOps I V S) (K : List I) (l : List S) : Prop :=
  ∀ s ∈ l, Respects o K (g.key s)

theorem Respects.iff {K : List I} {k : I} (hk : Respects o K k) {x y : D} (ht : Tog o K x y) :
    o.Mem x k ↔ o.Mem y k := ⟨hk.step x y ht, hk.step y x (tog_symm ht)⟩

theorem Respects.togI {K : List I} {k : I} (hk : Respects o K k) {x y : D} (ht : Tog o K x y) :
    TogI o k x y := fun z hz => (hk.iff (tog_btw ht hz)).symm

theorem Fits.tog {K l : List I} (hl : Fits o setSeg K l) {x y : D} (ht : Tog o K x y) : Tog o l x y :=
  fun s hs => (hl s hs).togI ht

theorem Fits.same {K : List I} {l : List S} (hl : Fits o g K l) {x y : D} (ht : Tog o K x y)
    (hx : Dom o g l x) : Same o g l x y := by
  obtain ⟨s, hs, hx⟩ := hx
  exact ⟨s, hs, hx, (hl s hs).step x y ht hx⟩

theorem Fits.dom {K : List I} {l : List S} (hl : Fits o g K l) {x y : D} (ht : Tog o K x y)
    (hx : Dom o g l x) : Dom o g l y := (hl.same ht hx).right

theorem Fits.span {K : List I} {l : List S} (hl : Fits o g K l) {x : D} (hx : Dom o g l x) : Spanned o K x := by
  obtain ⟨s, hs, hx⟩ := hx
  exact (hl s hs).span x hx

theorem Fits.spanned {K l : List I} (hl : Fits o setSeg K l) {x : D} (hx : Spanned o l x) : Spanned o K x := by
  obtain ⟨a, b, ha, hb, h1, h2⟩ := hx
  obtain ⟨a', _, ha', _, h3, _⟩ := hl.span ha
  obtain ⟨_, b', _, hb', _, h4⟩ := hl.span hb
  exact ⟨a', b', ha', hb', h3.trans h1, h2.trans h4⟩

theorem fits_nil {K : List I} : Fits o g K ([] : List S) := by simp [Fits]

theorem fits_cons {K : List I} {s : S} {l : List S} :
    Fits o g K (s :: l) ↔ Respects o K (g.key s) ∧ Fits o g K l := by simp [Fits]

theorem fits_append {K : List I} {a b : List S} : Fits o g K (a ++ b) ↔ Fits o g K a ∧ Fits o g K b := by
  simp only [Fits, List.mem_append, or_imp, forall_and]

theorem Fits.sublist {K : List I} {a b : List S} (hb : Fits o g K b) (hs : a.Sublist b) : Fits o g K a :=
  fun s h => hb s (hs.subset h)

theorem fits_keys {K : List I} {l : List (I × V)} : Fits o setSeg K (l.map Prod.fst) ↔ Fits o mapSeg K l := by
  simp [Fits]

theorem respects_of_mem {K : List I} {k : I} (hk : k ∈ K) : Respects o K k :=
  ⟨fun x hx => ⟨x, x, ⟨k, hk, hx⟩, ⟨k, hk, hx⟩, le_refl _, le_refl _⟩,
    fun x y ht hx => (ht k hk y (btw_right x y)).2 hx⟩

theorem fits_of_subset {K l : List I} (hl : ∀ s ∈ l, s ∈ K) : Fits o setSeg K l :=
  fun s hs => respects_of_mem (hl s hs)

theorem fits_of_keys {K : List I} {l : List (I × V)} (hl : ∀ s ∈ l, s.1 ∈ K) : Fits o mapSeg K l :=
  fun s hs => respects_of_mem (hl s hs)

theorem Respects.congr {K : List I} {k k' : I} (hk : Respects o K k) (he : ∀ x, o.Mem x k' ↔ o.Mem x k) :
    Respects o K k' :=
  ⟨fun x hx => hk.span x ((he x).1 hx), fun x y ht hx => (he y).2 (hk.step x y ht ((he x).1 hx))⟩

section
variable (h : o.Lawful)
include h

theorem Respects.inter {K : List I} {i j : I} (hi : Respects o K i) (hj : Respects o K j) :
    Respects o K (o.inter i j) := by
  refine ⟨fun x hx => hi.span x ((h.mem_inter _ _ _).1 hx).1, fun x y ht hx => ?_⟩
  rw [h.mem_inter] at hx ⊢
  exact ⟨hi.step x y ht hx.1, hj.step x y ht hx.2⟩

/-- Values that no border separates are on the same side of an interval. -/
theorem Respects.below {K : List I} {j : I} (hj : Respects o K j) {x y : D} (ht : Tog o K x y)
    (hx : ∀ z, o.Mem z j → x < z) : ∀ z, o.Mem z j → y < z := by
  intro z hz
  by_contra hc
  have hzy : z ≤ y := not_lt.1 hc
  have hxz := hx z hz
  have hb : Btw x y z := (btw_iff_of_le (hxz.le.trans hzy)).2 ⟨hxz.le, hzy⟩
  exact lt_irrefl _ (hx x ((hj.iff (tog_btw ht hb)).2 hz))

theorem Respects.above {K : List I} {j : I} (hj : Respects o K j) {x y : D} (ht : Tog o K x y)
    (hx : ∀ z, o.Mem z j → z < x) : ∀ z, o.Mem z j → z < y := by
  intro z hz
  by_contra hc
  have hzy : y ≤ z := not_lt.1 hc
  have hxz := hx z hz
  have hb : Btw x y z := ((btw_iff_of_le (hzy.trans hxz.le)).2 ⟨hzy, hxz.le⟩).symm
  exact lt_irrefl _ (hx x ((hj.iff (tog_btw ht hb)).2 hz))

theorem Respects.rightSubtract {K : List I} {i j : I} (hi : Respects o K i) (hj : Respects o K j) :
    Respects o K (o.rightSubtract i j) := by
  refine ⟨fun x hx => hi.span x ((h.mem_rightSubtract _ _ _).1 hx).1, fun x y ht hx => ?_⟩
  rw [h.mem_rightSubtract] at hx ⊢
  exact ⟨hi.step x y ht hx.1, hj.below h ht hx.2⟩

theorem Respects.leftSubtract {K : List I} {i j : I} (hi : Respects o K i) (hj : Respects o K j) :
    Respects o K (o.leftSubtract i j) := by
  refine ⟨fun x hx => hi.span x ((h.mem_leftSubtract _ _ _).1 hx).1, fun x y ht hx => ?_⟩
  rw [h.mem_leftSubtract] at hx ⊢
  exact ⟨hi.step x y ht hx.1, hj.above h ht hx.2⟩

theorem Respects.innerComplement {K : List I} {i j : I} (hi : Respects o K i) (hj : Respects o K j) :
    Respects o K (o.innerComplement i j) := by
  constructor
  · intro x hx
    rw [h.mem_innerComplement] at hx
    obtain ⟨⟨a, ha⟩, ⟨b, hb⟩, ⟨h1, h2⟩ | ⟨h1, h2⟩⟩ := hx
    · obtain ⟨a', _, ha', _, h3, _⟩ := hi.span a ha
      obtain ⟨_, b', _, hb', _, h4⟩ := hj.span b hb
      exact ⟨a', b', ha', hb', h3.trans (h1 a ha).le, (h2 b hb).le.trans h4⟩
    · obtain ⟨_, a', _, ha', _, h3⟩ := hi.span a ha
      obtain ⟨b', _, hb', _, h4, _⟩ := hj.span b hb
      exact ⟨b', a', hb', ha', h4.trans (h1 b hb).le, (h2 a ha).le.trans h3⟩
  · intro x y ht hx
    rw [h.mem_innerComplement] at hx ⊢
    obtain ⟨ha, hb, ⟨h1, h2⟩ | ⟨h1, h2⟩⟩ := hx
    · exact ⟨ha, hb, Or.inl ⟨hi.above h ht h1, hj.below h ht h2⟩⟩
    · exact ⟨ha, hb, Or.inr ⟨hj.above h ht h1, hi.below h ht h2⟩⟩

theorem fits_gaps {K : List I} : ∀ {l : List I}, Fits o setSeg K l → Fits o setSeg K (ISet.gaps o l)
  | [], _ => by simp [ISet.gaps, Fits]
  | [s], _ => by simp [ISet.gaps, Fits]
  | s :: t :: l, hl => by
    rw [fits_cons] at hl
    simp only [ISet.gaps]
    rw [fits_cons]
    exact ⟨hl.1.innerComplement h (fits_cons.1 hl.2).1, fits_gaps hl.2⟩

/-- A sequence whose segments do not separate what no border of `K` separates. -/
theorem fits_of_same {K : List I} {l : List S} (hl : WF o g l) (hd : ∀ x, Dom o g l x → Spanned o K x)
    (hs : ∀ x y, Tog o K x y → Dom o g l x → Same o g l x y) : Fits o g K l := by
  intro s hs'
  refine ⟨fun x hx => hd x ⟨s, hs', hx⟩, fun x y ht hx => ?_⟩
  obtain ⟨t, ht', h1, h2⟩ := hs x y ht ⟨s, hs', hx⟩
  rw [hl.unique hs' ht' hx h1]; exact h2

theorem fits_of_joined [DecidableEq V] {K : List I} {l : List S} (hl : WF o g l) (hj : Joined o g l)
    (hd : ∀ x, Dom o g l x → Spanned o K x)
    (hs : ∀ x y v, Tog o K x y → Maps o g l x v → Maps o g l y v) : Fits o g K l := by
  refine fits_of_same h hl hd fun x y ht hx => ?_
  rw [joined_iff h hl] at hj
  obtain ⟨v, hv⟩ := dom_iff.1 hx
  rcases le_total x y with hxy | hxy
  · exact hj x y v hxy fun z h1 h2 => hs x z v (tog_btw ht ((btw_iff_of_le hxy).2 ⟨h1, h2⟩)) hv
  · refine (hj y x v hxy fun z h1 h2 => hs x z v (tog_btw ht ((btw_iff_of_le hxy).2 ⟨h1, h2⟩).symm) hv).symm

/-- As above for sets. -/
theorem fits_of_joined_set {K : List I} {l : List I} (hl : WF o setSeg l) (hj : Joined o setSeg l)
    (hd : ∀ x, Dom o setSeg l x → Spanned o K x)
    (hs : ∀ x y, Tog o K x y → Dom o setSeg l x → Dom o setSeg l y) : Fits o setSeg K l :=
  fits_of_joined h hl hj hd fun x y v ht hx => (setMaps_iff h).2 (hs x y ht hx.dom)

/-! ### The borders -/

omit h in
theorem exists_above {L : List (Set D)} {C : Set D} (hL : ∀ c ∈ L, ∃ x ∈ C, x ∉ c)
    (hd : ∀ c ∈ L, IsLowerSet c) {P : D → Prop} {x0 : D} (hx0 : x0 ∈ C ∧ P x0)
    (hP : ∀ x ∈ C, ∃ y ∈ C, x ≤ y ∧ P y) : ∃ x ∈ C, P x ∧ ∀ c ∈ L, x ∉ c := by
  induction L with
  | nil => exact ⟨x0, hx0.1, hx0.2, by simp⟩
  | cons c L ih =>
    obtain ⟨x, hx, hpx, h1⟩ := ih (fun c hc => hL c (by simp [hc])) (fun c hc => hd c (by simp [hc]))
    obtain ⟨y, hy, hyc⟩ := hL c (by simp)
    obtain ⟨y', hy', hyy, hpy⟩ := hP y hy
    have hyc' : y' ∉ c := fun hc => hyc (hd c (by simp) hyy hc)
    rcases le_total x y' with hxy | hxy
    · refine ⟨y', hy', hpy, fun d hdm => ?_⟩
      rcases List.mem_cons.1 hdm with rfl | hdm
      · exact hyc'
      · exact fun hc => h1 d hdm (hd d (by simp [hdm]) hxy hc)
    · refine ⟨x, hx, hpx, fun d hdm => ?_⟩
      rcases List.mem_cons.1 hdm with rfl | hdm
      · exact fun hc => hyc' (hd d (by simp) hxy hc)
      · exact h1 d hdm

omit h in
theorem exists_below {L : List (Set D)} {C : Set D} (hL : ∀ c ∈ L, ∃ x ∈ c, x ∉ C)
    (hd : ∀ c ∈ L, IsLowerSet c) {P : D → Prop} {x0 : D} (hx0 : x0 ∉ C ∧ P x0)
    (hP : ∀ x, x ∉ C → ∃ y, y ∉ C ∧ y ≤ x ∧ P y) : ∃ x, x ∉ C ∧ P x ∧ ∀ c ∈ L, x ∈ c := by
  induction L with
  | nil => exact ⟨x0, hx0.1, hx0.2, by simp⟩
  | cons c L ih =>
    obtain ⟨x, hx, hpx, h1⟩ := ih (fun c hc => hL c (by simp [hc])) (fun c hc => hd c (by simp [hc]))
    obtain ⟨y, hyc, hy⟩ := hL c (by simp)
    obtain ⟨y', hy', hyy, hpy⟩ := hP y hy
    have hyc' : y' ∈ c := hd c (by simp) hyy hyc
    rcases le_total x y' with hxy | hxy
    · refine ⟨x, hx, hpx, fun d hdm => ?_⟩
      rcases List.mem_cons.1 hdm with rfl | hdm
      · exact hd d (by simp) hxy hyc'
      · exact h1 d hdm
    · refine ⟨y', hy', hpy, fun d hdm => ?_⟩
      rcases List.mem_cons.1 hdm with rfl | hdm
      · exact hyc'
      · exact hd d (by simp [hdm]) hxy (h1 d hdm)

end

open Spec Classical

theorem isLowerSet_lower (i : I) : IsLowerSet (LowerBorder o i) :=
  fun _ _ hba ha y hy => lt_of_le_of_lt hba (ha y hy)

theorem isLowerSet_upper (i : I) : IsLowerSet (UpperBorder o i) :=
  fun _ _ hba ⟨y, hy, hay⟩ => ⟨y, hy, hba.trans hay⟩

/-- The borders as a list. -/
noncomputable def borderList (o : IntervalOps D I) (K : List I) : List (Set D) :=
  (K.filter fun i => decide (∃ x, In o x i)).flatMap fun i => [LowerBorder o i, UpperBorder o i]

theorem mem_borderList {K : List I} {c : Set D} : c ∈ borderList o K ↔ c ∈ Borders o K := by
  simp only [borderList, Borders, List.mem_flatMap, List.mem_filter, decide_eq_true_iff, List.mem_cons,
    List.not_mem_nil, or_false, Set.mem_ofPred_eq, and_assoc]

theorem isLowerSet_border {K : List I} {c : Set D} (hc : c ∈ Borders o K) : IsLowerSet c := by
  obtain ⟨i, _, _, rfl | rfl⟩ := hc
  · exact isLowerSet_lower i
  · exact isLowerSet_upper i

theorem mem_of_borders (h : o.Lawful) {i : I} {x : D} :
    o.Mem x i ↔ x ∉ LowerBorder o i ∧ x ∈ UpperBorder o i := by
  constructor
  · intro hx
    exact ⟨fun hc => lt_irrefl _ (hc x hx), x, hx, le_refl _⟩
  · rintro ⟨h1, y, hy, hxy⟩
    simp only [LowerBorder, Set.mem_ofPred_eq, not_forall, not_lt] at h1
    obtain ⟨z, hz, hzx⟩ := h1
    exact h.convex i z x y hz hy hzx hxy

theorem tog_of_borders (h : o.Lawful) {K : List I} {x y : D} (hb : ∀ c ∈ Borders o K, x ∈ c ↔ y ∈ c) :
    Tog o K x y := by
  intro i hi z hz
  have hzc : ∀ c ∈ Borders o K, z ∈ c ↔ x ∈ c := by
    intro c hc
    have hl := isLowerSet_border hc
    have := hb c hc
    rcases le_total x y with hxy | hxy
    · rw [btw_iff_of_le hxy] at hz
      exact ⟨fun hzc => hl hz.1 hzc, fun hxc => hl hz.2 (this.1 hxc)⟩
    · have hz := (btw_iff_of_le hxy).1 hz.symm
      exact ⟨fun hzc => this.2 (hl hz.1 hzc), fun hxc => hl hz.2 hxc⟩
  by_cases hn : ∃ x, In o x i
  · have h1 := hzc _ ⟨i, hi, hn, Or.inl rfl⟩
    have h2 := hzc _ ⟨i, hi, hn, Or.inr rfl⟩
    rw [mem_of_borders h, mem_of_borders h, h1, h2]
  · exact iff_of_false (fun hc => hn ⟨z, hc⟩) (fun hc => hn ⟨x, hc⟩)

theorem lowerSet_total {a b : Set D} (ha : IsLowerSet a) (hb : IsLowerSet b) (hn : a ≠ b) :
    (∃ x ∈ a, x ∉ b) ∧ (∀ x ∈ b, x ∈ a) ∨ (∃ x ∈ b, x ∉ a) ∧ (∀ x ∈ a, x ∈ b) := by
  by_cases h1 : ∃ x ∈ a, x ∉ b
  · left
    refine ⟨h1, fun y hy => ?_⟩
    obtain ⟨x, hx, hxb⟩ := h1
    rcases le_total x y with h2 | h2
    · exact absurd (hb h2 hy) hxb
    · exact ha h2 hx
  · right
    push Not at h1
    refine ⟨?_, h1⟩
    by_contra hc
    push Not at hc
    exact hn (Set.ext fun x => ⟨h1 x, hc x⟩)

/-- An interval that respects `K` has its borders from `K`. -/
theorem Respects.borders (h : o.Lawful) {K : List I} {k : I} (hk : Respects o K k) (hne : ∃ x, In o x k) :
    LowerBorder o k ∈ Borders o K ∧ UpperBorder o k ∈ Borders o K := by
  obtain ⟨e, he⟩ := hne
  have heU : e ∈ UpperBorder o k := ⟨e, he, le_refl _⟩
  have heL : e ∉ LowerBorder o k := fun hc => lt_irrefl _ (hc e he)
  constructor
  · by_contra hn
    have hL := isLowerSet_lower (o := o) k
    -- an element of the interval below all greater borders
    obtain ⟨y, hy, hyk, hyc⟩ := exists_below (L := (borderList o K).filter fun c => decide (∃ x ∈ c, x ∉ LowerBorder o k))
      (C := LowerBorder o k) (P := fun y => o.Mem y k) (x0 := e)
      (by intro c hc; simpa using (List.mem_filter.1 hc).2)
      (by intro c hc; exact isLowerSet_border (mem_borderList.1 (List.mem_filter.1 hc).1))
      ⟨heL, he⟩
      (by
        intro x hx
        simp only [LowerBorder, Set.mem_ofPred_eq, not_forall, not_lt] at hx
        obtain ⟨z, hz, hzx⟩ := hx
        exact ⟨z, fun hc => lt_irrefl _ (hc z hz), hzx, hz⟩)
    by_cases hb : ∃ x, x ∈ LowerBorder o k
    · obtain ⟨x0, hx0⟩ := hb
      obtain ⟨x, hx, _, hxc⟩ := exists_above (L := (borderList o K).filter fun c => decide (∃ x ∈ LowerBorder o k, x ∉ c))
        (C := LowerBorder o k) (P := fun _ => True) (x0 := x0)
        (by intro c hc; simpa using (List.mem_filter.1 hc).2)
        (by intro c hc; exact isLowerSet_border (mem_borderList.1 (List.mem_filter.1 hc).1))
        ⟨hx0, trivial⟩ (fun x hx => ⟨x, hx, le_refl _, trivial⟩)
      have ht : Tog o K y x := by
        refine tog_of_borders h fun c hc => ?_
        have hcl := isLowerSet_border hc
        have hne : LowerBorder o k ≠ c := fun hc' => hn (hc' ▸ hc)
        rcases lowerSet_total hL hcl hne with ⟨h1, h2⟩ | ⟨h1, h2⟩
        · have := hxc c (by simp only [List.mem_filter, mem_borderList, decide_eq_true_iff]; exact ⟨hc, h1⟩)
          exact iff_of_false (fun h3 => hy (h2 y h3)) this
        · have := hyc c (by simp only [List.mem_filter, mem_borderList, decide_eq_true_iff]; exact ⟨hc, h1⟩)
          exact iff_of_true this (h2 x hx)
      exact lt_irrefl _ (hx x (hk.step y x ht hyk))
    · push Not at hb
      obtain ⟨a, _, ⟨i, hi, hai⟩, _, h1, _⟩ := hk.span y hyk
      have hbi : LowerBorder o i ∈ Borders o K := ⟨i, hi, ⟨a, hai⟩, Or.inl rfl⟩
      have hne : LowerBorder o k ≠ LowerBorder o i := fun hc' => hn (hc' ▸ hbi)
      rcases lowerSet_total hL (isLowerSet_lower i) hne with ⟨⟨z, hz, _⟩, _⟩ | ⟨h2, _⟩
      · exact hb z hz
      · have := hyc _ (by simp only [List.mem_filter, mem_borderList, decide_eq_true_iff]; exact ⟨hbi, h2⟩)
        exact absurd (this a hai) (not_lt.2 h1)
  · by_contra hn
    have hU := isLowerSet_upper (o := o) k
    obtain ⟨x, hx, hxk, hxc⟩ := exists_above (L := (borderList o K).filter fun c => decide (∃ x ∈ UpperBorder o k, x ∉ c))
      (C := UpperBorder o k) (P := fun y => o.Mem y k) (x0 := e)
      (by intro c hc; simpa using (List.mem_filter.1 hc).2)
      (by intro c hc; exact isLowerSet_border (mem_borderList.1 (List.mem_filter.1 hc).1))
      ⟨heU, he⟩
      (by
        rintro x ⟨z, hz, hxz⟩
        exact ⟨z, ⟨z, hz, le_refl _⟩, hxz, hz⟩)
    by_cases hb : ∃ y, y ∉ UpperBorder o k
    · obtain ⟨y0, hy0⟩ := hb
      obtain ⟨y, hy, _, hyc⟩ := exists_below (L := (borderList o K).filter fun c => decide (∃ x ∈ c, x ∉ UpperBorder o k))
        (C := UpperBorder o k) (P := fun _ => True) (x0 := y0)
        (by intro c hc; simpa using (List.mem_filter.1 hc).2)
        (by intro c hc; exact isLowerSet_border (mem_borderList.1 (List.mem_filter.1 hc).1))
        ⟨hy0, trivial⟩ (fun x hx => ⟨x, hx, le_refl _, trivial⟩)
      have ht : Tog o K x y := by
        refine tog_of_borders h fun c hc => ?_
        have hcl := isLowerSet_border hc
        have hne : UpperBorder o k ≠ c := fun hc' => hn (hc' ▸ hc)
        rcases lowerSet_total hU hcl hne with ⟨h1, h2⟩ | ⟨h1, h2⟩
        · have := hxc c (by simp only [List.mem_filter, mem_borderList, decide_eq_true_iff]; exact ⟨hc, h1⟩)
          exact iff_of_false this (fun h3 => hy (h2 y h3))
        · have := hyc c (by simp only [List.mem_filter, mem_borderList, decide_eq_true_iff]; exact ⟨hc, h1⟩)
          exact iff_of_true (h2 x hx) this
      exact hy ⟨y, hk.step x y ht hxk, le_refl _⟩
    · push Not at hb
      obtain ⟨_, b, _, ⟨i, hi, hbi⟩, _, h1⟩ := hk.span x hxk
      have hbd : UpperBorder o i ∈ Borders o K := ⟨i, hi, ⟨b, hbi⟩, Or.inr rfl⟩
      have hne : UpperBorder o k ≠ UpperBorder o i := fun hc' => hn (hc' ▸ hbd)
      rcases lowerSet_total hU (isLowerSet_upper i) hne with ⟨h2, _⟩ | ⟨⟨z, _, hz⟩, _⟩
      · have := hxc _ (by simp only [List.mem_filter, mem_borderList, decide_eq_true_iff]; exact ⟨hbd, h2⟩)
        exact this ⟨b, hbi, h1⟩
      · exact hz (hb z)

theorem Fits.borders (h : o.Lawful) {K l : List I} (hl : Fits o setSeg K l) : Borders o l ⊆ Borders o K := by
  rintro c ⟨i, hi, hn, hc⟩
  obtain ⟨h1, h2⟩ := (hl i hi).borders h hn
  rcases hc with rfl | rfl
  · exact h1
  · exact h2

/-! ### How many segments there can be -/

theorem card_borders_list {K : List I} : (borderList o K).length ≤ 2 * K.length := by
  unfold borderList
  rw [List.length_flatMap]
  have : ((K.filter fun i => decide (∃ x, In o x i)).map fun i =>
      [LowerBorder o i, UpperBorder o i].length).sum = 2 * (K.filter fun i => decide (∃ x, In o x i)).length := by
    simp [Nat.mul_comm]
  rw [this]
  have := List.length_filter_le (fun i => decide (∃ x, In o x i)) K
  omega

/-- The lower borders of the segments and the upper border of the last one ascend. -/
theorem wf_lower_pairwise {l : List I} (hl : WF o setSeg l) :
    (l.map (LowerBorder o)).Pairwise (· ⊂ ·) := by
  rw [List.pairwise_map]
  refine List.Pairwise.imp_of_mem ?_ hl.sorted
  intro s t hs ht hb
  obtain ⟨x, hx⟩ := hl.nonempty s hs
  constructor
  · intro z hz y hy
    exact lt_trans (hz x hx) (hb x y hx hy)
  · intro hc
    have : x ∈ LowerBorder o t := fun y hy => hb x y hx hy
    exact lt_irrefl _ (hc this x hx)

theorem length_le_of_borders (h : o.Lawful) {K l : List I} (hl : WF o setSeg l)
    (hb : Borders o l ⊆ Borders o K) : l = [] ∨ l.length + 1 ≤ 2 * K.length := by
  rcases List.eq_nil_or_concat l with rfl | ⟨a, t, rfl⟩
  · exact Or.inl rfl
  · right
    rw [List.concat_eq_append] at *
    set l := a ++ [t] with hldef
    have ht : t ∈ l := by simp [hldef]
    have hw := wf_append.1 hl
    have hnt : ∃ x, In o x t := hl.nonempty t ht
    have hnd : (UpperBorder o t :: l.map (LowerBorder o)).Nodup := by
      rw [List.nodup_cons]
      refine ⟨?_, (wf_lower_pairwise hl).imp fun hab => hab.ne⟩
      intro hc
      obtain ⟨s, hs, he⟩ := List.mem_map.1 hc
      obtain ⟨x, hx⟩ := hl.nonempty s hs
      obtain ⟨y, hy⟩ := hnt
      have hxU : x ∈ UpperBorder o t := by
        rcases List.mem_append.1 hs with hs | hs
        · exact ⟨y, hy, (hw.2.2 x y ⟨s, hs, hx⟩ ⟨t, by simp, hy⟩).le⟩
        · obtain rfl : s = t := by simpa using hs
          exact ⟨x, hx, le_refl _⟩
      rw [← he] at hxU
      exact lt_irrefl _ (hxU x hx)
    have hsub : (UpperBorder o t :: l.map (LowerBorder o)) ⊆ borderList o K := by
      intro c hc
      rw [mem_borderList]
      apply hb
      rcases List.mem_cons.1 hc with rfl | hc
      · exact ⟨t, ht, hnt, Or.inr rfl⟩
      · obtain ⟨s, hs, rfl⟩ := List.mem_map.1 hc
        exact ⟨s, hs, hl.nonempty s hs, Or.inl rfl⟩
    have := (List.subperm_of_subset hnd hsub).length_le
    have h2 := card_borders_list (o := o) (K := K)
    simp only [List.length_cons, List.length_map] at this
    omega

end ICL
