import Verif.Theory.SetHistory
import Verif.Model.SetExpr
import Mathlib.Order.UpperLower.CompleteLattice

/-!
# Denotations of expressions on interval sets

An expression over interval sets denotes its elements, and its segmentation.  The segmentation of
`separate_interval_set` is given by the cuts of the domain that are crossed by a segment.
-/

set_option linter.unusedSectionVars false
set_option linter.unusedVariables false

namespace ICL

variable {D I : Type} [LinearOrder D] {o : IntervalOps D I} [DecidableEq I]

/-- `p` yields a set with elements `P` and the segmentation `S`. -/
def Den (o : IntervalOps D I) (st : Style) (p : Option (List I)) (P : D → Prop) (S : D → D → Prop) : Prop :=
  ∃ l, p = some l ∧ Good o st l ∧ (∀ x, Dom o setSeg l x ↔ P x) ∧ ∀ x y, Same o setSeg l x y ↔ S x y

/-- The cut `C` is crossed by a segment of `l`. -/
def Cross (o : IntervalOps D I) (l : List I) (C : LowerSet D) : Prop :=
  ∃ u ∈ C, ∃ v ∉ C, Same o setSeg l u v

/-- `p` yields a set with elements `P`, crossing the cuts `X`. -/
def DenX (o : IntervalOps D I) (st : Style) (p : Option (List I)) (P : D → Prop) (X : LowerSet D → Prop) : Prop :=
  ∃ l, p = some l ∧ Good o st l ∧ (∀ x, Dom o setSeg l x ↔ P x) ∧ ∀ C, Cross o l C ↔ X C

/-- There are no elements of `Q` close to the cut `C`. -/
def Free (Q : D → Prop) (C : LowerSet D) : Prop :=
  ∃ u ∈ C, ∃ v ∉ C, ∀ z, u ≤ z → z ≤ v → ¬ Q z

/-- `a + b` -/
def plus (o : IntervalOps D I) (st : Style) (oracle : List I → I → Nat) (sw : Bool)
    (p q : Option (List I)) : Option (List I) :=
  p.bind fun a => q.bind fun b => if sw then ISet.addSet o st oracle b a else ISet.addSet o st oracle a b
/-- `a - b` -/
def minus (o : IntervalOps D I) (p q : Option (List I)) : Option (List I) :=
  p.bind fun a => q.bind fun b => ISet.subSet o a b
/-- `a & b` -/
def meet (o : IntervalOps D I) (st : Style) (oracle : List I → I → Nat) (sw : Bool)
    (p q : Option (List I)) : Option (List I) :=
  p.bind fun a => q.bind fun b => if sw then ISet.interSet o st oracle b a else ISet.interSet o st oracle a b
/-- `a ^ b` -/
def symd (o : IntervalOps D I) (st : Style) (oracle : List I → I → Nat) (sw : Bool)
    (p q : Option (List I)) : Option (List I) :=
  p.bind fun a => q.bind fun b => if sw then ISet.flipSet o st oracle b a else ISet.flipSet o st oracle a b

/-- Both expressions yield a result, and the results are equal (`operator ==`). -/
def Equal (o : IntervalOps D I) (p q : Option (List I)) : Prop :=
  ∃ s t, p = some s ∧ q = some t ∧ eqC o setSeg s t = true

/-- Both expressions yield a result, and the results have the same elements. -/
def ElemEqual (o : IntervalOps D I) (p q : Option (List I)) : Prop :=
  ∃ s t, p = some s ∧ q = some t ∧ ∀ x, Dom o setSeg s x ↔ Dom o setSeg t x

theorem lower_lt {C : LowerSet D} {u v : D} (hu : u ∈ C) (hv : v ∉ C) : u < v := by
  by_contra hc
  exact hv (C.lower (not_lt.1 hc) hu)

section
variable (h : o.Lawful)
include h

omit h [DecidableEq I] in
theorem cross_iff {l : List I} {C : LowerSet D} : Cross o l C ↔
    ∃ s ∈ l, ∃ u ∈ C, ∃ v ∉ C, o.Mem u s ∧ o.Mem v s := by
  constructor
  · rintro ⟨u, hu, v, hv, s, hs, h1, h2⟩; exact ⟨s, hs, u, hu, v, hv, h1, h2⟩
  · rintro ⟨s, hs, u, hu, v, hv, h1, h2⟩; exact ⟨u, hu, v, hv, s, hs, h1, h2⟩

/-- The segments of a set are determined by its elements and crossed cuts. -/
theorem same_iff_cross {l : List I} (hl : WF o setSeg l) {x y : D} (hxy : x ≤ y) :
    Same o setSeg l x y ↔ Dom o setSeg l x ∧ ∀ C : LowerSet D, x ∈ C → y ∉ C → Cross o l C := by
  constructor
  · intro hs
    exact ⟨hs.left, fun C hx hy => ⟨x, hx, y, hy, hs⟩⟩
  · rintro ⟨⟨s, hs, hx⟩, hc⟩
    by_contra hn
    -- the cut behind the segment of `x`
    let C : LowerSet D := ⟨{z | ∃ w, o.Mem w s ∧ z ≤ w}, by
      rintro a b hba ⟨w, hw, haw⟩; exact ⟨w, hw, le_trans hba haw⟩⟩
    have hxC : x ∈ C := ⟨x, hx, le_refl _⟩
    have hyC : y ∉ C := by
      rintro ⟨w, hw, hyw⟩
      exact hn ⟨s, hs, hx, h.convex s x y w hx hw hxy hyw⟩
    obtain ⟨u, ⟨w, hw, huw⟩, v, hv, t, ht, hut, hvt⟩ := hc C hxC hyC
    have hwv : w ≤ v := by
      by_contra hc
      exact hv ⟨w, hw, le_of_lt (not_le.1 hc)⟩
    have : o.Mem w t := h.convex t u w v hut hvt huw hwv
    have hst := hl.unique ht hs this hw
    rw [hst] at hvt
    exact hv ⟨v, hvt, le_refl _⟩

theorem equal_of_same {st : Style} {p q : Option (List I)} {P Q : D → Prop} {S R : D → D → Prop}
    (hp : Den o st p P S) (hq : Den o st q Q R) (h1 : ∀ x, P x ↔ Q x)
    (h2 : st = .joining ∨ ∀ x y, S x y ↔ R x y) : Equal o p q := by
  obtain ⟨l, rfl, hl, hP, hS⟩ := hp
  obtain ⟨r, rfl, hr, hQ, hR⟩ := hq
  refine ⟨l, r, rfl, rfl, ?_⟩
  have hm : ∀ x v, Maps o setSeg l x v ↔ Maps o setSeg r x v := by
    intro x v; rw [maps_unit, maps_unit, hP, hQ, h1]
  rcases h2 with rfl | h2
  · rw [eqC_joined h hl.1 hr.1 (hl.2 rfl) (hr.2 rfl)]
    exact hm
  · rw [eqC_spec h hl.1 hr.1]
    exact ⟨fun x y => by rw [hS, hR, h2], hm⟩

theorem equal_of_cross {st : Style} {p q : Option (List I)} {P Q : D → Prop} {X Y : LowerSet D → Prop}
    (hp : DenX o st p P X) (hq : DenX o st q Q Y) (h1 : ∀ x, P x ↔ Q x) (h2 : ∀ C, X C ↔ Y C) :
    Equal o p q := by
  obtain ⟨l, rfl, hl, hP, hX⟩ := hp
  obtain ⟨r, rfl, hr, hQ, hY⟩ := hq
  refine ⟨l, r, rfl, rfl, ?_⟩
  rw [eqC_spec h hl.1 hr.1]
  have key : ∀ x y, x ≤ y → (Same o setSeg l x y ↔ Same o setSeg r x y) := by
    intro x y hxy
    rw [same_iff_cross h hl.1 hxy, same_iff_cross h hr.1 hxy]
    simp only [hX, hY, hP, hQ, h1, h2]
  refine ⟨fun x y => ?_, fun x v => by rw [maps_unit, maps_unit, hP, hQ, h1]⟩
  rcases le_total x y with hxy | hxy
  · exact key x y hxy
  · exact ⟨fun hs => ((key y x hxy).1 hs.symm).symm, fun hs => ((key y x hxy).2 hs.symm).symm⟩

omit h in
theorem elemEqual_of {st : Style} {p q : Option (List I)} {P Q : D → Prop} {S R : D → D → Prop}
    (hp : Den o st p P S) (hq : Den o st q Q R) (h1 : ∀ x, P x ↔ Q x) : ElemEqual o p q := by
  obtain ⟨l, rfl, _, hP, _⟩ := hp
  obtain ⟨r, rfl, _, hQ, _⟩ := hq
  exact ⟨l, r, rfl, rfl, fun x => by rw [hP, hQ, h1]⟩

omit h in
theorem den_some {st : Style} {l : List I} (hl : Good o st l) :
    Den o st (some l) (Dom o setSeg l) (Same o setSeg l) :=
  ⟨l, rfl, hl, fun _ => Iff.rfl, fun _ _ => Iff.rfl⟩

omit h in
theorem denX_some {st : Style} {l : List I} (hl : Good o st l) :
    DenX o st (some l) (Dom o setSeg l) (Cross o l) :=
  ⟨l, rfl, hl, fun _ => Iff.rfl, fun _ => Iff.rfl⟩

omit h in
theorem Den.forget {st : Style} {p : Option (List I)} {P : D → Prop} {X : LowerSet D → Prop}
    (hp : DenX o st p P X) : ∃ S, Den o st p P S := by
  obtain ⟨l, rfl, hl, hP, _⟩ := hp
  exact ⟨_, l, rfl, hl, hP, fun _ _ => Iff.rfl⟩

/-! ### Addition -/

theorem den_plus_aux {st : Style} {oracle : List I → I → Nat} {p q : Option (List I)} {P Q : D → Prop}
    {S R : D → D → Prop} (hp : Den o st p P S) (hq : Den o st q Q R) :
    ∃ U, Den o st (plus o st oracle false p q) (fun x => P x ∨ Q x) U := by
  obtain ⟨l, rfl, hl, hP, hS⟩ := hp
  obtain ⟨r, rfl, hr, hQ, hR⟩ := hq
  obtain ⟨l', h1, h2⟩ := ISet.addSet_spec h st oracle hl.1 r
  refine ⟨_, l', h1, ⟨h2.wf, fun hj => h2.joined hj (hl.2 hj)⟩, fun x => ?_, fun _ _ => Iff.rfl⟩
  rw [h2.dom, hP, hQ]

/-- No border of a set with elements `P` and segments `S` is between `x` and `y`. -/
def Whole (P : D → Prop) (S : D → D → Prop) (x y : D) : Prop :=
  S x y ∨ ∀ z, Btw x y z → ¬ P z

theorem tog_iff_whole {l : List I} (hl : WF o setSeg l) {x y : D} :
    Tog o l x y ↔ Whole (Dom o setSeg l) (Same o setSeg l) x y := by
  unfold Whole
  by_cases hx : Dom o setSeg l x
  · rw [same_iff_tog h hl]
    constructor
    · exact fun ht => Or.inl ⟨ht, hx⟩
    · rintro (ht | ht)
      · exact ht.1
      · exact absurd hx (ht x (btw_left x y))
  · rw [tog_free hx]
    constructor
    · exact Or.inr
    · rintro (ht | ht)
      · exact absurd ht.left hx
      · exact ht

theorem den_plus_split_aux {oracle : List I → I → Nat} {p q : Option (List I)} {P Q : D → Prop}
    {S R : D → D → Prop} (hp : Den o .splitting p P S) (hq : Den o .splitting q Q R) :
    Den o .splitting (plus o .splitting oracle false p q) (fun x => P x ∨ Q x)
      (fun x y => Whole P S x y ∧ Whole Q R x y ∧ (P x ∨ Q x)) := by
  obtain ⟨l, rfl, hl, hP, hS⟩ := hp
  obtain ⟨r, rfl, hr, hQ, hR⟩ := hq
  obtain ⟨l', h1, h2⟩ := ISet.addSet_spec h .splitting oracle hl.1 r
  refine ⟨l', h1, ⟨h2.wf, fun hj => h2.joined hj (hl.2 hj)⟩, fun x => ?_, fun x y => ?_⟩
  · rw [h2.dom, hP, hQ]
  · rw [same_iff_tog h h2.wf, h2.splitting rfl, h2.dom, tog_iff_whole h hl.1, tog_iff_whole h hr.1]
    unfold Whole
    simp only [hP, hQ, hS, hR, and_assoc]

theorem denX_plus_aux {oracle : List I → I → Nat} {p q : Option (List I)} {P Q : D → Prop}
    {X Y : LowerSet D → Prop} (hp : DenX o .separating p P X) (hq : DenX o .separating q Q Y) :
    DenX o .separating (plus o .separating oracle false p q) (fun x => P x ∨ Q x) (fun C => X C ∨ Y C) := by
  obtain ⟨l, rfl, hl, hP, hX⟩ := hp
  obtain ⟨r, rfl, hr, hQ, hY⟩ := hq
  obtain ⟨l', h1, h2⟩ := ISet.addSet_spec h .separating oracle hl.1 r
  refine ⟨l', h1, ⟨h2.wf, fun hj => h2.joined hj (hl.2 hj)⟩, fun x => ?_, fun C => ?_⟩
  · rw [h2.dom, hP, hQ]
  · beta_reduce
    rw [← hX, ← hY]
    unfold Cross
    simp only [h2.separating rfl]
    constructor
    · rintro ⟨u, hu, v, hv, hl⟩
      have key : ∀ w, Linked o l r u w → (w ∉ C → (∃ u ∈ C, ∃ v ∉ C, Same o setSeg l u v) ∨
          ∃ u ∈ C, ∃ v ∉ C, Same o setSeg r u v) := by
        intro w hw
        induction hw with
        | single hs =>
          intro hw
          rcases hs with hs | hs
          · exact Or.inl ⟨u, hu, _, hw, hs⟩
          · exact Or.inr ⟨u, hu, _, hw, hs⟩
        | tail hpath hs ih =>
          rename_i b c
          intro hc
          by_cases hb : b ∈ C
          · rcases hs with hs | hs
            · exact Or.inl ⟨b, hb, c, hc, hs⟩
            · exact Or.inr ⟨b, hb, c, hc, hs⟩
          · exact ih hb
      exact key v hl hv
    · rintro (⟨u, hu, v, hv, hs⟩ | ⟨u, hu, v, hv, hs⟩)
      · exact ⟨u, hu, v, hv, .single (Or.inl hs)⟩
      · exact ⟨u, hu, v, hv, .single (Or.inr hs)⟩

/-! ### Difference -/

theorem den_minus {st : Style} {p q : Option (List I)} {P Q : D → Prop}
    {S R : D → D → Prop} (hp : Den o st p P S) (hq : Den o st q Q R) :
    Den o st (minus o p q) (fun x => P x ∧ ¬ Q x) (fun x y => S x y ∧ ∀ z, Btw x y z → ¬ Q z) := by
  obtain ⟨l, rfl, hl, hP, hS⟩ := hp
  obtain ⟨r, rfl, hr, hQ, hR⟩ := hq
  obtain ⟨l', h1, h2⟩ := ISet.subSet_spec h hl.1 hr.1
  refine ⟨l', h1, ⟨h2.wf, fun hj => h2.joined h hl.1 (hl.2 hj)⟩, fun x => ?_, fun x y => ?_⟩
  · rw [h2.dom, hP, hQ]
  · rw [h2.same]; simp only [hS, hQ]

/-- A crossed cut is crossed close to the cut. -/
theorem cross_narrow {l : List I} {C : LowerSet D} {s : I} (hs : s ∈ l) {u v u' v' : D} (hu : u ∈ C)
    (hv : v ∉ C) (hus : o.Mem u s) (hvs : o.Mem v s) (hu' : u' ∈ C) (hv' : v' ∉ C) :
    max u u' ∈ C ∧ min v v' ∉ C ∧ o.Mem (max u u') s ∧ o.Mem (min v v') s := by
  have h1 := lower_lt hu hv
  have h2 := lower_lt hu' hv
  have h3 := lower_lt hu hv'
  have h4 := lower_lt hu' hv'
  refine ⟨?_, ?_, ?_, ?_⟩
  · rcases max_choice u u' with e | e <;> rw [e] <;> assumption
  · rcases min_choice v v' with e | e <;> rw [e] <;> assumption
  · exact h.convex s u _ v hus hvs (le_max_left _ _) (max_le (le_of_lt h1) (le_of_lt h2))
  · exact h.convex s u _ v hus hvs (le_min (le_of_lt h1) (le_of_lt h3)) (min_le_left _ _)

theorem cross_free {l : List I} {C : LowerSet D} {Q : D → Prop} :
    (∃ u ∈ C, ∃ v ∉ C, Same o setSeg l u v ∧ ∀ z, Btw u v z → ¬ Q z) ↔ Cross o l C ∧ Free Q C := by
  constructor
  · rintro ⟨u, hu, v, hv, hs, hf⟩
    refine ⟨⟨u, hu, v, hv, hs⟩, u, hu, v, hv, fun z h1 h2 => hf z ?_⟩
    exact (btw_iff_of_le (le_of_lt (lower_lt hu hv))).2 ⟨h1, h2⟩
  · rintro ⟨⟨u, hu, v, hv, s, hs, hus, hvs⟩, u', hu', v', hv', hf⟩
    obtain ⟨h1, h2, h3, h4⟩ := cross_narrow h hs hu hv hus hvs hu' hv'
    refine ⟨_, h1, _, h2, ⟨s, hs, h3, h4⟩, fun z hz => ?_⟩
    rw [btw_iff_of_le (le_of_lt (lower_lt h1 h2))] at hz
    exact hf z (le_trans (le_max_right _ _) hz.1) (le_trans hz.2 (min_le_right _ _))

theorem denX_minus {st : Style} {p q : Option (List I)} {P Q : D → Prop}
    {X Y : LowerSet D → Prop} (hp : DenX o st p P X) (hq : DenX o st q Q Y) :
    DenX o st (minus o p q) (fun x => P x ∧ ¬ Q x) (fun C => X C ∧ Free Q C) := by
  obtain ⟨l, rfl, hl, hP, hX⟩ := hp
  obtain ⟨r, rfl, hr, hQ, hY⟩ := hq
  obtain ⟨l', h1, h2⟩ := ISet.subSet_spec h hl.1 hr.1
  refine ⟨l', h1, ⟨h2.wf, fun hj => h2.joined h hl.1 (hl.2 hj)⟩, fun x => ?_, fun C => ?_⟩
  · rw [h2.dom, hP, hQ]
  · beta_reduce
    rw [← hX, ← cross_free h]
    unfold Cross
    simp only [h2.same, hQ]

/-! ### Intersection -/

theorem den_meet_aux {st : Style} {oracle : List I → I → Nat} {p q : Option (List I)} {P Q : D → Prop}
    {S R : D → D → Prop} (hp : Den o st p P S) (hq : Den o st q Q R) :
    ∃ U, Den o st (meet o st oracle false p q) (fun x => P x ∧ Q x) U ∧
      (st ≠ .joining → ∀ x y, U x y ↔ S x y ∧ R x y) := by
  obtain ⟨l, rfl, hl, hP, hS⟩ := hp
  obtain ⟨r, rfl, hr, hQ, hR⟩ := hq
  obtain ⟨l', h1, h2⟩ := ISet.interSet_spec h st oracle hl.1 hr.1
  refine ⟨_, ⟨l', h1, ⟨h2.wf, h2.joined⟩, fun x => ?_, fun _ _ => Iff.rfl⟩, fun hst x y => ?_⟩
  · rw [h2.dom, hP, hQ]
  · rw [h2.same hst, hS, hR]

theorem denX_meet_aux {st : Style} (hst : st ≠ .joining) {oracle : List I → I → Nat} {p q : Option (List I)}
    {P Q : D → Prop} {X Y : LowerSet D → Prop} (hp : DenX o st p P X) (hq : DenX o st q Q Y) :
    DenX o st (meet o st oracle false p q) (fun x => P x ∧ Q x) (fun C => X C ∧ Y C) := by
  obtain ⟨l, rfl, hl, hP, hX⟩ := hp
  obtain ⟨r, rfl, hr, hQ, hY⟩ := hq
  obtain ⟨l', h1, h2⟩ := ISet.interSet_spec h st oracle hl.1 hr.1
  refine ⟨l', h1, ⟨h2.wf, h2.joined⟩, fun x => ?_, fun C => ?_⟩
  · rw [h2.dom, hP, hQ]
  · beta_reduce
    rw [← hX, ← hY]
    unfold Cross
    simp only [h2.same hst]
    constructor
    · rintro ⟨u, hu, v, hv, h3, h4⟩; exact ⟨⟨u, hu, v, hv, h3⟩, ⟨u, hu, v, hv, h4⟩⟩
    · rintro ⟨⟨u, hu, v, hv, s, hs, hus, hvs⟩, ⟨u', hu', v', hv', t, ht, hut, hvt⟩⟩
      obtain ⟨h1, h2, h3, h4⟩ := cross_narrow h hs hu hv hus hvs hu' hv'
      obtain ⟨_, _, h5, h6⟩ := cross_narrow h ht hu' hv' hut hvt hu hv
      rw [max_comm] at h5
      rw [min_comm] at h6
      exact ⟨_, h1, _, h2, ⟨s, hs, h3, h4⟩, ⟨t, ht, h5, h6⟩⟩

/-! ### Symmetric difference -/

theorem den_symd_aux {st : Style} {oracle : List I → I → Nat} {p q : Option (List I)} {P Q : D → Prop}
    {S R : D → D → Prop} (hp : Den o st p P S) (hq : Den o st q Q R) :
    ∃ U, Den o st (symd o st oracle false p q) (fun x => (P x ∧ ¬ Q x) ∨ (Q x ∧ ¬ P x)) U ∧
      (st ≠ .joining → ∀ x y, U x y ↔
        (S x y ∧ ∀ z, Btw x y z → ¬ Q z) ∨ (R x y ∧ ∀ z, Btw x y z → ¬ P z)) := by
  obtain ⟨l, rfl, hl, hP, hS⟩ := hp
  obtain ⟨r, rfl, hr, hQ, hR⟩ := hq
  obtain ⟨l', h1, h2⟩ := ISet.flipSet_spec h st oracle hl.1 hr.1
  refine ⟨_, ⟨l', h1, ⟨h2.wf, fun hj => h2.joined hj (hl.2 hj)⟩, fun x => ?_, fun _ _ => Iff.rfl⟩,
    fun hst x y => ?_⟩
  · rw [h2.dom, hP, hQ]
  · rw [h2.same hst]; simp only [hS, hR, hP, hQ]

theorem denX_symd_aux {st : Style} (hst : st ≠ .joining) {oracle : List I → I → Nat} {p q : Option (List I)}
    {P Q : D → Prop} {X Y : LowerSet D → Prop} (hp : DenX o st p P X) (hq : DenX o st q Q Y) :
    DenX o st (symd o st oracle false p q) (fun x => (P x ∧ ¬ Q x) ∨ (Q x ∧ ¬ P x))
      (fun C => (X C ∧ Free Q C) ∨ (Y C ∧ Free P C)) := by
  obtain ⟨l, rfl, hl, hP, hX⟩ := hp
  obtain ⟨r, rfl, hr, hQ, hY⟩ := hq
  obtain ⟨l', h1, h2⟩ := ISet.flipSet_spec h st oracle hl.1 hr.1
  refine ⟨l', h1, ⟨h2.wf, fun hj => h2.joined hj (hl.2 hj)⟩, fun x => ?_, fun C => ?_⟩
  · rw [h2.dom, hP, hQ]
  · beta_reduce
    rw [← hX, ← hY, ← cross_free h, ← cross_free h]
    unfold Cross
    simp only [h2.same hst, hP, hQ, and_or_left, exists_or]

omit h in
theorem Den.congr {st : Style} {p : Option (List I)} {P Q : D → Prop} {S R : D → D → Prop}
    (hp : Den o st p P S) (h1 : ∀ x, P x ↔ Q x) (h2 : ∀ x y, S x y ↔ R x y) : Den o st p Q R := by
  obtain ⟨l, rfl, hl, hP, hS⟩ := hp
  exact ⟨l, rfl, hl, fun x => (hP x).trans (h1 x), fun x y => (hS x y).trans (h2 x y)⟩

omit h in
theorem DenX.congr {st : Style} {p : Option (List I)} {P Q : D → Prop} {X Y : LowerSet D → Prop}
    (hp : DenX o st p P X) (h1 : ∀ x, P x ↔ Q x) (h2 : ∀ C, X C ↔ Y C) : DenX o st p Q Y := by
  obtain ⟨l, rfl, hl, hP, hX⟩ := hp
  exact ⟨l, rfl, hl, fun x => (hP x).trans (h1 x), fun C => (hX C).trans (h2 C)⟩

omit h [DecidableEq I] in
theorem bind_swap (p q : Option (List I)) (f : List I → List I → Option (List I)) :
    (p.bind fun a => q.bind fun b => f b a) = q.bind fun b => p.bind fun a => f b a := by
  cases p <;> cases q <;> rfl

omit h in
theorem plus_swap {st : Style} {oracle : List I → I → Nat} (p q : Option (List I)) :
    plus o st oracle true p q = plus o st oracle false q p := by
  simp only [plus, if_true, Bool.false_eq_true, if_false]; exact bind_swap _ _ _
omit h in
theorem meet_swap {st : Style} {oracle : List I → I → Nat} (p q : Option (List I)) :
    meet o st oracle true p q = meet o st oracle false q p := by
  simp only [meet, if_true, Bool.false_eq_true, if_false]; exact bind_swap _ _ _
omit h in
theorem symd_swap {st : Style} {oracle : List I → I → Nat} (p q : Option (List I)) :
    symd o st oracle true p q = symd o st oracle false q p := by
  simp only [symd, if_true, Bool.false_eq_true, if_false]; exact bind_swap _ _ _

theorem den_plus {st : Style} {oracle : List I → I → Nat} (sw : Bool) {p q : Option (List I)}
    {P Q : D → Prop} {S R : D → D → Prop} (hp : Den o st p P S) (hq : Den o st q Q R) :
    ∃ U, Den o st (plus o st oracle sw p q) (fun x => P x ∨ Q x) U := by
  cases sw
  · exact den_plus_aux h hp hq
  · rw [plus_swap]
    obtain ⟨U, hU⟩ := den_plus_aux h (oracle := oracle) hq hp
    exact ⟨U, hU.congr (fun _ => or_comm) fun _ _ => Iff.rfl⟩

theorem den_plus_split {oracle : List I → I → Nat} (sw : Bool) {p q : Option (List I)} {P Q : D → Prop}
    {S R : D → D → Prop} (hp : Den o .splitting p P S) (hq : Den o .splitting q Q R) :
    Den o .splitting (plus o .splitting oracle sw p q) (fun x => P x ∨ Q x)
      (fun x y => Whole P S x y ∧ Whole Q R x y ∧ (P x ∨ Q x)) := by
  cases sw
  · exact den_plus_split_aux h hp hq
  · rw [plus_swap]
    refine (den_plus_split_aux h hq hp).congr (fun _ => or_comm) fun _ _ => ?_
    rw [or_comm, ← and_assoc, ← and_assoc, and_comm (a := Whole Q R _ _)]

theorem denX_plus {oracle : List I → I → Nat} (sw : Bool) {p q : Option (List I)} {P Q : D → Prop}
    {X Y : LowerSet D → Prop} (hp : DenX o .separating p P X) (hq : DenX o .separating q Q Y) :
    DenX o .separating (plus o .separating oracle sw p q) (fun x => P x ∨ Q x) (fun C => X C ∨ Y C) := by
  cases sw
  · exact denX_plus_aux h hp hq
  · rw [plus_swap]
    exact (denX_plus_aux h hq hp).congr (fun _ => or_comm) fun _ => or_comm

theorem den_meet {st : Style} {oracle : List I → I → Nat} (sw : Bool) {p q : Option (List I)}
    {P Q : D → Prop} {S R : D → D → Prop} (hp : Den o st p P S) (hq : Den o st q Q R) :
    ∃ U, Den o st (meet o st oracle sw p q) (fun x => P x ∧ Q x) U ∧
      (st ≠ .joining → ∀ x y, U x y ↔ S x y ∧ R x y) := by
  cases sw
  · exact den_meet_aux h hp hq
  · rw [meet_swap]
    obtain ⟨U, hU, h1⟩ := den_meet_aux h (oracle := oracle) hq hp
    exact ⟨U, hU.congr (fun _ => and_comm) fun _ _ => Iff.rfl, fun hst x y => (h1 hst x y).trans and_comm⟩

theorem denX_meet {st : Style} (hst : st ≠ .joining) {oracle : List I → I → Nat} (sw : Bool)
    {p q : Option (List I)} {P Q : D → Prop} {X Y : LowerSet D → Prop} (hp : DenX o st p P X)
    (hq : DenX o st q Q Y) :
    DenX o st (meet o st oracle sw p q) (fun x => P x ∧ Q x) (fun C => X C ∧ Y C) := by
  cases sw
  · exact denX_meet_aux h hst hp hq
  · rw [meet_swap]
    exact (denX_meet_aux h hst hq hp).congr (fun _ => and_comm) fun _ => and_comm

theorem den_symd {st : Style} {oracle : List I → I → Nat} (sw : Bool) {p q : Option (List I)}
    {P Q : D → Prop} {S R : D → D → Prop} (hp : Den o st p P S) (hq : Den o st q Q R) :
    ∃ U, Den o st (symd o st oracle sw p q) (fun x => (P x ∧ ¬ Q x) ∨ (Q x ∧ ¬ P x)) U ∧
      (st ≠ .joining → ∀ x y, U x y ↔
        (S x y ∧ ∀ z, Btw x y z → ¬ Q z) ∨ (R x y ∧ ∀ z, Btw x y z → ¬ P z)) := by
  cases sw
  · exact den_symd_aux h hp hq
  · rw [symd_swap]
    obtain ⟨U, hU, h1⟩ := den_symd_aux h (oracle := oracle) hq hp
    exact ⟨U, hU.congr (fun _ => or_comm) fun _ _ => Iff.rfl, fun hst x y => (h1 hst x y).trans or_comm⟩

theorem denX_symd {st : Style} (hst : st ≠ .joining) {oracle : List I → I → Nat} (sw : Bool)
    {p q : Option (List I)} {P Q : D → Prop} {X Y : LowerSet D → Prop} (hp : DenX o st p P X)
    (hq : DenX o st q Q Y) :
    DenX o st (symd o st oracle sw p q) (fun x => (P x ∧ ¬ Q x) ∨ (Q x ∧ ¬ P x))
      (fun C => (X C ∧ Free Q C) ∨ (Y C ∧ Free P C)) := by
  cases sw
  · exact denX_symd_aux h hst hp hq
  · rw [symd_swap]
    exact (denX_symd_aux h hst hq hp).congr (fun _ => or_comm) fun _ => or_comm

/-! ### Expressions -/

omit h in
theorem eval_add {st : Style} {oracle : List I → I → Nat} (a b : SetExpr I) :
    (a + b).eval o st oracle = plus o st oracle (a.swapped b) (a.eval o st oracle) (b.eval o st oracle) := rfl
omit h in
theorem eval_sub {st : Style} {oracle : List I → I → Nat} (a b : SetExpr I) :
    (a - b).eval o st oracle = minus o (a.eval o st oracle) (b.eval o st oracle) := rfl
omit h in
theorem eval_inter {st : Style} {oracle : List I → I → Nat} (a b : SetExpr I) :
    (a &&& b).eval o st oracle = meet o st oracle (a.swapped b) (a.eval o st oracle) (b.eval o st oracle) := rfl
omit h in
theorem eval_flip {st : Style} {oracle : List I → I → Nat} (a b : SetExpr I) :
    (a ^^^ b).eval o st oracle = symd o st oracle (a.swapped b) (a.eval o st oracle) (b.eval o st oracle) := rfl

/-- Every expression over good sets has a value. -/
theorem eval_good {st : Style} {oracle : List I → I → Nat} (a : SetExpr I) (ha : a.Leaves (Good o st)) :
    ∃ l, a.eval o st oracle = some l ∧ Good o st l := by
  suffices ∃ P S, Den o st (a.eval o st oracle) P S by
    obtain ⟨_, _, l, h1, h2, _⟩ := this
    exact ⟨l, h1, h2⟩
  induction a with
  | leaf b l => exact ⟨_, _, den_some ha⟩
  | add a b iha ihb =>
    obtain ⟨P, S, h1⟩ := iha ha.1
    obtain ⟨Q, R, h2⟩ := ihb ha.2
    obtain ⟨U, hU⟩ := den_plus h (oracle := oracle) (a.swapped b) h1 h2
    exact ⟨_, U, hU⟩
  | sub a b iha ihb =>
    obtain ⟨P, S, h1⟩ := iha ha.1
    obtain ⟨Q, R, h2⟩ := ihb ha.2
    exact ⟨_, _, den_minus h h1 h2⟩
  | inter a b iha ihb =>
    obtain ⟨P, S, h1⟩ := iha ha.1
    obtain ⟨Q, R, h2⟩ := ihb ha.2
    obtain ⟨U, hU, _⟩ := den_meet h (oracle := oracle) (a.swapped b) h1 h2
    exact ⟨_, U, hU⟩
  | flip a b iha ihb =>
    obtain ⟨P, S, h1⟩ := iha ha.1
    obtain ⟨Q, R, h2⟩ := ihb ha.2
    obtain ⟨U, hU, _⟩ := den_symd h (oracle := oracle) (a.swapped b) h1 h2
    exact ⟨_, U, hU⟩

theorem eval_den {st : Style} {oracle : List I → I → Nat} (a : SetExpr I) (ha : a.Leaves (Good o st)) :
    ∃ l, Good o st l ∧ Den o st (a.eval o st oracle) (Dom o setSeg l) (Same o setSeg l) ∧
      DenX o st (a.eval o st oracle) (Dom o setSeg l) (Cross o l) := by
  obtain ⟨l, h1, h2⟩ := eval_good h (oracle := oracle) a ha
  refine ⟨l, h2, ?_, ?_⟩
  · rw [h1]; exact den_some h2
  · rw [h1]; exact denX_some h2

omit h in
theorem whole_plus {P Q : D → Prop} {S R : D → D → Prop} (hS : ∀ x y, S x y → P x)
    (hR : ∀ x y, R x y → Q x) {x y : D} :
    Whole (fun x => P x ∨ Q x) (fun x y => Whole P S x y ∧ Whole Q R x y ∧ (P x ∨ Q x)) x y ↔
      Whole P S x y ∧ Whole Q R x y := by
  constructor
  · rintro (⟨h1, h2, _⟩ | hf)
    · exact ⟨h1, h2⟩
    · exact ⟨Or.inr fun z hz hc => hf z hz (Or.inl hc), Or.inr fun z hz hc => hf z hz (Or.inr hc)⟩
  · rintro ⟨h1, h2⟩
    rcases h1 with h1 | h1
    · exact Or.inl ⟨Or.inl h1, h2, Or.inl (hS _ _ h1)⟩
    · rcases h2 with h2 | h2
      · exact Or.inl ⟨Or.inr h1, Or.inl h2, Or.inr (hR _ _ h2)⟩
      · exact Or.inr fun z hz hc => hc.elim (h1 z hz) (h2 z hz)

omit h in
theorem whole_and {P : D → Prop} {S : D → D → Prop} (hS : ∀ x y, S x y → P x) {x y : D} :
    Whole P S x y ∧ P x ↔ S x y := by
  constructor
  · rintro ⟨h1 | h1, h2⟩
    · exact h1
    · exact absurd h2 (h1 x (btw_left x y))
  · exact fun h1 => ⟨Or.inl h1, hS _ _ h1⟩

theorem same_btw_dom {l : List I} {x y z : D} (hs : Same o setSeg l x y) (hz : Btw x y z) : Dom o setSeg l z := by
  exact (same_btw h hs hz).symm.left

omit h in
theorem free_or {P Q : D → Prop} {C : LowerSet D} : Free (fun x => P x ∨ Q x) C ↔ Free P C ∧ Free Q C := by
  constructor
  · rintro ⟨u, hu, v, hv, hf⟩
    exact ⟨⟨u, hu, v, hv, fun z h1 h2 hc => hf z h1 h2 (Or.inl hc)⟩,
      ⟨u, hu, v, hv, fun z h1 h2 hc => hf z h1 h2 (Or.inr hc)⟩⟩
  · rintro ⟨⟨u, hu, v, hv, hf⟩, ⟨u', hu', v', hv', hf'⟩⟩
    refine ⟨max u u', ?_, min v v', ?_, fun z h1 h2 hc => ?_⟩
    · rcases max_choice u u' with e | e <;> rw [e] <;> assumption
    · rcases min_choice v v' with e | e <;> rw [e] <;> assumption
    · rcases hc with hc | hc
      · exact hf z (le_trans (le_max_left _ _) h1) (le_trans h2 (min_le_left _ _)) hc
      · exact hf' z (le_trans (le_max_right _ _) h1) (le_trans h2 (min_le_right _ _)) hc

omit h in
theorem Free.mono {P Q : D → Prop} {C : LowerSet D} (hf : Free P C) (hi : ∀ x, Q x → P x) : Free Q C := by
  obtain ⟨u, hu, v, hv, hf⟩ := hf
  exact ⟨u, hu, v, hv, fun z h1 h2 hc => hf z h1 h2 (hi z hc)⟩

/-- Where a segment of `l` crosses, the rest of an intersection with `l` decides. -/
theorem cross_free_and {l : List I} {Q : D → Prop} {C : LowerSet D} (hc : Cross o l C)
    (hf : Free (fun x => Dom o setSeg l x ∧ Q x) C) : Free Q C := by
  obtain ⟨u, hu, v, hv, ⟨s, hs, h1, h2⟩, hn⟩ := (cross_free h).2 ⟨hc, hf⟩
  refine ⟨u, hu, v, hv, fun z h3 h4 hq => hn z ?_ ⟨⟨s, hs, h.convex s u z v h1 h2 h3 h4⟩, hq⟩⟩
  exact (btw_iff_of_le (le_of_lt (lower_lt hu hv))).2 ⟨h3, h4⟩

end
end ICL
