import Verif.Theory.SetLaws
import Verif.Theory.SpecBridge
import Verif.Props.Sets

/-!
# C26: laws on interval sets

The laws of doc/semantics.qbk ("Laws on set union", "... intersection", "... difference", "Distributivity
Laws", "DeMorgan's Law", "Symmetric Difference"), each with the equality the documentation gives for the
combining style.  `A`, `B`, `C` are arbitrary expressions over sets of one type, lvalues or rvalues.
`==` is the equality of two sets as `operator ==` decides it, `=e=` equality of the elements.
-/

set_option linter.unusedSectionVars false
set_option linter.unusedVariables false
set_option linter.unusedSimpArgs false

namespace ICL.Props
open Spec

variable {D I : Type} [LinearOrder D] {o : IntervalOps D I} [DecidableEq I]

/-- What every reachable set of the style `st` satisfies (C06, C07). -/
def SetValue (o : IntervalOps D I) (st : Style) (s : List I) : Prop :=
  WellFormed o s ∧ (st = .joining → FullyJoined o s)

/-- `p == q`: both sides have a value, and `operator ==` finds the values equal. -/
def LexEq (o : IntervalOps D I) (st : Style) (oracle : List I → I → Nat) (p q : SetExpr I) : Prop :=
  ∃ s t, p.eval o st oracle = some s ∧ q.eval o st oracle = some t ∧ eqC o setSeg s t = true

/-- `p =e= q`: both sides have a value, and the values have the same elements. -/
def ElemEq (o : IntervalOps D I) (st : Style) (oracle : List I → I → Nat) (p q : SetExpr I) : Prop :=
  ∃ s t, p.eval o st oracle = some s ∧ q.eval o st oracle = some t ∧ ∀ x, Elem o s x ↔ Elem o t x

theorem setValue_iff (h : IntervalClass o) {st : Style} {s : List I} : SetValue o st s ↔ Good o st s := by
  unfold SetValue Good
  rw [wellFormed_iff]
  constructor
  · rintro ⟨h1, h2⟩; exact ⟨h1, fun hj => (fullyJoined_iff h.lawful h1).1 (h2 hj)⟩
  · rintro ⟨h1, h2⟩; exact ⟨h1, fun hj => (fullyJoined_iff h.lawful h1).2 (h2 hj)⟩

theorem leaves_good (h : IntervalClass o) {st : Style} {A : SetExpr I} (hA : A.Leaves (SetValue o st)) :
    A.Leaves (Good o st) := by
  induction A with
  | leaf b l => exact (setValue_iff h).1 hA
  | _ a b iha ihb => exact ⟨iha hA.1, ihb hA.2⟩

/-- Every reachable set is a value the laws range over. -/
theorem C26_reachable {E : Option (ElemFns D I)} (h : SetClass o E) {st : Style} {s : List I}
    (hr : Reachable o E st s) : SetValue o st s :=
  (setValue_iff h.cls).2 (hr.good h)

theorem ex_value (st : Style) : SetValue Ex.ro st exS ∧ SetValue Ex.ro st exT := by
  refine ⟨(setValue_iff Ex.ro_cls).2 ⟨wellFormed_iff.1 ex_wf.1, fun _ => ?_⟩,
    (setValue_iff Ex.ro_cls).2 ⟨wellFormed_iff.1 ex_wf.2, fun _ => ?_⟩⟩ <;>
    (exact joined_of (by decide))

variable {st : Style} {oracle : List I → I → Nat} {A B C : SetExpr I}

/-- Expressions over sets always have a value, and it is a proper set of the style. -/
theorem C26_value (h : IntervalClass o) (hA : A.Leaves (SetValue o st)) :
    ∃ s, A.eval o st oracle = some s ∧ SetValue o st s := by
  obtain ⟨l, h1, h2⟩ := eval_good h.lawful (oracle := oracle) A (leaves_good h hA)
  exact ⟨l, h1, (setValue_iff h).2 h2⟩

/-- `==` implies `=e=`. -/
theorem C26_lex_elem (h : IntervalClass o) (hA : A.Leaves (SetValue o st)) (hB : B.Leaves (SetValue o st))
    (he : LexEq o st oracle A B) : ElemEq o st oracle A B := by
  obtain ⟨s, t, h1, h2, h3⟩ := he
  obtain ⟨s', h4, hs⟩ := C26_value (oracle := oracle) h hA
  obtain ⟨t', h5, ht⟩ := C26_value (oracle := oracle) h hB
  rw [h1] at h4; rw [h2] at h5
  cases h4; cases h5
  refine ⟨s, t, h1, h2, fun x => ?_⟩
  rw [eqC_spec h.lawful (wellFormed_iff.1 hs.1) (wellFormed_iff.1 ht.1)] at h3
  rw [elem_iff, elem_iff]
  have := h3.2 x ()
  rwa [maps_unit, maps_unit] at this

/-! ## `=e=` for all styles -/

section
variable (h : IntervalClass o)
include h

/-- `a + (b & c) =e= (a + b) & (a + c)` -/
theorem C26_distributivity_add_inter_elem (hA : A.Leaves (SetValue o st)) (hB : B.Leaves (SetValue o st))
    (hC : C.Leaves (SetValue o st)) : ElemEq o st oracle (A + (B &&& C)) ((A + B) &&& (A + C)) := by
  obtain ⟨a, _, h1, _⟩ := eval_den h.lawful (oracle := oracle) A (leaves_good h hA)
  obtain ⟨b, _, h2, _⟩ := eval_den h.lawful (oracle := oracle) B (leaves_good h hB)
  obtain ⟨c, _, h3, _⟩ := eval_den h.lawful (oracle := oracle) C (leaves_good h hC)
  obtain ⟨_, u1, _⟩ := den_meet h.lawful (oracle := oracle) (B.swapped C) h2 h3
  obtain ⟨_, u2⟩ := den_plus h.lawful (oracle := oracle) (A.swapped (B &&& C)) h1 u1
  obtain ⟨_, v1⟩ := den_plus h.lawful (oracle := oracle) (A.swapped B) h1 h2
  obtain ⟨_, v2⟩ := den_plus h.lawful (oracle := oracle) (A.swapped C) h1 h3
  obtain ⟨_, v3, _⟩ := den_meet h.lawful (oracle := oracle) ((A + B).swapped (A + C)) v1 v2
  exact elemEqual_of u2 v3 fun x => by tauto

/-- `a & (b + c) =e= (a & b) + (a & c)` -/
theorem C26_distributivity_inter_add_elem (hA : A.Leaves (SetValue o st)) (hB : B.Leaves (SetValue o st))
    (hC : C.Leaves (SetValue o st)) : ElemEq o st oracle (A &&& (B + C)) ((A &&& B) + (A &&& C)) := by
  obtain ⟨a, _, h1, _⟩ := eval_den h.lawful (oracle := oracle) A (leaves_good h hA)
  obtain ⟨b, _, h2, _⟩ := eval_den h.lawful (oracle := oracle) B (leaves_good h hB)
  obtain ⟨c, _, h3, _⟩ := eval_den h.lawful (oracle := oracle) C (leaves_good h hC)
  obtain ⟨_, u1⟩ := den_plus h.lawful (oracle := oracle) (B.swapped C) h2 h3
  obtain ⟨_, u2, _⟩ := den_meet h.lawful (oracle := oracle) (A.swapped (B + C)) h1 u1
  obtain ⟨_, v1, _⟩ := den_meet h.lawful (oracle := oracle) (A.swapped B) h1 h2
  obtain ⟨_, v2, _⟩ := den_meet h.lawful (oracle := oracle) (A.swapped C) h1 h3
  obtain ⟨_, v3⟩ := den_plus h.lawful (oracle := oracle) ((A &&& B).swapped (A &&& C)) v1 v2
  exact elemEqual_of u2 v3 fun x => by tauto

/-- `(a + b) - c =e= (a - c) + (b - c)` -/
theorem C26_right_distributivity_add_sub_elem (hA : A.Leaves (SetValue o st)) (hB : B.Leaves (SetValue o st))
    (hC : C.Leaves (SetValue o st)) : ElemEq o st oracle ((A + B) - C) ((A - C) + (B - C)) := by
  obtain ⟨a, _, h1, _⟩ := eval_den h.lawful (oracle := oracle) A (leaves_good h hA)
  obtain ⟨b, _, h2, _⟩ := eval_den h.lawful (oracle := oracle) B (leaves_good h hB)
  obtain ⟨c, _, h3, _⟩ := eval_den h.lawful (oracle := oracle) C (leaves_good h hC)
  obtain ⟨_, u1⟩ := den_plus h.lawful (oracle := oracle) (A.swapped B) h1 h2
  obtain ⟨_, v3⟩ := den_plus h.lawful (oracle := oracle) ((A - C).swapped (B - C))
    (den_minus h.lawful h1 h3) (den_minus h.lawful h2 h3)
  exact elemEqual_of (den_minus h.lawful u1 h3) v3 fun x => by tauto

/-- `a - (b & c) =e= (a - b) + (a - c)` -/
theorem C26_deMorgan_inter_add_elem (hA : A.Leaves (SetValue o st)) (hB : B.Leaves (SetValue o st))
    (hC : C.Leaves (SetValue o st)) : ElemEq o st oracle (A - (B &&& C)) ((A - B) + (A - C)) := by
  obtain ⟨a, _, h1, _⟩ := eval_den h.lawful (oracle := oracle) A (leaves_good h hA)
  obtain ⟨b, _, h2, _⟩ := eval_den h.lawful (oracle := oracle) B (leaves_good h hB)
  obtain ⟨c, _, h3, _⟩ := eval_den h.lawful (oracle := oracle) C (leaves_good h hC)
  obtain ⟨_, u1, _⟩ := den_meet h.lawful (oracle := oracle) (B.swapped C) h2 h3
  obtain ⟨_, v3⟩ := den_plus h.lawful (oracle := oracle) ((A - B).swapped (A - C))
    (den_minus h.lawful h1 h2) (den_minus h.lawful h1 h3)
  exact elemEqual_of (den_minus h.lawful h1 u1) v3 fun x => by tauto

/-! ## `==` for all styles -/

/-- `a + (b + c) == (a + b) + c` -/
theorem C26_add_assoc (hA : A.Leaves (SetValue o st)) (hB : B.Leaves (SetValue o st))
    (hC : C.Leaves (SetValue o st)) : LexEq o st oracle (A + (B + C)) ((A + B) + C) := by
  obtain ⟨a, _, h1, x1⟩ := eval_den h.lawful (oracle := oracle) A (leaves_good h hA)
  obtain ⟨b, _, h2, x2⟩ := eval_den h.lawful (oracle := oracle) B (leaves_good h hB)
  obtain ⟨c, _, h3, x3⟩ := eval_den h.lawful (oracle := oracle) C (leaves_good h hC)
  cases st
  case joining =>
    obtain ⟨_, u1⟩ := den_plus h.lawful (oracle := oracle) (B.swapped C) h2 h3
    obtain ⟨_, u2⟩ := den_plus h.lawful (oracle := oracle) (A.swapped (B + C)) h1 u1
    obtain ⟨_, v1⟩ := den_plus h.lawful (oracle := oracle) (A.swapped B) h1 h2
    obtain ⟨_, v2⟩ := den_plus h.lawful (oracle := oracle) ((A + B).swapped C) v1 h3
    exact equal_of_same h.lawful u2 v2 (fun x => by tauto) (Or.inl rfl)
  case separating =>
    exact equal_of_cross h.lawful (denX_plus h.lawful (A.swapped (B + C)) x1 (denX_plus h.lawful (B.swapped C) x2 x3))
      (denX_plus h.lawful ((A + B).swapped C) (denX_plus h.lawful (A.swapped B) x1 x2) x3)
      (fun x => by tauto) (fun x => by tauto)
  case splitting =>
    refine equal_of_same h.lawful (den_plus_split h.lawful (A.swapped (B + C)) h1 (den_plus_split h.lawful (B.swapped C) h2 h3))
      (den_plus_split h.lawful ((A + B).swapped C) (den_plus_split h.lawful (A.swapped B) h1 h2) h3)
      (fun x => by tauto) (Or.inr fun x y => ?_)
    have hl : ∀ (l : List I) x y, Same o setSeg l x y → Dom o setSeg l x := fun l x y hs => hs.left
    rw [whole_plus (hl _) (hl _), whole_plus (hl _) (hl _)]
    tauto

/-- `a + b == b + a` -/
theorem C26_add_comm (hA : A.Leaves (SetValue o st)) (hB : B.Leaves (SetValue o st)) :
    LexEq o st oracle (A + B) (B + A) := by
  obtain ⟨a, _, h1, x1⟩ := eval_den h.lawful (oracle := oracle) A (leaves_good h hA)
  obtain ⟨b, _, h2, x2⟩ := eval_den h.lawful (oracle := oracle) B (leaves_good h hB)
  cases st
  case joining =>
    obtain ⟨_, u⟩ := den_plus h.lawful (oracle := oracle) (A.swapped B) h1 h2
    obtain ⟨_, v⟩ := den_plus h.lawful (oracle := oracle) (B.swapped A) h2 h1
    exact equal_of_same h.lawful u v (fun x => by tauto) (Or.inl rfl)
  case separating =>
    exact equal_of_cross h.lawful (denX_plus h.lawful (A.swapped B) x1 x2)
      (denX_plus h.lawful (B.swapped A) x2 x1) (fun x => by tauto) (fun x => by tauto)
  case splitting =>
    exact equal_of_same h.lawful (den_plus_split h.lawful (A.swapped B) h1 h2)
      (den_plus_split h.lawful (B.swapped A) h2 h1) (fun x => by tauto) (Or.inr fun x y => by tauto)

theorem empty_good (st : Style) : Good o st ([] : List I) := good_nil st

/-- `a + S() == a` -/
theorem C26_add_neutral (hA : A.Leaves (SetValue o st)) : LexEq o st oracle (A + ∅) A := by
  obtain ⟨a, _, h1, x1⟩ := eval_den h.lawful (oracle := oracle) A (leaves_good h hA)
  have h2 : Den o st ((∅ : SetExpr I).eval o st oracle) _ _ := den_some (empty_good h st)
  have x2 : DenX o st ((∅ : SetExpr I).eval o st oracle) _ _ := denX_some (empty_good h st)
  have hd : ∀ x, ¬ Dom o setSeg ([] : List I) x := by rintro x ⟨s, hs, _⟩; simp at hs
  cases st
  case joining =>
    obtain ⟨_, u⟩ := den_plus h.lawful (oracle := oracle) (A.swapped ∅) h1 h2
    exact equal_of_same h.lawful u h1 (fun x => by simp [hd]) (Or.inl rfl)
  case separating =>
    refine equal_of_cross h.lawful (denX_plus h.lawful (A.swapped ∅) x1 x2) x1 (fun x => by simp [hd]) (fun x => ?_)
    have : ¬ Cross o ([] : List I) x := by rintro ⟨_, _, _, _, s, hs, _⟩; simp at hs
    simp [this]
  case splitting =>
    refine equal_of_same h.lawful (den_plus_split h.lawful (A.swapped ∅) h1 h2) h1 (fun x => by simp [hd])
      (Or.inr fun x y => ?_)
    have : Whole (Dom o setSeg ([] : List I)) (Same o setSeg []) x y := Or.inr fun z _ => hd z
    have hl : ∀ x y, Same o setSeg a x y → Dom o setSeg a x := fun x y hs => hs.left
    simp only [this, hd, or_false, true_and, whole_and hl]

/-- `a & (b & c) == (a & b) & c` -/
theorem C26_inter_assoc (hA : A.Leaves (SetValue o st)) (hB : B.Leaves (SetValue o st))
    (hC : C.Leaves (SetValue o st)) : LexEq o st oracle (A &&& (B &&& C)) ((A &&& B) &&& C) := by
  obtain ⟨a, _, h1, _⟩ := eval_den h.lawful (oracle := oracle) A (leaves_good h hA)
  obtain ⟨b, _, h2, _⟩ := eval_den h.lawful (oracle := oracle) B (leaves_good h hB)
  obtain ⟨c, _, h3, _⟩ := eval_den h.lawful (oracle := oracle) C (leaves_good h hC)
  obtain ⟨_, u1, e1⟩ := den_meet h.lawful (oracle := oracle) (B.swapped C) h2 h3
  obtain ⟨_, u2, e2⟩ := den_meet h.lawful (oracle := oracle) (A.swapped (B &&& C)) h1 u1
  obtain ⟨_, v1, e3⟩ := den_meet h.lawful (oracle := oracle) (A.swapped B) h1 h2
  obtain ⟨_, v2, e4⟩ := den_meet h.lawful (oracle := oracle) ((A &&& B).swapped C) v1 h3
  refine equal_of_same h.lawful u2 v2 (fun x => by tauto) ?_
  by_cases hst : st = .joining
  · exact Or.inl hst
  · exact Or.inr fun x y => by rw [e2 hst, e1 hst, e4 hst, e3 hst, and_assoc]

/-- `a & b == b & a` -/
theorem C26_inter_comm (hA : A.Leaves (SetValue o st)) (hB : B.Leaves (SetValue o st)) :
    LexEq o st oracle (A &&& B) (B &&& A) := by
  obtain ⟨a, _, h1, _⟩ := eval_den h.lawful (oracle := oracle) A (leaves_good h hA)
  obtain ⟨b, _, h2, _⟩ := eval_den h.lawful (oracle := oracle) B (leaves_good h hB)
  obtain ⟨_, u1, e1⟩ := den_meet h.lawful (oracle := oracle) (A.swapped B) h1 h2
  obtain ⟨_, u2, e2⟩ := den_meet h.lawful (oracle := oracle) (B.swapped A) h2 h1
  refine equal_of_same h.lawful u1 u2 (fun x => by tauto) ?_
  by_cases hst : st = .joining
  · exact Or.inl hst
  · exact Or.inr fun x y => by rw [e1 hst, e2 hst, and_comm]

/-- `a - S() == a` -/
theorem C26_sub_neutral (hA : A.Leaves (SetValue o st)) : LexEq o st oracle (A - ∅) A := by
  obtain ⟨a, _, h1, _⟩ := eval_den h.lawful (oracle := oracle) A (leaves_good h hA)
  have h2 : Den o st ((∅ : SetExpr I).eval o st oracle) _ _ := den_some (empty_good h st)
  have hd : ∀ x, ¬ Dom o setSeg ([] : List I) x := by rintro x ⟨s, hs, _⟩; simp at hs
  exact equal_of_same h.lawful (den_minus h.lawful h1 h2) h1 (fun x => by simp [hd])
    (Or.inr fun x y => by simp [hd])

/-- `a - a == S()` -/
theorem C26_sub_inversion (hA : A.Leaves (SetValue o st)) : LexEq o st oracle (A - A) ∅ := by
  obtain ⟨a, _, h1, _⟩ := eval_den h.lawful (oracle := oracle) A (leaves_good h hA)
  have h2 : Den o st ((∅ : SetExpr I).eval o st oracle) _ _ := den_some (empty_good h st)
  have hd : ∀ x, ¬ Dom o setSeg ([] : List I) x := by rintro x ⟨s, hs, _⟩; simp at hs
  have hs : ∀ x y, ¬ Same o setSeg ([] : List I) x y := by rintro x y ⟨s, hs, _⟩; simp at hs
  refine equal_of_same h.lawful (den_minus h.lawful h1 h1) h2 (fun x => by simp [hd]) (Or.inr fun x y => ?_)
  simp only [hs, iff_false, not_and]
  exact fun h1 h2 => h2 x (btw_left x y) h1.left

/-- `(a & b) - c == (a - c) & (b - c)` -/
theorem C26_right_distributivity_inter_sub (hA : A.Leaves (SetValue o st)) (hB : B.Leaves (SetValue o st))
    (hC : C.Leaves (SetValue o st)) : LexEq o st oracle ((A &&& B) - C) ((A - C) &&& (B - C)) := by
  obtain ⟨a, _, h1, _⟩ := eval_den h.lawful (oracle := oracle) A (leaves_good h hA)
  obtain ⟨b, _, h2, _⟩ := eval_den h.lawful (oracle := oracle) B (leaves_good h hB)
  obtain ⟨c, _, h3, _⟩ := eval_den h.lawful (oracle := oracle) C (leaves_good h hC)
  obtain ⟨_, u1, e1⟩ := den_meet h.lawful (oracle := oracle) (A.swapped B) h1 h2
  obtain ⟨_, v1, e2⟩ := den_meet h.lawful (oracle := oracle) ((A - C).swapped (B - C))
    (den_minus h.lawful h1 h3) (den_minus h.lawful h2 h3)
  refine equal_of_same h.lawful (den_minus h.lawful u1 h3) v1 (fun x => by tauto) ?_
  by_cases hst : st = .joining
  · exact Or.inl hst
  · exact Or.inr fun x y => by rw [e1 hst, e2 hst]; tauto

/-- `a - (b + c) == (a - b) & (a - c)` -/
theorem C26_deMorgan_add_inter (hA : A.Leaves (SetValue o st)) (hB : B.Leaves (SetValue o st))
    (hC : C.Leaves (SetValue o st)) : LexEq o st oracle (A - (B + C)) ((A - B) &&& (A - C)) := by
  obtain ⟨a, _, h1, _⟩ := eval_den h.lawful (oracle := oracle) A (leaves_good h hA)
  obtain ⟨b, _, h2, _⟩ := eval_den h.lawful (oracle := oracle) B (leaves_good h hB)
  obtain ⟨c, _, h3, _⟩ := eval_den h.lawful (oracle := oracle) C (leaves_good h hC)
  obtain ⟨_, u1⟩ := den_plus h.lawful (oracle := oracle) (B.swapped C) h2 h3
  obtain ⟨_, v1, e2⟩ := den_meet h.lawful (oracle := oracle) ((A - B).swapped (A - C))
    (den_minus h.lawful h1 h2) (den_minus h.lawful h1 h3)
  refine equal_of_same h.lawful (den_minus h.lawful h1 u1) v1 (fun x => by tauto) ?_
  by_cases hst : st = .joining
  · exact Or.inl hst
  · refine Or.inr fun x y => ?_
    rw [e2 hst]
    constructor
    · exact fun ⟨h1, h2⟩ => ⟨⟨h1, fun z hz hc => h2 z hz (Or.inl hc)⟩, h1, fun z hz hc => h2 z hz (Or.inr hc)⟩
    · exact fun ⟨⟨h1, h2⟩, _, h3⟩ => ⟨h1, fun z hz hc => hc.elim (h2 z hz) (h3 z hz)⟩

/-- `(a + b) - (a & b) == (a - b) + (b - a)` -/
theorem C26_symmetric_difference (hA : A.Leaves (SetValue o st)) (hB : B.Leaves (SetValue o st)) :
    LexEq o st oracle ((A + B) - (A &&& B)) ((A - B) + (B - A)) := by
  obtain ⟨a, _, h1, x1⟩ := eval_den h.lawful (oracle := oracle) A (leaves_good h hA)
  obtain ⟨b, _, h2, x2⟩ := eval_den h.lawful (oracle := oracle) B (leaves_good h hB)
  cases st
  case joining =>
    obtain ⟨_, u1⟩ := den_plus h.lawful (oracle := oracle) (A.swapped B) h1 h2
    obtain ⟨_, u2, _⟩ := den_meet h.lawful (oracle := oracle) (A.swapped B) h1 h2
    obtain ⟨_, v1⟩ := den_plus h.lawful (oracle := oracle) ((A - B).swapped (B - A))
      (den_minus h.lawful h1 h2) (den_minus h.lawful h2 h1)
    exact equal_of_same h.lawful (den_minus h.lawful u1 u2) v1 (fun x => by tauto) (Or.inl rfl)
  case separating =>
    have u1 := denX_plus h.lawful (oracle := oracle) (A.swapped B) x1 x2
    have u2 := denX_meet h.lawful (by decide) (oracle := oracle) (A.swapped B) x1 x2
    have v1 := denX_plus h.lawful (oracle := oracle) ((A - B).swapped (B - A))
      (denX_minus h.lawful x1 x2) (denX_minus h.lawful x2 x1)
    refine equal_of_cross h.lawful (denX_minus h.lawful u1 u2) v1 (fun x => by tauto) (fun C => ?_)
    constructor
    · rintro ⟨h3 | h3, h4⟩
      · exact Or.inl ⟨h3, cross_free_and h.lawful h3 h4⟩
      · exact Or.inr ⟨h3, cross_free_and h.lawful h3 (h4.mono fun x hx => ⟨hx.2, hx.1⟩)⟩
    · rintro (⟨h3, h4⟩ | ⟨h3, h4⟩)
      · exact ⟨Or.inl h3, h4.mono fun x hx => hx.2⟩
      · exact ⟨Or.inr h3, h4.mono fun x hx => hx.1⟩
  case splitting =>
    have u1 := den_plus_split h.lawful (oracle := oracle) (A.swapped B) h1 h2
    obtain ⟨_, u2, _⟩ := den_meet h.lawful (oracle := oracle) (A.swapped B) h1 h2
    have v1 := den_plus_split h.lawful (oracle := oracle) ((A - B).swapped (B - A))
      (den_minus h.lawful h1 h2) (den_minus h.lawful h2 h1)
    refine equal_of_same h.lawful (den_minus h.lawful u1 u2) v1 (fun x => by tauto) (Or.inr fun x y => ?_)
    have key : ∀ (a b : List I), Dom o setSeg a x →
        (((Whole (Dom o setSeg a) (Same o setSeg a) x y ∧ Whole (Dom o setSeg b) (Same o setSeg b) x y) ∧
          ∀ z, Btw x y z → ¬ (Dom o setSeg a z ∧ Dom o setSeg b z)) ↔
        (Whole (fun x => Dom o setSeg a x ∧ ¬ Dom o setSeg b x)
          (fun x y => Same o setSeg a x y ∧ ∀ z, Btw x y z → ¬ Dom o setSeg b z) x y ∧
        Whole (fun x => Dom o setSeg b x ∧ ¬ Dom o setSeg a x)
          (fun x y => Same o setSeg b x y ∧ ∀ z, Btw x y z → ¬ Dom o setSeg a z) x y ∧ ¬ Dom o setSeg b x)) := by
      intro a b hx
      constructor
      · rintro ⟨⟨h1 | h1, h2⟩, h3⟩
        · have hf : ∀ z, Btw x y z → ¬ Dom o setSeg b z := fun z hz hb => h3 z hz ⟨same_btw_dom h.lawful h1 hz, hb⟩
          exact ⟨Or.inl ⟨h1, hf⟩, Or.inr fun z hz hb => hf z hz hb.1, hf x (btw_left x y)⟩
        · exact absurd hx (h1 x (btw_left x y))
      · rintro ⟨⟨h1, h2⟩ | h1, _, h3⟩
        · exact ⟨⟨Or.inl h1, Or.inr h2⟩, fun z hz hb => h2 z hz hb.2⟩
        · exact absurd ⟨hx, h3⟩ (h1 x (btw_left x y))
    by_cases ha : Dom o setSeg a x
    · have := key a b ha
      by_cases hb : Dom o setSeg b x <;> simp only [ha, hb, true_or, or_true, not_true, not_false_eq_true,
        and_true, and_false, and_self, or_self, true_and, or_false, false_and] at this ⊢
      · constructor
        · exact fun h => (h.2 x (btw_left x y) ⟨ha, hb⟩).elim
        · exact False.elim
      · exact this
    · by_cases hb : Dom o setSeg b x
      · have := key b a hb
        simp only [ha, hb, not_false_eq_true, true_and, and_true, or_true, false_and, false_or, and_false] at this ⊢
        rw [and_comm (a := Whole (Dom o setSeg a) _ _ _), and_comm (b := Whole (fun x => Dom o setSeg b x ∧ _) _ _ _), ← this]
        simp only [and_comm]
      · simp [ha, hb]

/-- `a ^ b == (a - b) + (b - a)` -/
theorem C26_flip_eq (hA : A.Leaves (SetValue o st)) (hB : B.Leaves (SetValue o st)) :
    LexEq o st oracle (A ^^^ B) ((A - B) + (B - A)) := by
  obtain ⟨a, _, h1, x1⟩ := eval_den h.lawful (oracle := oracle) A (leaves_good h hA)
  obtain ⟨b, _, h2, x2⟩ := eval_den h.lawful (oracle := oracle) B (leaves_good h hB)
  cases st
  case joining =>
    obtain ⟨_, u1, _⟩ := den_symd h.lawful (oracle := oracle) (A.swapped B) h1 h2
    obtain ⟨_, v1⟩ := den_plus h.lawful (oracle := oracle) ((A - B).swapped (B - A))
      (den_minus h.lawful h1 h2) (den_minus h.lawful h2 h1)
    exact equal_of_same h.lawful u1 v1 (fun x => by tauto) (Or.inl rfl)
  case separating =>
    exact equal_of_cross h.lawful (denX_symd h.lawful (by decide) (A.swapped B) x1 x2)
      (denX_plus h.lawful ((A - B).swapped (B - A)) (denX_minus h.lawful x1 x2) (denX_minus h.lawful x2 x1))
      (fun x => by tauto) (fun x => by tauto)
  case splitting =>
    obtain ⟨_, u1, e1⟩ := den_symd h.lawful (oracle := oracle) (A.swapped B) h1 h2
    have v1 := den_plus_split h.lawful (oracle := oracle) ((A - B).swapped (B - A))
      (den_minus h.lawful h1 h2) (den_minus h.lawful h2 h1)
    refine equal_of_same h.lawful u1 v1 (fun x => by tauto) (Or.inr fun x y => ?_)
    rw [e1 (by decide)]
    constructor
    · rintro (⟨h3, h4⟩ | ⟨h3, h4⟩)
      · exact ⟨Or.inl ⟨h3, h4⟩, Or.inr fun z hz hc => h4 z hz hc.1, Or.inl ⟨h3.left, h4 x (btw_left x y)⟩⟩
      · exact ⟨Or.inr fun z hz hc => h4 z hz hc.1, Or.inl ⟨h3, h4⟩, Or.inr ⟨h3.left, h4 x (btw_left x y)⟩⟩
    · rintro ⟨h3, h4, h5 | h5⟩
      · rcases h3 with h3 | h3
        · exact Or.inl h3
        · exact absurd h5 (h3 x (btw_left x y))
      · rcases h4 with h4 | h4
        · exact Or.inr h4
        · exact absurd h5 (h4 x (btw_left x y))

/-! ## `==` for joining and separating sets -/

/-- `a + (b & c) == (a + b) & (a + c)` -/
theorem C26_distributivity_add_inter (hst : st ≠ .splitting) (hA : A.Leaves (SetValue o st))
    (hB : B.Leaves (SetValue o st)) (hC : C.Leaves (SetValue o st)) :
    LexEq o st oracle (A + (B &&& C)) ((A + B) &&& (A + C)) := by
  obtain ⟨a, _, h1, x1⟩ := eval_den h.lawful (oracle := oracle) A (leaves_good h hA)
  obtain ⟨b, _, h2, x2⟩ := eval_den h.lawful (oracle := oracle) B (leaves_good h hB)
  obtain ⟨c, _, h3, x3⟩ := eval_den h.lawful (oracle := oracle) C (leaves_good h hC)
  cases st
  case joining =>
    obtain ⟨_, u1, _⟩ := den_meet h.lawful (oracle := oracle) (B.swapped C) h2 h3
    obtain ⟨_, u2⟩ := den_plus h.lawful (oracle := oracle) (A.swapped (B &&& C)) h1 u1
    obtain ⟨_, v1⟩ := den_plus h.lawful (oracle := oracle) (A.swapped B) h1 h2
    obtain ⟨_, v2⟩ := den_plus h.lawful (oracle := oracle) (A.swapped C) h1 h3
    obtain ⟨_, v3, _⟩ := den_meet h.lawful (oracle := oracle) ((A + B).swapped (A + C)) v1 v2
    exact equal_of_same h.lawful u2 v3 (fun x => by tauto) (Or.inl rfl)
  case separating =>
    exact equal_of_cross h.lawful
      (denX_plus h.lawful (A.swapped (B &&& C)) x1 (denX_meet h.lawful (by decide) (B.swapped C) x2 x3))
      (denX_meet h.lawful (by decide) ((A + B).swapped (A + C)) (denX_plus h.lawful (A.swapped B) x1 x2)
        (denX_plus h.lawful (A.swapped C) x1 x3))
      (fun x => by tauto) (fun x => by tauto)
  case splitting => exact absurd rfl hst

/-- `a & (b + c) == (a & b) + (a & c)`, for splitting sets too, where the documentation claims `=e=` only. -/
theorem C26_distributivity_inter_add (hA : A.Leaves (SetValue o st))
    (hB : B.Leaves (SetValue o st)) (hC : C.Leaves (SetValue o st)) :
    LexEq o st oracle (A &&& (B + C)) ((A &&& B) + (A &&& C)) := by
  obtain ⟨a, _, h1, x1⟩ := eval_den h.lawful (oracle := oracle) A (leaves_good h hA)
  obtain ⟨b, _, h2, x2⟩ := eval_den h.lawful (oracle := oracle) B (leaves_good h hB)
  obtain ⟨c, _, h3, x3⟩ := eval_den h.lawful (oracle := oracle) C (leaves_good h hC)
  cases st
  case joining =>
    obtain ⟨_, u1⟩ := den_plus h.lawful (oracle := oracle) (B.swapped C) h2 h3
    obtain ⟨_, u2, _⟩ := den_meet h.lawful (oracle := oracle) (A.swapped (B + C)) h1 u1
    obtain ⟨_, v1, _⟩ := den_meet h.lawful (oracle := oracle) (A.swapped B) h1 h2
    obtain ⟨_, v2, _⟩ := den_meet h.lawful (oracle := oracle) (A.swapped C) h1 h3
    obtain ⟨_, v3⟩ := den_plus h.lawful (oracle := oracle) ((A &&& B).swapped (A &&& C)) v1 v2
    exact equal_of_same h.lawful u2 v3 (fun x => by tauto) (Or.inl rfl)
  case separating =>
    exact equal_of_cross h.lawful
      (denX_meet h.lawful (by decide) (A.swapped (B + C)) x1 (denX_plus h.lawful (B.swapped C) x2 x3))
      (denX_plus h.lawful ((A &&& B).swapped (A &&& C)) (denX_meet h.lawful (by decide) (A.swapped B) x1 x2)
        (denX_meet h.lawful (by decide) (A.swapped C) x1 x3))
      (fun x => by tauto) (fun x => by tauto)
  case splitting =>
    have u1 := den_plus_split h.lawful (oracle := oracle) (B.swapped C) h2 h3
    obtain ⟨_, u2, e1⟩ := den_meet h.lawful (oracle := oracle) (A.swapped (B + C)) h1 u1
    obtain ⟨_, v1, e2⟩ := den_meet h.lawful (oracle := oracle) (A.swapped B) h1 h2
    obtain ⟨_, v2, e3⟩ := den_meet h.lawful (oracle := oracle) (A.swapped C) h1 h3
    have v3 := den_plus_split h.lawful (oracle := oracle) ((A &&& B).swapped (A &&& C)) v1 v2
    refine equal_of_same h.lawful u2 v3 (fun x => by tauto) (Or.inr fun x y => ?_)
    rw [e1 (by decide)]
    unfold Whole
    rw [e2 (by decide), e3 (by decide)]
    constructor
    · rintro ⟨ha, hb, hc, hx⟩
      refine ⟨hb.imp (⟨ha, ·⟩) fun hf z hz hd => hf z hz hd.2, hc.imp (⟨ha, ·⟩) fun hf z hz hd => hf z hz hd.2, ?_⟩
      exact hx.imp (⟨ha.left, ·⟩) (⟨ha.left, ·⟩)
    · rintro ⟨hb, hc, hx⟩
      have ha : Same o setSeg a x y := by
        rcases hx with hx | hx
        · exact hb.elim (·.1) fun hf => absurd hx (hf x (btw_left x y))
        · exact hc.elim (·.1) fun hf => absurd hx (hf x (btw_left x y))
      exact ⟨ha, hb.imp (·.2) fun hf z hz hd => hf z hz ⟨same_btw_dom h.lawful ha hz, hd⟩,
        hc.imp (·.2) fun hf z hz hd => hf z hz ⟨same_btw_dom h.lawful ha hz, hd⟩, hx.imp (·.2) (·.2)⟩

/-- `(a + b) - c == (a - c) + (b - c)`, for splitting sets too, where the documentation claims `=e=` only. -/
theorem C26_right_distributivity_add_sub (hA : A.Leaves (SetValue o st))
    (hB : B.Leaves (SetValue o st)) (hC : C.Leaves (SetValue o st)) :
    LexEq o st oracle ((A + B) - C) ((A - C) + (B - C)) := by
  obtain ⟨a, _, h1, x1⟩ := eval_den h.lawful (oracle := oracle) A (leaves_good h hA)
  obtain ⟨b, _, h2, x2⟩ := eval_den h.lawful (oracle := oracle) B (leaves_good h hB)
  obtain ⟨c, _, h3, x3⟩ := eval_den h.lawful (oracle := oracle) C (leaves_good h hC)
  cases st
  case joining =>
    obtain ⟨_, u1⟩ := den_plus h.lawful (oracle := oracle) (A.swapped B) h1 h2
    obtain ⟨_, v3⟩ := den_plus h.lawful (oracle := oracle) ((A - C).swapped (B - C))
      (den_minus h.lawful h1 h3) (den_minus h.lawful h2 h3)
    exact equal_of_same h.lawful (den_minus h.lawful u1 h3) v3 (fun x => by tauto) (Or.inl rfl)
  case separating =>
    exact equal_of_cross h.lawful (denX_minus h.lawful (denX_plus h.lawful (A.swapped B) x1 x2) x3)
      (denX_plus h.lawful ((A - C).swapped (B - C)) (denX_minus h.lawful x1 x3) (denX_minus h.lawful x2 x3))
      (fun x => by tauto) (fun x => by tauto)
  case splitting =>
    have u1 := den_plus_split h.lawful (oracle := oracle) (A.swapped B) h1 h2
    have v3 := den_plus_split h.lawful (oracle := oracle) ((A - C).swapped (B - C))
      (den_minus h.lawful h1 h3) (den_minus h.lawful h2 h3)
    refine equal_of_same h.lawful (den_minus h.lawful u1 h3) v3 (fun x => by tauto) (Or.inr fun x y => ?_)
    unfold Whole
    constructor
    · rintro ⟨⟨ha, hb, hx⟩, hf⟩
      exact ⟨ha.imp (⟨·, hf⟩) fun hg z hz hd => hg z hz hd.1, hb.imp (⟨·, hf⟩) fun hg z hz hd => hg z hz hd.1,
        hx.imp (⟨·, hf x (btw_left x y)⟩) (⟨·, hf x (btw_left x y)⟩)⟩
    · rintro ⟨ha, hb, hx⟩
      have hf : ∀ z, Btw x y z → ¬ Dom o setSeg c z := by
        rcases hx with hx | hx
        · exact ha.elim (·.2) fun hf => absurd hx (hf x (btw_left x y))
        · exact hb.elim (·.2) fun hf => absurd hx (hf x (btw_left x y))
      exact ⟨⟨ha.imp (·.1) fun hg z hz hd => hg z hz ⟨hd, hf z hz⟩,
        hb.imp (·.1) fun hg z hz hd => hg z hz ⟨hd, hf z hz⟩, hx.imp (·.1) (·.1)⟩, hf⟩

/-! ## `==` for joining sets -/

/-- `a - (b & c) == (a - b) + (a - c)` -/
theorem C26_deMorgan_inter_add (hA : A.Leaves (SetValue o .joining))
    (hB : B.Leaves (SetValue o .joining)) (hC : C.Leaves (SetValue o .joining)) :
    LexEq o .joining oracle (A - (B &&& C)) ((A - B) + (A - C)) := by
  obtain ⟨a, _, h1, _⟩ := eval_den h.lawful (oracle := oracle) A (leaves_good h hA)
  obtain ⟨b, _, h2, _⟩ := eval_den h.lawful (oracle := oracle) B (leaves_good h hB)
  obtain ⟨c, _, h3, _⟩ := eval_den h.lawful (oracle := oracle) C (leaves_good h hC)
  obtain ⟨_, u1, _⟩ := den_meet h.lawful (oracle := oracle) (B.swapped C) h2 h3
  obtain ⟨_, v3⟩ := den_plus h.lawful (oracle := oracle) ((A - B).swapped (A - C))
    (den_minus h.lawful h1 h2) (den_minus h.lawful h1 h3)
  exact equal_of_same h.lawful (den_minus h.lawful h1 u1) v3 (fun x => by tauto) (Or.inl rfl)

end

/-! ## Examples, and the cells that `==` does not reach -/

/-- An lvalue, and an oracle for `std::lower_bound` hints. -/
abbrev exA : SetExpr (SItv ℤ) := .leaf false exS
@[inherit_doc exA] abbrev exB : SetExpr (SItv ℤ) := .leaf false exT
@[inherit_doc exA] abbrev exO : List (SItv ℤ) → SItv ℤ → Nat := fun _ _ => 0

example (st : Style) : exA.Leaves (SetValue Ex.ro st) ∧ (exA + exB).Leaves (SetValue Ex.ro st) :=
  ⟨(ex_value st).1, (ex_value st).1, (ex_value st).2⟩
example : (exA + exB).eval Ex.ro .joining exO = some [Ex.r 0 10] := by decide
example : (exA + (exA &&& exB)).eval Ex.ro .splitting exO =
    some [Ex.r 0 1, Ex.r 1 2, Ex.r 5 6, Ex.r 6 8, Ex.r 8 9] := by decide
example : (exA ^^^ exB).eval Ex.ro .separating exO =
    some [Ex.r 0 1, Ex.r 2 5, Ex.r 6 8, Ex.r 9 10] := by decide

theorem ex_single (st : Style) {a b : ℤ} (hab : a < b) : SetValue Ex.ro st [Ex.r a b] := by
  have hw : WellFormed Ex.ro [Ex.r a b] := by
    refine ⟨fun i hi => ?_, by simp⟩
    rw [List.mem_singleton.1 hi]
    exact ⟨a, by simp [In, rightOpenOps]; omega⟩
  refine (setValue_iff Ex.ro_cls).2 ⟨wellFormed_iff.1 hw, fun _ => ?_⟩
  · simp [Joined, joinable, setSeg, rightOpenOps, Asym.touches]
    omega

/-- For splitting sets `a + (b & c) == (a + b) & (a + c)` fails:
`a = {[0,2)}`, `b = {[1,3)}`, `c = {}`. -/
theorem C26_distributivity_add_inter_splitting_counterexample :
    ∃ A B C : SetExpr (SItv ℤ), A.Leaves (SetValue Ex.ro .splitting) ∧ B.Leaves (SetValue Ex.ro .splitting) ∧
      C.Leaves (SetValue Ex.ro .splitting) ∧
      ¬ LexEq Ex.ro .splitting exO (A + (B &&& C)) ((A + B) &&& (A + C)) := by
  refine ⟨.leaf false [Ex.r 0 2], .leaf false [Ex.r 1 3], ∅, ex_single _ (by decide), ex_single _ (by decide),
    (setValue_iff Ex.ro_cls).2 (good_nil _), ?_⟩
  rintro ⟨s, t, h1, h2, h3⟩
  have e1 : s = [Ex.r 0 2] := by rw [← Option.some_inj, ← h1]; decide
  have e2 : t = [Ex.r 0 1, Ex.r 1 2] := by rw [← Option.some_inj, ← h2]; decide
  rw [e1, e2] at h3
  exact absurd h3 (by decide)

/-- For separating and splitting sets `a - (b & c) == (a - b) + (a - c)` fails:
`a = {[0,4)}`, `b = {[1,2)}`, `c = {[2,3)}`. -/
theorem C26_deMorgan_inter_add_counterexample (st : Style) (hst : st ≠ .joining) :
    ∃ A B C : SetExpr (SItv ℤ), A.Leaves (SetValue Ex.ro st) ∧ B.Leaves (SetValue Ex.ro st) ∧
      C.Leaves (SetValue Ex.ro st) ∧ ¬ LexEq Ex.ro st exO (A - (B &&& C)) ((A - B) + (A - C)) := by
  refine ⟨.leaf false [Ex.r 0 4], .leaf false [Ex.r 1 2], .leaf false [Ex.r 2 3], ex_single _ (by decide),
    ex_single _ (by decide), ex_single _ (by decide), ?_⟩
  rintro ⟨s, t, h1, h2, h3⟩
  cases st
  · exact hst rfl
  · have e1 : s = [Ex.r 0 4] := by rw [← Option.some_inj, ← h1]; decide
    have e2 : t = [Ex.r 0 2, Ex.r 2 4] := by rw [← Option.some_inj, ← h2]; decide
    rw [e1, e2] at h3
    exact absurd h3 (by decide)
  · have e1 : s = [Ex.r 0 4] := by rw [← Option.some_inj, ← h1]; decide
    have e2 : t = [Ex.r 0 1, Ex.r 1 2, Ex.r 2 3, Ex.r 3 4] := by rw [← Option.some_inj, ← h2]; decide
    rw [e1, e2] at h3
    exact absurd h3 (by decide)

end ICL.Props
