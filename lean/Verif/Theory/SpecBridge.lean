import Verif.Spec
import Verif.Theory.Observe
import Verif.Kinds.Classes

/-!
# The specification vocabulary and the vocabulary of the proofs agree
-/

namespace ICL
open Spec

set_option linter.unusedSectionVars false

variable {D I V S : Type} [LinearOrder D] {o : IntervalOps D I}

theorem elem_iff {s : List I} {x : D} : Elem o s x ↔ Dom o setSeg s x := Iff.rfl
theorem sameSegment_iff {s : List I} {x y : D} : SameSegment o s x y ↔ Same o setSeg s x y := Iff.rfl
theorem assoc_iff {m : List (I × V)} {x : D} {v : V} : Assoc o m x v ↔ Maps o mapSeg m x v := Iff.rfl
theorem key_iff {m : List (I × V)} {x : D} : Key o m x ↔ Dom o mapSeg m x := Iff.rfl
theorem sameMapSegment_iff {m : List (I × V)} {x y : D} :
    SameMapSegment o m x y ↔ Same o mapSeg m x y := Iff.rfl

theorem wellFormed_iff {s : List I} : WellFormed o s ↔ WF o setSeg s :=
  ⟨fun h => ⟨h.1, h.2⟩, fun h => ⟨h.nonempty, h.sorted⟩⟩

theorem mapWellFormed_iff {m : List (I × V)} : MapWellFormed o m ↔ WF o mapSeg m := by
  unfold MapWellFormed WellFormed
  constructor
  · rintro ⟨h1, h2⟩
    exact ⟨fun s hs => h1 _ (List.mem_map_of_mem hs), List.pairwise_map.1 h2⟩
  · rintro ⟨h1, h2⟩
    refine ⟨fun i hi => ?_, List.pairwise_map.2 h2⟩
    obtain ⟨s, hs, rfl⟩ := List.mem_map.1 hi
    exact h1 s hs

theorem between_iff {x y z : D} : Between x y z ↔ Btw x y z := by
  unfold Between Btw
  rcases le_total x y with h | h
  · rw [min_eq_left h, max_eq_right h]
    constructor
    · rintro (h1 | ⟨h1, h2⟩)
      · exact h1
      · exact ⟨le_trans h h1, le_trans h2 h⟩
    · exact Or.inl
  · rw [min_eq_right h, max_eq_left h]
    constructor
    · rintro (⟨h1, h2⟩ | h1)
      · exact ⟨le_trans h h1, le_trans h2 h⟩
      · exact h1
    · exact Or.inr

section
variable (h : o.Lawful)
include h

theorem joined_successive {S V : Type} [DecidableEq V] {g : SegOps I V S} {l : List S} (hw : WF o g l) :
    Joined o g l ↔ ∀ p s t q, l = p ++ s :: t :: q → g.val s ≠ g.val t ∨
      ∃ z, (∀ x, o.Mem x (g.key s) → x < z) ∧ ∀ y, o.Mem y (g.key t) → z < y := by
  have key : ∀ s t, o.Nonempty (g.key s) → o.Nonempty (g.key t) → o.Before (g.key s) (g.key t) →
      (joinable o g s t = false ↔ (g.val s ≠ g.val t ∨
        ∃ z, (∀ x, o.Mem x (g.key s) → x < z) ∧ ∀ y, o.Mem y (g.key t) → z < y)) := by
    intro s t hs ht hb
    unfold joinable
    rw [Bool.and_eq_false_iff, ← Bool.not_eq_true, h.touches_iff _ _ hs ht hb, decide_eq_false_iff_not]
    constructor
    · rintro (h1 | h1)
      · right
        by_contra hc
        exact h1 hc
      · exact Or.inl h1
    · rintro (h1 | h1)
      · exact Or.inr h1
      · exact Or.inl fun hc => hc h1
  constructor
  · rintro hj p s t q rfl
    have hw1 := (wf_append.1 hw).2.1
    have hw2 := wf_cons.1 hw1
    have hw3 := wf_cons.1 hw2.2.1
    have hb : o.Before (g.key s) (g.key t) := fun x y hx hy => hw2.2.2 x y hx ⟨t, by simp, hy⟩
    exact (key s t hw2.1 hw3.1 hb).1 (hj s (by simp) t (by simp) hb)
  · intro hs
    induction l with
    | nil => exact joined_nil
    | cons s l ih =>
      have hw2 := wf_cons.1 hw
      have ih' := ih hw2.2.1 (fun p a b q e => hs (s :: p) a b q (by rw [e]; rfl))
      refine (joined_append h (a := [s]) (b := l) hw).2 ⟨joined_singleton h hw2.1, ih', ?_⟩
      intro a b ha hb
      simp only [List.getLast?_singleton, Option.some.injEq] at ha
      subst ha
      cases l with
      | nil => simp at hb
      | cons t l =>
        simp only [List.head?_cons, Option.some.injEq] at hb
        subst hb
        have hw3 := wf_cons.1 hw2.2.1
        exact (key _ _ hw2.1 hw3.1 (fun x y hx hy => hw2.2.2 x y hx ⟨_, by simp, hy⟩)).2
          (hs [] _ _ l rfl)

theorem fullyJoined_iff {s : List I} (hw : WF o setSeg s) : FullyJoined o s ↔ Joined o setSeg s := by
  rw [joined_successive h hw]
  unfold FullyJoined
  constructor
  · intro hh p a b q e; exact Or.inr (hh p a b q e)
  · intro hh p a b q e
    rcases hh p a b q e with h1 | h1
    · exact absurd rfl h1
    · exact h1

theorem mapFullyJoined_iff [DecidableEq V] {m : List (I × V)} (hw : WF o mapSeg m) :
    MapFullyJoined o m ↔ Joined o mapSeg m := by
  rw [joined_successive h hw]; exact Iff.rfl

omit h in
theorem eqC_set_forall₂ {s t : List I} :
    eqC o setSeg s t = true ↔ List.Forall₂ (fun i j => o.eq i j = true) s t := by
  induction s generalizing t with
  | nil => cases t <;> simp [eqC]
  | cons a s ih =>
    cases t with
    | nil => simp [eqC]
    | cons b t =>
      rw [eqC, Bool.and_eq_true, Bool.and_eq_true, ih, List.forall₂_cons]
      exact and_congr_left fun _ => and_iff_left (decide_eq_true rfl)

omit h in
theorem eqC_map_forall₂ [DecidableEq V] {s t : List (I × V)} :
    eqC o mapSeg s t = true ↔ List.Forall₂ (fun i j => o.eq i.1 j.1 = true ∧ i.2 = j.2) s t := by
  induction s generalizing t with
  | nil => cases t <;> simp [eqC]
  | cons a s ih =>
    cases t with
    | nil => simp [eqC]
    | cons b t =>
      rw [eqC, Bool.and_eq_true, Bool.and_eq_true, ih, List.forall₂_cons, decide_eq_true_eq]
      exact Iff.rfl

/-- `operator ==` of interval sets says that they consist of the same intervals. -/
theorem eqC_set_iff {s t : List I} (hs : WF o setSeg s) (ht : WF o setSeg t) :
    eqC o setSeg s t = true ↔ SameIntervals o s t := by
  rw [eqC_forall2 h hs ht]
  unfold SameIntervals SameElems
  constructor <;> intro hf <;> refine hf.imp ?_ <;> intro a b hab
  · exact hab.1
  · exact ⟨hab, rfl⟩

/-- `operator ==` of interval maps says that they consist of the same segments. -/
theorem eqC_map_iff [DecidableEq V] {s t : List (I × V)} (hs : WF o mapSeg s) (ht : WF o mapSeg t) :
    eqC o mapSeg s t = true ↔ SameSegments o s t := by
  rw [eqC_forall2 h hs ht]; exact Iff.rfl

end
end ICL
