import Verif.Theory.ElementHistory
import Verif.Theory.MapColl

/-!
# The operators on maps of elements, key by key
-/

set_option linter.unusedSectionVars false
set_option linter.unusedVariables false
set_option linter.unusedSimpArgs false

namespace ICL
open Spec IMap

variable {D V : Type} [LinearOrder D] [DecidableEq V] {t : MapType V} {m r : List (D × V)}

/-- What maps of elements satisfy that store no identity elements. -/
structure EV (t : MapType V) (m : List (D × V)) : Prop where
  asc : Ascending Prod.fst m
  noIdent : NoIdentity t m

theorem ev_nil : EV t ([] : List (D × V)) := ⟨StdTree.asc_nil, by intro s hs; cases hs⟩

theorem EV.norm (hm : EV t m) (x : D) : Norm t (valueOf m x) := fun v hv =>
  absorbable_false_iff.2 ((noIdentity_valueOf hm.asc).1 hm.noIdent x v hv)

theorem EV.of_norm (h : Ascending Prod.fst m) (hn : ∀ x, Norm t (valueOf m x)) : EV t m :=
  ⟨h, (noIdentity_valueOf h).2 fun x w hw => absorbable_false_iff.1 (hn x w hw)⟩

theorem EV.ext (hm : EV t m) (hr : EV t r) (h : ∀ x, valueOf m x = valueOf r x) : m = r :=
  valueOf_ext hm.asc hr.asc h

theorem addedHint_addF (hN : Neutral t) (v : V) (a : Option V) : addedHint t v a = addF t.cfg t.plus v a := by
  rw [← added_eq]
  unfold addedHint added
  cases a with
  | none =>
    by_cases hi : Ignored t v
    · simp [combined, hi]
    · simp only [combined, hi, if_false, Option.getD_none, hN.plus_ident]
      have : ¬ Ignored t (t.plus.version v) := fun h => hN.plus_ne v (fun e => hi ⟨h.1, e⟩) h.2
      simp [stored, this]
  | some u => by_cases hi : Ignored t v <;> simp [combined, hi]

theorem subtractedElem_subV {v : V} (hv : ¬ Ignored t v) (a : Option V) : subtractedElem t v a = subV t v a := by
  rw [← subtracted_eq]
  unfold subtractedElem subtracted
  cases a <;> by_cases hc : t.cfg.total = true ∧ t.invertible = true <;> simp [hc, combined, hv]

/-- The value of a key in `a ^ b`. -/
def eFlip (t : MapType V) (a b : Option V) : Option V :=
  match b with
  | none => a
  | some v => flippedElem t v a

theorem EV.add (hN : Neutral t) (hm : EV t m) (hr : EV t r) :
    EV t (EMap.addMap t m r) ∧ ∀ x, valueOf (EMap.addMap t m r) x = pAdd t (valueOf m x) (valueOf r x) := by
  obtain ⟨h1, h2⟩ := EMap.addMap_acts (t := t) hm.asc hr.asc
  have hv : ∀ x, valueOf (EMap.addMap t m r) x = pAdd t (valueOf m x) (valueOf r x) := fun x => by
    rw [h2]; unfold pAdd; dsimp only; cases valueOf r x with
    | none => rfl
    | some v => exact addedHint_addF hN v _
  exact ⟨.of_norm h1 fun x => by rw [hv]; exact norm_add hN.toVersions (hm.norm x), hv⟩

theorem EV.sub (hV : Versions t) (hm : EV t m) (hr : EV t r) :
    EV t (EMap.subMap t m r) ∧ ∀ x, valueOf (EMap.subMap t m r) x = pSub t (valueOf m x) (valueOf r x) := by
  obtain ⟨h1, h2⟩ := EMap.subMap_acts (t := t) hm.asc hr.asc
  have hv : ∀ x, valueOf (EMap.subMap t m r) x = pSub t (valueOf m x) (valueOf r x) := fun x => by
    rw [h2]; unfold pSub; dsimp only
    cases hw : valueOf r x with
    | none => rfl
    | some v => exact subtractedElem_subV ((noIdentity_valueOf hr.asc).1 hr.noIdent x v hw) _
  exact ⟨.of_norm h1 fun x => by rw [hv]; exact norm_sub hV (hm.norm x), hv⟩

theorem EV.inter (hN : Neutral t) (hM : MonoidValues t) (hm : EV t m) (hr : EV t r) :
    EV t (EMap.andMap t m r) ∧ ∀ x, valueOf (EMap.andMap t m r) x = pInter t (valueOf m x) (valueOf r x) := by
  cases ht : t.cfg.total with
  | true =>
    have e : EMap.andMap t m r = EMap.addMap t m r := by unfold EMap.andMap; simp [ht]
    obtain ⟨h1, h2⟩ := EV.add hN hm hr
    rw [e]
    exact ⟨h1, fun x => by rw [h2, inter_total hM hN.toVersions ht _ (hm.norm x)]⟩
  | false =>
    obtain ⟨h1, h2⟩ := EMap.andMap_acts ht hm.asc hr.asc
    have hv : ∀ x, valueOf (EMap.andMap t m r) x = pInter t (valueOf m x) (valueOf r x) := fun x => by
      rw [h2]; unfold pInter
      simp only [ht, Bool.false_eq_true, if_false]
      cases valueOf m x <;> cases valueOf r x <;> simp [interF, sectioned_eq]
    exact ⟨.of_norm h1 fun x => by rw [hv]; exact norm_inter hN.toVersions, hv⟩

theorem EV.flip (ht : t.cfg.total = false) (hm : EV t m) (hr : EV t r) :
    EV t (EMap.flipMap t m r) ∧ ∀ x, valueOf (EMap.flipMap t m r) x = eFlip t (valueOf m x) (valueOf r x) := by
  obtain ⟨h1, h2⟩ := EMap.flipMap_acts (t := t) ht hm.asc hr.asc
  have hv : ∀ x, valueOf (EMap.flipMap t m r) x = eFlip t (valueOf m x) (valueOf r x) := fun x => by
    rw [h2]; unfold eFlip; dsimp only; cases valueOf r x <;> rfl
  refine ⟨.of_norm h1 fun x => ?_, hv⟩
  rw [hv]
  unfold eFlip
  cases valueOf r x with
  | none => exact hm.norm x
  | some v =>
    have hs : ∀ w, Norm t (stored t w) := fun w => by rw [stored_eq]; exact norm_keep w
    cases hw : valueOf m x with
    | none => exact hs v
    | some u =>
      simp only [flippedElem]
      split
      · rw [← hw]; exact hm.norm x
      · exact hs _

/-- In maps of sets the symmetric difference of `icl::map` is that of the interval maps. -/
theorem coll_eFlip {α : Type} [DecidableEq α] {joining absorbs : Bool} {a b : Option (Finset α)}
    (h1 : Norm (Coll α joining absorbs) a) (h2 : Norm (Coll α joining absorbs) b) :
    eFlip (Coll α joining absorbs) a b = pFlip (Coll α joining absorbs) a b := by
  rw [coll_flip h1 h2]
  unfold eFlip
  cases b with
  | none => rfl
  | some v =>
    have hv : ¬ Ignored (Coll α joining absorbs) v := absorbable_false_iff.1 (h2 v rfl)
    cases a with
    | none => simp [flippedElem, stored, hv]
    | some u =>
      simp only [flippedElem, hv, if_false, stored_eq]
      rfl

end ICL
