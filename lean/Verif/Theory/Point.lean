import Verif.Theory.MapSets
import Verif.Theory.Infix
import Verif.PointSpec

/-! # The values of expressions over maps at one key -/

set_option linter.unusedSectionVars false

namespace ICL
open Spec IMap

variable {D I V : Type} [LinearOrder D] {o : IntervalOps D I} [DecidableEq I] [DecidableEq V]
variable {t : MapType V}

/-- The operators of the map type `t` act on the values of one key as `F` says. -/
structure PointActs (t : MapType V) (F : PointOps V) : Prop where
  add : ∀ a b, Norm t a → Norm t b → gv t (pAdd t a b) = F.add (gv t a) (gv t b)
  sub : ∀ a b, Norm t a → Norm t b → gv t (pSub t a b) = F.sub (gv t a) (gv t b)
  inter : ∀ a b, Norm t a → Norm t b → gv t (pInter t a b) = F.inter (gv t a) (gv t b)
  flip : ∀ a b, Norm t a → Norm t b → gv t (pFlip t a b) = F.flip (gv t a) (gv t b)

/-- Adding in any map whose values are a monoid. -/
theorem gv_add' (hM : MonoidValues t) {a b : Option V} : gv t (pAdd t a b) = t.plus.apply (gv t a) (gv t b) := by
  cases ha : t.cfg.absorbs with
  | true => exact gv_add hM ha a b
  | false =>
    rw [add_enricher hM ha]
    cases a <;> cases b <;> simp [gv, hM.ident_left, hM.ident_right]

theorem gv_flip_total (ht : t.cfg.total = true) (a b : Option V) : gv t (pFlip t a b) = t.cfg.ident := by
  unfold pFlip flipTotalF
  rw [if_pos ht]
  cases t.cfg.absorbs with
  | true => rfl
  | false => cases pAdd t a b <;> rfl

theorem gv_keep' (w : V) : gv t (keep t.cfg w) = w := by
  cases ha : t.cfg.absorbs with
  | true => exact gv_keep ha w
  | false => rw [keep_enricher ha]; rfl

theorem gv_inter_total (hM : MonoidValues t) (ht : t.cfg.total = true) (a b : Option V) :
    gv t (pInter t a b) = t.plus.apply (gv t a) (gv t b) := by
  unfold pInter
  rw [if_pos ht, gv_add' hM, gv_add' hM]
  show t.plus.apply (t.plus.apply t.cfg.ident _) _ = _
  rw [hM.ident_left]

/-- Total maps of numbers. -/
theorem numeric_acts {W : Type} [DecidableEq W] [AddCommGroup W] (joining absorbs : Bool)
    (hM : MonoidValues (.numeric (V := W) joining absorbs true true)) :
    PointActs (.numeric (V := W) joining absorbs true true) PointOps.numbers where
  add a b _ _ := gv_add' hM
  sub a b _ _ := by
    cases ha : absorbs with
    | true => exact numeric_gv_sub a b
    | false =>
      unfold pSub subV
      cases b with
      | none => simp [gv, PointOps.numbers, MapType.numeric]
      | some v =>
        have ht : ((MapType.numeric (V := W) joining false true true).cfg.total &&
          (MapType.numeric (V := W) joining false true true).invertible) = true := rfl
        simp only [ht, if_true]
        rw [addF_enricher rfl]
        cases a with
        | none => rfl
        | some u => rfl
  inter a b _ _ := gv_inter_total hM rfl a b
  flip a b _ _ := gv_flip_total rfl a b

/-- What the operators do with the values of one key if these are sets. -/
def setPoint (t : MapType V) : PointOps V where
  add := t.plus.apply
  sub := t.minus.apply
  inter := if t.cfg.total then t.plus.apply else t.sect.apply
  flip := if t.cfg.total then fun _ _ => t.cfg.ident else t.unsect

theorem sets_acts {α : Type} {mem : α → V → Prop} (hS : SetValues t mem) : PointActs t (setPoint t) where
  add a b _ _ := gv_add' hS.comm.toMonoidValues
  sub a b _ h2 := by
    have e : pSub t a b = a.bind fun u => match b with
        | none => some u
        | some v => keep t.cfg (t.minus.apply u v) := by
      cases a with
      | none => exact sub_none_left (Or.inr hS.invertible) b
      | some u =>
        cases b with
        | none => rfl
        | some v => rw [sub_some, h2 v rfl]; rfl
    rw [e]
    cases a with
    | none => exact (hS.eq_ident.2 fun e => by simp [setPoint, hS.minus, gv, hS.ident]).symm
    | some u =>
      cases b with
      | none => exact hS.ext _ _ fun e => by simp [setPoint, hS.minus, gv, hS.ident]
      | some v => exact gv_keep' _
  inter a b h1 h2 := by
    cases ht : t.cfg.total with
    | true => rw [gv_inter_total hS.comm.toMonoidValues ht]; simp [setPoint, ht]
    | false =>
      rw [sets_inter hS ht h1 h2]
      simp only [setPoint, ht, Bool.false_eq_true, if_false]
      cases a with
      | none => exact (hS.eq_ident.2 fun e => by simp [hS.sect, gv, hS.ident]).symm
      | some u =>
        cases b with
        | none => exact (hS.eq_ident.2 fun e => by simp [hS.sect, gv, hS.ident]).symm
        | some v => exact gv_keep' _
  flip a b h1 h2 := by
    cases ht : t.cfg.total with
    | true => rw [gv_flip_total ht]; simp [setPoint, ht]
    | false =>
      rw [sets_flip hS ht h1 h2]
      simp only [setPoint, ht, Bool.false_eq_true, if_false]
      cases b with
      | none => exact hS.ext _ _ fun e => by simp [hS.unsect, gv, hS.ident]
      | some v =>
        cases a with
        | none => exact hS.ext _ _ fun e => by simp [hS.unsect, gv, hS.ident]
        | some u => exact gv_keep' _

/-- The value of an expression at a key. -/
theorem pointwise_eval (h : o.Lawful) (hN : Neutral t) (hO : OrderFree t) {F : PointOps V} (hF : PointActs t F)
    {oracle : List (I × V) → I → Nat} {look : List (I × V) → Option V} {x : D}
    (hl : ∀ l, MV o t l → look l = some (gv t (valueAt o l x))) (A : MapExpr I V) (hA : A.Leaves (MV o t)) :
    ∃ m, A.eval o t oracle = some m ∧ MV o t m ∧ pointwise F look A = some (gv t (valueAt o m x)) := by
  induction A with
  | leaf b l => exact ⟨l, rfl, hA, hl l hA⟩
  | add a b iha ihb =>
    obtain ⟨p, e1, h1, v1⟩ := iha hA.1
    obtain ⟨q, e2, h2, v2⟩ := ihb hA.2
    obtain ⟨m, em, hm⟩ := meval_add h hN (fun _ _ => pAdd_comm hO) h1 h2 e1 e2
    refine ⟨m, em, hm.good, ?_⟩
    rw [hm.val, hF.add _ _ (h1.norm x) (h2.norm x)]
    simp [pointwise, v1, v2]
  | sub a b iha ihb =>
    obtain ⟨p, e1, h1, v1⟩ := iha hA.1
    obtain ⟨q, e2, h2, v2⟩ := ihb hA.2
    obtain ⟨m, em, hm⟩ := meval_sub h hN.toVersions h1 h2 e1 e2
    refine ⟨m, em, hm.good, ?_⟩
    rw [hm.val, hF.sub _ _ (h1.norm x) (h2.norm x)]
    simp [pointwise, v1, v2]
  | inter a b iha ihb =>
    obtain ⟨p, e1, h1, v1⟩ := iha hA.1
    obtain ⟨q, e2, h2, v2⟩ := ihb hA.2
    obtain ⟨m, em, hm⟩ := meval_inter h hN (fun _ _ => pInter_comm hO) h1 h2 e1 e2
    refine ⟨m, em, hm.good, ?_⟩
    rw [hm.val, hF.inter _ _ (h1.norm x) (h2.norm x)]
    simp [pointwise, v1, v2]
  | flip a b iha ihb =>
    obtain ⟨p, e1, h1, v1⟩ := iha hA.1
    obtain ⟨q, e2, h2, v2⟩ := ihb hA.2
    obtain ⟨m, em, hm⟩ := mexpr_flip h hN hO h1 h2 e1 e2
    refine ⟨m, em, hm.good, ?_⟩
    rw [hm.val, hF.flip _ _ (h1.norm x) (h2.norm x)]
    simp [pointwise, v1, v2]

/-- The value of a sum at a key. -/
theorem pointwise_sums (h : o.Lawful) (hN : Neutral t) (hM : CommMonoidValues t) {F : PointOps V}
    (hF : F.add = t.plus.apply) {oracle : List (I × V) → I → Nat} {look : List (I × V) → Option V} {x : D}
    (hl : ∀ l, MV o t l → look l = some (gv t (valueAt o l x))) (A : MapExpr I V) (hs : OnlyAdd A)
    (hA : A.Leaves (MV o t)) :
    ∃ m, A.eval o t oracle = some m ∧ MV o t m ∧ pointwise F look A = some (gv t (valueAt o m x)) := by
  induction A with
  | leaf b l => exact ⟨l, rfl, hA, hl l hA⟩
  | add a b iha ihb =>
    obtain ⟨p, e1, h1, v1⟩ := iha hs.1 hA.1
    obtain ⟨q, e2, h2, v2⟩ := ihb hs.2 hA.2
    obtain ⟨m, em, hm⟩ := meval_add h hN (add_comm' hM hN.toVersions) h1 h2 e1 e2
    refine ⟨m, em, hm.good, ?_⟩
    rw [hm.val, gv_add' hM.toMonoidValues]
    simp [pointwise, v1, v2, hF]
  | _ a b iha ihb => exact absurd hs id

end ICL
