import Verif.Theory.MapLaws

/-!
# The algebra of the values of a key
-/

set_option linter.unusedSectionVars false
set_option linter.unusedVariables false
set_option linter.unusedSimpArgs false

namespace ICL
open Spec IMap

variable {V : Type} [DecidableEq V] {t : MapType V}

theorem norm_none : Norm t none := by intro v hv; cases hv

theorem norm_keep (w : V) : Norm t (keep t.cfg w) := fun _ hv => keep_ne hv

theorem norm_addF {f : Combiner V} (hf : ∀ v, v ≠ t.cfg.ident → f.version v ≠ t.cfg.ident) {v : V} {a : Option V}
    (ha : Norm t a) : Norm t (addF t.cfg f v a) := fun _ hu => addF_noIdent hf ha hu

theorem norm_add (hv : Versions t) {a b : Option V} (ha : Norm t a) : Norm t (pAdd t a b) := by
  unfold pAdd
  cases b with
  | none => exact ha
  | some v => exact norm_addF hv.plus_ne ha

theorem norm_sub (hv : Versions t) {a b : Option V} (ha : Norm t a) : Norm t (pSub t a b) := by
  unfold pSub subV
  cases b with
  | none => exact ha
  | some v =>
    dsimp only
    split
    · rename_i hc
      rw [Bool.and_eq_true] at hc
      exact norm_addF (hv.minus_ne hc.1 hc.2) ha
    · intro u hu
      unfold subF at hu
      split at hu
      · exact ha u hu
      · obtain ⟨w, hw1, hw2⟩ := Option.bind_eq_some_iff.1 hu
        exact keep_ne hw2

theorem norm_inter (hv : Versions t) {a b : Option V} : Norm t (pInter t a b) := by
  unfold pInter
  split
  · exact norm_add hv (norm_add hv norm_none)
  · cases b with
    | none => exact norm_none
    | some v =>
      cases a with
      | none => exact norm_none
      | some u => exact norm_addF hv.sect_ne (norm_addF hv.plus_ne norm_none)

/-! ### Enrichers -/

theorem absorbable_enricher (ha : t.cfg.absorbs = false) (v : V) : absorbable t.cfg v = false := by
  simp [absorbable, ha]

theorem keep_enricher (ha : t.cfg.absorbs = false) (v : V) : keep t.cfg v = some v := by
  simp [keep, absorbable_enricher ha]

theorem addF_enricher (ha : t.cfg.absorbs = false) (f : Combiner V) (v : V) (a : Option V) :
    addF t.cfg f v a = some (match a with | none => f.version v | some u => f.apply u v) := by
  cases a <;> simp [addF, absorbable_enricher ha, keep_enricher ha]

theorem norm_enricher (ha : t.cfg.absorbs = false) (a : Option V) : Norm t a :=
  fun v _ => absorbable_enricher ha v

/-! ### Absorbers: a key that is not in the map counts as if it had the identity element -/

/-- The value of a key of an absorber. -/
def gv (t : MapType V) (a : Option V) : V := a.getD t.cfg.ident

theorem absorbable_absorber (ha : t.cfg.absorbs = true) (v : V) : absorbable t.cfg v = decide (v = t.cfg.ident) := by
  simp [absorbable, ha]

theorem gv_keep (ha : t.cfg.absorbs = true) (w : V) : gv t (keep t.cfg w) = w := by
  unfold gv keep
  rw [absorbable_absorber ha]
  by_cases hw : w = t.cfg.ident <;> simp [hw]

theorem norm_ne (ha : t.cfg.absorbs = true) {v : V} (hn : Norm t (some v)) : v ≠ t.cfg.ident := by
  have := hn v rfl
  rw [absorbable_absorber ha] at this
  simpa using this

theorem gv_inj (ha : t.cfg.absorbs = true) {a b : Option V} (h1 : Norm t a) (h2 : Norm t b)
    (he : gv t a = gv t b) : a = b := by
  unfold gv at he
  cases a with
  | none =>
    cases b with
    | none => rfl
    | some v => exact absurd he.symm (norm_ne ha h2)
  | some u =>
    cases b with
    | none => exact absurd he (norm_ne ha h1)
    | some v => simpa using he

theorem gv_none (ha : t.cfg.absorbs = true) {a : Option V} (h1 : Norm t a) : a = none ↔ gv t a = t.cfg.ident := by
  constructor
  · rintro rfl; rfl
  · intro he; exact gv_inj ha h1 norm_none he

/-- Combining into an absorber, if the functor has the identity element as neutral element. -/
theorem gv_addF (ha : t.cfg.absorbs = true) {f : Combiner V} {v : V} {a : Option V}
    (hv : f.version v = f.apply t.cfg.ident v) (hu : ∀ u, f.apply u t.cfg.ident = u) :
    gv t (addF t.cfg f v a) = f.apply (gv t a) v := by
  unfold addF
  rw [absorbable_absorber ha]
  by_cases hc : v = t.cfg.ident
  · simp [hc, hu]
  · simp only [hc, decide_false, Bool.false_eq_true, if_false]
    cases a with
    | none => simp [gv, hv]
    | some u => simp only [gv_keep ha]; rfl

section add
variable (hM : MonoidValues t)
include hM

theorem gv_add (ha : t.cfg.absorbs = true) (a b : Option V) :
    gv t (pAdd t a b) = t.plus.apply (gv t a) (gv t b) := by
  unfold pAdd
  cases b with
  | none => simp [gv, hM.ident_right]
  | some v =>
    dsimp only
    rw [gv_addF ha (by rw [hM.version, hM.ident_left]) hM.ident_right]
    rfl

/-- Adding to an enricher. -/
theorem add_enricher (ha : t.cfg.absorbs = false) (a b : Option V) :
    pAdd t a b = match a, b with
      | a, none => a
      | none, some v => some v
      | some u, some v => some (t.plus.apply u v) := by
  unfold pAdd
  cases a <;> cases b <;> simp [addF_enricher ha, hM.version]

theorem add_zero_left (hv : Versions t) {a : Option V} (hn : Norm t a) : pAdd t none a = a := by
  cases ha : t.cfg.absorbs with
  | true =>
    refine gv_inj ha (norm_add hv norm_none) hn ?_
    rw [gv_add hM ha]; exact hM.ident_left _
  | false => rw [add_enricher hM ha]; cases a <;> rfl

theorem add_assoc' (hv : Versions t) {a b c : Option V} (h1 : Norm t a) (h2 : Norm t b) (h3 : Norm t c) :
    pAdd t a (pAdd t b c) = pAdd t (pAdd t a b) c := by
  cases ha : t.cfg.absorbs with
  | true =>
    refine gv_inj ha (norm_add hv h1) (norm_add hv (norm_add hv h1)) ?_
    simp only [gv_add hM ha, hM.assoc]
  | false =>
    simp only [add_enricher hM ha]
    cases a <;> cases b <;> cases c <;> simp [hM.assoc]

theorem add_none (hv : Versions t) (hc : t.cfg.absorbs = false ∨ NoCancel t) {a b : Option V} (h1 : Norm t a)
    (h2 : Norm t b) (he : pAdd t a b = none) : a = none ∧ b = none := by
  cases ha : t.cfg.absorbs with
  | true =>
    have hc : NoCancel t := hc.resolve_left (by simp [ha])
    rw [gv_none ha (norm_add hv h1), gv_add hM ha] at he
    have := hc _ _ he
    exact ⟨(gv_none ha h1).2 this.1, (gv_none ha h2).2 this.2⟩
  | false =>
    rw [add_enricher hM ha] at he
    cases a <;> cases b <;> simp at he ⊢

end add

theorem add_comm' (hM : CommMonoidValues t) (hv : Versions t) (a b : Option V) (h1 : Norm t a) (h2 : Norm t b) :
    pAdd t a b = pAdd t b a := by
  cases ha : t.cfg.absorbs with
  | true =>
    refine gv_inj ha (norm_add hv h1) (norm_add hv h2) ?_
    simp only [gv_add hM.toMonoidValues ha, hM.comm (gv t a)]
  | false =>
    simp only [add_enricher hM.toMonoidValues ha]
    cases a <;> cases b <;> simp [hM.comm]

/-! ### Intersection of numbers -/

theorem inter_total (hM : MonoidValues t) (hv : Versions t) (ht : t.cfg.total = true) {a : Option V} (b : Option V)
    (hn : Norm t a) : pInter t a b = pAdd t a b := by
  unfold pInter
  rw [ht, if_pos rfl, add_zero_left hM hv hn]

/-- The value of a key in `a & b` for partial maps of numbers. -/
def cut (t : MapType V) : Option V → Option V → Option V
  | some u, some v => keep t.cfg (t.plus.apply u v)
  | _, _ => none

theorem inter_partial (hM : MonoidValues t) (ht : t.cfg.total = false) (hs : t.sect = t.plus) {a b : Option V}
    (h1 : Norm t a) (h2 : Norm t b) : pInter t a b = cut t a b := by
  unfold pInter interF cut
  simp only [ht, Bool.false_eq_true, if_false, hs]
  cases b with
  | none => cases a <;> rfl
  | some v =>
    cases a with
    | none => rfl
    | some u => simp [addF, h1 u rfl, h2 v rfl, hM.version]

theorem inter_comm' (hM : CommMonoidValues t) (hv : Versions t) (hs : t.sect = t.plus) (a b : Option V)
    (h1 : Norm t a) (h2 : Norm t b) : pInter t a b = pInter t b a := by
  cases ht : t.cfg.total with
  | true =>
    rw [inter_total hM.toMonoidValues hv ht b h1, inter_total hM.toMonoidValues hv ht a h2, add_comm' hM hv a b h1 h2]
  | false =>
    rw [inter_partial hM.toMonoidValues ht hs h1 h2, inter_partial hM.toMonoidValues ht hs h2 h1]
    cases a <;> cases b <;> simp [cut, hM.comm]

theorem keep_noCancel (hc : t.cfg.absorbs = false ∨ NoCancel t) {u v : V} (h1 : Norm t (some u)) :
    keep t.cfg (t.plus.apply u v) = some (t.plus.apply u v) := by
  cases ha : t.cfg.absorbs with
  | false => exact keep_enricher ha _
  | true =>
    have hc : NoCancel t := hc.resolve_left (by simp [ha])
    unfold keep
    rw [absorbable_absorber ha]
    have : t.plus.apply u v ≠ t.cfg.ident := fun he => norm_ne ha h1 (hc _ _ he).1
    simp [this]

theorem inter_assoc' (hM : MonoidValues t) (hv : Versions t) (hs : t.sect = t.plus)
    (hc : t.cfg.total = true ∨ t.cfg.absorbs = false ∨ NoCancel t) {a b c : Option V} (h1 : Norm t a)
    (h2 : Norm t b) (h3 : Norm t c) : pInter t a (pInter t b c) = pInter t (pInter t a b) c := by
  cases ht : t.cfg.total with
  | true =>
    rw [inter_total hM hv ht c h2, inter_total hM hv ht _ h1, inter_total hM hv ht b h1,
      inter_total hM hv ht c (norm_add hv h1), add_assoc' hM hv h1 h2 h3]
  | false =>
    have hc : t.cfg.absorbs = false ∨ NoCancel t := hc.resolve_left (by simp [ht])
    rw [inter_partial hM ht hs h1 (norm_inter hv), inter_partial hM ht hs h2 h3,
      inter_partial hM ht hs (norm_inter hv) h3, inter_partial hM ht hs h1 h2]
    cases a with
    | none => cases b <;> cases c <;> rfl
    | some u =>
      cases b with
      | none => cases c <;> rfl
      | some v =>
        cases c with
        | none => simp only [cut]; cases keep t.cfg (t.plus.apply u v) <;> rfl
        | some w =>
          simp only [cut]
          rw [keep_noCancel hc h2, keep_noCancel hc h1]
          simp only [hM.assoc]

/-! ### Subtraction -/

theorem sub_some (u v : V) : pSub t (some u) (some v) =
    if absorbable t.cfg v then some u else keep t.cfg (t.minus.apply u v) := by
  unfold pSub subV addF subF
  dsimp only
  simp only [Option.bind_some, ite_self]

theorem sub_self' (hm : ∀ u, t.minus.apply u u = t.cfg.ident) {a : Option V} (hn : Norm t a) :
    pSub t a a = a.bind fun _ => keep t.cfg t.cfg.ident := by
  cases a with
  | none => rfl
  | some u => rw [sub_some, hn u rfl, hm]; simp

theorem sub_none_left (hc : t.cfg.total = false ∨ t.invertible = false) (b : Option V) : pSub t none b = none := by
  unfold pSub subV subF
  have : (t.cfg.total && t.invertible) = false := by rcases hc with hc | hc <;> simp [hc]
  cases b <;> simp [this]

/-- Subtraction of sets and unsigned numbers, or in partial maps. -/
theorem gv_sub (ha : t.cfg.absorbs = true) (hc : t.cfg.total = false ∨ t.invertible = false)
    (hl : ∀ v, t.minus.apply t.cfg.ident v = t.cfg.ident) (hr : ∀ u, t.minus.apply u t.cfg.ident = u)
    (a b : Option V) : gv t (pSub t a b) = t.minus.apply (gv t a) (gv t b) := by
  cases b with
  | none => simp [pSub, gv, hr]
  | some v =>
    cases a with
    | none => rw [sub_none_left hc]; simp [gv, hl]
    | some u =>
      rw [sub_some, absorbable_absorber ha]
      by_cases hv : v = t.cfg.ident
      · simp [hv, gv, hr]
      · simp only [hv, decide_false, Bool.false_eq_true, if_false]
        rw [gv_keep ha]; rfl

/-- Subtraction in total maps of values with inverses. -/
theorem gv_sub_total (ha : t.cfg.absorbs = true) (ht : t.cfg.total = true) (hi : t.invertible = true)
    (hl : ∀ v, t.minus.version v = t.minus.apply t.cfg.ident v) (hr : ∀ u, t.minus.apply u t.cfg.ident = u)
    (a b : Option V) : gv t (pSub t a b) = t.minus.apply (gv t a) (gv t b) := by
  unfold pSub subV
  simp only [ht, hi, Bool.and_self, if_true]
  cases b with
  | none => simp [gv, hr]
  | some v =>
    dsimp only
    rw [gv_addF ha (hl v) hr]; rfl

/-! ### Numbers -/

section
variable {W : Type} [DecidableEq W] [AddCommGroup W] {joining absorbs total signed : Bool}

theorem numeric_gv_sub (a b : Option W) :
    gv (.numeric joining true true true) (pSub (.numeric joining true true true) a b) =
      gv (.numeric joining true true true) a - gv (.numeric joining true true true) b :=
  gv_sub_total rfl rfl rfl (fun _ => rfl) (fun u => sub_zero u) a b

theorem numeric_symm (hM : CommMonoidValues (.numeric (V := W) joining absorbs total signed))
    (hN : Versions (.numeric (V := W) joining absorbs total signed)) (hs : total = false ∨ signed = true)
    {a b : Option W}
    (h1 : Norm (.numeric joining absorbs total signed) a) (h2 : Norm (.numeric joining absorbs total signed) b) :
    pSub (.numeric joining absorbs total signed) (pAdd (.numeric joining absorbs total signed) a b)
        (pInter (.numeric joining absorbs total signed) a b) =
      pAdd (.numeric joining absorbs total signed) (pSub (.numeric joining absorbs total signed) a b)
        (pSub (.numeric joining absorbs total signed) b a) := by
  cases total with
  | true =>
    have hs : signed = true := by simpa using hs
    subst hs
    rw [inter_total hM.toMonoidValues hN rfl b h1]
    cases absorbs with
    | true =>
      refine gv_inj rfl (norm_sub hN (norm_add hN h1)) (norm_add hN (norm_sub hN h1)) ?_
      rw [numeric_gv_sub, gv_add hM.toMonoidValues rfl, gv_add hM.toMonoidValues rfl, numeric_gv_sub, numeric_gv_sub]
      simp only [MapType.numeric, Combiner.plus]
      simp
    | false =>
      simp only [add_enricher hM.toMonoidValues rfl]
      cases a <;> cases b <;>
        simp [pSub, subV, addF, keep, absorbable, MapType.numeric, Combiner.plus, Combiner.minus]
  | false =>
    rw [inter_partial hM.toMonoidValues rfl rfl h1 h2]
    cases a with
    | none =>
      cases b with
      | none => rfl
      | some v =>
        rw [add_zero_left hM.toMonoidValues hN h2, sub_none_left (Or.inl rfl)]
        exact (add_zero_left hM.toMonoidValues hN h2).symm
    | some u =>
      cases b with
      | none =>
        rw [sub_none_left (Or.inl rfl)]
        rfl
      | some v =>
        cases absorbs with
        | true =>
          refine gv_inj rfl (norm_sub hN (norm_add hN h1)) (norm_add hN (norm_sub hN h1)) ?_
          have e1 : pAdd (.numeric joining true false signed) (some u) (some v) =
              keep (MapType.numeric joining true false signed).cfg (u + v) := by
            unfold pAdd addF
            simp only [h2 v rfl]
            rfl
          rw [gv_add hM.toMonoidValues rfl, e1, sub_some, sub_some, h1 u rfl, h2 v rfl]
          simp only [Bool.false_eq_true, if_false, gv_keep (t := .numeric joining true false signed) rfl]
          show gv _ (pSub _ _ (keep (MapType.numeric joining true false signed).cfg (u + v))) = (u - v) + (v - u)
          rw [sub_self' (fun u => sub_self u) (norm_keep _)]
          cases keep (MapType.numeric joining true false signed).cfg (u + v) with
          | none => simp [gv, MapType.numeric]
          | some w => simp only [Option.bind_some]; rw [gv_keep rfl]; simp [MapType.numeric]
        | false =>
          simp [pAdd, cut, pSub, subV, subF, addF, keep, absorbable, MapType.numeric, Combiner.plus, Combiner.minus]

end

end ICL
