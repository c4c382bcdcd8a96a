import Verif.ElementLawSpec
import Verif.Props.ElementLaws
import Verif.Props.Laws

/-!
# C70: which equations hold for sets and maps of elements

The counterpart of C67 for `icl::set` and `icl::map`, maps of elements as functions, and the equations of partial maps
of numbers. Sets of elements obey the same equations as interval sets, and maps of elements the same as interval maps.
-/

set_option linter.unusedSectionVars false

namespace ICL.Props
open Spec IMap

variable {D I V ν : Type} [LinearOrder D] {o : IntervalOps D I} [DecidableEq I] [DecidableEq V]

/-! ## Sets -/

/-- The elements of the value of a term. -/
theorem eterm_mem {σ : ν → List D} (hσ : ∀ n, Ascending (fun x => x) (σ n)) (p : Term ν) :
    Ascending (fun x => x) (p.ofElements σ).evalSet ∧
      ∀ x, x ∈ (p.ofElements σ).evalSet ↔ p.holds fun n => x ∈ σ n := by
  induction p with
  | var m n => exact ⟨hσ n, fun x => Iff.rfl⟩
  | add p q ihp ihq =>
    exact ⟨addSet_asc ihp.1, fun x => by
      simp only [Term.ofElements, ElemExpr.evalSet, Term.holds, mem_addSet ihp.1, ihp.2, ihq.2]⟩
  | sub p q ihp ihq =>
    exact ⟨subSet_asc ihp.1, fun x => by
      simp only [Term.ofElements, ElemExpr.evalSet, Term.holds, mem_subSet ihp.1, ihp.2, ihq.2]⟩
  | inter p q ihp ihq =>
    exact ⟨andSet_asc ihp.1 ihq.1, fun x => by
      simp only [Term.ofElements, ElemExpr.evalSet, Term.holds, mem_andSet ihp.1 ihq.1, ihp.2, ihq.2]⟩
  | flip p q ihp ihq =>
    exact ⟨flipSet_asc ihp.1 ihq.1, fun x => by
      simp only [Term.ofElements, ElemExpr.evalSet, Term.holds, mem_flipSet ihp.1 ihq.1, ihp.2, ihq.2]; tauto⟩

theorem ewitness_sets (x : D) (b : ν → Prop) :
    ∃ σ : ν → List D, (∀ n, Ascending (fun x => x) (σ n)) ∧ ∀ n, x ∈ σ n ↔ b n := by
  classical
  refine ⟨fun n => if b n then [x] else [], fun n => ?_, fun n => ?_⟩
  · by_cases hb : b n <;> simp [hb, Ascending]
  · by_cases hb : b n <;> simp [hb]

/-- `p == q` holds for all `icl::set`s iff it holds for truth values. -/
theorem C70_sets [Nonempty D] (p q : Term ν) :
    (∀ σ : ν → List D, (∀ n, Ascending (fun x => x) (σ n)) →
      ESet.eq (p.ofElements σ).evalSet (q.ofElements σ).evalSet = true) ↔
    ∀ b : ν → Prop, p.holds b ↔ q.holds b := by
  constructor
  · intro he b
    obtain ⟨x⟩ := ‹Nonempty D›
    obtain ⟨σ, h1, h2⟩ := ewitness_sets x b
    obtain ⟨hp, mp⟩ := eterm_mem h1 p
    obtain ⟨hq, mq⟩ := eterm_mem h1 q
    have := (C38_eq hp hq).1 (he σ h1) x
    rw [mp, mq] at this
    simpa only [h2] using this
  · intro he σ h1
    obtain ⟨hp, mp⟩ := eterm_mem h1 p
    obtain ⟨hq, mq⟩ := eterm_mem h1 q
    exact (C38_eq hp hq).2 fun x => by rw [mp, mq]; exact he _

/-- `within(p, q)` holds for all `icl::set`s iff `p` implies `q` for truth values. -/
theorem C70_within [Nonempty D] (p q : Term ν) :
    (∀ σ : ν → List D, (∀ n, Ascending (fun x => x) (σ n)) →
      ESet.within (p.ofElements σ).evalSet (q.ofElements σ).evalSet = true) ↔
    ∀ b : ν → Prop, p.holds b → q.holds b := by
  constructor
  · intro he b
    obtain ⟨x⟩ := ‹Nonempty D›
    obtain ⟨σ, h1, h2⟩ := ewitness_sets x b
    obtain ⟨hp, mp⟩ := eterm_mem h1 p
    obtain ⟨hq, mq⟩ := eterm_mem h1 q
    have := (C38_within hp hq).1 (he σ h1) x
    rw [mp, mq] at this
    simpa only [h2] using this
  · intro he σ h1
    obtain ⟨hp, mp⟩ := eterm_mem h1 p
    obtain ⟨hq, mq⟩ := eterm_mem h1 q
    exact (C38_within hp hq).2 fun x => by rw [mp, mq]; exact he _

/-- `icl::set`s and `interval_set`s obey the same equations, whatever their domain types are. -/
theorem C70_same_as_interval_sets {D' : Type} [LinearOrder D'] [Nonempty D'] (h : IntervalClass o) {k : I}
    (hk : ∃ x, In o x k) (oracle : List I → I → Nat) (p q : Term ν) :
    (∀ σ : ν → List D', (∀ n, Ascending (fun x => x) (σ n)) →
      ESet.eq (p.ofElements σ).evalSet (q.ofElements σ).evalSet = true) ↔
    (∀ σ : ν → List I, (∀ n, SetValue o .joining (σ n)) →
      LexEq o .joining oracle (p.ofSets σ) (q.ofSets σ)) := by
  rw [C70_sets, C67_sets h hk]

/-! ## Maps -/

/-- In `icl::map` the symmetric difference of the values of one key is that of the interval maps. -/
theorem eFlip_eq {t : MapType V} (ht : t.cfg.total = false) (hO : OrderFree t) {a b : Option V} (h1 : Norm t a)
    (h2 : Norm t b) : eFlip t a b = pFlip t a b := by
  unfold eFlip pFlip
  simp only [ht, Bool.false_eq_true, if_false]
  have hst : ∀ w, stored t w = addF t.cfg t.plus w none := fun w => by
    unfold stored addF
    by_cases hi : Ignored t w
    · rw [if_pos hi, if_pos]
      by_contra hc
      exact absorbable_false_iff.1 (Bool.eq_false_iff.2 hc) hi
    · rw [if_neg hi, absorbable_false_iff.2 hi, hO.stored w hi]; rfl
  cases b with
  | none => rfl
  | some v =>
    have hv : ¬ Ignored t v := absorbable_false_iff.1 (h2 v rfl)
    cases a with
    | none => exact hst v
    | some u =>
      have hu : ¬ Ignored t u := absorbable_false_iff.1 (h1 u rfl)
      have hc : (if t.setLike = true then t.unsect u v else t.cfg.ident) = flipValue t v u := by
        unfold flipValue
        split_ifs with hs
        · exact hO.unsect ht hs u v hu hv
        · rfl
      simp only [flippedElem, hv, if_false, hc, flipF]
      rw [← hst]
      unfold stored
      split_ifs with hi
      · rfl
      · rw [Option.bind_some, ← hst, stored, if_neg hi]

theorem ev_flip {t : MapType V} (hO : OrderFree t) {F : PointOps V} (hF : PointActs t F) {a b : List (D × V)}
    (ha : EV t a) (hb : EV t b) : EV t (EMap.flipMap t a b) ∧
      ∀ x, gv t (valueOf (EMap.flipMap t a b) x) = F.flip (gv t (valueOf a x)) (gv t (valueOf b x)) := by
  cases ht : t.cfg.total with
  | false =>
    obtain ⟨h1, h2⟩ := EV.flip ht ha hb
    exact ⟨h1, fun x => by
      rw [h2, eFlip_eq ht hO (ha.norm x) (hb.norm x), hF.flip _ _ (ha.norm x) (hb.norm x)]⟩
  | true =>
    have hid : ∀ x, F.flip (gv t (valueOf a x)) (gv t (valueOf b x)) = t.cfg.ident := fun x => by
      rw [← hF.flip _ _ (ha.norm x) (hb.norm x), gv_flip_total ht]
    cases hab : t.cfg.absorbs with
    | true =>
      have e : EMap.flipMap t a b = [] := by unfold EMap.flipMap; simp [ht, hab]
      rw [e]
      exact ⟨ev_nil, fun x => by rw [hid]; rfl⟩
    | false =>
      obtain ⟨h1, h2⟩ := EMap.flipMap_total ht hab hb.asc ha.asc
      refine ⟨⟨h1, fun s _ hi => by simp [Ignored, hab] at hi⟩, fun x => ?_⟩
      rw [hid, h2]
      split_ifs <;> rfl

/-- The value of a term at a key. -/
theorem eterm_value {t : MapType V} (hN : Neutral t) (hM : MonoidValues t) (hO : OrderFree t) {F : PointOps V}
    (hF : PointActs t F) {σ : ν → List (D × V)} (hσ : ∀ n, EMapValue t (σ n)) (p : Term ν) :
    EMapValue t ((p.ofElements σ).evalMap t) ∧
      ∀ x, gv t (valueOf ((p.ofElements σ).evalMap t) x) = p.value F fun n => gv t (valueOf (σ n) x) := by
  induction p with
  | var m n => exact ⟨hσ n, fun x => rfl⟩
  | add p q ihp ihq =>
    have hp := emapValue_iff.1 ihp.1
    have hq := emapValue_iff.1 ihq.1
    obtain ⟨h1, h2⟩ := EV.add hN hp hq
    refine ⟨emapValue_iff.2 h1, fun x => ?_⟩
    simp only [Term.ofElements, ElemExpr.evalMap, Term.value]
    rw [h2, hF.add _ _ (hp.norm x) (hq.norm x), ihp.2, ihq.2]
  | sub p q ihp ihq =>
    have hp := emapValue_iff.1 ihp.1
    have hq := emapValue_iff.1 ihq.1
    obtain ⟨h1, h2⟩ := EV.sub hN.toVersions hp hq
    refine ⟨emapValue_iff.2 h1, fun x => ?_⟩
    simp only [Term.ofElements, ElemExpr.evalMap, Term.value]
    rw [h2, hF.sub _ _ (hp.norm x) (hq.norm x), ihp.2, ihq.2]
  | inter p q ihp ihq =>
    have hp := emapValue_iff.1 ihp.1
    have hq := emapValue_iff.1 ihq.1
    obtain ⟨h1, h2⟩ := EV.inter hN hM hp hq
    refine ⟨emapValue_iff.2 h1, fun x => ?_⟩
    simp only [Term.ofElements, ElemExpr.evalMap, Term.value]
    rw [h2, hF.inter _ _ (hp.norm x) (hq.norm x), ihp.2, ihq.2]
  | flip p q ihp ihq =>
    have hp := emapValue_iff.1 ihp.1
    have hq := emapValue_iff.1 ihq.1
    obtain ⟨h1, h2⟩ := ev_flip hO hF hp hq
    refine ⟨emapValue_iff.2 h1, fun x => ?_⟩
    simp only [Term.ofElements, ElemExpr.evalMap, Term.value]
    rw [h2, ihp.2, ihq.2]

theorem ewitness_maps (t : MapType V) (x : D) (b : ν → V) :
    ∃ σ : ν → List (D × V), (∀ n, EMapValue t (σ n)) ∧ ∀ n, gv t (valueOf (σ n) x) = b n := by
  refine ⟨fun n => if b n = t.cfg.ident then [] else [(x, b n)], fun n => ?_, fun n => ?_⟩
  · by_cases hb : b n = t.cfg.ident
    · simp [hb, EMapValue, Ascending, NoIdentity]
    · simp [hb, EMapValue, Ascending, NoIdentity, Ignored]
  · by_cases hb : b n = t.cfg.ident
    · simp only [hb, if_true]; rfl
    · simp only [hb, if_false]
      have : valueOf [(x, b n)] x = some (b n) :=
        (valueOf_eq_some (by simp [Ascending])).2 (by simp)
      rw [this]; rfl

theorem law_emaps [Nonempty D] {t : MapType V} (hN : Neutral t) (hM : MonoidValues t) (hO : OrderFree t)
    {F : PointOps V} (hF : PointActs t F) (p q : Term ν) :
    ((∀ σ : ν → List (D × V), (∀ n, EMapValue t (σ n)) →
        EMap.isDistinctEqual t ((p.ofElements σ).evalMap t) ((q.ofElements σ).evalMap t) = true) ↔
      ∀ b : ν → V, p.value F b = q.value F b) ∧
    (t.cfg.absorbs = true →
      ((∀ σ : ν → List (D × V), (∀ n, EMapValue t (σ n)) →
          EMap.eq ((p.ofElements σ).evalMap t) ((q.ofElements σ).evalMap t) = true) ↔
        ∀ b : ν → V, p.value F b = q.value F b)) := by
  have both : ∀ (E : List (D × V) → List (D × V) → Prop),
      (∀ {m n}, EMapValue t m → EMapValue t n → (E m n ↔ ∀ x, gv t (valueOf m x) = gv t (valueOf n x))) →
      ((∀ σ : ν → List (D × V), (∀ n, EMapValue t (σ n)) →
          E ((p.ofElements σ).evalMap t) ((q.ofElements σ).evalMap t)) ↔
        ∀ b : ν → V, p.value F b = q.value F b) := by
    intro E hE
    constructor
    · intro he b
      obtain ⟨x⟩ := ‹Nonempty D›
      obtain ⟨σ, h1, h2⟩ := ewitness_maps t x b
      obtain ⟨hp, vp⟩ := eterm_value hN hM hO hF h1 p
      obtain ⟨hq, vq⟩ := eterm_value hN hM hO hF h1 q
      have := (hE hp hq).1 (he σ h1) x
      rw [vp, vq] at this
      simpa only [h2] using this
    · intro he σ h1
      obtain ⟨hp, vp⟩ := eterm_value hN hM hO hF h1 p
      obtain ⟨hq, vq⟩ := eterm_value hN hM hO hF h1 q
      exact (hE hp hq).2 fun x => by rw [vp, vq, he]
  refine ⟨both _ fun hm hn => C38_distinct_equal t hm.1 hn.1, fun ha => both (fun m n => EMap.eq m n = true) fun {m n} hm hn => ?_⟩
  have gm := emapValue_iff.1 hm
  have gn := emapValue_iff.1 hn
  constructor
  · intro he x; rw [(zip_all_eq m n).1 he]
  · intro he; exact emap_eq (gm.ext gn fun x => gv_inj ha (gm.norm x) (gn.norm x) (he x))

theorem select_eterm {t : MapType V} (hN : Neutral t) (hM : MonoidValues t) (hO : OrderFree t) {F : PointOps V}
    (hF : PointActs t F) {σ : ν → List (D × V)} (hσ : ∀ n, EMapValue t (σ n)) (p : Term ν) (x : D) :
    EMap.select t ((p.ofElements σ).evalMap t) x = p.value F fun n => EMap.select t (σ n) x := by
  obtain ⟨h1, h2⟩ := eterm_value hN hM hO hF hσ p
  rw [C33_select t h1.1]
  refine (h2 x).trans (congrArg (fun b => p.value F b) ?_)
  funext n
  exact (C33_select t (hσ n).1 x).symm

theorem norm_ne_zero {W : Type} [DecidableEq W] [AddCommGroup W] {joining signed : Bool} {c : Option W}
    (hc : Norm (.numeric joining true false signed) c) (v : W) (hv : c = some v) : v ≠ 0 := fun e =>
  absorbable_false_iff.1 (hc v hv) ⟨rfl, e⟩

/-- Partial maps of numbers that absorb zeros. -/
theorem partial_acts {W : Type} [DecidableEq W] [AddCommGroup W] (joining signed : Bool) :
    PointActs (.numeric (V := W) joining true false signed) PointOps.partialNumbers where
  add a b _ _ := gv_add' (numeric_comm joining true false signed).toMonoidValues
  sub a b h1 h2 := by
    cases b with
    | none => cases a <;> simp [pSub, gv, PointOps.partialNumbers, MapType.numeric]
    | some v =>
      cases a with
      | none =>
        simp only [pSub, subV, subF, h2 v rfl]
        simp [gv, PointOps.partialNumbers, MapType.numeric]
      | some u =>
        have e : pSub (.numeric joining true false signed) (some u) (some v) =
            keep (MapType.numeric (V := W) joining true false signed).cfg (u - v) := by
          simp [pSub, subV, subF, h2 v rfl]
          rfl
        rw [e, gv_keep']
        simp [PointOps.partialNumbers, gv, norm_ne_zero h1 u rfl]
  inter a b h1 h2 := by
    cases b with
    | none => simp [pInter, gv, PointOps.partialNumbers, MapType.numeric]
    | some v =>
      cases a with
      | none => simp [pInter, interF, gv, PointOps.partialNumbers, MapType.numeric]
      | some u =>
        have e : pInter (.numeric joining true false signed) (some u) (some v) =
            keep (MapType.numeric (V := W) joining true false signed).cfg (u + v) := by
          unfold pInter interF addF
          simp [h2 v rfl, h1 u rfl]
          rfl
        rw [e, gv_keep']
        simp [PointOps.partialNumbers, gv, norm_ne_zero h1 u rfl, norm_ne_zero h2 v rfl]
  flip a b h1 h2 := by
    cases b with
    | none => cases a <;> simp [pFlip, gv, PointOps.partialNumbers, MapType.numeric]
    | some v =>
      cases a with
      | none =>
        simp [pFlip, flipF, addF, gv, PointOps.partialNumbers, MapType.numeric, absorbable, norm_ne_zero h2 v rfl]
        rfl
      | some u =>
        simp [pFlip, flipF, flipValue, addF, absorbable, gv, PointOps.partialNumbers, MapType.numeric, norm_ne_zero h1 u rfl,
          norm_ne_zero h2 v rfl]

/-- Total `icl::map`s of numbers: `m(x)` of a term is the term of the `m(x)`, and an equation holds for all maps iff it
holds for the numbers: with `==` if identity elements are absorbed, else with `is_distinct_equal`. `+` and `&` both
stand for the addition of numbers, `a ^ b` for 0. -/
theorem C70_numbers {W : Type} [DecidableEq W] [AddCommGroup W] [Nonempty D] (joining : Bool) (p q : Term ν) :
    (∀ (absorbs : Bool) (σ : ν → List (D × W)), (∀ n, EMapValue (.numeric joining absorbs true true) (σ n)) →
      ∀ x, EMap.select (.numeric joining absorbs true true)
        ((p.ofElements σ).evalMap (.numeric joining absorbs true true)) x =
        p.value PointOps.numbers fun n => EMap.select (.numeric joining absorbs true true) (σ n) x) ∧
    ((∀ σ : ν → List (D × W), (∀ n, EMapValue (.numeric joining true true true) (σ n)) →
        EMap.eq ((p.ofElements σ).evalMap (.numeric joining true true true))
          ((q.ofElements σ).evalMap (.numeric joining true true true)) = true) ↔
      ∀ b : ν → W, p.value PointOps.numbers b = q.value PointOps.numbers b) ∧
    ((∀ σ : ν → List (D × W), (∀ n, EMapValue (.numeric joining false true true) (σ n)) →
        EMap.isDistinctEqual (.numeric joining false true true)
          ((p.ofElements σ).evalMap (.numeric joining false true true))
          ((q.ofElements σ).evalMap (.numeric joining false true true)) = true) ↔
      ∀ b : ν → W, p.value PointOps.numbers b = q.value PointOps.numbers b) := by
  have hM := fun absorbs => (numeric_comm (W := W) joining absorbs true true).toMonoidValues
  exact ⟨fun absorbs σ hσ x => select_eterm (numeric_neutral ..) (hM absorbs) (numeric_orderFree ..)
      (numeric_acts joining absorbs (hM absorbs)) hσ p x,
    (law_emaps (numeric_neutral ..) (hM true) (numeric_orderFree ..) (numeric_acts joining true (hM true)) p q).2 rfl,
    (law_emaps (numeric_neutral ..) (hM false) (numeric_orderFree ..) (numeric_acts joining false (hM false)) p q).1⟩

/-- Partial `icl::map`s of sets: the same with the operations of sets. -/
theorem C70_map_sets {α : Type} [DecidableEq α] [Nonempty D] (joining : Bool) (p q : Term ν) :
    (∀ (absorbs : Bool) (σ : ν → List (D × Finset α)), (∀ n, EMapValue (.collector joining absorbs false) (σ n)) →
      ∀ x, EMap.select (.collector joining absorbs false)
        ((p.ofElements σ).evalMap (.collector joining absorbs false)) x =
        p.value PointOps.sets fun n => EMap.select (.collector joining absorbs false) (σ n) x) ∧
    ((∀ σ : ν → List (D × Finset α), (∀ n, EMapValue (.collector joining true false) (σ n)) →
        EMap.eq ((p.ofElements σ).evalMap (.collector joining true false))
          ((q.ofElements σ).evalMap (.collector joining true false)) = true) ↔
      ∀ b : ν → Finset α, p.value PointOps.sets b = q.value PointOps.sets b) ∧
    ((∀ σ : ν → List (D × Finset α), (∀ n, EMapValue (.collector joining false false) (σ n)) →
        EMap.isDistinctEqual (.collector joining false false)
          ((p.ofElements σ).evalMap (.collector joining false false))
          ((q.ofElements σ).evalMap (.collector joining false false)) = true) ↔
      ∀ b : ν → Finset α, p.value PointOps.sets b = q.value PointOps.sets b) := by
  have hS := fun absorbs => collector_sets (α := α) joining absorbs false
  exact ⟨fun absorbs σ hσ x => select_eterm (hS absorbs).neutral (hS absorbs).comm.toMonoidValues
      (collector_orderFree ..) (sets_acts (hS absorbs)) hσ p x,
    (law_emaps (hS true).neutral (hS true).comm.toMonoidValues (collector_orderFree ..) (sets_acts (hS true)) p q).2 rfl,
    (law_emaps (hS false).neutral (hS false).comm.toMonoidValues (collector_orderFree ..)
      (sets_acts (hS false)) p q).1⟩

/-- Partial `icl::map`s and `interval_map`s of numbers that absorb zeros: an equation holds for all maps, with `==`, iff
it holds for the numbers, where zero stands for a missing key. -/
theorem C70_partial_numbers {D' W : Type} [LinearOrder D'] [Nonempty D'] [DecidableEq W] [AddCommGroup W]
    (h : IntervalClass o) {k : I} (hk : ∃ x, In o x k) (oracle : List (I × W) → I → Nat) (joining signed : Bool)
    (p q : Term ν) :
    ((∀ σ : ν → List (D' × W), (∀ n, EMapValue (.numeric joining true false signed) (σ n)) →
        EMap.eq ((p.ofElements σ).evalMap (.numeric joining true false signed))
          ((q.ofElements σ).evalMap (.numeric joining true false signed)) = true) ↔
      ∀ b : ν → W, p.value PointOps.partialNumbers b = q.value PointOps.partialNumbers b) ∧
    ((∀ σ : ν → List (I × W), (∀ n, MapValue o (.numeric true true false signed) (σ n)) →
        MapLexEq o (.numeric true true false signed) oracle (p.ofMaps σ) (q.ofMaps σ)) ↔
      ∀ b : ν → W, p.value PointOps.partialNumbers b = q.value PointOps.partialNumbers b) :=
  ⟨(law_emaps (numeric_neutral ..) (numeric_comm joining true false signed).toMonoidValues (numeric_orderFree ..)
      (partial_acts joining signed) p q).2 rfl,
    (law_maps h (numeric_neutral ..) (numeric_orderFree ..) (partial_acts true signed) rfl hk oracle p q).2 rfl⟩

/-- The value of a key in a term over partial maps of numbers that absorb zeros. -/
theorem C70_partial_select {W : Type} [DecidableEq W] [AddCommGroup W] (joining signed : Bool)
    {σ : ν → List (D × W)} (hσ : ∀ n, EMapValue (.numeric joining true false signed) (σ n)) (p : Term ν) (x : D) :
    EMap.select (.numeric joining true false signed)
      ((p.ofElements σ).evalMap (.numeric joining true false signed)) x =
      p.value PointOps.partialNumbers fun n => EMap.select (.numeric joining true false signed) (σ n) x :=
  select_eterm (numeric_neutral ..) (numeric_comm joining true false signed).toMonoidValues (numeric_orderFree ..)
    (partial_acts joining signed) hσ p x

/-- Total `icl::map`s and `interval_map`s of sets that absorb empty sets: an equation holds for all maps, with `==`, iff
it holds for the sets with the union for `&` and the empty set for `^`. -/
theorem C70_total_sets {D' α : Type} [LinearOrder D'] [Nonempty D'] [DecidableEq α] (h : IntervalClass o) {k : I}
    (hk : ∃ x, In o x k) (oracle : List (I × Finset α) → I → Nat) (joining : Bool) (p q : Term ν) :
    ((∀ σ : ν → List (D' × Finset α), (∀ n, EMapValue (.collector joining true true) (σ n)) →
        EMap.eq ((p.ofElements σ).evalMap (.collector joining true true))
          ((q.ofElements σ).evalMap (.collector joining true true)) = true) ↔
      ∀ b : ν → Finset α, p.value PointOps.totalSets b = q.value PointOps.totalSets b) ∧
    ((∀ σ : ν → List (I × Finset α), (∀ n, MapValue o (.collector true true true) (σ n)) →
        MapLexEq o (.collector true true true) oracle (p.ofMaps σ) (q.ofMaps σ)) ↔
      ∀ b : ν → Finset α, p.value PointOps.totalSets b = q.value PointOps.totalSets b) := by
  have hS := fun joining => collector_sets (α := α) joining true true
  exact ⟨(law_emaps (hS joining).neutral (hS joining).comm.toMonoidValues (collector_orderFree ..)
      (sets_acts (hS joining)) p q).2 rfl,
    (law_maps h (hS true).neutral (collector_orderFree ..) (sets_acts (hS true)) rfl hk oracle p q).2 rfl⟩

/-- `icl::map`s obey the same equations as `interval_map`s: total maps of numbers, and partial maps of sets. -/
theorem C70_same_as_interval_maps {D' W α : Type} [LinearOrder D'] [Nonempty D'] [DecidableEq W] [AddCommGroup W]
    [DecidableEq α] (h : IntervalClass o) {k : I} (hk : ∃ x, In o x k) (oracle : List (I × W) → I → Nat)
    (oracle' : List (I × Finset α) → I → Nat) (joining : Bool) (p q : Term ν) :
    ((∀ σ : ν → List (D' × W), (∀ n, EMapValue (.numeric joining true true true) (σ n)) →
        EMap.eq ((p.ofElements σ).evalMap (.numeric joining true true true))
          ((q.ofElements σ).evalMap (.numeric joining true true true)) = true) ↔
      ∀ σ : ν → List (I × W), (∀ n, MapValue o (.numeric true true true true) (σ n)) →
        MapLexEq o (.numeric true true true true) oracle (p.ofMaps σ) (q.ofMaps σ)) ∧
    ((∀ σ : ν → List (D' × Finset α), (∀ n, EMapValue (.collector joining true false) (σ n)) →
        EMap.eq ((p.ofElements σ).evalMap (.collector joining true false))
          ((q.ofElements σ).evalMap (.collector joining true false)) = true) ↔
      ∀ σ : ν → List (I × Finset α), (∀ n, MapValue o (.collector true true false) (σ n)) →
        MapLexEq o (.collector true true false) oracle' (p.ofMaps σ) (q.ofMaps σ)) := by
  rw [(C70_numbers (D := D') joining p q).2.1, (C67_numbers h hk oracle p q).1,
    (C70_map_sets (D := D') joining p q).2.1, (C67_map_sets h hk oracle' p q).1]
  exact ⟨Iff.rfl, Iff.rfl⟩

/-! ## Examples -/

/-- `(a + b) - b == a` is a law of total maps of numbers, but not of sets. `(a - b) - a == (a - a) - b` is not a law of
partial maps of numbers: once `a - a` has erased the key, `b` is not subtracted. -/
example :
    (∀ σ : Bool → List (ℤ × ℤ), (∀ n, EMapValue (.numeric true true true true) (σ n)) →
      EMap.eq (((Term.sub (.add (.var false true) (.var false false)) (.var false false)).ofElements σ).evalMap
          (.numeric true true true true))
        (((Term.var false true).ofElements σ).evalMap (.numeric true true true true)) = true) ∧
    (¬ ∀ σ : Bool → List (ℤ × ℤ), (∀ n, EMapValue (.numeric true true false true) (σ n)) →
      EMap.eq (((Term.sub (.sub (.var false true) (.var false false)) (.var false true)).ofElements σ).evalMap
          (.numeric true true false true))
        (((Term.sub (.sub (.var false true) (.var false true)) (.var false false)).ofElements σ).evalMap
          (.numeric true true false true)) = true) ∧
    (¬ ∀ σ : Bool → List ℤ, (∀ n, Ascending (fun x => x) (σ n)) →
      ESet.eq ((Term.sub (.add (.var false true) (.var false false)) (.var false false)).ofElements σ).evalSet
        ((Term.var false true).ofElements σ).evalSet = true) := by
  refine ⟨(C70_numbers true _ _).2.1.2 fun b => ?_, fun hc => ?_, fun hc => ?_⟩
  · simp [Term.value, PointOps.numbers]
  · have := ((law_emaps (numeric_neutral ..) (numeric_comm true true false true).toMonoidValues
      (numeric_orderFree ..) (partial_acts true true) _ _).2 rfl).1 hc fun n => if n then 1 else 2
    simp [Term.value, PointOps.partialNumbers] at this
  · have := ((C70_sets _ _).1 hc) fun _ => True
    simp [Term.holds] at this

end ICL.Props
