import Verif.Theory.MapSeg
import Verif.Theory.MapBridge
import Verif.Theory.MapFlipSeg
import Verif.Model.MapExpr

/-!
# Expressions over interval maps: values and segments
-/

set_option linter.unusedSectionVars false
set_option linter.unusedVariables false
set_option linter.unusedSimpArgs false

namespace ICL
open Spec IMap

variable {D I V : Type} [LinearOrder D] {o : IntervalOps D I} [DecidableEq V]

/-- What maps satisfy that store no identity elements. -/
structure MV (o : IntervalOps D I) (t : MapType V) (l : List (I × V)) : Prop where
  wf : WF o mapSeg l
  joined : t.cfg.joining = true → Joined o mapSeg l
  noIdent : NoIdent t.cfg l

theorem mv_nil (t : MapType V) : MV o t [] := ⟨wf_nil, fun _ => joined_nil, noIdent_nil _⟩

theorem MV.pt {t : MapType V} {l l' : List (I × V)} {N : Prop} {φ : D → Option V → Option V}
    (hl : MV o t l) (hp : Pt o t.cfg N l l' φ) (hN : N) : MV o t l' :=
  ⟨hp.wf, fun hj => hp.joined hj (hl.joined hj), hp.noIdent hN hl.noIdent⟩

/-- The value is not one that would have been absorbed. -/
def Norm (t : MapType V) (a : Option V) : Prop := ∀ v, a = some v → absorbable t.cfg v = false

theorem MV.norm {t : MapType V} {l : List (I × V)} (hl : MV o t l) (x : D) : Norm t (valueAt o l x) :=
  (noIdent_iff hl.wf).1 hl.noIdent x

/-- The value of a key in `a + b`. -/
def pAdd (t : MapType V) (a b : Option V) : Option V :=
  match b with
  | none => a
  | some v => addF t.cfg t.plus v a
/-- The value of a key in `a - b`. -/
def pSub (t : MapType V) (a b : Option V) : Option V :=
  match b with
  | none => a
  | some v => subV t v a
/-- The value of a key in `a & b`. -/
def pInter (t : MapType V) (a b : Option V) : Option V :=
  if t.cfg.total then pAdd t (pAdd t none a) b
  else match b with
    | none => none
    | some v => interF t v a none
/-- The value of a key in `a ^ b`. -/
def pFlip (t : MapType V) (a b : Option V) : Option V :=
  if t.cfg.total then flipTotalF t (pAdd t a b)
  else match b with
    | none => a
    | some v => flipF t v a

/-- No border of a segment of `l` lies between `x` and `y`. -/
abbrev TogM (o : IntervalOps D I) (l : List (I × V)) (x y : D) : Prop := Tog o (l.map Prod.fst) x y

theorem togM_nil (x y : D) : TogM o ([] : List (I × V)) x y := tog_nil x y

/-- `m` is the result of an operation on `a` and `b` which combines the values by `F`. -/
structure Op (o : IntervalOps D I) (t : MapType V) (F : Option V → Option V → Option V)
    (a b m : List (I × V)) : Prop where
  val : ∀ x, valueAt o m x = F (valueAt o a x) (valueAt o b x)
  good : MV o t m
  tog : t.cfg.joining = false → Meets o a b m

theorem Op.swap {t : MapType V} {F : Option V → Option V → Option V} {a b m : List (I × V)}
    (hF : ∀ p q, Norm t p → Norm t q → F p q = F q p) (ha : MV o t a) (hb : MV o t b) (hm : Op o t F b a m) :
    Op o t F a b m :=
  ⟨fun x => by rw [hm.val, hF _ _ (hb.norm x) (ha.norm x)], hm.good,
    fun hj => ⟨fun x y hx => by rw [(hm.tog hj).tog x y hx, and_comm]⟩⟩

section
variable (h : o.Lawful)
include h

theorem addMap_op {t : MapType V} (hN : Neutral t) (oracle : List (I × V) → I → Nat) {a b : List (I × V)}
    (ha : MV o t a) (hb : MV o t b) : ∃ m, addMap o t oracle a b = some m ∧ Op o t (pAdd t) a b m := by
  obtain ⟨m, e, p⟩ := addMap_pt h t oracle ha.wf hb.wf
  refine ⟨m, e, fun x => ?_, ha.pt p hN, fun hj => addMap_meets h hj ha.wf hb.wf hb.noIdent e⟩
  rw [p.at_ hN ha.noIdent]
  unfold over pAdd
  cases valueAt o b x <;> rfl

theorem subMap_op {t : MapType V} (hN : Versions t) {a b : List (I × V)} (ha : MV o t a) (hb : MV o t b) :
    ∃ m, subMap o t a b = some m ∧ Op o t (pSub t) a b m := by
  obtain ⟨m, e, p⟩ := subMap_ptv h t ha.wf hb.wf
  refine ⟨m, e, fun x => ?_, ha.pt p hN, fun hj => subMap_meets h hj ha.wf hb.wf hb.noIdent e⟩
  rw [p.at_ hN ha.noIdent]
  unfold over pSub
  cases valueAt o b x <;> rfl

theorem interMap_op {t : MapType V} (hN : Neutral t) (oracle : List (I × V) → I → Nat) {a b : List (I × V)}
    (ha : MV o t a) (hb : MV o t b) :
    ∃ m, addInterMap o t oracle [] a b = some m ∧ Op o t (pInter t) a b m := by
  cases ht : t.cfg.total with
  | false =>
    obtain ⟨m, e, p⟩ := addInterMap_pt h t ht oracle wf_nil ha.wf hb.wf
    refine ⟨m, e, fun x => ?_, (mv_nil t).pt p hN,
      fun hj => addInterMap_meets h hj ha.wf hb.wf ha.noIdent hb.noIdent e⟩
    rw [p.at_ hN (noIdent_nil _)]
    unfold over pInter
    rw [ht]
    cases valueAt o b x <;> rfl
  | true =>
    obtain ⟨m, e, p⟩ := addInterMap_total_pt h t ht oracle wf_nil ha.wf hb.wf
    refine ⟨m, e, fun x => ?_, (mv_nil t).pt p hN,
      fun hj => addInterMap_meets h hj ha.wf hb.wf ha.noIdent hb.noIdent e⟩
    rw [p.at_ hN (noIdent_nil _)]
    unfold pInter pAdd over
    rw [ht]
    simp only [if_true, valueAt_nil]
    cases valueAt o b x <;> cases valueAt o a x <;> rfl

theorem flipMap_val [DecidableEq I] {t : MapType V} (hN : Neutral t) (oracle : List (I × V) → I → Nat)
    {a b : List (I × V)} (ha : MV o t a) (hb : MV o t b) :
    ∃ m, flipMap o t oracle a b = some m ∧ MV o t m ∧
      ∀ x, valueAt o m x = pFlip t (valueAt o a x) (valueAt o b x) := by
  cases ht : t.cfg.total with
  | false =>
    obtain ⟨m, e, p⟩ := flipMap_pt h t ht oracle ha.wf hb.wf
    refine ⟨m, e, ha.pt p hN, fun x => ?_⟩
    rw [p.at_ hN ha.noIdent]
    unfold over pFlip
    rw [ht]
    cases valueAt o b x <;> rfl
  | true =>
    obtain ⟨m, e, p⟩ := flipMap_total_pt h t ht oracle ha.wf hb.wf
    refine ⟨m, e, ha.pt p hN, fun x => ?_⟩
    rw [p.at_ hN ha.noIdent]
    unfold pFlip pAdd over
    rw [ht]
    simp only [if_true]
    cases valueAt o b x <;> rfl

theorem flipMap_op [DecidableEq I] {t : MapType V} (hN : Neutral t) (oracle : List (I × V) → I → Nat)
    {a b : List (I × V)} (ha : MV o t a) (hb : MV o t b) :
    ∃ m, flipMap o t oracle a b = some m ∧ Op o t (pFlip t) a b m := by
  obtain ⟨m, e, hm, hv⟩ := flipMap_val h hN oracle ha hb
  exact ⟨m, e, hv, hm, fun hj => flipMap_meets h hj hN ha.wf hb.wf hb.noIdent e⟩

/-! ### Expressions -/

variable [DecidableEq I]

theorem meval_mv {t : MapType V} (hN : Neutral t) {oracle : List (I × V) → I → Nat} (A : MapExpr I V)
    (hA : A.Leaves (MV o t)) : ∃ a, A.eval o t oracle = some a ∧ MV o t a := by
  induction A with
  | leaf b l => exact ⟨l, rfl, hA⟩
  | add a b iha ihb =>
    obtain ⟨x, e1, h1⟩ := iha hA.1
    obtain ⟨y, e2, h2⟩ := ihb hA.2
    simp only [MapExpr.eval, e1, e2, Option.bind_eq_bind, Option.bind_some]
    split
    · obtain ⟨m, e, p⟩ := addMap_op h hN oracle h2 h1; exact ⟨m, e, p.good⟩
    · obtain ⟨m, e, p⟩ := addMap_op h hN oracle h1 h2; exact ⟨m, e, p.good⟩
  | sub a b iha ihb =>
    obtain ⟨x, e1, h1⟩ := iha hA.1
    obtain ⟨y, e2, h2⟩ := ihb hA.2
    simp only [MapExpr.eval, e1, e2, Option.bind_eq_bind, Option.bind_some]
    obtain ⟨m, e, p⟩ := subMap_op h hN.toVersions h1 h2
    exact ⟨m, e, p.good⟩
  | inter a b iha ihb =>
    obtain ⟨x, e1, h1⟩ := iha hA.1
    obtain ⟨y, e2, h2⟩ := ihb hA.2
    simp only [MapExpr.eval, e1, e2, Option.bind_eq_bind, Option.bind_some]
    split
    · obtain ⟨m, e, p⟩ := interMap_op h hN oracle h2 h1; exact ⟨m, e, p.good⟩
    · obtain ⟨m, e, p⟩ := interMap_op h hN oracle h1 h2; exact ⟨m, e, p.good⟩
  | flip a b iha ihb =>
    obtain ⟨x, e1, h1⟩ := iha hA.1
    obtain ⟨y, e2, h2⟩ := ihb hA.2
    simp only [MapExpr.eval, e1, e2, Option.bind_eq_bind, Option.bind_some]
    split
    · obtain ⟨m, e, p, _⟩ := flipMap_val h hN oracle h2 h1; exact ⟨m, e, p⟩
    · obtain ⟨m, e, p, _⟩ := flipMap_val h hN oracle h1 h2; exact ⟨m, e, p⟩

variable {t : MapType V} {oracle : List (I × V) → I → Nat} {A B : MapExpr I V} {a b : List (I × V)}

theorem meval_add (hN : Neutral t) (hF : ∀ p q, Norm t p → Norm t q → pAdd t p q = pAdd t q p) (ha : MV o t a)
    (hb : MV o t b) (e1 : A.eval o t oracle = some a) (e2 : B.eval o t oracle = some b) :
    ∃ m, (A + B).eval o t oracle = some m ∧ Op o t (pAdd t) a b m := by
  show ∃ m, (MapExpr.add A B).eval o t oracle = some m ∧ _
  simp only [MapExpr.eval, e1, e2, Option.bind_eq_bind, Option.bind_some]
  split
  · obtain ⟨m, e, p⟩ := addMap_op h hN oracle hb ha; exact ⟨m, e, p.swap hF ha hb⟩
  · exact addMap_op h hN oracle ha hb

theorem meval_sub (hN : Versions t) (ha : MV o t a) (hb : MV o t b) (e1 : A.eval o t oracle = some a)
    (e2 : B.eval o t oracle = some b) : ∃ m, (A - B).eval o t oracle = some m ∧ Op o t (pSub t) a b m := by
  show ∃ m, (MapExpr.sub A B).eval o t oracle = some m ∧ _
  simp only [MapExpr.eval, e1, e2, Option.bind_eq_bind, Option.bind_some]
  exact subMap_op h hN ha hb

theorem meval_inter (hN : Neutral t) (hF : ∀ p q, Norm t p → Norm t q → pInter t p q = pInter t q p) (ha : MV o t a)
    (hb : MV o t b) (e1 : A.eval o t oracle = some a) (e2 : B.eval o t oracle = some b) :
    ∃ m, (A &&& B).eval o t oracle = some m ∧ Op o t (pInter t) a b m := by
  show ∃ m, (MapExpr.inter A B).eval o t oracle = some m ∧ _
  simp only [MapExpr.eval, e1, e2, Option.bind_eq_bind, Option.bind_some]
  split
  · obtain ⟨m, e, p⟩ := interMap_op h hN oracle hb ha; exact ⟨m, e, p.swap hF ha hb⟩
  · exact interMap_op h hN oracle ha hb

theorem meval_flip (hN : Neutral t) (hF : ∀ p q, Norm t p → Norm t q → pFlip t p q = pFlip t q p) (ha : MV o t a)
    (hb : MV o t b) (e1 : A.eval o t oracle = some a) (e2 : B.eval o t oracle = some b) :
    ∃ m, (A ^^^ B).eval o t oracle = some m ∧ MV o t m ∧
      ∀ x, valueAt o m x = pFlip t (valueAt o a x) (valueAt o b x) := by
  show ∃ m, (MapExpr.flip A B).eval o t oracle = some m ∧ _
  simp only [MapExpr.eval, e1, e2, Option.bind_eq_bind, Option.bind_some]
  split
  · obtain ⟨m, e, p, q⟩ := flipMap_val h hN oracle hb ha
    exact ⟨m, e, p, fun x => by rw [q, hF _ _ (hb.norm x) (ha.norm x)]⟩
  · exact flipMap_val h hN oracle ha hb

/-! ### Equality -/

omit [DecidableEq I] in
theorem eqC_of_tog {m n : List (I × V)} (hm : MV o t m) (hn : MV o t n)
    (hv : ∀ x, valueAt o m x = valueAt o n x)
    (ht : t.cfg.joining = false → ∀ x y, valueAt o m x ≠ none → valueAt o n x ≠ none →
      (TogM o m x y ↔ TogM o n x y)) :
    eqC o mapSeg m n = true := by
  have hmaps : ∀ x v, Maps o mapSeg m x v ↔ Maps o mapSeg n x v := by
    intro x v; rw [← valueAt_some hm.wf, ← valueAt_some hn.wf, hv]
  cases hj : t.cfg.joining with
  | true => rw [eqC_joined h hm.wf hn.wf (hm.joined hj) (hn.joined hj)]; exact hmaps
  | false =>
    rw [eqC_spec h hm.wf hn.wf]
    refine ⟨fun x y => ?_, hmaps⟩
    rw [← same_fst h, ← same_fst h, same_iff_tog h (wf_fst.2 hm.wf), same_iff_tog h (wf_fst.2 hn.wf)]
    have hd : Dom o setSeg (m.map Prod.fst) x ↔ Dom o setSeg (n.map Prod.fst) x := by
      rw [dom_fst, dom_fst, ← not_iff_not, ← valueAt_none, ← valueAt_none, hv]
    rw [← hd]
    refine and_congr_left fun hx => ?_
    have hx' : valueAt o m x ≠ none := fun hc => valueAt_none.1 hc (dom_fst.1 hx)
    exact ht hj x y hx' (by rwa [← hv])

omit [DecidableEq I] in
theorem tog_val {a : List (I × V)} (ha : WF o mapSeg a) {x y z : D} (ht : TogM o a x y) (hz : Btw x y z) :
    valueAt o a z = valueAt o a x := by
  by_cases hd : Dom o mapSeg a x
  · have hs := same_of_tog ht (dom_fst.2 hd)
    have hs' := same_btw h hs hz
    rw [same_fst h] at hs'
    obtain ⟨s, hs, h1, h2⟩ := hs'
    rw [(valueAt_some ha).2 ⟨s, hs, h2, rfl⟩, (valueAt_some ha).2 ⟨s, hs, h1, rfl⟩]
  · rw [valueAt_none.2 hd]
    have := (tog_free (fun hc => hd (dom_fst.1 hc))).1 ht z hz
    exact valueAt_none.2 fun hc => this (dom_fst.2 hc)

omit h [DecidableEq I] in
theorem tog_of_gap {a : List (I × V)} {x y : D} (hg : ∀ z, Btw x y z → valueAt o a z = none) : TogM o a x y := by
  have : ∀ z, Btw x y z → ¬ Dom o setSeg (a.map Prod.fst) z := fun z hz hc =>
    valueAt_none.1 (hg z hz) (dom_fst.1 hc)
  exact (tog_free (this x (btw_left x y))).2 this

omit h [DecidableEq I] in
theorem gap_of_tog {a : List (I × V)} {x y : D} (ht : TogM o a x y) (hx : valueAt o a x = none) :
    ∀ z, Btw x y z → valueAt o a z = none := fun z hz =>
  valueAt_none.2 fun hc => (tog_free (fun hc => valueAt_none.1 hx (dom_fst.1 hc))).1 ht z hz (dom_fst.2 hc)

variable {F : Option V → Option V → Option V} {m : List (I × V)} {x y : D}

omit h [DecidableEq I] in
theorem Op.iff (hm : Op o t F a b m) (hj : t.cfg.joining = false) (hx : valueAt o m x ≠ none) :
    TogM o m x y ↔ TogM o a x y ∧ TogM o b x y :=
  (hm.tog hj).tog x y (by by_contra hc; exact hx (valueAt_none.2 hc))

omit [DecidableEq I] in
/-- Borders of the result are borders of an operand. -/
theorem Op.merge (hm : Op o t F a b m) (hj : t.cfg.joining = false) (ha : MV o t a) (hb : MV o t b)
    (h1 : TogM o a x y) (h2 : TogM o b x y) : TogM o m x y := by
  by_cases hx : valueAt o m x = none
  · refine tog_of_gap fun z hz => ?_
    rw [hm.val, tog_val h ha.wf h1 hz, tog_val h hb.wf h2 hz, ← hm.val, hx]
  · exact (hm.iff hj hx).2 ⟨h1, h2⟩

omit h [DecidableEq I] in
/-- Borders of an operand are kept if no key of it is lost. -/
theorem Op.left (hm : Op o t F a b m) (hj : t.cfg.joining = false)
    (hl : ∀ z, valueAt o m z = none → valueAt o a z = none) (h1 : TogM o m x y) : TogM o a x y := by
  by_cases hx : valueAt o m x = none
  · exact tog_of_gap fun z hz => hl z (gap_of_tog h1 hx z hz)
  · exact ((hm.iff hj hx).1 h1).1

omit h [DecidableEq I] in
theorem Op.right (hm : Op o t F a b m) (hj : t.cfg.joining = false)
    (hl : ∀ z, valueAt o m z = none → valueAt o b z = none) (h1 : TogM o m x y) : TogM o b x y := by
  by_cases hx : valueAt o m x = none
  · exact tog_of_gap fun z hz => hl z (gap_of_tog h1 hx z hz)
  · exact ((hm.iff hj hx).1 h1).2

omit [DecidableEq I] in
/-- All borders are kept if no key is lost. -/
theorem Op.all (hm : Op o t F a b m) (hj : t.cfg.joining = false) (ha : MV o t a) (hb : MV o t b)
    (hl : ∀ z, valueAt o m z = none → valueAt o a z = none ∧ valueAt o b z = none) :
    TogM o m x y ↔ TogM o a x y ∧ TogM o b x y :=
  ⟨fun h1 => ⟨hm.left hj (fun z hz => (hl z hz).1) h1, hm.right hj (fun z hz => (hl z hz).2) h1⟩,
    fun h1 => hm.merge h hj ha hb h1.1 h1.2⟩

end
end ICL
