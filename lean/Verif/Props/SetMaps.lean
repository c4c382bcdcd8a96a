import Verif.Theory.MapSets
import Verif.Props.MapLaws

/-!
# C60: partial maps of sets, whatever type the sets have

`==`, `=e=` and `=d=` and the values the laws range over are those of C27.
-/

set_option linter.unusedSectionVars false
set_option linter.unusedVariables false

namespace ICL.Props
open Spec

variable {D I V α : Type} [LinearOrder D] {o : IntervalOps D I} [DecidableEq I] [DecidableEq V]
  {t : MapType V} {mem : α → V → Prop} {oracle : List (I × V) → I → Nat} {A B C : MapExpr I V}

/-- The pair `(x, e)` is in the set of pairs that the map `m` stands for. -/
def HasPairOf (o : IntervalOps D I) (mem : α → V → Prop) (m : List (I × V)) (x : D) (e : α) : Prop :=
  ∃ u, Assoc o m x u ∧ mem e u

theorem hasPairOf_iff {m : List (I × V)} (hm : WF o mapSeg m) (x : D) (e : α) :
    HasPairOf o mem m x e ↔ HasE mem (valueAt o m x) e := by
  unfold HasPairOf HasE
  simp only [← valueAt_assoc (mapWellFormed_iff.2 hm)]

theorem setsA (hS : SetValues t mem) (p q : Option V) (h1 : Norm t p) (h2 : Norm t q) : pAdd t p q = pAdd t q p :=
  add_comm' hS.comm hS.neutral.toVersions p q h1 h2
theorem setsI (hS : SetValues t mem) (ht : t.cfg.total = false) (p q : Option V) (h1 : Norm t p) (h2 : Norm t q) :
    pInter t p q = pInter t q p := sets_inter_comm hS ht h1 h2

section
variable (h : IntervalClass o) (hS : SetValues t mem) (ht : t.cfg.total = false)
include h hS ht

/-! ## Sets of pairs -/

/-- The operators on the maps are the operators on the sets of pairs. -/
theorem C60_pairs (hA : A.Leaves (MapValue o t))
    (hB : B.Leaves (MapValue o t)) {a b : List (I × V)}
    (e1 : A.eval o t oracle = some a) (e2 : B.eval o t oracle = some b) :
    (∃ m, (A + B).eval o t oracle = some m ∧
      ∀ x e, HasPairOf o mem m x e ↔ HasPairOf o mem a x e ∨ HasPairOf o mem b x e) ∧
    (∃ m, (A - B).eval o t oracle = some m ∧
      ∀ x e, HasPairOf o mem m x e ↔ HasPairOf o mem a x e ∧ ¬ HasPairOf o mem b x e) ∧
    (∃ m, (A &&& B).eval o t oracle = some m ∧
      ∀ x e, HasPairOf o mem m x e ↔ HasPairOf o mem a x e ∧ HasPairOf o mem b x e) ∧
    (∃ m, (A ^^^ B).eval o t oracle = some m ∧
      ∀ x e, HasPairOf o mem m x e ↔ (HasPairOf o mem a x e ∧ ¬ HasPairOf o mem b x e) ∨ (HasPairOf o mem b x e ∧ ¬ HasPairOf o mem a x e)) := by
  obtain ⟨a', e1', ha⟩ := meval_mv h.lawful hS.neutral (oracle := oracle) A (leaves_mv h hA)
  obtain ⟨b', e2', hb⟩ := meval_mv h.lawful hS.neutral (oracle := oracle) B (leaves_mv h hB)
  rw [e1] at e1'; rw [e2] at e2'; cases e1'; cases e2'
  obtain ⟨m1, f1, g1⟩ := meval_add h.lawful hS.neutral (setsA hS) ha hb e1 e2
  obtain ⟨m2, f2, g2⟩ := meval_sub h.lawful hS.neutral.toVersions ha hb e1 e2
  obtain ⟨m3, f3, g3⟩ := meval_inter h.lawful hS.neutral (setsI hS ht) ha hb e1 e2
  obtain ⟨m4, f4, g4, v4⟩ := meval_flip h.lawful hS.neutral
    (fun p q h1 h2 => sets_flip_comm hS ht (a := p) (b := q) h1 h2) ha hb e1 e2
  refine ⟨⟨m1, f1, fun x e => ?_⟩, ⟨m2, f2, fun x e => ?_⟩, ⟨m3, f3, fun x e => ?_⟩, ⟨m4, f4, fun x e => ?_⟩⟩
  · rw [hasPairOf_iff g1.good.wf, hasPairOf_iff ha.wf, hasPairOf_iff hb.wf, g1.val, hasE_add hS]
  · rw [hasPairOf_iff g2.good.wf, hasPairOf_iff ha.wf, hasPairOf_iff hb.wf, g2.val, hasE_sub hS ht (hb.norm x)]
  · rw [hasPairOf_iff g3.good.wf, hasPairOf_iff ha.wf, hasPairOf_iff hb.wf, g3.val, hasE_inter hS ht (ha.norm x) (hb.norm x)]
  · rw [hasPairOf_iff g4.wf, hasPairOf_iff ha.wf, hasPairOf_iff hb.wf, v4, hasE_flip hS ht (ha.norm x) (hb.norm x)]

/-- Absorbers stand for the same set of pairs iff they are `=e=`. -/
theorem C60_pairs_elem (hab : t.cfg.absorbs = true) {a b : List (I × V)} (ha : MapValue o t a)
    (hb : MapValue o t b) (he : ∀ x e, HasPairOf o mem a x e ↔ HasPairOf o mem b x e) (x : D) (u : V) :
    Assoc o a x u ↔ Assoc o b x u := by
  rw [mapValue_iff h] at ha hb
  rw [← valueAt_assoc (mapWellFormed_iff.2 ha.wf), ← valueAt_assoc (mapWellFormed_iff.2 hb.wf)]
  rw [sets_ext hS (ha.norm x) (hb.norm x) (fun e => by rw [← hasPairOf_iff ha.wf, ← hasPairOf_iff hb.wf, he]) (by simp [hab])]

/-! ## Union, intersection and difference -/

/-- `a + (b + c) == (a + b) + c` -/
theorem C60_add_assoc (hA : A.Leaves (MapValue o t))
    (hB : B.Leaves (MapValue o t)) (hC : C.Leaves (MapValue o t)) :
    MapLexEq o t oracle (A + (B + C)) ((A + B) + C) :=
  C27_add_assoc h hS.neutral hS.comm (Or.inr (Or.inr hS.noCancel)) hA hB hC

/-- `a + C() == a` and `C() + a == a` -/
theorem C60_add_neutral (hA : A.Leaves (MapValue o t)) : MapLexEq o t oracle (A + ∅) A ∧
    MapLexEq o t oracle (∅ + A) A := C27_add_neutral h hS.neutral hS.comm hA

/-- `a + b == b + a` -/
theorem C60_add_comm (hA : A.Leaves (MapValue o t))
    (hB : B.Leaves (MapValue o t)) :
    MapLexEq o t oracle (A + B) (B + A) := C27_add_comm h hS.neutral hS.comm hA hB

/-- `a & b == b & a` -/
theorem C60_inter_comm (hA : A.Leaves (MapValue o t))
    (hB : B.Leaves (MapValue o t)) :
    MapLexEq o t oracle (A &&& B) (B &&& A) := by
  obtain ⟨a, e1, ha⟩ := meval_mv h.lawful hS.neutral (oracle := oracle) A (leaves_mv h hA)
  obtain ⟨b, e2, hb⟩ := meval_mv h.lawful hS.neutral (oracle := oracle) B (leaves_mv h hB)
  obtain ⟨m, em, hm⟩ := meval_inter h.lawful hS.neutral (setsI hS ht) ha hb e1 e2
  obtain ⟨n, en, hn⟩ := meval_inter h.lawful hS.neutral (setsI hS ht) hb ha e2 e1
  refine ⟨m, n, em, en, eqC_of_tog h.lawful hm.good hn.good (fun x => ?_) fun hj x y hx hx' => ?_⟩
  · rw [hm.val, hn.val, sets_inter_comm hS ht (ha.norm x) (hb.norm x)]
  · rw [hm.iff hj hx, hn.iff hj hx', and_comm]

omit h in
theorem inter_both {u v w : List (I × V)} {x : D} (hu : MV o t u)
    (hv : MV o t v)
    (hw : Op o t (pInter t) u v w) (hx : valueAt o w x ≠ none) :
    valueAt o u x ≠ none ∧ valueAt o v x ≠ none := by
  rw [hw.val, sets_inter hS ht (hu.norm x) (hv.norm x)] at hx
  constructor <;> intro hc <;> rw [hc] at hx
  · exact hx rfl
  · apply hx; cases valueAt o u x <;> rfl

omit h in
theorem sub_both {u v w : List (I × V)} {x : D} (hu : MV o t u)
    (hw : Op o t (pSub t) u v w) (hx : valueAt o w x ≠ none) :
    valueAt o u x ≠ none := by
  intro hc
  apply hx
  rw [hw.val, hc, sub_none_left (Or.inl ht)]

theorem add_all {u v w : List (I × V)} {x y : D} (hj : t.cfg.joining = false) (hu : MV o t u)
    (hv : MV o t v)
    (hw : Op o t (pAdd t) u v w) :
    TogM o w x y ↔ TogM o u x y ∧ TogM o v x y :=
  hw.all h.lawful hj hu hv fun z hz => add_none hS.comm.toMonoidValues hS.neutral.toVersions
    (Or.inr hS.noCancel) (hu.norm z) (hv.norm z) (by rw [← hw.val, hz])

/-- `a & (b & c) == (a & b) & c` -/
theorem C60_inter_assoc (hA : A.Leaves (MapValue o t))
    (hB : B.Leaves (MapValue o t)) (hC : C.Leaves (MapValue o t)) :
    MapLexEq o t oracle (A &&& (B &&& C)) ((A &&& B) &&& C) := by
  obtain ⟨a, e1, ha⟩ := meval_mv h.lawful hS.neutral (oracle := oracle) A (leaves_mv h hA)
  obtain ⟨b, e2, hb⟩ := meval_mv h.lawful hS.neutral (oracle := oracle) B (leaves_mv h hB)
  obtain ⟨c, e3, hc⟩ := meval_mv h.lawful hS.neutral (oracle := oracle) C (leaves_mv h hC)
  obtain ⟨p, ep, hp⟩ := meval_inter h.lawful hS.neutral (setsI hS ht) hb hc e2 e3
  obtain ⟨m, em, hm⟩ := meval_inter h.lawful hS.neutral (setsI hS ht) ha hp.good e1 ep
  obtain ⟨q, eq, hq⟩ := meval_inter h.lawful hS.neutral (setsI hS ht) ha hb e1 e2
  obtain ⟨n, en, hn⟩ := meval_inter h.lawful hS.neutral (setsI hS ht) hq.good hc eq e3
  refine ⟨m, n, em, en, eqC_of_tog h.lawful hm.good hn.good (fun x => ?_) fun hj x y hx hx' => ?_⟩
  · rw [hm.val, hp.val, hn.val, hq.val, sets_inter_assoc hS ht (ha.norm x) (hb.norm x) (hc.norm x)]
  · rw [hm.iff hj hx, hn.iff hj hx', hp.iff hj (inter_both hS ht ha hp.good hm hx).2,
      hq.iff hj (inter_both hS ht hq.good hc hn hx').1, and_assoc]

/-- `a - C() == a` -/
theorem C60_sub_neutral (hA : A.Leaves (MapValue o t)) : MapLexEq o t oracle (A - ∅) A :=
  C27_sub_neutral h hS.neutral hA

/-- `a - a == C()` for absorbers, `a - a =d= C()` for all -/
theorem C60_sub_self (hA : A.Leaves (MapValue o t)) : (t.cfg.absorbs = true → MapLexEq o t oracle (A - A) ∅) ∧
    MapDistEq o t oracle (A - A) ∅ :=
  ⟨fun ha => C27_sub_self h hS.neutral (hS.minus_self) ha hA,
    C27_sub_self_distinct h hS.neutral (hS.minus_self) hA⟩

/-! ## Distributivity -/

/-- `a + (b & c) =e= (a + b) & (a + c)`, and `==` if the map joins. -/
theorem C60_add_inter (hA : A.Leaves (MapValue o t))
    (hB : B.Leaves (MapValue o t)) (hC : C.Leaves (MapValue o t)) :
    MapElemEq o t oracle (A + (B &&& C)) ((A + B) &&& (A + C)) ∧
    (t.cfg.joining = true → MapLexEq o t oracle (A + (B &&& C)) ((A + B) &&& (A + C))) := by
  have : MapElemEq o t oracle (A + (B &&& C)) ((A + B) &&& (A + C)) := by
    obtain ⟨a, e1, ha⟩ := meval_mv h.lawful hS.neutral (oracle := oracle) A (leaves_mv h hA)
    obtain ⟨b, e2, hb⟩ := meval_mv h.lawful hS.neutral (oracle := oracle) B (leaves_mv h hB)
    obtain ⟨c, e3, hc⟩ := meval_mv h.lawful hS.neutral (oracle := oracle) C (leaves_mv h hC)
    obtain ⟨p, ep, hp⟩ := meval_inter h.lawful hS.neutral (setsI hS ht) hb hc e2 e3
    obtain ⟨m, em, hm⟩ := meval_add h.lawful hS.neutral (setsA hS) ha hp.good e1 ep
    obtain ⟨q, eq, hq⟩ := meval_add h.lawful hS.neutral (setsA hS) ha hb e1 e2
    obtain ⟨r, er, hr⟩ := meval_add h.lawful hS.neutral (setsA hS) ha hc e1 e3
    obtain ⟨n, en, hn⟩ := meval_inter h.lawful hS.neutral (setsI hS ht) hq.good hr.good eq er
    refine elemEq_of hm.good hn.good em en fun x => ?_
    rw [hm.val, hp.val, hn.val, hq.val, hr.val, sets_add_inter hS ht (ha.norm x) (hb.norm x) (hc.norm x)]
  exact ⟨this, fun hj => C27_elem_lex h hS.neutral hj ⟨hA, hB, hC⟩ ⟨⟨hA, hB⟩, hA, hC⟩ this⟩

/-- `a & (b + c) =e= (a & b) + (a & c)`, and `==` if the map joins or is an enricher. -/
theorem C60_inter_add (hA : A.Leaves (MapValue o t))
    (hB : B.Leaves (MapValue o t)) (hC : C.Leaves (MapValue o t)) :
    MapElemEq o t oracle (A &&& (B + C)) ((A &&& B) + (A &&& C)) ∧
    (t.cfg.joining = true ∨ t.cfg.absorbs = false →
      MapLexEq o t oracle (A &&& (B + C)) ((A &&& B) + (A &&& C))) := by
  obtain ⟨a, e1, ha⟩ := meval_mv h.lawful hS.neutral (oracle := oracle) A (leaves_mv h hA)
  obtain ⟨b, e2, hb⟩ := meval_mv h.lawful hS.neutral (oracle := oracle) B (leaves_mv h hB)
  obtain ⟨c, e3, hc⟩ := meval_mv h.lawful hS.neutral (oracle := oracle) C (leaves_mv h hC)
  obtain ⟨p, ep, hp⟩ := meval_add h.lawful hS.neutral (setsA hS) hb hc e2 e3
  obtain ⟨m, em, hm⟩ := meval_inter h.lawful hS.neutral (setsI hS ht) ha hp.good e1 ep
  obtain ⟨q, eq, hq⟩ := meval_inter h.lawful hS.neutral (setsI hS ht) ha hb e1 e2
  obtain ⟨r, er, hr⟩ := meval_inter h.lawful hS.neutral (setsI hS ht) ha hc e1 e3
  obtain ⟨n, en, hn⟩ := meval_add h.lawful hS.neutral (setsA hS) hq.good hr.good eq er
  have hv : ∀ x, valueAt o m x = valueAt o n x := fun x => by
    rw [hm.val, hp.val, hn.val, hq.val, hr.val, sets_inter_add hS ht (ha.norm x) (hb.norm x) (hc.norm x)]
  refine ⟨elemEq_of hm.good hn.good em en hv, fun hs =>
    ⟨m, n, em, en, eqC_of_tog h.lawful hm.good hn.good hv fun hj x y hx hx' => ?_⟩⟩
  have hab : t.cfg.absorbs = false := hs.resolve_left (by rw [hj]; simp)
  rw [hm.iff hj hx, hn.iff hj hx', add_all h hS ht hj hb hc hp]
  -- where a value of `a & c` is missing, there is no border of `c` either
  have key : ∀ {u w : List (I × V)}, MV o t u →
      Op o t (pInter t) a u w → TogM o a x y →
      valueAt o a x ≠ none → TogM o w x y → TogM o u x y := by
    intro u w hu hw hta hax htw
    by_cases hwx : valueAt o w x = none
    · refine tog_of_gap fun z hz => ?_
      have h1 := gap_of_tog htw hwx z hz
      have h2 := tog_val h.lawful ha.wf hta hz
      rw [hw.val] at h1
      by_contra hc
      have := (some_inters hS ht hab (ha.norm z) (hu.norm z)).2
        ⟨Option.isSome_iff_ne_none.2 (by rw [h2]; exact hax), Option.isSome_iff_ne_none.2 hc⟩
      rw [h1] at this
      cases this
    · exact ((hw.iff hj hwx).1 htw).2
  have hax := (inter_both hS ht ha hp.good hm hx).1
  constructor
  · rintro ⟨h1, h2, h3⟩
    exact ⟨hq.merge h.lawful hj ha hb h1 h2, hr.merge h.lawful hj ha hc h1 h3⟩
  · rintro ⟨h1, h2⟩
    have hta : TogM o a x y := by
      by_cases hqx : valueAt o q x = none
      · have hrx : valueAt o r x ≠ none := fun hrx => hx' (by rw [hn.val, hqx, hrx]; rfl)
        exact ((hr.iff hj hrx).1 h2).1
      · exact ((hq.iff hj hqx).1 h1).1
    exact ⟨hta, key hb hq hta hax h1, key hc hr hta hax h2⟩

/-- `(a + b) - c =e= (a - c) + (b - c)`, and `==` if the map joins. -/
theorem C60_add_sub (hA : A.Leaves (MapValue o t))
    (hB : B.Leaves (MapValue o t)) (hC : C.Leaves (MapValue o t)) :
    MapElemEq o t oracle ((A + B) - C) ((A - C) + (B - C)) ∧
    (t.cfg.joining = true → MapLexEq o t oracle ((A + B) - C) ((A - C) + (B - C))) := by
  have : MapElemEq o t oracle ((A + B) - C) ((A - C) + (B - C)) := by
    obtain ⟨a, e1, ha⟩ := meval_mv h.lawful hS.neutral (oracle := oracle) A (leaves_mv h hA)
    obtain ⟨b, e2, hb⟩ := meval_mv h.lawful hS.neutral (oracle := oracle) B (leaves_mv h hB)
    obtain ⟨c, e3, hc⟩ := meval_mv h.lawful hS.neutral (oracle := oracle) C (leaves_mv h hC)
    obtain ⟨p, ep, hp⟩ := meval_add h.lawful hS.neutral (setsA hS) ha hb e1 e2
    obtain ⟨m, em, hm⟩ := meval_sub h.lawful hS.neutral.toVersions hp.good hc ep e3
    obtain ⟨q, eq, hq⟩ := meval_sub h.lawful hS.neutral.toVersions ha hc e1 e3
    obtain ⟨r, er, hr⟩ := meval_sub h.lawful hS.neutral.toVersions hb hc e2 e3
    obtain ⟨n, en, hn⟩ := meval_add h.lawful hS.neutral (setsA hS) hq.good hr.good eq er
    refine elemEq_of hm.good hn.good em en fun x => ?_
    rw [hm.val, hp.val, hn.val, hq.val, hr.val, sets_add_sub hS ht (ha.norm x) (hb.norm x) (hc.norm x)]
  exact ⟨this, fun hj => C27_elem_lex h hS.neutral hj ⟨⟨hA, hB⟩, hC⟩ ⟨⟨hA, hC⟩, hB, hC⟩ this⟩

/-- `(a & b) - c == (a - c) & (b - c)` -/
theorem C60_inter_sub (hA : A.Leaves (MapValue o t))
    (hB : B.Leaves (MapValue o t)) (hC : C.Leaves (MapValue o t)) :
    MapLexEq o t oracle ((A &&& B) - C) ((A - C) &&& (B - C)) := by
  obtain ⟨a, e1, ha⟩ := meval_mv h.lawful hS.neutral (oracle := oracle) A (leaves_mv h hA)
  obtain ⟨b, e2, hb⟩ := meval_mv h.lawful hS.neutral (oracle := oracle) B (leaves_mv h hB)
  obtain ⟨c, e3, hc⟩ := meval_mv h.lawful hS.neutral (oracle := oracle) C (leaves_mv h hC)
  obtain ⟨p, ep, hp⟩ := meval_inter h.lawful hS.neutral (setsI hS ht) ha hb e1 e2
  obtain ⟨m, em, hm⟩ := meval_sub h.lawful hS.neutral.toVersions hp.good hc ep e3
  obtain ⟨q, eq, hq⟩ := meval_sub h.lawful hS.neutral.toVersions ha hc e1 e3
  obtain ⟨r, er, hr⟩ := meval_sub h.lawful hS.neutral.toVersions hb hc e2 e3
  obtain ⟨n, en, hn⟩ := meval_inter h.lawful hS.neutral (setsI hS ht) hq.good hr.good eq er
  refine ⟨m, n, em, en, eqC_of_tog h.lawful hm.good hn.good (fun x => ?_) fun hj x y hx hx' => ?_⟩
  · rw [hm.val, hp.val, hn.val, hq.val, hr.val, sets_inter_sub hS ht (ha.norm x) (hb.norm x) (hc.norm x)]
  · rw [hm.iff hj hx, hn.iff hj hx', hp.iff hj (sub_both hS ht hp.good hm hx),
      hq.iff hj (inter_both hS ht hq.good hr.good hn hx').1, hr.iff hj (inter_both hS ht hq.good hr.good hn hx').2]
    tauto

/-! ## De Morgan's laws and the symmetric difference -/

/-- `a - (b + c) == (a - b) & (a - c)` -/
theorem C60_sub_add (hA : A.Leaves (MapValue o t))
    (hB : B.Leaves (MapValue o t)) (hC : C.Leaves (MapValue o t)) :
    MapLexEq o t oracle (A - (B + C)) ((A - B) &&& (A - C)) := by
  obtain ⟨a, e1, ha⟩ := meval_mv h.lawful hS.neutral (oracle := oracle) A (leaves_mv h hA)
  obtain ⟨b, e2, hb⟩ := meval_mv h.lawful hS.neutral (oracle := oracle) B (leaves_mv h hB)
  obtain ⟨c, e3, hc⟩ := meval_mv h.lawful hS.neutral (oracle := oracle) C (leaves_mv h hC)
  obtain ⟨p, ep, hp⟩ := meval_add h.lawful hS.neutral (setsA hS) hb hc e2 e3
  obtain ⟨m, em, hm⟩ := meval_sub h.lawful hS.neutral.toVersions ha hp.good e1 ep
  obtain ⟨q, eq, hq⟩ := meval_sub h.lawful hS.neutral.toVersions ha hb e1 e2
  obtain ⟨r, er, hr⟩ := meval_sub h.lawful hS.neutral.toVersions ha hc e1 e3
  obtain ⟨n, en, hn⟩ := meval_inter h.lawful hS.neutral (setsI hS ht) hq.good hr.good eq er
  refine ⟨m, n, em, en, eqC_of_tog h.lawful hm.good hn.good (fun x => ?_) fun hj x y hx hx' => ?_⟩
  · rw [hm.val, hp.val, hn.val, hq.val, hr.val, sets_sub_add hS ht (ha.norm x) (hb.norm x) (hc.norm x)]
  · rw [hm.iff hj hx, hn.iff hj hx', add_all h hS ht hj hb hc hp,
      hq.iff hj (inter_both hS ht hq.good hr.good hn hx').1, hr.iff hj (inter_both hS ht hq.good hr.good hn hx').2]
    tauto

/-- `a - (b & c) =e= (a - b) + (a - c)`, and `==` if the map joins. -/
theorem C60_sub_inter (hA : A.Leaves (MapValue o t))
    (hB : B.Leaves (MapValue o t)) (hC : C.Leaves (MapValue o t)) :
    MapElemEq o t oracle (A - (B &&& C)) ((A - B) + (A - C)) ∧
    (t.cfg.joining = true → MapLexEq o t oracle (A - (B &&& C)) ((A - B) + (A - C))) := by
  have : MapElemEq o t oracle (A - (B &&& C)) ((A - B) + (A - C)) := by
    obtain ⟨a, e1, ha⟩ := meval_mv h.lawful hS.neutral (oracle := oracle) A (leaves_mv h hA)
    obtain ⟨b, e2, hb⟩ := meval_mv h.lawful hS.neutral (oracle := oracle) B (leaves_mv h hB)
    obtain ⟨c, e3, hc⟩ := meval_mv h.lawful hS.neutral (oracle := oracle) C (leaves_mv h hC)
    obtain ⟨p, ep, hp⟩ := meval_inter h.lawful hS.neutral (setsI hS ht) hb hc e2 e3
    obtain ⟨m, em, hm⟩ := meval_sub h.lawful hS.neutral.toVersions ha hp.good e1 ep
    obtain ⟨q, eq, hq⟩ := meval_sub h.lawful hS.neutral.toVersions ha hb e1 e2
    obtain ⟨r, er, hr⟩ := meval_sub h.lawful hS.neutral.toVersions ha hc e1 e3
    obtain ⟨n, en, hn⟩ := meval_add h.lawful hS.neutral (setsA hS) hq.good hr.good eq er
    refine elemEq_of hm.good hn.good em en fun x => ?_
    rw [hm.val, hp.val, hn.val, hq.val, hr.val, sets_sub_inter hS ht (ha.norm x) (hb.norm x) (hc.norm x)]
  exact ⟨this, fun hj => C27_elem_lex h hS.neutral hj ⟨hA, hB, hC⟩ ⟨⟨hA, hB⟩, hA, hC⟩ this⟩

/-- `(a + b) - (a & b) == (a - b) + (b - a)` -/
theorem C60_symmetric_difference (hA : A.Leaves (MapValue o t))
    (hB : B.Leaves (MapValue o t)) :
    MapLexEq o t oracle ((A + B) - (A &&& B)) ((A - B) + (B - A)) := by
  obtain ⟨a, e1, ha⟩ := meval_mv h.lawful hS.neutral (oracle := oracle) A (leaves_mv h hA)
  obtain ⟨b, e2, hb⟩ := meval_mv h.lawful hS.neutral (oracle := oracle) B (leaves_mv h hB)
  obtain ⟨p, ep, hp⟩ := meval_add h.lawful hS.neutral (setsA hS) ha hb e1 e2
  obtain ⟨q, eq, hq⟩ := meval_inter h.lawful hS.neutral (setsI hS ht) ha hb e1 e2
  obtain ⟨m, em, hm⟩ := meval_sub h.lawful hS.neutral.toVersions hp.good hq.good ep eq
  obtain ⟨r, er, hr⟩ := meval_sub h.lawful hS.neutral.toVersions ha hb e1 e2
  obtain ⟨s, es, hs⟩ := meval_sub h.lawful hS.neutral.toVersions hb ha e2 e1
  obtain ⟨n, en, hn⟩ := meval_add h.lawful hS.neutral (setsA hS) hr.good hs.good er es
  refine ⟨m, n, em, en, eqC_of_tog h.lawful hm.good hn.good (fun x => ?_) fun hj x y hx hx' => ?_⟩
  · rw [hm.val, hp.val, hq.val, hn.val, hr.val, hs.val, sets_symm hS ht (ha.norm x) (hb.norm x)]
  · rw [hm.iff hj hx, hn.iff hj hx', add_all h hS ht hj ha hb hp]
    constructor
    · rintro ⟨⟨h1, h2⟩, _⟩
      exact ⟨hr.merge h.lawful hj ha hb h1 h2, hs.merge h.lawful hj hb ha h2 h1⟩
    · rintro ⟨h1, h2⟩
      have hab : TogM o a x y ∧ TogM o b x y := by
        by_cases hrx : valueAt o r x = none
        · have hsx : valueAt o s x ≠ none := fun hsx => hx' (by rw [hn.val, hrx, hsx]; rfl)
          exact ((hs.iff hj hsx).1 h2).symm
        · exact (hr.iff hj hrx).1 h1
      exact ⟨hab, hq.merge h.lawful hj ha hb hab.1 hab.2⟩

/-- `a ^ b =e= (a + b) - (a & b)`, and `==` if the map joins. -/
theorem C60_flip (hA : A.Leaves (MapValue o t))
    (hB : B.Leaves (MapValue o t)) :
    MapElemEq o t oracle (A ^^^ B) ((A + B) - (A &&& B)) ∧
    (t.cfg.joining = true → MapLexEq o t oracle (A ^^^ B) ((A + B) - (A &&& B))) := by
  have : MapElemEq o t oracle (A ^^^ B) ((A + B) - (A &&& B)) := by
    obtain ⟨a, e1, ha⟩ := meval_mv h.lawful hS.neutral (oracle := oracle) A (leaves_mv h hA)
    obtain ⟨b, e2, hb⟩ := meval_mv h.lawful hS.neutral (oracle := oracle) B (leaves_mv h hB)
    obtain ⟨p, ep, hp⟩ := meval_add h.lawful hS.neutral (setsA hS) ha hb e1 e2
    obtain ⟨q, eq, hq⟩ := meval_inter h.lawful hS.neutral (setsI hS ht) ha hb e1 e2
    obtain ⟨n, en, hn⟩ := meval_sub h.lawful hS.neutral.toVersions hp.good hq.good ep eq
    obtain ⟨m, em, hm, vm⟩ := meval_flip h.lawful hS.neutral
      (fun p q h1 h2 => sets_flip_comm hS ht (a := p) (b := q) h1 h2) ha hb e1 e2
    refine elemEq_of hm hn.good em en fun x => ?_
    rw [vm, hn.val, hp.val, hq.val, sets_flip_eq hS ht (ha.norm x) (hb.norm x)]
  exact ⟨this, fun hj => C27_elem_lex h hS.neutral hj ⟨hA, hB⟩ ⟨⟨hA, hB⟩, hA, hB⟩ this⟩

end

end ICL.Props
