import Verif.Theory.MapAlg
import Verif.Props.MapOps

/-!
# C27: laws on interval maps

The laws of doc/semantics.qbk ("Quantifiers: Maps of Numbers", "Concept Induction") each with the equality the
documentation gives for the map type.  `A`, `B`, `C` are arbitrary expressions over maps of one type, lvalues or
rvalues.  `==` is the equality of two maps as `operator ==` decides it, `=e=` equality of the associations, `=d=`
distinct equality, which does not count identity elements.

The associated values are those of any type with a functor `Combine` that makes them a commutative monoid
(`CommMonoidValues`); signed numbers are given by any abelian group.
-/

set_option linter.unusedSectionVars false
set_option linter.unusedVariables false
set_option linter.unusedSimpArgs false

namespace ICL.Props
open Spec

variable {D I V : Type} [LinearOrder D] {o : IntervalOps D I} [DecidableEq I] [DecidableEq V]

/-- What every reachable map of the type `t` satisfies (C15, C16, C17). -/
def MapValue (o : IntervalOps D I) (t : MapType V) (m : List (I × V)) : Prop :=
  MapWellFormed o m ∧ (t.cfg.joining = true → MapFullyJoined o m) ∧ NoIdentity t m

/-- `p == q`: both sides have a value, and `operator ==` finds the values equal. -/
def MapLexEq (o : IntervalOps D I) (t : MapType V) (oracle : List (I × V) → I → Nat) (p q : MapExpr I V) : Prop :=
  ∃ m n, p.eval o t oracle = some m ∧ q.eval o t oracle = some n ∧ eqC o mapSeg m n = true

/-- `p =e= q`: both sides have a value, and the values have the same associations. -/
def MapElemEq (o : IntervalOps D I) (t : MapType V) (oracle : List (I × V) → I → Nat) (p q : MapExpr I V) : Prop :=
  ∃ m n, p.eval o t oracle = some m ∧ q.eval o t oracle = some n ∧ ∀ x v, Assoc o m x v ↔ Assoc o n x v

/-- `p =d= q`: both sides have a value, and `is_distinct_equal` holds for the values. -/
def MapDistEq (o : IntervalOps D I) (t : MapType V) (oracle : List (I × V) → I → Nat) (p q : MapExpr I V) : Prop :=
  ∃ m n, p.eval o t oracle = some m ∧ q.eval o t oracle = some n ∧ distinctEqual o mapSeg t.cfg.ident m n = true

omit [DecidableEq I] in
theorem mapValue_iff (h : IntervalClass o) {t : MapType V} {m : List (I × V)} : MapValue o t m ↔ MV o t m := by
  unfold MapValue
  rw [mapWellFormed_iff, noIdentity_iff]
  constructor
  · rintro ⟨h1, h2, h3⟩; exact ⟨h1, fun hj => (mapFullyJoined_iff h.lawful h1).1 (h2 hj), h3⟩
  · rintro ⟨h1, h2, h3⟩; exact ⟨h1, fun hj => (mapFullyJoined_iff h.lawful h1).2 (h2 hj), h3⟩

theorem leaves_mv (h : IntervalClass o) {t : MapType V} {A : MapExpr I V} (hA : A.Leaves (MapValue o t)) :
    A.Leaves (MV o t) := by
  induction A with
  | leaf b l => exact (mapValue_iff h).1 hA
  | _ a b iha ihb => exact ⟨iha hA.1, ihb hA.2⟩

/-- Every reachable map is a value the laws range over. -/
theorem C27_reachable {E : Option (ElemFns D I)} (h : SetClass o E) {t : MapType V} (hN : Neutral t)
    {m : List (I × V)} (hr : MReachable o E t m) : MapValue o t m :=
  (mapValue_iff h.cls).2 ⟨(hr.good h).wf, (hr.good h).joined, (hr.good h).noIdent hN⟩

variable {t : MapType V} {oracle : List (I × V) → I → Nat} {A B C : MapExpr I V}

/-- Expressions over maps always have a value, and it is a proper map of the type. -/
theorem C27_value (h : IntervalClass o) (hN : Neutral t) (hA : A.Leaves (MapValue o t)) :
    ∃ m, A.eval o t oracle = some m ∧ MapValue o t m := by
  obtain ⟨m, h1, h2⟩ := meval_mv h.lawful hN (oracle := oracle) A (leaves_mv h hA)
  exact ⟨m, h1, (mapValue_iff h).2 h2⟩

theorem elemEq_of {m n : List (I × V)} (hm : MV o t m) (hn : MV o t n)
    (e1 : A.eval o t oracle = some m) (e2 : B.eval o t oracle = some n)
    (hv : ∀ x, valueAt o m x = valueAt o n x) : MapElemEq o t oracle A B :=
  ⟨m, n, e1, e2, fun x v => by
    rw [← valueAt_assoc (mapWellFormed_iff.2 hm.wf), ← valueAt_assoc (mapWellFormed_iff.2 hn.wf), hv]⟩

/-- `==` implies `=e=`. -/
theorem C27_lex_elem (h : IntervalClass o) (hN : Neutral t) (hA : A.Leaves (MapValue o t))
    (hB : B.Leaves (MapValue o t)) (he : MapLexEq o t oracle A B) : MapElemEq o t oracle A B := by
  obtain ⟨a, e1, ha⟩ := meval_mv h.lawful hN (oracle := oracle) A (leaves_mv h hA)
  obtain ⟨b, e2, hb⟩ := meval_mv h.lawful hN (oracle := oracle) B (leaves_mv h hB)
  obtain ⟨a', b', e1', e2', he⟩ := he
  rw [e1] at e1'; rw [e2] at e2'; cases e1'; cases e2'
  refine ⟨a, b, e1, e2, ((eqC_spec h.lawful ha.wf hb.wf).1 he).2⟩

/-- For `interval_map`, `=e=` implies `==`. -/
theorem C27_elem_lex (h : IntervalClass o) (hN : Neutral t) (ht : t.cfg.joining = true)
    (hA : A.Leaves (MapValue o t)) (hB : B.Leaves (MapValue o t)) (he : MapElemEq o t oracle A B) :
    MapLexEq o t oracle A B := by
  obtain ⟨a, e1, ha⟩ := meval_mv h.lawful hN (oracle := oracle) A (leaves_mv h hA)
  obtain ⟨b, e2, hb⟩ := meval_mv h.lawful hN (oracle := oracle) B (leaves_mv h hB)
  obtain ⟨a', b', e1', e2', he⟩ := he
  rw [e1] at e1'; rw [e2] at e2'; cases e1'; cases e2'
  exact ⟨a, b, e1, e2, (eqC_joined h.lawful ha.wf hb.wf (ha.joined ht) (hb.joined ht)).2 he⟩

/-! ## Examples: the values the laws are about -/

theorem numeric_comm {W : Type} [DecidableEq W] [AddCommGroup W] (joining absorbs total signed : Bool) :
    CommMonoidValues (.numeric (V := W) joining absorbs total signed) where
  assoc := by intro u v w; exact add_assoc u v w
  ident_left := by intro v; exact zero_add v
  ident_right := by intro v; exact add_zero v
  version := by intro v; rfl
  comm := by intro u v; exact add_comm u v

theorem unsigned_comm (joining absorbs total : Bool) : CommMonoidValues (.unsigned joining absorbs total) where
  assoc := by intro u v w; exact add_assoc u v w
  ident_left := by intro v; exact zero_add v
  ident_right := by intro v; exact add_zero v
  version := by intro v; rfl
  comm := by intro u v; exact add_comm u v

theorem unsigned_noCancel (joining absorbs total : Bool) : NoCancel (.unsigned joining absorbs total) := by
  intro u v he
  have : u + v = 0 := he
  exact ⟨show u = 0 by omega, show v = 0 by omega⟩

theorem unsigned_neutral (joining absorbs total : Bool) : Neutral (.unsigned joining absorbs total) where
  plus_ident := by intro v; exact zero_add v
  plus_ne := by intro v hv; exact hv
  minus_ne := by intro _ hh; simp [MapType.unsigned] at hh
  sect_ne := by intro v hv; exact hv

theorem collector_comm {α : Type} [DecidableEq α] (joining absorbs total : Bool) :
    CommMonoidValues (.collector (α := α) joining absorbs total) where
  assoc := by intro u v w; exact Finset.union_assoc u v w
  ident_left := by intro v; exact Finset.empty_union v
  ident_right := by intro v; exact Finset.union_empty v
  version := by intro v; rfl
  comm := by intro u v; exact Finset.union_comm u v

theorem collector_noCancel {α : Type} [DecidableEq α] (joining absorbs total : Bool) :
    NoCancel (.collector (α := α) joining absorbs total) := by
  intro u v he
  exact Finset.union_eq_empty.1 he

theorem bits_comm {n : Nat} (joining absorbs total : Bool) :
    CommMonoidValues (.bits (n := n) joining absorbs total) where
  assoc := by intro u v w; exact BitVec.or_assoc u v w
  ident_left := by intro v; simp [MapType.bits, Combiner.bitAdd]
  ident_right := by intro v; simp [MapType.bits, Combiner.bitAdd]
  version := by intro v; rfl
  comm := by intro u v; exact BitVec.or_comm u v

/-- `{[0,4)->1, [4,9)->2}`, `{[2,5)->3}` and `{[3,7)->-3}` -/
theorem ex_mapValue (joining absorbs total signed : Bool) :
    MapValue Ex.ro (.numeric joining absorbs total signed) [(Ex.r 0 4, (1 : ℤ)), (Ex.r 4 9, 2)] ∧
    MapValue Ex.ro (.numeric joining absorbs total signed) [(Ex.r 2 5, (3 : ℤ))] ∧
    MapValue Ex.ro (.numeric joining absorbs total signed) [(Ex.r 3 7, (-3 : ℤ))] := by
  simp only [mapValue_iff Ex.ro_cls]
  refine ⟨⟨mapWellFormed_iff.1 (wellFormed_ro _ (by decide) (by decide)), fun _ => ?_, ?_⟩,
    ⟨mapWellFormed_iff.1 (wellFormed_ro _ (by decide) (by decide)), fun _ => ?_, ?_⟩,
    ⟨mapWellFormed_iff.1 (wellFormed_ro _ (by decide) (by decide)), fun _ => ?_, ?_⟩⟩
  · exact joined_of (by decide)
  · intro s hs; simp at hs; rcases hs with rfl | rfl <;> simp [IMap.absorbable, MapType.numeric]
  · exact joined_of (by decide)
  · intro s hs; simp at hs; subst hs; simp [IMap.absorbable, MapType.numeric]
  · exact joined_of (by decide)
  · intro s hs; simp at hs; subst hs; simp [IMap.absorbable, MapType.numeric]

/-- `{[0,4)->{1}, [4,9)->{1,2}}`, `{[2,5)->{2,3}}` and `{[3,7)->{1}}` -/
theorem ex_collValue (joining absorbs total : Bool) :
    MapValue Ex.ro (.collector joining absorbs total) [(Ex.r 0 4, ({1} : Finset ℤ)), (Ex.r 4 9, {1, 2})] ∧
    MapValue Ex.ro (.collector joining absorbs total) [(Ex.r 2 5, ({2, 3} : Finset ℤ))] ∧
    MapValue Ex.ro (.collector joining absorbs total) [(Ex.r 3 7, ({1} : Finset ℤ))] := by
  simp only [mapValue_iff Ex.ro_cls]
  refine ⟨⟨mapWellFormed_iff.1 (wellFormed_ro _ (by decide) (by decide)), fun _ => ?_, ?_⟩,
    ⟨mapWellFormed_iff.1 (wellFormed_ro _ (by decide) (by decide)), fun _ => ?_, ?_⟩,
    ⟨mapWellFormed_iff.1 (wellFormed_ro _ (by decide) (by decide)), fun _ => ?_, ?_⟩⟩
  · exact joined_of (by decide)
  · intro s hs; simp at hs; rcases hs with rfl | rfl <;> simp [IMap.absorbable, MapType.collector]
  · exact joined_of (by decide)
  · intro s hs; simp at hs; subst hs; simp [IMap.absorbable, MapType.collector]
  · exact joined_of (by decide)
  · intro s hs; simp at hs; subst hs; simp [IMap.absorbable, MapType.collector]

section
variable (h : IntervalClass o) (hN : Neutral t)
include h hN

/-! ## Addition -/

/-- `a + M() == a` and `M() + a == a` -/
theorem C27_add_neutral (hM : CommMonoidValues t) (hA : A.Leaves (MapValue o t)) :
    MapLexEq o t oracle (A + ∅) A ∧ MapLexEq o t oracle (∅ + A) A := by
  obtain ⟨a, e1, ha⟩ := meval_mv h.lawful hN (oracle := oracle) A (leaves_mv h hA)
  have e0 : (∅ : MapExpr I V).eval o t oracle = some [] := rfl
  obtain ⟨m, em, hm⟩ := meval_add h.lawful hN (add_comm' hM hN.toVersions) ha (mv_nil t) e1 e0
  obtain ⟨n, en, hn⟩ := meval_add h.lawful hN (add_comm' hM hN.toVersions) (mv_nil t) ha e0 e1
  refine ⟨⟨m, a, em, e1, eqC_of_tog h.lawful hm.good ha (fun x => ?_) fun hj x y hx _ => ?_⟩,
    ⟨n, a, en, e1, eqC_of_tog h.lawful hn.good ha (fun x => ?_) fun hj x y hx _ => ?_⟩⟩
  · rw [hm.val]; rfl
  · rw [hm.iff hj hx]; simp [togM_nil]
  · rw [hn.val, valueAt_nil, add_zero_left hM.toMonoidValues hN.toVersions (ha.norm x)]
  · rw [hn.iff hj hx]; simp [togM_nil]

/-- `a + b == b + a` -/
theorem C27_add_comm (hM : CommMonoidValues t) (hA : A.Leaves (MapValue o t)) (hB : B.Leaves (MapValue o t)) :
    MapLexEq o t oracle (A + B) (B + A) := by
  obtain ⟨a, e1, ha⟩ := meval_mv h.lawful hN (oracle := oracle) A (leaves_mv h hA)
  obtain ⟨b, e2, hb⟩ := meval_mv h.lawful hN (oracle := oracle) B (leaves_mv h hB)
  obtain ⟨m, em, hm⟩ := meval_add h.lawful hN (add_comm' hM hN.toVersions) ha hb e1 e2
  obtain ⟨n, en, hn⟩ := meval_add h.lawful hN (add_comm' hM hN.toVersions) hb ha e2 e1
  refine ⟨m, n, em, en, eqC_of_tog h.lawful hm.good hn.good (fun x => ?_) fun hj x y hx hx' => ?_⟩
  · rw [hm.val, hn.val, add_comm' hM hN.toVersions _ _ (ha.norm x) (hb.norm x)]
  · rw [hm.iff hj hx, hn.iff hj hx', and_comm]

/-- `a + (b + c) =e= (a + b) + c` -/
theorem C27_add_assoc_elem (hM : CommMonoidValues t) (hA : A.Leaves (MapValue o t)) (hB : B.Leaves (MapValue o t))
    (hC : C.Leaves (MapValue o t)) : MapElemEq o t oracle (A + (B + C)) ((A + B) + C) := by
  have hco := add_comm' hM hN.toVersions
  obtain ⟨a, e1, ha⟩ := meval_mv h.lawful hN (oracle := oracle) A (leaves_mv h hA)
  obtain ⟨b, e2, hb⟩ := meval_mv h.lawful hN (oracle := oracle) B (leaves_mv h hB)
  obtain ⟨c, e3, hc⟩ := meval_mv h.lawful hN (oracle := oracle) C (leaves_mv h hC)
  obtain ⟨p, ep, hp⟩ := meval_add h.lawful hN hco hb hc e2 e3
  obtain ⟨m, em, hm⟩ := meval_add h.lawful hN hco ha hp.good e1 ep
  obtain ⟨q, eq, hq⟩ := meval_add h.lawful hN hco ha hb e1 e2
  obtain ⟨n, en, hn⟩ := meval_add h.lawful hN hco hq.good hc eq e3
  refine elemEq_of hm.good hn.good em en fun x => ?_
  rw [hm.val, hp.val, hn.val, hq.val,
    add_assoc' hM.toMonoidValues hN.toVersions (ha.norm x) (hb.norm x) (hc.norm x)]

/-- `a + (b + c) == (a + b) + c` for `interval_map`, for enrichers, and for values that do not cancel each other
(sets, unsigned numbers). -/
theorem C27_add_assoc (hM : CommMonoidValues t)
    (hc : t.cfg.joining = true ∨ t.cfg.absorbs = false ∨ NoCancel t) (hA : A.Leaves (MapValue o t))
    (hB : B.Leaves (MapValue o t)) (hC : C.Leaves (MapValue o t)) :
    MapLexEq o t oracle (A + (B + C)) ((A + B) + C) := by
  have hco := add_comm' hM hN.toVersions
  obtain ⟨a, e1, ha⟩ := meval_mv h.lawful hN (oracle := oracle) A (leaves_mv h hA)
  obtain ⟨b, e2, hb⟩ := meval_mv h.lawful hN (oracle := oracle) B (leaves_mv h hB)
  obtain ⟨c, e3, hcc⟩ := meval_mv h.lawful hN (oracle := oracle) C (leaves_mv h hC)
  obtain ⟨p, ep, hp⟩ := meval_add h.lawful hN hco hb hcc e2 e3
  obtain ⟨m, em, hm⟩ := meval_add h.lawful hN hco ha hp.good e1 ep
  obtain ⟨q, eq, hq⟩ := meval_add h.lawful hN hco ha hb e1 e2
  obtain ⟨n, en, hn⟩ := meval_add h.lawful hN hco hq.good hcc eq e3
  refine ⟨m, n, em, en, eqC_of_tog h.lawful hm.good hn.good (fun x => ?_) fun hj x y hx hx' => ?_⟩
  · rw [hm.val, hp.val, hn.val, hq.val,
      add_assoc' hM.toMonoidValues hN.toVersions (ha.norm x) (hb.norm x) (hcc.norm x)]
  · have hc : t.cfg.absorbs = false ∨ NoCancel t := hc.resolve_left (by simp [hj])
    rw [hm.iff hj hx, hn.iff hj hx',
      hp.all h.lawful hj hb hcc fun z hz => add_none hM.toMonoidValues hN.toVersions hc (hb.norm z) (hcc.norm z)
        (by rw [← hp.val, hz]),
      hq.all h.lawful hj ha hb fun z hz => add_none hM.toMonoidValues hN.toVersions hc (ha.norm z) (hb.norm z)
        (by rw [← hq.val, hz]), and_assoc]

/-! ## Intersection of maps of numbers -/

/-- `a & b == b & a` -/
theorem C27_inter_comm (hM : CommMonoidValues t) (hs : t.sect = t.plus) (hA : A.Leaves (MapValue o t))
    (hB : B.Leaves (MapValue o t)) : MapLexEq o t oracle (A &&& B) (B &&& A) := by
  have hco := inter_comm' hM hN.toVersions hs
  obtain ⟨a, e1, ha⟩ := meval_mv h.lawful hN (oracle := oracle) A (leaves_mv h hA)
  obtain ⟨b, e2, hb⟩ := meval_mv h.lawful hN (oracle := oracle) B (leaves_mv h hB)
  obtain ⟨m, em, hm⟩ := meval_inter h.lawful hN hco ha hb e1 e2
  obtain ⟨n, en, hn⟩ := meval_inter h.lawful hN hco hb ha e2 e1
  refine ⟨m, n, em, en, eqC_of_tog h.lawful hm.good hn.good (fun x => ?_) fun hj x y hx hx' => ?_⟩
  · rw [hm.val, hn.val, hco _ _ (ha.norm x) (hb.norm x)]
  · rw [hm.iff hj hx, hn.iff hj hx', and_comm]

/-- `a & (b & c) =e= (a & b) & c` for total maps, enrichers, and values that do not cancel each other. -/
theorem C27_inter_assoc_elem (hM : CommMonoidValues t) (hs : t.sect = t.plus)
    (hc : t.cfg.total = true ∨ t.cfg.absorbs = false ∨ NoCancel t) (hA : A.Leaves (MapValue o t))
    (hB : B.Leaves (MapValue o t)) (hC : C.Leaves (MapValue o t)) :
    MapElemEq o t oracle (A &&& (B &&& C)) ((A &&& B) &&& C) := by
  have hco := inter_comm' hM hN.toVersions hs
  obtain ⟨a, e1, ha⟩ := meval_mv h.lawful hN (oracle := oracle) A (leaves_mv h hA)
  obtain ⟨b, e2, hb⟩ := meval_mv h.lawful hN (oracle := oracle) B (leaves_mv h hB)
  obtain ⟨c, e3, hcc⟩ := meval_mv h.lawful hN (oracle := oracle) C (leaves_mv h hC)
  obtain ⟨p, ep, hp⟩ := meval_inter h.lawful hN hco hb hcc e2 e3
  obtain ⟨m, em, hm⟩ := meval_inter h.lawful hN hco ha hp.good e1 ep
  obtain ⟨q, eq, hq⟩ := meval_inter h.lawful hN hco ha hb e1 e2
  obtain ⟨n, en, hn⟩ := meval_inter h.lawful hN hco hq.good hcc eq e3
  refine elemEq_of hm.good hn.good em en fun x => ?_
  rw [hm.val, hp.val, hn.val, hq.val,
    inter_assoc' hM.toMonoidValues hN.toVersions hs hc (ha.norm x) (hb.norm x) (hcc.norm x)]

/-- `a & (b & c) == (a & b) & c` for enrichers, values that do not cancel each other, and total `interval_map`s. -/
theorem C27_inter_assoc (hM : CommMonoidValues t) (hs : t.sect = t.plus)
    (hc : (t.cfg.total = true ∧ t.cfg.joining = true) ∨ t.cfg.absorbs = false ∨ NoCancel t)
    (hA : A.Leaves (MapValue o t)) (hB : B.Leaves (MapValue o t)) (hC : C.Leaves (MapValue o t)) :
    MapLexEq o t oracle (A &&& (B &&& C)) ((A &&& B) &&& C) := by
  have hco := inter_comm' hM hN.toVersions hs
  obtain ⟨a, e1, ha⟩ := meval_mv h.lawful hN (oracle := oracle) A (leaves_mv h hA)
  obtain ⟨b, e2, hb⟩ := meval_mv h.lawful hN (oracle := oracle) B (leaves_mv h hB)
  obtain ⟨c, e3, hcc⟩ := meval_mv h.lawful hN (oracle := oracle) C (leaves_mv h hC)
  obtain ⟨p, ep, hp⟩ := meval_inter h.lawful hN hco hb hcc e2 e3
  obtain ⟨m, em, hm⟩ := meval_inter h.lawful hN hco ha hp.good e1 ep
  obtain ⟨q, eq, hq⟩ := meval_inter h.lawful hN hco ha hb e1 e2
  obtain ⟨n, en, hn⟩ := meval_inter h.lawful hN hco hq.good hcc eq e3
  refine ⟨m, n, em, en, eqC_of_tog h.lawful hm.good hn.good (fun x => ?_) fun hj x y hx hx' => ?_⟩
  · rw [hm.val, hp.val, hn.val, hq.val, inter_assoc' hM.toMonoidValues hN.toVersions hs
      (hc.imp And.left id) (ha.norm x) (hb.norm x) (hcc.norm x)]
  · have hc : t.cfg.absorbs = false ∨ NoCancel t := hc.resolve_left (by simp [hj])
    rw [hm.iff hj hx, hn.iff hj hx']
    cases ht : t.cfg.total with
    | true =>
      have no : ∀ {u v w : List (I × V)}, MV o t u → MV o t v → Op o t (pInter t) u v w → ∀ z,
          valueAt o w z = none → valueAt o u z = none ∧ valueAt o v z = none := by
        intro u v w hu hv hw z hz
        rw [hw.val, inter_total hM.toMonoidValues hN.toVersions ht _ (hu.norm z)] at hz
        exact add_none hM.toMonoidValues hN.toVersions hc (hu.norm z) (hv.norm z) hz
      rw [hp.all h.lawful hj hb hcc (no hb hcc hp), hq.all h.lawful hj ha hb (no ha hb hq), and_assoc]
    | false =>
      have both : ∀ {u v w : List (I × V)}, MV o t u → MV o t v → Op o t (pInter t) u v w → 
          valueAt o w x ≠ none → valueAt o u x ≠ none ∧ valueAt o v x ≠ none := by
        intro u v w hu hv hw hz
        rw [hw.val, inter_partial hM.toMonoidValues ht hs (hu.norm x) (hv.norm x)] at hz
        constructor <;> intro hc <;> rw [hc] at hz
        · exact hz rfl
        · apply hz; cases valueAt o u x <;> rfl
      rw [hp.iff hj (both ha hp.good hm hx).2, hq.iff hj (both hq.good hcc hn hx').1, and_assoc]

/-! ## Subtraction -/

/-- `a - M() == a` -/
theorem C27_sub_neutral (hA : A.Leaves (MapValue o t)) : MapLexEq o t oracle (A - ∅) A := by
  obtain ⟨a, e1, ha⟩ := meval_mv h.lawful hN (oracle := oracle) A (leaves_mv h hA)
  have e0 : (∅ : MapExpr I V).eval o t oracle = some [] := rfl
  obtain ⟨m, em, hm⟩ := meval_sub h.lawful hN.toVersions ha (mv_nil t) e1 e0
  refine ⟨m, a, em, e1, eqC_of_tog h.lawful hm.good ha (fun x => ?_) fun hj x y hx _ => ?_⟩
  · rw [hm.val]; rfl
  · rw [hm.iff hj hx]; simp [togM_nil]

/-- `a - a == M()` for absorbers -/
theorem C27_sub_self (hm : ∀ u, t.minus.apply u u = t.cfg.ident) (ht : t.cfg.absorbs = true)
    (hA : A.Leaves (MapValue o t)) : MapLexEq o t oracle (A - A) ∅ := by
  obtain ⟨a, e1, ha⟩ := meval_mv h.lawful hN (oracle := oracle) A (leaves_mv h hA)
  obtain ⟨m, em, hm'⟩ := meval_sub h.lawful hN.toVersions ha ha e1 e1
  have hv : ∀ x, valueAt o m x = none := fun x => by
    rw [hm'.val, sub_self' hm (ha.norm x)]
    have : IMap.keep t.cfg t.cfg.ident = none := by simp [IMap.keep, IMap.absorbable, ht]
    cases valueAt o a x <;> simp [this]
  exact ⟨m, [], em, rfl, eqC_of_tog h.lawful hm'.good (mv_nil t) hv fun hj x y hx _ => absurd (hv x) hx⟩

/-- `a - a =d= M()` for all maps -/
theorem C27_sub_self_distinct (hm : ∀ u, t.minus.apply u u = t.cfg.ident)
    (hA : A.Leaves (MapValue o t)) : MapDistEq o t oracle (A - A) ∅ := by
  obtain ⟨a, e1, ha⟩ := meval_mv h.lawful hN (oracle := oracle) A (leaves_mv h hA)
  obtain ⟨m, em, hm'⟩ := meval_sub h.lawful hN.toVersions ha ha e1 e1
  refine ⟨m, [], em, rfl, ?_⟩
  rw [distinctEqual_eq]
  have : (m.filter fun s => !decide (mapSeg.val s = t.cfg.ident)) = [] := by
    rw [List.filter_eq_nil_iff]
    intro s hs
    obtain ⟨x, hx⟩ := hm'.good.wf.nonempty s hs
    have hv := (valueAt_some hm'.good.wf).2 ⟨s, hs, hx, rfl⟩
    rw [hm'.val, sub_self' hm (ha.norm x)] at hv
    cases hc : valueAt o a x with
    | none => rw [hc] at hv; cases hv
    | some u =>
      rw [hc] at hv
      simp only [Option.bind_some, IMap.keep] at hv
      split at hv
      · cases hv
      · simp only [Option.some.injEq] at hv
        simp only [hv, decide_true, Bool.not_true, Bool.false_eq_true, not_false_eq_true]
  rw [this]
  rfl

end

/-! ## Signed numbers -/

section
variable {W : Type} [DecidableEq W] [AddCommGroup W] {joining absorbs total signed : Bool}
  {oracle : List (I × W) → I → Nat} {A B C : MapExpr I W}

/-- `(a + b) - (a & b) == (a - b) + (b - a)` for partial maps, and for total maps of signed numbers. -/
theorem C27_symmetric_difference (h : IntervalClass o) (hs : total = false ∨ signed = true)
    (hA : A.Leaves (MapValue o (.numeric joining absorbs total signed)))
    (hB : B.Leaves (MapValue o (.numeric joining absorbs total signed))) :
    MapLexEq o (.numeric joining absorbs total signed) oracle ((A + B) - (A &&& B)) ((A - B) + (B - A)) := by
  have hN := numeric_neutral (W := W) joining absorbs total signed
  have hM := numeric_comm (W := W) joining absorbs total signed
  obtain ⟨a, e1, ha⟩ := meval_mv h.lawful hN (oracle := oracle) A (leaves_mv h hA)
  obtain ⟨b, e2, hb⟩ := meval_mv h.lawful hN (oracle := oracle) B (leaves_mv h hB)
  obtain ⟨p, ep, hp⟩ := meval_add h.lawful hN (add_comm' hM hN.toVersions) ha hb e1 e2
  obtain ⟨q, eq, hq⟩ := meval_inter h.lawful hN (inter_comm' hM hN.toVersions rfl) ha hb e1 e2
  obtain ⟨m, em, hm⟩ := meval_sub h.lawful hN.toVersions hp.good hq.good ep eq
  obtain ⟨r, er, hr⟩ := meval_sub h.lawful hN.toVersions ha hb e1 e2
  obtain ⟨s, es, hs'⟩ := meval_sub h.lawful hN.toVersions hb ha e2 e1
  obtain ⟨n, en, hn⟩ := meval_add h.lawful hN (add_comm' hM hN.toVersions) hr.good hs'.good er es
  refine ⟨m, n, em, en, eqC_of_tog h.lawful hm.good hn.good (fun x => ?_) fun hj x y hx hx' => ?_⟩
  · rw [hm.val, hp.val, hq.val, hn.val, hr.val, hs'.val]
    exact numeric_symm hM hN.toVersions hs (ha.norm x) (hb.norm x)
  · have hpx : valueAt o p x ≠ none := by
      intro hc
      apply hx
      rw [hm.val, hc]
      rcases hs with hs | hs
      · exact sub_none_left (Or.inl hs) _
      · cases total with
        | false => exact sub_none_left (Or.inl rfl) _
        | true =>
          rw [hq.val, inter_total hM.toMonoidValues hN.toVersions rfl _ (ha.norm x), ← hp.val, hc]
          rfl
    rw [hm.iff hj hx, hn.iff hj hx', hp.iff hj hpx]
    have hrs : valueAt o r x ≠ none ∨ valueAt o s x ≠ none := by
      by_contra hc
      push Not at hc
      apply hx'
      rw [hn.val, hc.1, hc.2]
      rfl
    constructor
    · rintro ⟨⟨h1, h2⟩, _⟩
      exact ⟨hr.merge h.lawful hj ha hb h1 h2, hs'.merge h.lawful hj hb ha h2 h1⟩
    · rintro ⟨h1, h2⟩
      have hab : TogM o a x y ∧ TogM o b x y := by
        rcases hrs with hh | hh
        · exact (hr.iff hj hh).1 h1
        · exact ((hs'.iff hj hh).1 h2).symm
      exact ⟨hab, hq.merge h.lawful hj ha hb hab.1 hab.2⟩

/-- `(M() - a) + a == M()`: total absorbers over an abelian group have inverses. -/
theorem C27_inverse (h : IntervalClass o) (hA : A.Leaves (MapValue o (.numeric joining true true true))) :
    MapLexEq o (.numeric joining true true true) oracle ((∅ - A) + A) ∅ := by
  have hN := numeric_neutral (W := W) joining true true true
  have hM := numeric_comm (W := W) joining true true true
  obtain ⟨a, e1, ha⟩ := meval_mv h.lawful hN (oracle := oracle) A (leaves_mv h hA)
  obtain ⟨r, er, hr⟩ := meval_sub h.lawful hN.toVersions (mv_nil _) ha (A := ∅) rfl e1
  obtain ⟨m, em, hm⟩ := meval_add h.lawful hN (add_comm' hM hN.toVersions) hr.good ha er e1
  have hv : ∀ x, valueAt o m x = none := fun x => by
    rw [gv_none rfl (hm.good.norm x), hm.val, hr.val, gv_add hM.toMonoidValues rfl, numeric_gv_sub]
    exact sub_add_cancel (0 : W) _
  exact ⟨m, [], em, rfl, eqC_of_tog h.lawful hm.good (mv_nil _) hv fun hj x y hx _ => absurd (hv x) hx⟩

/-- `a - b == a + (M() - b)`: in total absorbers over an abelian group subtraction is the addition of the
inverse. -/
theorem C27_sub_inverse (h : IntervalClass o) (hA : A.Leaves (MapValue o (.numeric joining true true true)))
    (hB : B.Leaves (MapValue o (.numeric joining true true true))) :
    MapLexEq o (.numeric joining true true true) oracle (A - B) (A + (∅ - B)) := by
  have hN := numeric_neutral (W := W) joining true true true
  have hM := numeric_comm (W := W) joining true true true
  obtain ⟨a, e1, ha⟩ := meval_mv h.lawful hN (oracle := oracle) A (leaves_mv h hA)
  obtain ⟨b, e2, hb⟩ := meval_mv h.lawful hN (oracle := oracle) B (leaves_mv h hB)
  obtain ⟨m, em, hm⟩ := meval_sub h.lawful hN.toVersions ha hb e1 e2
  obtain ⟨r, er, hr⟩ := meval_sub h.lawful hN.toVersions (mv_nil _) hb (A := ∅) rfl e2
  obtain ⟨n, en, hn⟩ := meval_add h.lawful hN (add_comm' hM hN.toVersions) ha hr.good e1 er
  refine ⟨m, n, em, en, eqC_of_tog h.lawful hm.good hn.good (fun x => ?_) fun hj x y hx hx' => ?_⟩
  · refine gv_inj rfl (hm.good.norm x) (hn.good.norm x) ?_
    rw [hm.val, hn.val, hr.val, gv_add hM.toMonoidValues rfl, numeric_gv_sub, numeric_gv_sub]
    show _ - _ = _ + ((0 : W) - _)
    rw [zero_sub, sub_eq_add_neg]
  · rw [hm.iff hj hx, hn.iff hj hx', hr.all h.lawful hj (mv_nil _) hb fun z hz => ⟨rfl, ?_⟩]
    · simp [togM_nil]
    · rw [gv_none rfl (hr.good.norm z), hr.val, numeric_gv_sub] at hz
      rw [gv_none rfl (hb.norm z)]
      have : (0 : W) - gv (MapType.numeric joining true true true) (valueAt o b z) = 0 := hz
      show _ = (0 : W)
      rw [sub_eq_zero] at this
      exact this.symm

end

/-! ## Maps of values that do not commute -/

/-- The functions `+=` make maps a monoid even if the values do not commute: `a += (b += c)` and `(a += b) += c` are
`==`, and so are `a += M()`, `M() += a` and `a`. -/
theorem C27_monoid (h : IntervalClass o) (hN : Neutral t) (hM : MonoidValues t)
    (hc : t.cfg.joining = true ∨ t.cfg.absorbs = false ∨ NoCancel t) {a b c : List (I × V)}
    (ha : MapValue o t a) (hb : MapValue o t b) (hcv : MapValue o t c) :
    (∃ bc l ab r, IMap.addMap o t oracle b c = some bc ∧ IMap.addMap o t oracle a bc = some l ∧
      IMap.addMap o t oracle a b = some ab ∧ IMap.addMap o t oracle ab c = some r ∧ eqC o mapSeg l r = true) ∧
    (∃ l, IMap.addMap o t oracle a [] = some l ∧ eqC o mapSeg l a = true) ∧
    (∃ r, IMap.addMap o t oracle [] a = some r ∧ eqC o mapSeg r a = true) := by
  rw [mapValue_iff h] at ha hb hcv
  refine ⟨?_, ?_, ?_⟩
  · obtain ⟨p, ep, hp⟩ := addMap_op h.lawful hN oracle hb hcv
    obtain ⟨m, em, hm⟩ := addMap_op h.lawful hN oracle ha hp.good
    obtain ⟨q, eq, hq⟩ := addMap_op h.lawful hN oracle ha hb
    obtain ⟨n, en, hn⟩ := addMap_op h.lawful hN oracle hq.good hcv
    refine ⟨p, m, q, n, ep, em, eq, en, eqC_of_tog h.lawful hm.good hn.good (fun x => ?_) fun hj x y hx hx' => ?_⟩
    · rw [hm.val, hp.val, hn.val, hq.val, add_assoc' hM hN.toVersions (ha.norm x) (hb.norm x) (hcv.norm x)]
    · have hc : t.cfg.absorbs = false ∨ NoCancel t := hc.resolve_left (by simp [hj])
      rw [hm.iff hj hx, hn.iff hj hx',
        hp.all h.lawful hj hb hcv fun z hz => add_none hM hN.toVersions hc (hb.norm z) (hcv.norm z)
          (by rw [← hp.val, hz]),
        hq.all h.lawful hj ha hb fun z hz => add_none hM hN.toVersions hc (ha.norm z) (hb.norm z)
          (by rw [← hq.val, hz]), and_assoc]
  · obtain ⟨m, em, hm⟩ := addMap_op h.lawful hN oracle ha (mv_nil t)
    refine ⟨m, em, eqC_of_tog h.lawful hm.good ha (fun x => ?_) fun hj x y hx _ => ?_⟩
    · rw [hm.val]; rfl
    · rw [hm.iff hj hx]; simp [togM_nil]
  · obtain ⟨m, em, hm⟩ := addMap_op h.lawful hN oracle (mv_nil t) ha
    refine ⟨m, em, eqC_of_tog h.lawful hm.good ha (fun x => ?_) fun hj x y hx _ => ?_⟩
    · rw [hm.val, valueAt_nil, add_zero_left hM hN.toVersions (ha.norm x)]
    · rw [hm.iff hj hx]; simp [togM_nil]

theorem strings_monoid (joining absorbs total : Bool) : MonoidValues (.strings joining absorbs total) where
  assoc := by intro u v w; exact List.append_assoc u v w
  ident_left := by intro v; rfl
  ident_right := by intro v; exact List.append_nil v
  version := by intro v; rfl

theorem strings_noCancel (joining absorbs total : Bool) : NoCancel (.strings joining absorbs total) := by
  intro u v he
  exact List.append_eq_nil_iff.1 he

theorem strings_neutral (joining absorbs total : Bool) : Neutral (.strings joining absorbs total) where
  plus_ident := by intro v; rfl
  plus_ne := by intro v hv; exact hv
  minus_ne := by intro _ hh; simp [MapType.strings] at hh
  sect_ne := by intro v hv; exact hv

/-! ## What does not hold -/

/-- An expression that names an object. -/
abbrev obj {I V : Type} (l : List (I × V)) : MapExpr I V := .leaf false l

/-- In an `interval_map<int, std::string>`, `a + (b + c)` is not `(a + b) + c`, although the documentation calls
these maps monoids: the overload of `operator +` for an lvalue and an rvalue exchanges the operands. -/
theorem C27_counterexample_monoid :
    (obj [(Ex.r 0 4, ['a'])] + (obj [(Ex.r 0 4, ['b'])] + obj [(Ex.r 0 4, ['c'])])).eval Ex.ro
      (.strings true true false) (fun _ _ => 0) = some [(Ex.r 0 4, ['b', 'c', 'a'])] ∧
    ((obj [(Ex.r 0 4, ['a'])] + obj [(Ex.r 0 4, ['b'])]) + obj [(Ex.r 0 4, ['c'])]).eval Ex.ro
      (.strings true true false) (fun _ _ => 0) = some [(Ex.r 0 4, ['a', 'b', 'c'])] := by
  decide

/-- In splitting maps of signed numbers that absorb identities `a + (b + c) == (a + b) + c` does not hold: a border
of a segment is lost where values cancel each other. -/
theorem C27_counterexample_add_assoc :
    (obj [(Ex.r 0 4, (1 : ℤ))] + (obj [(Ex.r 0 2, 1), (Ex.r 2 4, 1)] + obj [(Ex.r 0 4, -1)])).eval Ex.ro
      (.numeric false true false true) (fun _ _ => 0) = some [(Ex.r 0 4, 1)] ∧
    ((obj [(Ex.r 0 4, (1 : ℤ))] + obj [(Ex.r 0 2, 1), (Ex.r 2 4, 1)]) + obj [(Ex.r 0 4, -1)]).eval Ex.ro
      (.numeric false true false true) (fun _ _ => 0) = some [(Ex.r 0 2, 1), (Ex.r 2 4, 1)] := by
  decide

/-- In partial maps of signed numbers that absorb identities `a & (b & c) =e= (a & b) & c` does not hold. -/
theorem C27_counterexample_inter_assoc :
    (obj [(Ex.r 0 4, (1 : ℤ))] &&& (obj [(Ex.r 0 4, 1)] &&& obj [(Ex.r 0 4, -1)])).eval Ex.ro
      (.numeric true true false true) (fun _ _ => 0) = some [] ∧
    ((obj [(Ex.r 0 4, (1 : ℤ))] &&& obj [(Ex.r 0 4, 1)]) &&& obj [(Ex.r 0 4, -1)]).eval Ex.ro
      (.numeric true true false true) (fun _ _ => 0) = some [(Ex.r 0 4, 1)] := by
  decide

/-- In total maps of unsigned numbers `(a + b) - (a & b) == (a - b) + (b - a)` does not hold. -/
theorem C27_counterexample_symmetric_difference :
    ((obj [(Ex.r 0 4, 1)] + obj [(Ex.r 0 4, 3)]) - (obj [(Ex.r 0 4, 1)] &&& obj [(Ex.r 0 4, 3)])).eval Ex.ro
      (.unsigned true true true) (fun _ _ => 0) = some [] ∧
    ((obj [(Ex.r 0 4, 1)] - obj [(Ex.r 0 4, 3)]) + (obj [(Ex.r 0 4, 3)] - obj [(Ex.r 0 4, 1)])).eval Ex.ro
      (.unsigned true true true) (fun _ _ => 0) = some [(Ex.r 0 4, 2)] := by
  decide

/-! ## Examples: the hypotheses of the laws can be met -/

section
variable (j ab tot sg : Bool) (oracle : List (SItv ℤ × ℤ) → SItv ℤ → Nat)

/-- Three maps that overlap, one of them passed as an rvalue -/
abbrev exMA : MapExpr (SItv ℤ) ℤ := obj [(Ex.r 0 4, 1), (Ex.r 4 9, 2)]
abbrev exMB : MapExpr (SItv ℤ) ℤ := .leaf true [(Ex.r 2 5, 3)]
abbrev exMC : MapExpr (SItv ℤ) ℤ := obj [(Ex.r 3 7, -3)]

theorem ex_mleaves (j ab tot sg : Bool) : exMA.Leaves (MapValue Ex.ro (.numeric j ab tot sg)) ∧
    exMB.Leaves (MapValue Ex.ro (.numeric j ab tot sg)) ∧ exMC.Leaves (MapValue Ex.ro (.numeric j ab tot sg)) :=
  ex_mapValue j ab tot sg

example : MapLexEq Ex.ro (.numeric j ab tot sg) oracle (exMA + ∅) exMA ∧
    MapLexEq Ex.ro (.numeric j ab tot sg) oracle (exMA + exMB) (exMB + exMA) ∧
    MapElemEq Ex.ro (.numeric j ab tot sg) oracle (exMA + (exMB + exMC)) ((exMA + exMB) + exMC) ∧
    MapLexEq Ex.ro (.numeric true ab tot sg) oracle (exMA + (exMB + exMC)) ((exMA + exMB) + exMC) ∧
    MapLexEq Ex.ro (.numeric j ab tot sg) oracle (exMA &&& exMB) (exMB &&& exMA) ∧
    MapElemEq Ex.ro (.numeric j ab true sg) oracle (exMA &&& (exMB &&& exMC)) ((exMA &&& exMB) &&& exMC) ∧
    MapLexEq Ex.ro (.numeric j false tot sg) oracle (exMA &&& (exMB &&& exMC)) ((exMA &&& exMB) &&& exMC) ∧
    MapLexEq Ex.ro (.numeric j ab tot sg) oracle (exMA - ∅) exMA ∧
    MapLexEq Ex.ro (.numeric j true tot sg) oracle (exMA - exMA) ∅ ∧
    MapDistEq Ex.ro (.numeric j ab tot sg) oracle (exMA - exMA) ∅ ∧
    MapLexEq Ex.ro (.numeric j ab false sg) oracle ((exMA + exMB) - (exMA &&& exMB)) ((exMA - exMB) + (exMB - exMA)) ∧
    MapLexEq Ex.ro (.numeric j true true true) oracle ((∅ - exMA) + exMA) ∅ ∧
    MapLexEq Ex.ro (.numeric j true true true) oracle (exMA - exMB) (exMA + (∅ - exMB)) :=
  have hN := numeric_neutral (W := ℤ)
  have hM := numeric_comm (W := ℤ)
  have v := ex_mleaves
  ⟨(C27_add_neutral Ex.ro_cls (hN ..) (hM ..) (v ..).1).1,
    C27_add_comm Ex.ro_cls (hN ..) (hM ..) (v ..).1 (v ..).2.1,
    C27_add_assoc_elem Ex.ro_cls (hN ..) (hM ..) (v ..).1 (v ..).2.1 (v ..).2.2,
    C27_add_assoc Ex.ro_cls (hN ..) (hM ..) (Or.inl rfl) (v ..).1 (v ..).2.1 (v ..).2.2,
    C27_inter_comm Ex.ro_cls (hN ..) (hM ..) rfl (v ..).1 (v ..).2.1,
    C27_inter_assoc_elem Ex.ro_cls (hN ..) (hM ..) rfl (Or.inl rfl) (v ..).1 (v ..).2.1 (v ..).2.2,
    C27_inter_assoc Ex.ro_cls (hN ..) (hM ..) rfl (Or.inr (Or.inl rfl)) (v ..).1 (v ..).2.1 (v ..).2.2,
    C27_sub_neutral Ex.ro_cls (hN ..) (v ..).1,
    C27_sub_self Ex.ro_cls (hN ..) (fun u => sub_self u) rfl (v ..).1,
    C27_sub_self_distinct Ex.ro_cls (hN ..) (fun u => sub_self u) (v ..).1,
    C27_symmetric_difference Ex.ro_cls (Or.inl rfl) (v ..).1 (v ..).2.1,
    C27_inverse Ex.ro_cls (v ..).1,
    C27_sub_inverse Ex.ro_cls (v ..).1 (v ..).2.1⟩

/-- and some of the values they are about -/
example : (exMA + (exMB + exMC)).eval Ex.ro (.numeric true true false true) (fun _ _ => 0) =
      some [(Ex.r 0 2, 1), (Ex.r 2 3, 4), (Ex.r 3 4, 1), (Ex.r 4 5, 2), (Ex.r 5 7, -1), (Ex.r 7 9, 2)] ∧
    (exMA - exMB).eval Ex.ro (.numeric true true false true) (fun _ _ => 0) =
      some [(Ex.r 0 2, 1), (Ex.r 2 4, -2), (Ex.r 4 5, -1), (Ex.r 5 9, 2)] ∧
    (exMA &&& exMB).eval Ex.ro (.numeric true true false true) (fun _ _ => 0) =
      some [(Ex.r 2 4, 4), (Ex.r 4 5, 5)] := by decide

/-- A map of strings: `{[0,4)->"ab"} += {[2,6)->"c"}` -/
example : IMap.addMap Ex.ro (.strings true true false) (fun _ _ => 0) [(Ex.r 0 4, ['a', 'b'])] [(Ex.r 2 6, ['c'])] =
    some [(Ex.r 0 2, ['a', 'b']), (Ex.r 2 4, ['a', 'b', 'c']), (Ex.r 4 6, ['c'])] ∧
    MapValue Ex.ro (.strings true true false) [(Ex.r 0 4, ['a', 'b'])] := by
  refine ⟨by decide, (mapValue_iff Ex.ro_cls).2
    ⟨mapWellFormed_iff.1 (wellFormed_ro _ (by decide) (by decide)), fun _ => ?_, ?_⟩⟩
  · exact joined_of (by decide)
  · intro s hs; simp at hs; subst hs; decide

end

end ICL.Props
