import Verif.Theory.Infix
import Verif.Props.MapLaws
import Verif.Props.SetLaws
import Verif.Props.Collectors

/-!
# C54: infix operators agree with compound assignment

`a ⊕ b` is what `Type temp(a); temp ⊕= b;` leaves in `temp`, whether the operands are named objects, temporaries or
moved from.  This holds for expressions of any size over interval sets, and over interval maps if combining values
does not depend on their order.  It fails for other maps, because the operators apply the compound assignment to
their *right* operand if that is a temporary and the left operand is a named object.
-/

set_option linter.unusedSectionVars false

namespace ICL.Props
open Spec

variable {D I V : Type} [LinearOrder D] {o : IntervalOps D I} [DecidableEq I] [DecidableEq V]

/-! ## Interval sets -/

/-- An expression over interval sets has the value one gets by copying left operands: `operator ==` finds the two
values equal.  The positions the container chooses for insertions (`oracle`) may differ. -/
theorem C54_sets (h : IntervalClass o) {st : Style} {oracle oracle' : List I → I → Nat} {A : SetExpr I}
    (hA : A.Leaves (SetValue o st)) :
    ∃ s t, A.eval o st oracle = some s ∧ copying o st oracle' A = some t ∧ eqC o setSeg s t = true :=
  copying_equal h.lawful A (leaves_good h hA)

/-- The values of an expression and of the expression with `std::move` put around or taken from any operands are
equal, also in the segments they consist of. -/
theorem C54_sets_move (h : IntervalClass o) {st : Style} {oracle : List I → I → Nat} {A B : SetExpr I}
    (hA : A.Leaves (SetValue o st)) (hAB : named A = named B) : LexEq o st oracle A B := by
  have hc : ∀ {X : SetExpr I}, copying o st oracle X = copying o st oracle (named X) := by
    intro X
    induction X with
    | leaf b l => rfl
    | _ a b iha ihb => simp only [copying, named, iha, ihb]
  have hl : ∀ {X : SetExpr I}, X.Leaves (SetValue o st) ↔ (named X).Leaves (SetValue o st) := by
    intro X
    induction X with
    | leaf b l => exact Iff.rfl
    | _ a b iha ihb => simp only [SetExpr.Leaves, named, iha, ihb]
  have hB : B.Leaves (SetValue o st) := hl.2 (hAB ▸ hl.1 hA)
  obtain ⟨a, c, e1, e2, h1⟩ := C54_sets h (oracle := oracle) (oracle' := oracle) hA
  obtain ⟨b, d, e3, e4, h2⟩ := C54_sets h (oracle := oracle) (oracle' := oracle) hB
  rw [hc, hAB, ← hc, e4] at e2
  cases e2
  refine ⟨a, b, e1, e3, ?_⟩
  obtain ⟨_, f1, w1⟩ := eval_good h.lawful (oracle := oracle) A (leaves_good h hA)
  obtain ⟨_, f2, w2⟩ := eval_good h.lawful (oracle := oracle) B (leaves_good h hB)
  obtain ⟨_, f3, w3⟩ := copying_good h.lawful (oracle := oracle) B (leaves_good h hB)
  rw [e1] at f1; rw [e3] at f2; rw [e4] at f3
  cases f1; cases f2; cases f3
  rw [eqC_spec h.lawful w1.1 w3.1] at h1
  rw [eqC_spec h.lawful w2.1 w3.1] at h2
  rw [eqC_spec h.lawful w1.1 w2.1]
  exact ⟨fun x y => (h1.1 x y).trans (h2.1 x y).symm, fun x v => (h1.2 x v).trans (h2.2 x v).symm⟩

/-! ## Interval maps -/

/-- An expression over interval maps has the associations one gets by copying left operands, if combining values does
not depend on their order. -/
theorem C54_maps_elem_partial (h : IntervalClass o) {t : MapType V} (hN : Neutral t) (hO : OrderFree t)
    {oracle oracle' : List (I × V) → I → Nat} {A : MapExpr I V} (hA : A.Leaves (MapValue o t)) :
    ∃ m n, A.eval o t oracle = some m ∧ mapCopying o t oracle' A = some n ∧
      ∀ x v, Assoc o m x v ↔ Assoc o n x v := by
  obtain ⟨m, n, e1, e2, hT⟩ := mapCopying_twins h.lawful (oracle := oracle) (oracle' := oracle') hN hO A (leaves_mv h hA)
  exact ⟨m, n, e1, e2, fun x v => by
    rw [← valueAt_assoc (mapWellFormed_iff.2 hT.left.wf), ← valueAt_assoc (mapWellFormed_iff.2 hT.right.wf), hT.val]⟩

/-- `operator ==` finds the two values equal: they consist of the same segments. -/
theorem C54_maps_partial (h : IntervalClass o) {t : MapType V} (hN : Neutral t) (hO : OrderFree t)
    {oracle oracle' : List (I × V) → I → Nat} {A : MapExpr I V} (hA : A.Leaves (MapValue o t)) :
    ∃ m n, A.eval o t oracle = some m ∧ mapCopying o t oracle' A = some n ∧ eqC o mapSeg m n = true := by
  obtain ⟨m, n, e1, e2, hT⟩ := mapCopying_twins h.lawful (oracle := oracle) (oracle' := oracle') hN hO A (leaves_mv h hA)
  exact ⟨m, n, e1, e2, eqC_of_tog h.lawful hT.left hT.right hT.val fun hj x y _ _ => hT.tog hj x y⟩

/-- The values of an expression and of the expression with `std::move` put around or taken from any operands are
equal, also in the segments they consist of. -/
theorem C54_maps_move_partial (h : IntervalClass o) {t : MapType V} (hN : Neutral t) (hO : OrderFree t)
    {oracle : List (I × V) → I → Nat} {A B : MapExpr I V} (hA : A.Leaves (MapValue o t))
    (hAB : mapNamed A = mapNamed B) : MapLexEq o t oracle A B := by
  have hc : ∀ {X : MapExpr I V}, mapCopying o t oracle X = mapCopying o t oracle (mapNamed X) := by
    intro X
    induction X with
    | leaf b l => rfl
    | _ a b iha ihb => simp only [mapCopying, mapNamed, iha, ihb]
  have hl : ∀ {X : MapExpr I V}, X.Leaves (MapValue o t) ↔ (mapNamed X).Leaves (MapValue o t) := by
    intro X
    induction X with
    | leaf b l => exact Iff.rfl
    | _ a b iha ihb => simp only [MapExpr.Leaves, mapNamed, iha, ihb]
  have hB : B.Leaves (MapValue o t) := hl.2 (hAB ▸ hl.1 hA)
  obtain ⟨a, c, e1, e2, h1⟩ := mapCopying_twins h.lawful (oracle := oracle) (oracle' := oracle) hN hO A (leaves_mv h hA)
  obtain ⟨b, d, e3, e4, h2⟩ := mapCopying_twins h.lawful (oracle := oracle) (oracle' := oracle) hN hO B (leaves_mv h hB)
  rw [hc, hAB, ← hc, e4] at e2
  cases e2
  exact ⟨a, b, e1, e3, eqC_of_tog h.lawful h1.left h2.left (fun x => (h1.val x).trans (h2.val x).symm)
    fun hj x y _ _ => (h1.tog hj x y).trans (h2.tog hj x y).symm⟩

/-- Whatever the functors of the map: if the right operands are named objects, as in `a + b + c`, every operator works
on its left operand. -/
theorem C54_maps_named {t : MapType V} {oracle : List (I × V) → I → Nat} {A : MapExpr I V} (hA : RightNamed A) :
    A.eval o t oracle = mapCopying o t oracle A := by
  induction A with
  | leaf b l => rfl
  | _ a b iha ihb =>
    obtain ⟨h1, l, rfl⟩ := hA
    simp only [MapExpr.eval, mapCopying, MapExpr.swapped, MapExpr.rvalue, Bool.and_false, Bool.false_eq_true, if_false,
      iha h1, Option.bind_eq_bind]

/-- Whatever the functors of the map: every operator works on its left operand, unless that is a named object and the
right one a temporary. -/
theorem C54_maps_left_first {t : MapType V} {oracle : List (I × V) → I → Nat} {A : MapExpr I V} (hA : LeftFirst A) :
    A.eval o t oracle = mapCopying o t oracle A := by
  have key : ∀ {a b : MapExpr I V}, ((∃ l, a = .leaf false l) → ∃ l, b = .leaf false l) → a.swapped b = false := by
    intro a b h
    cases a with
    | leaf m l =>
      cases m with
      | true => rfl
      | false => obtain ⟨_, rfl⟩ := h ⟨l, rfl⟩; rfl
    | _ => rfl
  induction A with
  | leaf b l => rfl
  | sub a b iha ihb => simp only [MapExpr.eval, mapCopying, iha hA.1, ihb hA.2, Option.bind_eq_bind]
  | _ a b iha ihb =>
    simp only [MapExpr.eval, mapCopying, key hA.2.2, Bool.false_eq_true, if_false, iha hA.1, ihb hA.2.1,
      Option.bind_eq_bind]

/-- If the left operand is a named object and the right one a temporary, `+`, `&` and `^` work on the right one. -/
theorem C54_maps_right {t : MapType V} {oracle : List (I × V) → I → Nat} (l : List (I × V)) {B : MapExpr I V}
    (hB : ∀ r, B ≠ .leaf false r) :
    (MapExpr.leaf false l + B).eval o t oracle = (B + MapExpr.leaf false l).eval o t oracle ∧
    (MapExpr.leaf false l &&& B).eval o t oracle = (B &&& MapExpr.leaf false l).eval o t oracle ∧
    (MapExpr.leaf false l ^^^ B).eval o t oracle = (B ^^^ MapExpr.leaf false l).eval o t oracle := by
  have h1 : (MapExpr.leaf false l).swapped B = true := by
    cases B with
    | leaf m r => cases m with
      | true => rfl
      | false => exact absurd rfl (hB r)
    | _ => rfl
  have h2 : B.swapped (.leaf false l) = false := by simp [MapExpr.swapped, MapExpr.rvalue]
  refine ⟨?_, ?_, ?_⟩
  · show MapExpr.eval o t oracle (.add _ _) = MapExpr.eval o t oracle (.add _ _)
    simp only [MapExpr.eval, h1, h2, if_true, Bool.false_eq_true, if_false, Option.bind_eq_bind, Option.bind_some]
  · show MapExpr.eval o t oracle (.inter _ _) = MapExpr.eval o t oracle (.inter _ _)
    simp only [MapExpr.eval, h1, h2, if_true, Bool.false_eq_true, if_false, Option.bind_eq_bind, Option.bind_some]
  · show MapExpr.eval o t oracle (.flip _ _) = MapExpr.eval o t oracle (.flip _ _)
    simp only [MapExpr.eval, h1, h2, if_true, Bool.false_eq_true, if_false, Option.bind_eq_bind, Option.bind_some]

/-- `std::move(a) + std::move(b)` of maps of strings works on `a`: `{[0,2)->"xy"}` -/
example : LeftFirst (MapExpr.leaf true [(Ex.r 0 2, ['x'])] + .leaf true [(Ex.r 0 2, ['y'])]) ∧
    (MapExpr.leaf true [(Ex.r 0 2, ['x'])] + .leaf true [(Ex.r 0 2, ['y'])]).eval Ex.ro (.strings true true false)
      (fun _ _ => 0) = some [(Ex.r 0 2, ['x', 'y'])] :=
  ⟨⟨trivial, trivial, fun ⟨_, h⟩ => by cases h⟩, by decide⟩

/-! ## Laws of `^` on interval maps, which complete those of C27 -/

/-- `a ^ b == b ^ a`, if combining values does not depend on their order. -/
theorem C27_flip_comm (h : IntervalClass o) {t : MapType V} (hN : Neutral t) (hO : OrderFree t)
    {oracle : List (I × V) → I → Nat} {A B : MapExpr I V} (hA : A.Leaves (MapValue o t)) (hB : B.Leaves (MapValue o t)) :
    MapLexEq o t oracle (A ^^^ B) (B ^^^ A) := by
  obtain ⟨a, e1, ha⟩ := meval_mv h.lawful hN (oracle := oracle) A (leaves_mv h hA)
  obtain ⟨b, e2, hb⟩ := meval_mv h.lawful hN (oracle := oracle) B (leaves_mv h hB)
  obtain ⟨m, em, hm⟩ := mexpr_flip h.lawful hN hO ha hb e1 e2
  obtain ⟨n, en, hn⟩ := mexpr_flip h.lawful hN hO hb ha e2 e1
  refine ⟨m, n, em, en, eqC_of_tog h.lawful hm.good hn.good (fun x => ?_) fun hj x y hx hx' => ?_⟩
  · rw [hm.val, hn.val, pFlip_comm hO (ha.norm x) (hb.norm x)]
  · rw [hm.iff hj hx, hn.iff hj hx', and_comm]

/-- `a ^ M() == a` and `M() ^ a == a`, except for total maps, whose values `^=` sets to
the identity element. -/
theorem C27_flip_neutral (h : IntervalClass o) {t : MapType V} (hN : Neutral t) (hO : OrderFree t)
    (ht : t.cfg.total = false)
    {oracle : List (I × V) → I → Nat} {A : MapExpr I V} (hA : A.Leaves (MapValue o t)) :
    MapLexEq o t oracle (A ^^^ ∅) A ∧ MapLexEq o t oracle (∅ ^^^ A) A := by
  obtain ⟨a, e1, ha⟩ := meval_mv h.lawful hN (oracle := oracle) A (leaves_mv h hA)
  have e0 : (∅ : MapExpr I V).eval o t oracle = some [] := rfl
  have hz : ∀ x, pFlip t (valueAt o a x) none = valueAt o a x := fun x => by
    unfold pFlip pAdd IMap.flipTotalF
    simp [ht]
  obtain ⟨m, em, hm⟩ := mexpr_flip h.lawful hN hO ha (mv_nil t) e1 e0
  obtain ⟨n, en, hn⟩ := mexpr_flip h.lawful hN hO (mv_nil t) ha e0 e1
  refine ⟨⟨m, a, em, e1, eqC_of_tog h.lawful hm.good ha (fun x => ?_) fun hj x y hx _ => ?_⟩,
    ⟨n, a, en, e1, eqC_of_tog h.lawful hn.good ha (fun x => ?_) fun hj x y hx _ => ?_⟩⟩
  · rw [hm.val, valueAt_nil, hz]
  · rw [hm.iff hj hx]; simp [togM_nil]
  · rw [hn.val, pFlip_comm hO ((mv_nil (o := o) t).norm x) (ha.norm x), valueAt_nil, hz]
  · rw [hn.iff hj hx]; simp [togM_nil]

/-! ## Instances -/

theorem numeric_orderFree {W : Type} [AddCommGroup W] [DecidableEq W] (joining absorbs total signed : Bool) :
    OrderFree (.numeric (V := W) joining absorbs total signed) where
  plus u v _ _ := add_comm u v
  stored _ _ := rfl
  sect _ u v _ _ := add_comm u v
  unsect _ h := by simp [MapType.numeric] at h

theorem collector_orderFree {α : Type} [DecidableEq α] (joining absorbs total : Bool) :
    OrderFree (.collector (α := α) joining absorbs total) where
  plus u v _ _ := Finset.union_comm u v
  stored _ _ := rfl
  sect _ u v _ _ := Finset.inter_comm u v
  unsect _ _ u v _ _ := symmDiff_comm u v

/-! ## Where the operators disagree with compound assignment -/

/-- Values of strings: `a + std::move(b)` is not `a + b`. With `a = {[0,2)->"x"}` and `b = {[0,2)->"y"}` the one is
`{[0,2)->"yx"}` and the other `{[0,2)->"xy"}`. -/
theorem C54_counterexample_strings : ∃ A B : MapExpr (SItv ℤ) (List Char),
    A.Leaves (MapValue Ex.ro (.strings true true false)) ∧ mapNamed A = mapNamed B ∧
    A.eval Ex.ro (.strings true true false) (fun _ _ => 0) = some [(Ex.r 0 2, ['x', 'y'])] ∧
    B.eval Ex.ro (.strings true true false) (fun _ _ => 0) = some [(Ex.r 0 2, ['y', 'x'])] := by
  refine ⟨.leaf false [(Ex.r 0 2, ['x'])] + .leaf false [(Ex.r 0 2, ['y'])],
    .leaf false [(Ex.r 0 2, ['x'])] + .leaf true [(Ex.r 0 2, ['y'])], ⟨?_, ?_⟩, rfl, by decide, by decide⟩
  all_goals
    refine (mapValue_iff Ex.ro_cls).2 ⟨mapWellFormed_iff.1 (wellFormed_ro _ (by decide) (by decide)),
      fun _ => joined_of (by decide), ?_⟩
    intro s hs
    simp at hs; subst hs; simp [IMap.absorbable, MapType.strings]

/-- The same for `&`, which combines strings as `+` does. -/
theorem C54_counterexample_intersection : ∃ A B : MapExpr (SItv ℤ) (List Char),
    A.Leaves (MapValue Ex.ro (.strings true true false)) ∧ mapNamed A = mapNamed B ∧
    A.eval Ex.ro (.strings true true false) (fun _ _ => 0) = some [(Ex.r 1 2, ['x', 'y'])] ∧
    B.eval Ex.ro (.strings true true false) (fun _ _ => 0) = some [(Ex.r 1 2, ['y', 'x'])] := by
  refine ⟨.leaf false [(Ex.r 0 2, ['x'])] &&& .leaf false [(Ex.r 1 3, ['y'])],
    .leaf false [(Ex.r 0 2, ['x'])] &&& .leaf true [(Ex.r 1 3, ['y'])], ⟨?_, ?_⟩, rfl, by decide, by decide⟩
  all_goals
    refine (mapValue_iff Ex.ro_cls).2 ⟨mapWellFormed_iff.1 (wellFormed_ro _ (by decide) (by decide)),
      fun _ => joined_of (by decide), ?_⟩
    intro s hs
    simp at hs; subst hs; simp [IMap.absorbable, MapType.strings]

/-! ## Exactly for which maps they agree -/

theorem single_mapValue {t : MapType V} {k : I} {u : V} (hk : ∃ x, In o x k) (hu : ¬ Ignored t u) :
    MapValue o t [(k, u)] := by
  refine ⟨⟨by simpa using hk, by simp⟩, fun _ p i j q he => ?_, by simpa [NoIdentity] using hu⟩
  have := congrArg List.length he
  simp only [List.length_append, List.length_cons, List.length_nil] at this
  omega

theorem single_value {k : I} {u : V} {x : D} (hx : In o x k) : valueAt o [(k, u)] x = some u :=
  (valueAt_assoc (m := [(k, u)]) ⟨by simpa using ⟨x, hx⟩, by simp⟩ x u).2 ⟨(k, u), by simp, hx, rfl⟩

theorem value_of_elemEq {t : MapType V} {oracle : List (I × V) → I → Nat} {A B : MapExpr I V} {m n : List (I × V)}
    (he : MapElemEq o t oracle A B) (e1 : A.eval o t oracle = some m) (e2 : B.eval o t oracle = some n)
    (hm : MV o t m) (hn : MV o t n) (x : D) : valueAt o m x = valueAt o n x := by
  obtain ⟨m', n', e1', e2', hv⟩ := he
  rw [e1] at e1'; rw [e2] at e2'; cases e1'; cases e2'
  refine Option.ext fun v => ?_
  rw [valueAt_assoc (mapWellFormed_iff.2 hm.wf), valueAt_assoc (mapWellFormed_iff.2 hn.wf), hv]

/-- The condition on the functors is exact: if putting `std::move` around operands does not change the associations of
the value, for all expressions over maps of the type, then combining values does not depend on their order. -/
theorem C54_maps_exact (h : IntervalClass o) {t : MapType V} (hN : Neutral t) {k : I} (hk : ∃ x, In o x k)
    (oracle : List (I × V) → I → Nat) :
    (∀ A B : MapExpr I V, A.Leaves (MapValue o t) → mapNamed A = mapNamed B → MapElemEq o t oracle A B) ↔
      OrderFree t := by
  constructor
  · intro he
    obtain ⟨x, hx⟩ := hk
    have key : ∀ {u}, ¬ Ignored t u → MV o t [(k, u)] := fun hu => (mapValue_iff h).1 (single_mapValue ⟨x, hx⟩ hu)
    have hst : ∀ v, ¬ Ignored t v → t.plus.version v = v := by
      intro v hv
      have e := he (.add (.leaf false [(k, v)]) (.leaf true [])) (.add (.leaf false [(k, v)]) (.leaf false []))
        ⟨single_mapValue ⟨x, hx⟩ hv, (mapValue_iff h).2 (mv_nil t)⟩ rfl
      obtain ⟨m, e1, hm⟩ := addMap_op h.lawful hN oracle (mv_nil t) (key hv)
      obtain ⟨n, e2, hn⟩ := addMap_op h.lawful hN oracle (key hv) (mv_nil t)
      have := value_of_elemEq e (m := m) (n := n) (by simpa [MapExpr.eval, MapExpr.swapped, MapExpr.rvalue] using e1)
        (by simpa [MapExpr.eval, MapExpr.swapped, MapExpr.rvalue] using e2) hm.good hn.good x
      rw [hm.val, hn.val, single_value hx, valueAt_nil] at this
      simp only [pAdd, IMap.addF, absorbable_false_iff.2 hv] at this
      simpa using this
    have keep_inj : ∀ {w w'}, IMap.keep t.cfg w = IMap.keep t.cfg w' → w = w' := by
      intro w w' hw
      unfold IMap.keep IMap.absorbable at hw
      cases ha : t.cfg.absorbs with
      | false => simpa [ha] using hw
      | true =>
        simp only [ha, Bool.true_and] at hw
        by_cases h1 : w = t.cfg.ident <;> by_cases h2 : w' = t.cfg.ident <;> simp_all
    refine ⟨fun u v hu hv => ?_, hst, fun ht u v hu hv => ?_, fun ht hs u v hu hv => ?_⟩
    · have e := he (.add (.leaf false [(k, u)]) (.leaf true [(k, v)])) (.add (.leaf false [(k, u)]) (.leaf false [(k, v)]))
        ⟨single_mapValue ⟨x, hx⟩ hu, single_mapValue ⟨x, hx⟩ hv⟩ rfl
      obtain ⟨m, e1, hm⟩ := addMap_op h.lawful hN oracle (key hv) (key hu)
      obtain ⟨n, e2, hn⟩ := addMap_op h.lawful hN oracle (key hu) (key hv)
      have := value_of_elemEq e (m := m) (n := n) (by simpa [MapExpr.eval, MapExpr.swapped, MapExpr.rvalue] using e1)
        (by simpa [MapExpr.eval, MapExpr.swapped, MapExpr.rvalue] using e2) hm.good hn.good x
      rw [hm.val, hn.val, single_value hx, single_value hx] at this
      simp only [pAdd, IMap.addF, absorbable_false_iff.2 hv, absorbable_false_iff.2 hu] at this
      exact (keep_inj (by simpa using this)).symm
    · have e := he (.inter (.leaf false [(k, u)]) (.leaf true [(k, v)]))
        (.inter (.leaf false [(k, u)]) (.leaf false [(k, v)]))
        ⟨single_mapValue ⟨x, hx⟩ hu, single_mapValue ⟨x, hx⟩ hv⟩ rfl
      obtain ⟨m, e1, hm⟩ := interMap_op h.lawful hN oracle (key hv) (key hu)
      obtain ⟨n, e2, hn⟩ := interMap_op h.lawful hN oracle (key hu) (key hv)
      have := value_of_elemEq e (m := m) (n := n) (by simpa [MapExpr.eval, MapExpr.swapped, MapExpr.rvalue] using e1)
        (by simpa [MapExpr.eval, MapExpr.swapped, MapExpr.rvalue] using e2) hm.good hn.good x
      rw [hm.val, hn.val, single_value hx, single_value hx] at this
      simp only [pInter, ht, IMap.interF, IMap.addF, absorbable_false_iff.2 hv, absorbable_false_iff.2 hu, hst _ hu,
        hst _ hv] at this
      exact (keep_inj (by simpa using this)).symm
    · have e := he (.flip (.leaf false [(k, u)]) (.leaf true [(k, v)]))
        (.flip (.leaf false [(k, u)]) (.leaf false [(k, v)]))
        ⟨single_mapValue ⟨x, hx⟩ hu, single_mapValue ⟨x, hx⟩ hv⟩ rfl
      obtain ⟨m, e1, hm⟩ := flipMap_op h.lawful hN oracle (key hv) (key hu)
      obtain ⟨n, e2, hn⟩ := flipMap_op h.lawful hN oracle (key hu) (key hv)
      have := value_of_elemEq e (m := m) (n := n) (by simpa [MapExpr.eval, MapExpr.swapped, MapExpr.rvalue] using e1)
        (by simpa [MapExpr.eval, MapExpr.swapped, MapExpr.rvalue] using e2) hm.good hn.good x
      rw [hm.val, hn.val, single_value hx, single_value hx] at this
      have hf : ∀ w, IMap.addF t.cfg t.plus w none = IMap.keep t.cfg w := by
        intro w
        unfold IMap.addF IMap.keep
        by_cases hw : Ignored t w
        · simp [absorbable_iff.2 hw]
        · simp [absorbable_false_iff.2 hw, hst _ hw]
      simp only [pFlip, ht, IMap.flipF, IMap.flipValue, hs, if_true] at this
      have hk2 : ∀ w, (IMap.keep t.cfg w).bind (fun a => IMap.keep t.cfg a) = IMap.keep t.cfg w := by
        intro w
        cases hw : IMap.keep t.cfg w with
        | none => rfl
        | some w' =>
          have : w' = w := by
            unfold IMap.keep at hw
            split at hw
            · cases hw
            · exact (Option.some.inj hw).symm
          rw [Option.bind_some, this, hw, this]
      have := keep_inj (by simpa [hf, hk2] using this)
      exact this
  · intro hO A B hA hAB
    have hl : ∀ {X : MapExpr I V}, X.Leaves (MapValue o t) ↔ (mapNamed X).Leaves (MapValue o t) := by
      intro X
      induction X with
      | leaf b l => exact Iff.rfl
      | _ a b iha ihb => simp only [MapExpr.Leaves, mapNamed, iha, ihb]
    exact C27_lex_elem h hN hA (hl.2 (hAB ▸ hl.1 hA)) (C54_maps_move_partial h hN hO hA hAB)

example : ¬ OrderFree (.strings true true false) := by
  intro hO
  have := hO.plus ['x'] ['y'] (by simp [Ignored, MapType.strings]) (by simp [Ignored, MapType.strings])
  simp [MapType.strings] at this

/-! ## The hypotheses are satisfiable -/

example (st : Style) (oracle : List (SItv ℤ) → SItv ℤ → Nat) :
    LexEq Ex.ro st oracle (.leaf false exS ^^^ (.leaf true exT &&& .leaf false exS))
      (.leaf true exS ^^^ (.leaf false exT &&& .leaf true exS)) :=
  C54_sets_move Ex.ro_cls ⟨(ex_value st).1, (ex_value st).2, (ex_value st).1⟩ rfl

example (joining absorbs total signed : Bool) (oracle oracle' : List (SItv ℤ × ℤ) → SItv ℤ → Nat) :
    ∃ m n, (MapExpr.leaf false [(Ex.r 0 4, (1 : ℤ)), (Ex.r 4 9, 2)] + .leaf true [(Ex.r 2 5, 3)]).eval Ex.ro
        (.numeric joining absorbs total signed) oracle = some m ∧
      mapCopying Ex.ro (.numeric joining absorbs total signed) oracle'
        (MapExpr.leaf false [(Ex.r 0 4, (1 : ℤ)), (Ex.r 4 9, 2)] + .leaf true [(Ex.r 2 5, 3)]) = some n ∧
      eqC Ex.ro mapSeg m n = true :=
  C54_maps_partial Ex.ro_cls (numeric_neutral ..) (numeric_orderFree ..)
    ⟨(ex_mapValue ..).1, (ex_mapValue ..).2.1⟩

example (joining absorbs total : Bool) (oracle oracle' : List (SItv ℤ × Finset ℤ) → SItv ℤ → Nat) :
    ∃ m n, (MapExpr.leaf false [(Ex.r 0 4, ({1} : Finset ℤ)), (Ex.r 4 9, {1, 2})] ^^^
        .leaf true [(Ex.r 2 5, {2, 3})]).eval Ex.ro (.collector joining absorbs total) oracle = some m ∧
      mapCopying Ex.ro (.collector joining absorbs total) oracle'
        (MapExpr.leaf false [(Ex.r 0 4, ({1} : Finset ℤ)), (Ex.r 4 9, {1, 2})] ^^^
          .leaf true [(Ex.r 2 5, {2, 3})]) = some n ∧
      ∀ x v, Assoc Ex.ro m x v ↔ Assoc Ex.ro n x v :=
  C54_maps_elem_partial Ex.ro_cls (collector_neutral ..) (collector_orderFree ..)
    ⟨(ex_collValue ..).1, (ex_collValue ..).2.1⟩

example (joining absorbs total : Bool) (oracle : List (SItv ℤ × Finset ℤ) → SItv ℤ → Nat) :
    MapLexEq Ex.ro (.collector joining absorbs total) oracle
      (.leaf false [(Ex.r 0 4, ({1} : Finset ℤ)), (Ex.r 4 9, {1, 2})] ^^^ .leaf true [(Ex.r 2 5, {2, 3})])
      (.leaf true [(Ex.r 0 4, ({1} : Finset ℤ)), (Ex.r 4 9, {1, 2})] ^^^ .leaf false [(Ex.r 2 5, {2, 3})]) :=
  C54_maps_move_partial Ex.ro_cls (collector_neutral ..) (collector_orderFree ..)
    ⟨(ex_collValue ..).1, (ex_collValue ..).2.1⟩ rfl

example (joining absorbs total : Bool) (oracle : List (SItv ℤ × Finset ℤ) → SItv ℤ → Nat) :
    MapLexEq Ex.ro (.collector joining absorbs total) oracle
      (.leaf false [(Ex.r 0 4, ({1} : Finset ℤ)), (Ex.r 4 9, {1, 2})] ^^^ .leaf false [(Ex.r 2 5, {2, 3})])
      (.leaf false [(Ex.r 2 5, {2, 3})] ^^^ .leaf false [(Ex.r 0 4, ({1} : Finset ℤ)), (Ex.r 4 9, {1, 2})]) :=
  C27_flip_comm Ex.ro_cls (collector_neutral ..) (collector_orderFree ..) (A := .leaf _ _) (B := .leaf _ _)
    (ex_collValue ..).1 (ex_collValue ..).2.1

example (joining absorbs : Bool) (oracle : List (SItv ℤ × Finset ℤ) → SItv ℤ → Nat) :
    MapLexEq Ex.ro (.collector joining absorbs false) oracle
      (∅ ^^^ .leaf false [(Ex.r 0 4, ({1} : Finset ℤ)), (Ex.r 4 9, {1, 2})])
      (.leaf false [(Ex.r 0 4, ({1} : Finset ℤ)), (Ex.r 4 9, {1, 2})]) :=
  (C27_flip_neutral Ex.ro_cls (collector_neutral ..) (collector_orderFree ..) rfl (A := .leaf _ _)
    (ex_collValue ..).1).2

example : RightNamed (MapExpr.leaf true [(Ex.r 0 2, ['x'])] + .leaf false [(Ex.r 0 2, ['y'])]) := ⟨trivial, _, rfl⟩

end ICL.Props
