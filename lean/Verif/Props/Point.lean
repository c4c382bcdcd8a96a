import Verif.Theory.Point
import Verif.Props.SetMaps
import Verif.Props.Infix
import Verif.Props.Compare
import Verif.Props.Nested

/-!
# C66: interval maps as functions

`m(x)` yields the value of the key `x`, and the identity element if `x` is not a key. If the values are numbers and the
map is total, or if the values are sets, looking up a key in the value of an expression is the same as evaluating the
expression on the values looked up. Hence every equation that holds for functions holds for `interval_map`s.
-/

set_option linter.unusedSectionVars false
set_option linter.unusedVariables false

namespace ICL.Props
open Spec

variable {D I V : Type} [LinearOrder D] {o : IntervalOps D I} [DecidableEq I] [DecidableEq V]

/-- `A(x)` for an expression `A`: the expression is evaluated, and the key is looked up in the map. -/
def selectExpr (o : IntervalOps D I) (t : MapType V) (oracle : List (I × V) → I → Nat) (lk : Lookup D I)
    (A : MapExpr I V) (x : D) : Option V :=
  (A.eval o t oracle).bind fun m => IMap.select o lk t.cfg.ident m x

theorem select_gv {lk : Lookup D I} (h : LookupClass o lk) {t : MapType V} {m : List (I × V)} (hm : MV o t m)
    (x : D) (hx : o.isEmpty (lk.key x) = false) :
    IMap.select o lk t.cfg.ident m x = some (gv t (valueAt o m x)) := by
  have hw := mapWellFormed_iff.2 hm.wf
  obtain ⟨v, e, hv⟩ := C14_select h hw t.cfg.ident x hx
  rw [e]
  congr 1
  rcases hv with hv | ⟨hv, rfl⟩
  · rw [← valueAt_assoc hw] at hv
    rw [hv]; rfl
  · cases hc : valueAt o m x with
    | none => rfl
    | some u =>
      rw [valueAt_assoc hw] at hc
      obtain ⟨s, hs, h1, -⟩ := hc
      exact absurd ⟨s, hs, h1⟩ hv

theorem select_acts {lk : Lookup D I} (h : LookupClass o lk) {t : MapType V} (hN : Neutral t) (hO : OrderFree t)
    {F : PointOps V} (hF : PointActs t F) {oracle : List (I × V) → I → Nat} {A : MapExpr I V}
    (hA : A.Leaves (MapValue o t)) (x : D) (hx : o.isEmpty (lk.key x) = false) :
    ∃ v, selectExpr o t oracle lk A x = some v ∧
      pointwise F (fun l => IMap.select o lk t.cfg.ident l x) A = some v := by
  obtain ⟨m, e, hm, hv⟩ := pointwise_eval h.cls.lawful hN hO hF (oracle := oracle)
    (fun l hl => select_gv h hl x hx) A (leaves_mv h.cls hA)
  exact ⟨_, by rw [selectExpr, e]; exact select_gv h hm x hx, hv⟩

/-- Total maps of signed numbers, or of the elements of any abelian group: `(a + b)(x) = a(x) + b(x)`,
`(a - b)(x) = a(x) - b(x)`, `(a & b)(x) = a(x) + b(x)` and `(a ^ b)(x) = 0`, in expressions of any size. -/
theorem C66_numbers {W : Type} [DecidableEq W] [AddCommGroup W] {lk : Lookup D I} (h : LookupClass o lk)
    (joining absorbs : Bool) {oracle : List (I × W) → I → Nat} {A : MapExpr I W}
    (hA : A.Leaves (MapValue o (.numeric joining absorbs true true))) (x : D) (hx : o.isEmpty (lk.key x) = false) :
    ∃ v, selectExpr o (.numeric joining absorbs true true) oracle lk A x = some v ∧
      pointwise PointOps.numbers (fun l => IMap.select o lk 0 l x) A = some v :=
  select_acts h (numeric_neutral ..) (numeric_orderFree ..)
    (numeric_acts joining absorbs (numeric_comm joining absorbs true true).toMonoidValues) hA x hx

theorem collector_sets {α : Type} [DecidableEq α] (joining absorbs total : Bool) :
    SetValues (.collector (α := α) joining absorbs total) (fun e (u : Finset α) => e ∈ u) where
  ext u v he := Finset.ext he
  ident e := Finset.notMem_empty e
  plus u v e := Finset.mem_union
  minus u v e := Finset.mem_sdiff
  sect u v e := Finset.mem_inter
  unsect u v e := Finset.mem_symmDiff
  plus_version v := rfl
  sect_version v := rfl
  setLike := rfl
  invertible := rfl

theorem sets_orderFree {α : Type} {t : MapType V} {mem : α → V → Prop} (hS : SetValues t mem) : OrderFree t where
  plus u v _ _ := hS.comm.comm u v
  stored v _ := hS.plus_version v
  sect _ u v _ _ := hS.ext _ _ fun e => by simp only [hS.sect, and_comm]
  unsect _ _ u v _ _ := hS.unsect_comm u v

/-- Partial maps of sets: `(a + b)(x) = a(x) ∪ b(x)`, `(a - b)(x) = a(x) \ b(x)`, `(a & b)(x) = a(x) ∩ b(x)` and
`(a ^ b)(x)` is the symmetric difference, in expressions of any size. -/
theorem C66_sets {α : Type} [DecidableEq α] {lk : Lookup D I} (h : LookupClass o lk) (joining absorbs : Bool)
    {oracle : List (I × Finset α) → I → Nat} {A : MapExpr I (Finset α)}
    (hA : A.Leaves (MapValue o (.collector joining absorbs false))) (x : D) (hx : o.isEmpty (lk.key x) = false) :
    ∃ v, selectExpr o (.collector joining absorbs false) oracle lk A x = some v ∧
      pointwise PointOps.sets (fun l => IMap.select o lk ∅ l x) A = some v :=
  select_acts h (collector_sets ..).neutral (collector_orderFree ..)
    (sets_acts (collector_sets (α := α) joining absorbs false)) hA x hx

/-- Total maps of sets: `&` is the union, and `^` yields the empty set. -/
theorem C66_total_sets {α : Type} [DecidableEq α] {lk : Lookup D I} (h : LookupClass o lk) (joining absorbs : Bool)
    {oracle : List (I × Finset α) → I → Nat} {A : MapExpr I (Finset α)}
    (hA : A.Leaves (MapValue o (.collector joining absorbs true))) (x : D) (hx : o.isEmpty (lk.key x) = false) :
    ∃ v, selectExpr o (.collector joining absorbs true) oracle lk A x = some v ∧
      pointwise PointOps.totalSets (fun l => IMap.select o lk ∅ l x) A = some v :=
  select_acts h (collector_sets ..).neutral (collector_orderFree ..)
    (sets_acts (collector_sets (α := α) joining absorbs true)) hA x hx

/-- Partial maps of any values that behave as sets, such as interval sets or interval maps of sets: the values of the
expression at a key are combined by the functors of the map. -/
theorem C66_set_values {α : Type} {t : MapType V} {mem : α → V → Prop} (hS : SetValues t mem)
    (ht : t.cfg.total = false) {lk : Lookup D I} (h : LookupClass o lk) {oracle : List (I × V) → I → Nat}
    {A : MapExpr I V} (hA : A.Leaves (MapValue o t)) (x : D) (hx : o.isEmpty (lk.key x) = false) :
    ∃ v, selectExpr o t oracle lk A x = some v ∧
      pointwise ⟨t.plus.apply, t.minus.apply, t.sect.apply, t.unsect⟩
        (fun l => IMap.select o lk t.cfg.ident l x) A = some v := by
  have := select_acts h hS.neutral (sets_orderFree hS) (sets_acts hS) (oracle := oracle) hA x hx
  simpa [setPoint, ht] using this

/-- Sums: in every map whose values are a commutative monoid, partial or total, `(a + b)(x) = a(x) + b(x)`. -/
theorem C66_sums {t : MapType V} (hN : Neutral t) (hM : CommMonoidValues t) {lk : Lookup D I} (h : LookupClass o lk)
    (F : PointOps V) (hF : F.add = t.plus.apply) {oracle : List (I × V) → I → Nat}
    {A : MapExpr I V} (hs : OnlyAdd A) (hA : A.Leaves (MapValue o t)) (x : D) (hx : o.isEmpty (lk.key x) = false) :
    ∃ v, selectExpr o t oracle lk A x = some v ∧
      pointwise F (fun l => IMap.select o lk t.cfg.ident l x) A = some v := by
  obtain ⟨m, e, hm, hv⟩ := pointwise_sums h.cls.lawful hN hM hF (oracle := oracle)
    (fun l hl => select_gv h hl x hx) A hs (leaves_mv h.cls hA)
  exact ⟨_, by rw [selectExpr, e]; exact select_gv h hm x hx, hv⟩

/-- `interval_map`s that absorb identity elements are equal iff they are equal as functions: `A == B` iff `A(x)` is
`B(x)` for all `x`. -/
theorem C66_equal {t : MapType V} (hN : Neutral t) (hj : t.cfg.joining = true) (ha : t.cfg.absorbs = true)
    {lk : Lookup D I} (h : LookupClass o lk) (hx : ∀ x, o.isEmpty (lk.key x) = false)
    {oracle : List (I × V) → I → Nat} {A B : MapExpr I V} (hA : A.Leaves (MapValue o t))
    (hB : B.Leaves (MapValue o t)) :
    MapLexEq o t oracle A B ↔ ∀ x, selectExpr o t oracle lk A x = selectExpr o t oracle lk B x := by
  obtain ⟨a, e1, h1⟩ := meval_mv h.cls.lawful hN (oracle := oracle) A (leaves_mv h.cls hA)
  obtain ⟨b, e2, h2⟩ := meval_mv h.cls.lawful hN (oracle := oracle) B (leaves_mv h.cls hB)
  have hl : MapLexEq o t oracle A B ↔ eqC o mapSeg a b = true := by
    constructor
    · rintro ⟨a', b', e1', e2', he⟩
      rw [e1] at e1'; rw [e2] at e2'; cases e1'; cases e2'; exact he
    · exact fun he => ⟨a, b, e1, e2, he⟩
  rw [hl, eqC_joined h.cls.lawful h1.wf h2.wf (h1.joined hj) (h2.joined hj)]
  simp only [selectExpr, e1, e2, Option.bind_some, select_gv h h1 _ (hx _), select_gv h h2 _ (hx _),
    Option.some.injEq]
  refine forall_congr' fun x => ?_
  constructor
  · intro he
    have : valueAt o a x = valueAt o b x := Option.ext fun v => by
      rw [valueAt_some h1.wf, valueAt_some h2.wf]; exact he v
    rw [this]
  · intro he v
    have := gv_inj ha (h1.norm x) (h2.norm x) he
    rw [← valueAt_some h1.wf, ← valueAt_some h2.wf, this]

/-- Two values are the same if an absent one counts as the identity element. -/
theorem gv_eq_iff {t : MapType V} {p q : Option V} :
    (∀ v, v ≠ t.cfg.ident → (p = some v ↔ q = some v)) ↔ gv t p = gv t q := by
  unfold gv
  constructor
  · intro he
    cases p with
    | none =>
      cases q with
      | none => rfl
      | some v =>
        by_contra hc
        exact absurd ((he v (Ne.symm hc)).2 rfl) (by simp)
    | some u =>
      by_cases hu : u = t.cfg.ident
      · cases q with
        | none => exact hu
        | some v =>
          by_contra hc
          have hc' : v ≠ t.cfg.ident := fun hh => hc (hu.trans hh.symm)
          have := (he v hc').2 rfl
          simp only [Option.some.injEq] at this
          exact hc this
      · rw [(he u hu).1 rfl]
  · intro he v hv
    have key : ∀ r : Option V, r = some v ↔ r.getD t.cfg.ident = v := by
      intro r
      cases r with
      | none => simp [hv.symm]
      | some u => simp
    rw [key p, key q, he]

/-- For all `interval_map`s, `is_distinct_equal` compares the functions. -/
theorem C66_distinct {t : MapType V} (hN : Neutral t) (hj : t.cfg.joining = true)
    {lk : Lookup D I} (h : LookupClass o lk) (hx : ∀ x, o.isEmpty (lk.key x) = false)
    {oracle : List (I × V) → I → Nat} {A B : MapExpr I V} (hA : A.Leaves (MapValue o t))
    (hB : B.Leaves (MapValue o t)) :
    MapDistEq o t oracle A B ↔ ∀ x, selectExpr o t oracle lk A x = selectExpr o t oracle lk B x := by
  obtain ⟨a, e1, h1⟩ := meval_mv h.cls.lawful hN (oracle := oracle) A (leaves_mv h.cls hA)
  obtain ⟨b, e2, h2⟩ := meval_mv h.cls.lawful hN (oracle := oracle) B (leaves_mv h.cls hB)
  have hl : MapDistEq o t oracle A B ↔ distinctEqual o mapSeg t.cfg.ident a b = true := by
    constructor
    · rintro ⟨a', b', e1', e2', he⟩
      rw [e1] at e1'; rw [e2] at e2'; cases e1'; cases e2'; exact he
    · exact fun he => ⟨a, b, e1, e2, he⟩
  have g1 := (mapValue_iff h.cls).2 h1
  have g2 := (mapValue_iff h.cls).2 h2
  rw [hl, C31_distinct_equal h.cls _ g1.1 g2.1 (g1.2.1 hj) (g2.2.1 hj)]
  simp only [selectExpr, e1, e2, Option.bind_some, select_gv h h1 _ (hx _), select_gv h h2 _ (hx _),
    Option.some.injEq]
  refine forall_congr' fun x => ?_
  simp only [← valueAt_assoc g1.1, ← valueAt_assoc g2.1]
  exact gv_eq_iff

/-- Every equation between functions into an abelian group is one between total `interval_map`s: if `A` and `B`
evaluate to the same number at all keys, then `A == B` for absorbers, and `A` and `B` are distinct equal for
enrichers. -/
theorem C66_law {W : Type} [DecidableEq W] [AddCommGroup W] {lk : Lookup D I} (h : LookupClass o lk)
    (hx : ∀ x, o.isEmpty (lk.key x) = false) (absorbs : Bool)
    {oracle : List (I × W) → I → Nat} {A B : MapExpr I W}
    (hA : A.Leaves (MapValue o (.numeric true absorbs true true)))
    (hB : B.Leaves (MapValue o (.numeric true absorbs true true)))
    (hAB : ∀ x, pointwise PointOps.numbers (fun l => IMap.select o lk 0 l x) A =
      pointwise PointOps.numbers (fun l => IMap.select o lk 0 l x) B) :
    MapDistEq o (.numeric true absorbs true true) oracle A B ∧
    (absorbs = true → MapLexEq o (.numeric true absorbs true true) oracle A B) := by
  have he : ∀ x, selectExpr o (.numeric true absorbs true true) oracle lk A x =
      selectExpr o (.numeric true absorbs true true) oracle lk B x := fun x => by
    obtain ⟨v, e1, e2⟩ := C66_numbers h true absorbs (oracle := oracle) hA x (hx x)
    obtain ⟨w, e3, e4⟩ := C66_numbers h true absorbs (oracle := oracle) hB x (hx x)
    rw [e1, e3, ← e2, ← e4, hAB x]
  refine ⟨(C66_distinct (numeric_neutral ..) rfl h hx hA hB).2 he, fun ha => ?_⟩
  exact (C66_equal (numeric_neutral ..) rfl ha h hx hA hB).2 he

/-- The same for partial `interval_map`s of sets: every equation between sets is one between maps. -/
theorem C66_law_sets {α : Type} [DecidableEq α] {lk : Lookup D I} (h : LookupClass o lk)
    (hx : ∀ x, o.isEmpty (lk.key x) = false) (absorbs : Bool)
    {oracle : List (I × Finset α) → I → Nat} {A B : MapExpr I (Finset α)}
    (hA : A.Leaves (MapValue o (.collector true absorbs false)))
    (hB : B.Leaves (MapValue o (.collector true absorbs false)))
    (hAB : ∀ x, pointwise PointOps.sets (fun l => IMap.select o lk ∅ l x) A =
      pointwise PointOps.sets (fun l => IMap.select o lk ∅ l x) B) :
    MapDistEq o (.collector true absorbs false) oracle A B ∧
    (absorbs = true → MapLexEq o (.collector true absorbs false) oracle A B) := by
  have he : ∀ x, selectExpr o (.collector true absorbs false) oracle lk A x =
      selectExpr o (.collector true absorbs false) oracle lk B x := fun x => by
    obtain ⟨v, e1, e2⟩ := C66_sets h true absorbs (oracle := oracle) hA x (hx x)
    obtain ⟨w, e3, e4⟩ := C66_sets h true absorbs (oracle := oracle) hB x (hx x)
    rw [e1, e3, ← e2, ← e4, hAB x]
  refine ⟨(C66_distinct (collector_sets ..).neutral rfl h hx hA hB).2 he, fun ha => ?_⟩
  exact (C66_equal (collector_sets ..).neutral rfl ha h hx hA hB).2 he

/-- A law that is not among the documented ones, as an instance: `(a - b) - c == a - (b + c)` for total
`interval_map`s of numbers that absorb identity elements. -/
theorem C66_sub_sub {W : Type} [DecidableEq W] [AddCommGroup W] {lk : Lookup D I} (h : LookupClass o lk)
    (hx : ∀ x, o.isEmpty (lk.key x) = false) {oracle : List (I × W) → I → Nat} {A B C : MapExpr I W}
    (hA : A.Leaves (MapValue o (.numeric true true true true)))
    (hB : B.Leaves (MapValue o (.numeric true true true true)))
    (hC : C.Leaves (MapValue o (.numeric true true true true))) :
    MapLexEq o (.numeric true true true true) oracle ((A - B) - C) (A - (B + C)) := by
  refine (C66_law h hx true (A := (A - B) - C) (B := A - (B + C)) ⟨⟨hA, hB⟩, hC⟩ ⟨hA, hB, hC⟩ fun x => ?_).2 rfl
  show pointwise _ _ (.sub (.sub A B) C) = pointwise _ _ (.sub A (.add B C))
  simp only [pointwise]
  cases pointwise PointOps.numbers (fun l => IMap.select o lk 0 l x) A with
  | none => rfl
  | some u =>
    cases pointwise PointOps.numbers (fun l => IMap.select o lk 0 l x) B with
    | none => rfl
    | some v =>
      cases pointwise PointOps.numbers (fun l => IMap.select o lk 0 l x) C with
      | none => rfl
      | some w =>
        show some (u - v - w) = some (u - (v + w))
        rw [sub_sub]

/-! ## Examples -/

theorem ex_key (x : ℤ) : Ex.ro.isEmpty (exE.lookup.key x) = false := by
  show decide (x + 1 ≤ x) = false
  simp

/-- A total map `{[0,4)->1, [4,9)->2} - {[2,5)->3} & {[3,7)->-3}`, looked up at 3. -/
example : (obj [(Ex.r 0 4, (1 : ℤ)), (Ex.r 4 9, 2)] - obj [(Ex.r 2 5, 3)] &&& obj [(Ex.r 3 7, -3)]).Leaves
      (MapValue Ex.ro (.numeric true true true true)) ∧
    LookupClass Ex.ro exE.lookup ∧ (∀ x, Ex.ro.isEmpty (exE.lookup.key x) = false) ∧
    selectExpr Ex.ro (.numeric true true true true) (fun _ _ => 0) exE.lookup
      (obj [(Ex.r 0 4, (1 : ℤ)), (Ex.r 4 9, 2)] - obj [(Ex.r 2 5, 3)] &&& obj [(Ex.r 3 7, -3)]) 3 = some (-5) := by
  obtain ⟨h1, h2, h3⟩ := ex_mapValue true true true true
  exact ⟨⟨⟨h1, h2⟩, h3⟩, LookupClass.discrete Ex.ro_disc, fun x => ex_key x, by decide⟩

/-- A partial map of sets at a key where `a` has `{1}` and `b` has `{2, 3}`. -/
example : selectExpr Ex.ro (.collector true true false) (fun _ _ => 0) exE.lookup
      (obj [(Ex.r 0 4, ({1} : Finset ℤ)), (Ex.r 4 9, {1, 2})] ^^^ obj [(Ex.r 2 5, {2, 3})]) 3 = some {1, 2, 3} ∧
    selectExpr Ex.ro (.collector true true false) (fun _ _ => 0) exE.lookup
      (obj [(Ex.r 0 4, ({1} : Finset ℤ)), (Ex.r 4 9, {1, 2})] ^^^ obj [(Ex.r 2 5, {2, 3})]) 4 = some {1, 3} ∧
    selectExpr Ex.ro (.collector true true false) (fun _ _ => 0) exE.lookup
      (obj [(Ex.r 0 4, ({1} : Finset ℤ)), (Ex.r 4 9, {1, 2})] &&& obj [(Ex.r 2 5, {2, 3})]) 4 = some {2} := by
  decide

/-- Partial maps of numbers are not functions in this sense: subtracting from a key that is not in the map has no
effect. With `a = {}` and `b = {[0,4)->1}`, `(a - b)(2)` is 0 and `a(2) - b(2)` is -1. -/
theorem C66_counterexample_partial :
    selectExpr Ex.ro (.numeric true true false true) (fun _ _ => 0) exE.lookup
      (obj [] - obj [(Ex.r 0 4, (1 : ℤ))]) 2 = some 0 ∧
    pointwise PointOps.numbers (fun l => IMap.select Ex.ro exE.lookup 0 l 2)
      (obj [] - obj [(Ex.r 0 4, (1 : ℤ))]) = some (-1) := by
  decide

/-- Total maps of unsigned numbers are not either: nothing is stored for a key that is not in the map. -/
theorem C66_counterexample_unsigned :
    selectExpr Ex.ro (.numeric true true true false) (fun _ _ => 0) exE.lookup
      (obj [] - obj [(Ex.r 0 4, (1 : ℤ))]) 2 = some 0 := by
  decide

end ICL.Props
