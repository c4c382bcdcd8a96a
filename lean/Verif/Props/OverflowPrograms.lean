import Verif.Props.OverflowInter

/-!
# C65: associated values of a bounded type, programs with intersections and symmetric differences
-/

set_option linter.unusedSectionVars false

namespace ICL.Props
open Spec

variable {D I V : Type} [LinearOrder D] {o : IntervalOps D I} [DecidableEq V] {R : V → Prop} [DecidablePred R]

/-- What the operand of a call must satisfy: a map is well-formed, a segment to be flipped is not empty, and the values
are values of the type. -/
def ValueOperandOk (o : IntervalOps D I) (R : V → Prop) (t : MapType V) : IMap.ValueOp I V → Prop
  | .arith op => OperandOk o R t op
  | .inter _ _ v => R (t.plus.version v) ∧ R (t.sect.version v)
  | .interMap _ r => MapWellFormed o r ∧ ∀ x v, Assoc o r x v → R (t.plus.version v) ∧ R (t.sect.version v)
  | .flip _ k v => (∃ x, In o x k) ∧ R v
  | .flipMap _ r => MapWellFormed o r ∧ Fits o R r

/-- A call on a map of numbers other than a total map that keeps identity elements. -/
theorem C65_call_all [DecidableEq I] (h : IntervalClass o) {t : MapType V}
    (ht : t.cfg.total = true → t.cfg.absorbs = true) (hN : Neutral t) (hp : ∀ u, t.plus.version u = u)
    (hs : t.setLike = false) {m : List (I × V)} (hm : MapWellFormed o m) (hi : NoIdentity t m) (hf : Fits o R m)
    (hr : R t.cfg.ident) (op : IMap.ValueOp I V) (ho : ValueOperandOk o R t op) (y : List (I × V)) :
    op.runR o R t m = some y ↔ op.run o t m = some y ∧ Fits o R y := by
  have hu : ∀ x u, Assoc o m x u → R (t.plus.version u) := fun x u ha => by rw [hp]; exact hf x u ha
  have fits_empty : ∀ y : List (I × V), some [] = some y ↔ some [] = some y ∧ Fits o R y := fun y =>
    ⟨fun e => ⟨e, Option.some.inj e ▸ fits_nil⟩, fun e => e.1⟩
  cases hT : t.cfg.total with
  | false =>
    cases op with
    | arith op => exact C65_call h hN hm hi hf hr op ho y
    | inter oracle k v => exact C65_inter h hT oracle hm hr hu k ho.2 y
    | interMap oracle r => exact C65_inter_map h hT oracle hm ho.1 hr hu (fun x v ha => (ho.2 x v ha).2) y
    | flip oracle k v =>
      obtain ⟨z, e1, e2, hz⟩ := C65_flip h hT hN hp hs oracle hm hi hr hf ho.1 ho.2
      simp only [IMap.ValueOp.runR, IMap.ValueOp.run, hT, Bool.false_eq_true, if_false, e1, e2]
      exact ⟨fun e => ⟨e, Option.some.inj e ▸ hz⟩, fun e => e.1⟩
    | flipMap oracle r =>
      obtain ⟨z, e1, e2, hz⟩ := C65_flip_map h hT hN hp hs oracle hm ho.1 hi hr hf ho.2
      simp only [IMap.ValueOp.runR, IMap.ValueOp.run, hT, Bool.false_eq_true, if_false, e1, e2]
      exact ⟨fun e => ⟨e, Option.some.inj e ▸ hz⟩, fun e => e.1⟩
  | true =>
    cases op with
    | arith op => exact C65_call h hN hm hi hf hr op ho y
    | inter oracle k v => exact C65_inter_total_segment h hT hN oracle hm hr hu k ho.1 y
    | interMap oracle r => exact C65_inter_total h hT hN oracle hm ho.1 hr hu (fun x v ha => (ho.2 x v ha).1) y
    | flip oracle k v =>
      simp only [IMap.ValueOp.runR, IMap.ValueOp.run, IMap.flipTotalSegR, IMap.flipSeg, hT, ht hT, if_true]
      exact fits_empty y
    | flipMap oracle r =>
      simp only [IMap.ValueOp.runR, IMap.ValueOp.run, IMap.flipTotalMapR, IMap.flipMap, hT, ht hT, if_true]
      exact fits_empty y

theorem valueOp_run [DecidableEq I] (h : IntervalClass o) {t : MapType V}
    (ht : t.cfg.total = true → t.cfg.absorbs = true) (hN : Neutral t) {m : List (I × V)} (hm : MapWellFormed o m)
    (hi : NoIdentity t m) (op : IMap.ValueOp I V) (ho : ValueOperandOk o R t op) :
    ∃ y, op.run o t m = some y ∧ MapWellFormed o y ∧ NoIdentity t y := by
  have w := mapWellFormed_iff.1 hm
  have hi' := noIdentity_iff.1 hi
  have w0 : MapWellFormed o ([] : List (I × V)) := mapWellFormed_iff.2 wf_nil
  have n0 : NoIdentity t ([] : List (I × V)) := noIdentity_iff.2 (IMap.noIdent_nil _)
  cases hT : t.cfg.total with
  | false =>
    cases op with
    | arith op => exact arithOp_run h hN hm hi op ho
    | inter oracle k v =>
      obtain ⟨y, e, p⟩ := IMap.addInterSeg_ptv h.lawful t hT oracle wf_nil w k v
      exact ⟨y, e, mapWellFormed_iff.2 p.wf, noIdentity_iff.2 (p.noIdent hN.toVersions (IMap.noIdent_nil _))⟩
    | interMap oracle r =>
      obtain ⟨y, e, p⟩ := IMap.addInterMap_ptv h.lawful t hT oracle wf_nil w (mapWellFormed_iff.1 ho.1)
      exact ⟨y, e, mapWellFormed_iff.2 p.wf, noIdentity_iff.2 (p.noIdent hN.toVersions (IMap.noIdent_nil _))⟩
    | flip oracle k v =>
      obtain ⟨y, e, p⟩ := IMap.flipSeg_pt h.lawful t hT oracle w (k := k) ho.1 v
      exact ⟨y, e, mapWellFormed_iff.2 p.wf, noIdentity_iff.2 (p.noIdent hN hi')⟩
    | flipMap oracle r =>
      obtain ⟨y, e, p⟩ := IMap.flipMap_pt h.lawful t hT oracle w (mapWellFormed_iff.1 ho.1)
      exact ⟨y, e, mapWellFormed_iff.2 p.wf, noIdentity_iff.2 (p.noIdent hN hi')⟩
  | true =>
    cases op with
    | arith op => exact arithOp_run h hN hm hi op ho
    | inter oracle k v =>
      obtain ⟨l, e, p⟩ := IMap.addMap_pt h.lawful t oracle (wf_nil (o := o)) w
      obtain ⟨y, e', p'⟩ := IMap.addSeg_pt h.lawful t p.wf k v
      refine ⟨y, ?_, mapWellFormed_iff.2 p'.wf,
        noIdentity_iff.2 (p'.noIdent hN (p.noIdent hN (IMap.noIdent_nil _)))⟩
      simp only [IMap.ValueOp.run, IMap.addInterSeg, hT, if_true, e, Option.bind_eq_bind, Option.bind_some, e']
    | interMap oracle r =>
      obtain ⟨l, e, p⟩ := IMap.addMap_pt h.lawful t oracle (wf_nil (o := o)) w
      obtain ⟨y, e', p'⟩ := IMap.addMap_pt h.lawful t oracle p.wf (mapWellFormed_iff.1 ho.1)
      refine ⟨y, ?_, mapWellFormed_iff.2 p'.wf,
        noIdentity_iff.2 (p'.noIdent hN (p.noIdent hN (IMap.noIdent_nil _)))⟩
      simp only [IMap.ValueOp.run, IMap.addInterMap, hT, if_true, e, Option.bind_eq_bind, Option.bind_some, e']
    | flip oracle k v =>
      exact ⟨[], by simp only [IMap.ValueOp.run, IMap.flipSeg, hT, ht hT, if_true], w0, n0⟩
    | flipMap oracle r =>
      exact ⟨[], by simp only [IMap.ValueOp.run, IMap.flipMap, hT, ht hT, if_true], w0, n0⟩

/-- A program on such a map: nothing overflows exactly if after each of its calls the map of values
without bounds is a map of values of the type. -/
theorem C65_program_all [DecidableEq I] (h : IntervalClass o) {t : MapType V}
    (ht : t.cfg.total = true → t.cfg.absorbs = true) (hN : Neutral t) (hp : ∀ u, t.plus.version u = u) (hs : t.setLike = false) (hr : R t.cfg.ident)
    (ops : List (IMap.ValueOp I V)) (ho : ∀ op ∈ ops, ValueOperandOk o R t op) {m : List (I × V)}
    (hm : MapWellFormed o m) (hi : NoIdentity t m) (hf : Fits o R m) (y : List (I × V)) :
    forEach (fun m op => op.runR o R t m) m ops = some y ↔
      forEach (fun m op => op.run o t m) m ops = some y ∧
      ∀ n z, forEach (fun m op => op.run o t m) m (ops.take n) = some z → Fits o R z := by
  induction ops generalizing m with
  | nil =>
    simp only [forEach, List.take_nil, Option.some.injEq]
    exact ⟨fun e => ⟨e, fun _ z ez => ez ▸ hf⟩, fun e => e.1⟩
  | cons op ops ih =>
    obtain ⟨l, e1, w1, n1⟩ := valueOp_run (R := R) h ht hN hm hi op (ho op (by simp))
    have h1 := C65_call_all h ht hN hp hs hm hi hf hr op (ho op (by simp))
    have ih := @ih (fun op hop => ho op (by simp [hop])) l w1 n1
    simp only [forEach, e1, Option.bind_eq_bind, Option.bind_some]
    constructor
    · intro e
      cases h2 : op.runR o R t m with
      | none => rw [h2] at e; cases e
      | some z =>
        obtain ⟨h3, h4⟩ := (h1 z).1 h2
        obtain rfl := Option.some.inj (e1.symm.trans h3)
        rw [h2] at e
        obtain ⟨h5, h6⟩ := (ih h4).1 e
        refine ⟨h5, fun n z ez => ?_⟩
        cases n with
        | zero =>
          simp only [List.take_zero, forEach, Option.some.injEq] at ez
          exact ez ▸ hf
        | succ n =>
          simp only [List.take_succ_cons, forEach, e1, Option.bind_eq_bind, Option.bind_some] at ez
          exact h6 n z ez
    · rintro ⟨e, hh⟩
      have hl : Fits o R l := hh 1 l (by simp [forEach, e1])
      rw [(h1 l).2 ⟨e1, hl⟩]
      refine (ih hl).2 ⟨e, fun n z ez => hh (n + 1) z ?_⟩
      simpa only [List.take_succ_cons, forEach, e1, Option.bind_eq_bind, Option.bind_some] using ez

/-- 100 + 27 fits; `^=` drops the values of common keys, so that adding 100 once more fits as well, but not before. -/
example :
    (∀ op ∈ [IMap.ValueOp.arith (.add (Ex.r 0 4) (100 : ℤ)), .interMap (fun _ _ => 0) [(Ex.r 2 9, 27)],
        .flipMap (fun _ _ => 0) [(Ex.r 0 6, 100)], .arith (.add (Ex.r 2 4) 100)],
      ValueOperandOk Ex.ro int8 (exMap true true false) op) ∧
    forEach (fun m op => op.runR Ex.ro int8 (exMap true true false) m) []
      [IMap.ValueOp.arith (.add (Ex.r 0 4) (100 : ℤ)), .interMap (fun _ _ => 0) [(Ex.r 2 9, 27)],
        .flipMap (fun _ _ => 0) [(Ex.r 0 6, 100)], .arith (.add (Ex.r 2 4) 100)] =
      some [(Ex.r 0 6, 100)] ∧
    forEach (fun m op => op.runR Ex.ro int8 (exMap true true false) m) []
      [IMap.ValueOp.arith (.add (Ex.r 0 4) (100 : ℤ)), .interMap (fun _ _ => 0) [(Ex.r 2 9, 27)],
        .arith (.add (Ex.r 2 4) 100), .flipMap (fun _ _ => 0) [(Ex.r 0 6, 100)]] = none := by
  refine ⟨?_, by decide +kernel, by decide +kernel⟩
  intro op hop
  simp only [List.mem_cons, List.not_mem_nil, or_false] at hop
  rcases hop with rfl | rfl | rfl | rfl
  · show int8 _
    decide
  · refine ⟨wellFormed_ro [Ex.r 2 9] (by decide) (by decide), ?_⟩
    rintro x u ⟨s, hs, -, rfl⟩
    revert s
    decide
  · refine ⟨wellFormed_ro [Ex.r 0 6] (by decide) (by decide), ?_⟩
    rintro x u ⟨s, hs, -, rfl⟩
    revert s
    decide
  · show int8 _
    decide

/-- The same with a total map that absorbs zeros: `&=` adds, `^=` clears. -/
example : forEach (fun m op => op.runR Ex.ro int8 (exMap true true true) m) []
      [IMap.ValueOp.arith (.add (Ex.r 0 4) (100 : ℤ)), .inter (fun _ _ => 0) (Ex.r 2 6) 27,
        .flip (fun _ _ => 0) (Ex.r 2 4) 100, .arith (.add (Ex.r 2 4) 100)] = some [(Ex.r 2 4, 100)] ∧
    forEach (fun m op => op.runR Ex.ro int8 (exMap true true true) m) []
      [IMap.ValueOp.arith (.add (Ex.r 0 4) (100 : ℤ)), .inter (fun _ _ => 0) (Ex.r 2 6) 28,
        .flip (fun _ _ => 0) (Ex.r 2 4) 100] = none ∧
    IMap.flipTotalSegR Ex.ro int8 (.numeric true false true true) [(Ex.r 0 4, 100)] (Ex.r 2 6) 28 = none ∧
    IMap.flipTotalSegR Ex.ro int8 (.numeric true false true true) [(Ex.r 0 4, 100)] (Ex.r 2 6) 27 =
      some [(Ex.r 0 6, 0)] := by
  refine ⟨?_, ?_, ?_, ?_⟩ <;> decide +kernel

end ICL.Props
