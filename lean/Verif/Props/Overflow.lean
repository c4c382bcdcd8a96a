import Verif.Theory.Overflow
import Verif.Theory.MapBridge
import Verif.Props.HintedAdd
import Verif.OverflowSpec

/-!
# C65: associated values of a bounded type

An overflow of a signed number is undefined behaviour. When does a map make one?
-/

set_option linter.unusedSectionVars false
set_option linter.unusedVariables false

namespace ICL.Props
open Spec

variable {D I V : Type} [LinearOrder D] {o : IntervalOps D I} [DecidableEq V] {R : V → Prop} [DecidablePred R]

theorem fits_iff (h : IntervalClass o) {m : List (I × V)} (hm : MapWellFormed o m) : Fits o R m ↔ IMap.AllR R m := by
  rw [IMap.allR_iff h.lawful (mapWellFormed_iff.1 hm)]
  simp only [Fits, valueAt_assoc hm]

/-- `m.add({k, v})` and `m += {k, v}` compute what they compute for values without bounds if this is a map of values
of the type; else there is an overflow. (A functor that changes new values must also have a result for `v`, even if
all keys of `k` are in the map.) -/
theorem C65_add (h : IntervalClass o) (t : MapType V) {m : List (I × V)} (hm : MapWellFormed o m) (hf : Fits o R m)
    (hi : R t.cfg.ident) (k : I) (v : V) (y : List (I × V)) :
    IMap.addSegR o R t m k v = some y ↔ IMap.addSeg o t m k v = some y ∧ Fits o R y ∧
      ((∃ x, o.Mem x k) → FitsNew t R t.plus.version v) := by
  have w := mapWellFormed_iff.1 hm
  have := IMap.addCR_iff (c := t.cfg) (f := t.plus) h.lawful w ((fits_iff h hm).1 hf) hi k v y
  refine this.trans ?_
  refine and_congr_right fun e => ?_
  obtain ⟨y', e', w', -⟩ := IMap.addC_at h.lawful t.cfg t.plus w k v
  obtain rfl := Option.some.inj (e.symm.trans e')
  rw [fits_iff h (mapWellFormed_iff.2 w')]
  simp only [FitsNew, absorbable_false_iff]
  exact Iff.rfl

/-- In terms of the values: there is no overflow exactly if the sums with the values at the keys of `k` are values of
the type. -/
theorem C65_add_succeeds (h : IntervalClass o) (t : MapType V) {m : List (I × V)} (hm : MapWellFormed o m)
    (hf : Fits o R m) (hi : R t.cfg.ident) (k : I) (v : V) :
    (∃ y, IMap.addSegR o R t m k v = some y) ↔ ((∃ x, o.Mem x k) → ¬ Ignored t v →
      R (t.plus.version v) ∧ ∀ x u, o.Mem x k → Assoc o m x u → R (t.plus.apply u v)) := by
  have w := mapWellFormed_iff.1 hm
  obtain ⟨y, e, w', -, ha⟩ := IMap.addC_at h.lawful t.cfg t.plus w k v
  have hy := mapWellFormed_iff.2 w'
  have key : (∃ y, IMap.addSegR o R t m k v = some y) ↔ Fits o R y ∧ ((∃ x, o.Mem x k) → FitsNew t R t.plus.version v) := by
    constructor
    · rintro ⟨z, hz⟩
      obtain ⟨h1, h2⟩ := (C65_add h t hm hf hi k v z).1 hz
      obtain rfl := Option.some.inj (Eq.trans (Eq.symm h1) e)
      exact h2
    · exact fun hh => ⟨y, (C65_add h t hm hf hi k v y).2 ⟨e, hh⟩⟩
  rw [key]
  constructor
  · rintro ⟨h1, h2⟩ hk hv
    refine ⟨h2 hk hv, fun x u hx hu => ?_⟩
    have := ha x
    rw [(valueAt_assoc hm x u).2 hu] at this
    simp only [IMap.on, if_pos (show o.contains k x = true from hx), IMap.addF, absorbable_false_iff.2 hv, IMap.keep, Bool.false_eq_true, if_false]
      at this
    split_ifs at this with hab
    · rw [(absorbable_iff.1 hab).2]; exact hi
    · exact h1 x _ ((valueAt_assoc hy x _).1 this)
  · intro hh
    refine ⟨fun x u hu => ?_, fun hk hv => (hh hk hv).1⟩
    have hu' := (valueAt_assoc hy x u).2 hu
    rw [ha] at hu'
    unfold IMap.on at hu'
    split_ifs at hu' with hx
    · cases hv : IMap.absorbable t.cfg v with
      | true =>
        simp only [IMap.addF, hv, if_true] at hu'
        exact hf x u ((valueAt_assoc hm x u).1 hu')
      | false =>
        obtain ⟨h1, h2⟩ := hh ⟨x, hx⟩ (absorbable_false_iff.1 hv)
        simp only [IMap.addF, hv, Bool.false_eq_true, if_false] at hu'
        cases hm' : valueAt o m x with
        | none => rw [hm'] at hu'; exact Option.some.inj hu' ▸ h1
        | some a =>
          rw [hm'] at hu'
          simp only [IMap.keep] at hu'
          split_ifs at hu' with hab
          exact Option.some.inj hu' ▸ h2 x a hx ((valueAt_assoc hm x a).1 hm')
    · exact hf x u ((valueAt_assoc hm x u).1 hu')

/-- `m.add(hint, {k, v})` -/
theorem C65_add_hint (h : IntervalClass o) (t : MapType V) (n : Nat) {m : List (I × V)} (hm : MapWellFormed o m)
    (hf : Fits o R m) (hi : R t.cfg.ident) (hn : NoIdentity t m) (k : I) (v : V) (hv : R (t.plus.version v))
    (y : List (I × V)) :
    IMap.addHintR o R t n m k v = some y ↔ IMap.addHint o t n m k v = some y ∧ Fits o R y := by
  have w := mapWellFormed_iff.1 hm
  have := IMap.addHintCR_iff (c := t.cfg) (f := t.plus) h.lawful w (noIdentity_iff.1 hn) ((fits_iff h hm).1 hf) hi n k v hv y
  refine this.trans ?_
  refine and_congr_right fun e => ?_
  obtain ⟨y', u, e', w', -⟩ := IMap.addHint_at h.lawful t n w (noIdentity_iff.1 hn) k v
  obtain rfl := Option.some.inj (e.symm.trans e')
  rw [fits_iff h (mapWellFormed_iff.2 w')]

/-- `m.subtract({k, v})` and `m -= {k, v}`: total maps of values with inverses also compute `-v`, even if all keys of
`k` are in the map. -/
theorem C65_sub (h : IntervalClass o) (t : MapType V) {m : List (I × V)} (hm : MapWellFormed o m) (hf : Fits o R m)
    (hi : R t.cfg.ident) (k : I) (v : V) (y : List (I × V)) :
    IMap.subSegR o R t m k v = some y ↔ IMap.subSeg o t m k v = some y ∧ Fits o R y ∧
      (t.cfg.total = true → t.invertible = true → (∃ x, o.Mem x k) → FitsNew t R t.minus.version v) := by
  have w := mapWellFormed_iff.1 hm
  obtain ⟨y', e', w', -⟩ := subSeg_at h.lawful t w k v
  unfold IMap.subSegR
  unfold IMap.subSeg at e' ⊢
  cases hc : t.cfg.total && t.invertible with
  | true =>
    rw [Bool.and_eq_true] at hc
    simp only [hc.1, hc.2, Bool.and_self, if_true, forall_const] at e' ⊢
    refine (IMap.addCR_iff (c := t.cfg) (f := t.minus) h.lawful w ((fits_iff h hm).1 hf) hi k v y).trans ?_
    refine and_congr_right fun e => ?_
    obtain rfl := Option.some.inj (e.symm.trans e')
    rw [fits_iff h (mapWellFormed_iff.2 w')]
    simp only [FitsNew, absorbable_false_iff]
    exact Iff.rfl
  | false =>
    simp only [hc, Bool.false_eq_true, if_false] at e' ⊢
    refine (IMap.subCR_iff (c := t.cfg) (f := t.minus) h.lawful w ((fits_iff h hm).1 hf) hi k v y).trans ?_
    refine and_congr_right fun e => ?_
    obtain rfl := Option.some.inj (e.symm.trans e')
    rw [fits_iff h (mapWellFormed_iff.2 w'), and_iff_left]
    intro h1 h2
    simp [h1, h2] at hc

/-- `m += n`: if the sum is a map of values of the type, no intermediate result overflows. -/
theorem C65_add_map (h : IntervalClass o) {t : MapType V} (hN : Neutral t) (oracle : List (I × V) → I → Nat)
    {m n : List (I × V)} (hm : MapWellFormed o m) (hn : MapWellFormed o n) (hi : NoIdentity t m) (hf : Fits o R m)
    (hr : R t.cfg.ident) (hv : ∀ x v, Assoc o n x v → R (t.plus.version v)) (y : List (I × V)) :
    IMap.addMapR o R t oracle m n = some y ↔ IMap.addMap o t oracle m n = some y ∧ Fits o R y := by
  have wm := mapWellFormed_iff.1 hm
  have wn := mapWellFormed_iff.1 hn
  have hs : ∀ s ∈ n, R (t.plus.version s.2) := fun s hs => by
    obtain ⟨x, hx⟩ := wn.nonempty s hs
    exact hv x s.2 ((valueAt_assoc hn x s.2).1 ((valueAt_some wn).2 ⟨s, hs, hx, rfl⟩))
  refine (IMap.forEachR_iff (R := R) h.lawful (N := IMap.NoIdent t.cfg)
    (g := fun m s => IMap.addHint o t (oracle m s.1) m s.1 s.2) wn (fun l hl hi s hs => ?_)
    (fun l hl hi ha s hs' y => IMap.addHintCR_iff h.lawful hl hi ha hr _ s.1 s.2 (hs s hs') y)
    wm (noIdentity_iff.1 hi) ((fits_iff h hm).1 hf) y).trans ?_
  · obtain ⟨l', e, p⟩ := IMap.addHint_pt h.lawful t (oracle l s.1) hl s.1 s.2
    refine ⟨l', e, p.wf, p.noIdent hN hi, fun x hx => ?_⟩
    rw [p.at_ hN hi]
    exact if_neg hx
  · refine and_congr_right fun e => ?_
    obtain ⟨y', e', p⟩ := IMap.addMap_pt h.lawful t oracle wm wn
    obtain rfl := Option.some.inj (Eq.trans (Eq.symm e) e')
    rw [fits_iff h (mapWellFormed_iff.2 p.wf)]

/-- `m -= n` -/
theorem C65_sub_map (h : IntervalClass o) (t : MapType V) {m n : List (I × V)} (hm : MapWellFormed o m)
    (hn : MapWellFormed o n) (hf : Fits o R m) (hr : R t.cfg.ident)
    (hv : t.cfg.total = true → t.invertible = true → ∀ x v, Assoc o n x v → FitsNew t R t.minus.version v)
    (y : List (I × V)) :
    IMap.subMapR o R t m n = some y ↔ IMap.subMap o t m n = some y ∧ Fits o R y := by
  have wm := mapWellFormed_iff.1 hm
  have wn := mapWellFormed_iff.1 hn
  have hs : t.cfg.total = true → t.invertible = true → ∀ s ∈ n, FitsNew t R t.minus.version s.2 := fun h1 h2 s hs => by
    obtain ⟨x, hx⟩ := wn.nonempty s hs
    exact hv h1 h2 x s.2 ((valueAt_assoc hn x s.2).1 ((valueAt_some wn).2 ⟨s, hs, hx, rfl⟩))
  refine (IMap.forEachR_iff (R := R) h.lawful (N := fun _ => True) (g := fun m s => IMap.subSeg o t m s.1 s.2) wn
    (fun l hl _ s hs => ?_)
    (fun l hl _ ha s hs' y => ?_) wm trivial ((fits_iff h hm).1 hf) y).trans ?_
  · obtain ⟨l', e, w, -, a⟩ := subSeg_at h.lawful t hl s.1 s.2
    refine ⟨l', e, w, trivial, fun x hx => ?_⟩
    rw [a]
    exact if_neg hx
  · have hl' := mapWellFormed_iff.2 hl
    refine (C65_sub h t hl' ((fits_iff h hl').2 ha) hr s.1 s.2 y).trans ?_
    refine and_congr_right fun e => ?_
    obtain ⟨l', e', w', -⟩ := subSeg_at h.lawful t hl s.1 s.2
    obtain rfl := Option.some.inj (e.symm.trans e')
    rw [fits_iff h (mapWellFormed_iff.2 w'), and_iff_left fun h1 h2 _ => hs h1 h2 s hs']
  · refine and_congr_right fun e => ?_
    obtain ⟨y', e', p⟩ := subMap_at h.lawful t wm wn
    obtain rfl := Option.some.inj (Eq.trans (Eq.symm e) e')
    rw [fits_iff h (mapWellFormed_iff.2 p.wf)]

/-- What the operand of a call must satisfy: a map is well-formed, and there is a value of the type for every operand
where the map has none. -/
def OperandOk (o : IntervalOps D I) (R : V → Prop) (t : MapType V) : IMap.ArithOp I V → Prop
  | .add _ v | .addHint _ _ v => R (t.plus.version v)
  | .sub _ v => t.cfg.total = true → t.invertible = true → FitsNew t R t.minus.version v
  | .addMap _ r => MapWellFormed o r ∧ ∀ x v, Assoc o r x v → R (t.plus.version v)
  | .subMap r => MapWellFormed o r ∧
    (t.cfg.total = true → t.invertible = true → ∀ x v, Assoc o r x v → FitsNew t R t.minus.version v)

/-- A call. -/
theorem C65_call (h : IntervalClass o) {t : MapType V} (hN : Neutral t) {m : List (I × V)} (hm : MapWellFormed o m)
    (hi : NoIdentity t m) (hf : Fits o R m) (hr : R t.cfg.ident) (op : IMap.ArithOp I V) (ho : OperandOk o R t op)
    (y : List (I × V)) :
    op.runR o R t m = some y ↔ op.run o t m = some y ∧ Fits o R y := by
  cases op with
  | add k v =>
    exact (C65_add h t hm hf hr k v y).trans (and_congr_right fun _ => and_iff_left fun _ _ => ho)
  | addHint n k v => exact C65_add_hint h t n hm hf hr hi k v ho y
  | sub k v =>
    exact (C65_sub h t hm hf hr k v y).trans (and_congr_right fun _ => and_iff_left fun h1 h2 _ => ho h1 h2)
  | addMap oracle r => exact C65_add_map h hN oracle hm ho.1 hi hf hr ho.2 y
  | subMap r => exact C65_sub_map h t hm ho.1 hf hr ho.2 y

theorem arithOp_run (h : IntervalClass o) {t : MapType V} (hN : Neutral t) {m : List (I × V)} (hm : MapWellFormed o m)
    (hi : NoIdentity t m) (op : IMap.ArithOp I V) (ho : OperandOk o R t op) :
    ∃ y, op.run o t m = some y ∧ MapWellFormed o y ∧ NoIdentity t y := by
  have w := mapWellFormed_iff.1 hm
  have hi' := noIdentity_iff.1 hi
  cases op with
  | add k v =>
    obtain ⟨y, e, p⟩ := IMap.addSeg_pt h.lawful t w k v
    exact ⟨y, e, mapWellFormed_iff.2 p.wf, noIdentity_iff.2 (p.noIdent hN hi')⟩
  | addHint n k v =>
    obtain ⟨y, e, p⟩ := IMap.addHint_pt h.lawful t n w k v
    exact ⟨y, e, mapWellFormed_iff.2 p.wf, noIdentity_iff.2 (p.noIdent hN hi')⟩
  | sub k v =>
    obtain ⟨y, e, p⟩ := IMap.subSeg_pt h.lawful t w k v
    exact ⟨y, e, mapWellFormed_iff.2 p.wf, noIdentity_iff.2 (p.noIdent hN hi')⟩
  | addMap oracle r =>
    obtain ⟨y, e, p⟩ := IMap.addMap_pt h.lawful t oracle w (mapWellFormed_iff.1 ho.1)
    exact ⟨y, e, mapWellFormed_iff.2 p.wf, noIdentity_iff.2 (p.noIdent hN hi')⟩
  | subMap r =>
    obtain ⟨y, e, p⟩ := IMap.subMap_pt h.lawful t w (mapWellFormed_iff.1 ho.1)
    exact ⟨y, e, mapWellFormed_iff.2 p.wf, noIdentity_iff.2 (p.noIdent hN hi')⟩

/-- A program: any sequence of calls makes the map that it makes of values without bounds, and nothing overflows,
exactly if after each of its calls the map of values without bounds is a map of values of the type. -/
theorem C65_program (h : IntervalClass o) {t : MapType V} (hN : Neutral t) (hr : R t.cfg.ident)
    (ops : List (IMap.ArithOp I V)) (ho : ∀ op ∈ ops, OperandOk o R t op) {m : List (I × V)} (hm : MapWellFormed o m)
    (hi : NoIdentity t m) (hf : Fits o R m) (y : List (I × V)) :
    forEach (fun m op => op.runR o R t m) m ops = some y ↔
      forEach (fun m op => op.run o t m) m ops = some y ∧
      ∀ n z, forEach (fun m op => op.run o t m) m (ops.take n) = some z → Fits o R z := by
  induction ops generalizing m with
  | nil =>
    simp only [forEach, List.take_nil, Option.some.injEq]
    exact ⟨fun e => ⟨e, fun _ z ez => ez ▸ hf⟩, fun e => e.1⟩
  | cons op ops ih =>
    obtain ⟨l, e1, w1, n1⟩ := arithOp_run h hN hm hi op (ho op (by simp))
    have h1 := C65_call h hN hm hi hf hr op (ho op (by simp))
    have ih := @ih (fun op hop => ho op (by simp [hop])) l w1 n1
    simp only [forEach, e1, Option.bind_eq_bind, Option.bind_some]
    constructor
    · intro e
      cases h2 : op.runR o R t m with
      | none => rw [h2] at e; cases e
      | some z =>
        obtain ⟨h3, h4⟩ := (h1 z).1 h2
        obtain rfl := Option.some.inj (e1.symm.trans h3)
        rw [h2] at e
        obtain ⟨h5, h6⟩ := (ih h4).1 e
        refine ⟨h5, fun n z ez => ?_⟩
        cases n with
        | zero =>
          simp only [List.take_zero, forEach, Option.some.injEq] at ez
          exact ez ▸ hf
        | succ n =>
          simp only [List.take_succ_cons, forEach, e1, Option.bind_eq_bind, Option.bind_some] at ez
          exact h6 n z ez
    · rintro ⟨e, hh⟩
      have hl : Fits o R l := hh 1 l (by simp [forEach, e1])
      rw [(h1 l).2 ⟨e1, hl⟩]
      refine (ih hl).2 ⟨e, fun n z ez => hh (n + 1) z ?_⟩
      simpa only [List.take_succ_cons, forEach, e1, Option.bind_eq_bind, Option.bind_some] using ez

/-- `int` of eight bits. -/
abbrev int8 (z : ℤ) : Prop := -128 ≤ z ∧ z < 128

/-- `-=` of a total map: all keys of the interval are in the map, and all differences are values of the type, but the
call computes `-(-128)`, too. -/
theorem C65_sub_overflow : ∃ (m y : List (SItv ℤ × ℤ)) (k : SItv ℤ), MapWellFormed Ex.ro m ∧ Fits Ex.ro int8 m ∧
    int8 (-128) ∧ (∀ x, Ex.ro.Mem x k → Key Ex.ro m x) ∧
    IMap.subSeg Ex.ro (exMap true true true) m k (-128) = some y ∧ Fits Ex.ro int8 y ∧
    IMap.subSegR Ex.ro int8 (exMap true true true) m k (-128) = none := by
  have fits : ∀ {m : List (SItv ℤ × ℤ)}, (∀ s ∈ m, int8 s.2) → Fits Ex.ro int8 m := by
    rintro m hm x u ⟨s, hs, -, rfl⟩
    exact hm s hs
  refine ⟨[(Ex.r 0 4, -5)], [(Ex.r 0 2, -5), (Ex.r 2 4, 123)], Ex.r 2 4, ?_, fits (by decide), by decide,
    fun x hx => ⟨(Ex.r 0 4, -5), by simp, ?_⟩, by decide +kernel, fits (by decide), by decide +kernel⟩
  · exact wellFormed_ro [Ex.r 0 4] (by decide) (by decide)
  · revert hx
    simp [Ex.ro, Ex.r, IntervalOps.Mem, In, rightOpenOps]
    omega

/-- With 120 stored at [0,4), adding 7 to [2,6) fits; adding 8 overflows, and so does subtracting from -120. -/
example : Fits Ex.ro int8 [(Ex.r 0 4, 120), (Ex.r 8 9, -120)] ∧
    MapWellFormed Ex.ro [(Ex.r 0 4, (120 : ℤ)), (Ex.r 8 9, -120)] ∧
    IMap.addSegR Ex.ro int8 (exMap true true false) [(Ex.r 0 4, 120), (Ex.r 8 9, -120)] (Ex.r 2 6) 7 =
      some [(Ex.r 0 2, 120), (Ex.r 2 4, 127), (Ex.r 4 6, 7), (Ex.r 8 9, -120)] ∧
    IMap.addSegR Ex.ro int8 (exMap true true false) [(Ex.r 0 4, 120), (Ex.r 8 9, -120)] (Ex.r 2 6) 8 = none ∧
    IMap.subSegR Ex.ro int8 (exMap true true false) [(Ex.r 0 4, 120), (Ex.r 8 9, -120)] (Ex.r 2 9) 9 = none ∧
    IMap.subSegR Ex.ro int8 (exMap true true false) [(Ex.r 0 4, 120), (Ex.r 8 9, -120)] (Ex.r 2 7) 9 =
      some [(Ex.r 0 2, 120), (Ex.r 2 4, 111), (Ex.r 8 9, -120)] := by
  refine ⟨?_, wellFormed_ro [Ex.r 0 4, Ex.r 8 9] (by decide) (by decide), by decide +kernel, by decide +kernel,
    by decide +kernel, by decide +kernel⟩
  rintro x u ⟨s, hs, -, rfl⟩
  revert s
  decide

/-- A program and its operands: the intermediate map is what matters. -/
example :
    (∀ op ∈ [IMap.ArithOp.add (Ex.r 0 4) (100 : ℤ), .addMap (fun _ _ => 0) [(Ex.r 2 3, 20), (Ex.r 3 9, 27)], .sub (Ex.r 1 9) 90],
      OperandOk Ex.ro int8 (exMap true true false) op) ∧
    forEach (fun m op => op.runR Ex.ro int8 (exMap true true false) m) []
      [IMap.ArithOp.add (Ex.r 0 4) (100 : ℤ), .addMap (fun _ _ => 0) [(Ex.r 2 3, 20), (Ex.r 3 9, 27)], .sub (Ex.r 1 9) 90] =
      some [(Ex.r 0 1, 100), (Ex.r 1 2, 10), (Ex.r 2 3, 30), (Ex.r 3 4, 37), (Ex.r 4 9, -63)] ∧
    forEach (fun m op => op.runR Ex.ro int8 (exMap true true false) m) []
      [IMap.ArithOp.add (Ex.r 0 4) (100 : ℤ), .addMap (fun _ _ => 0) [(Ex.r 2 3, 20), (Ex.r 3 9, 28)], .sub (Ex.r 1 9) 90] =
      none := by
  refine ⟨?_, by decide +kernel, by decide +kernel⟩
  intro op hop
  simp only [List.mem_cons, List.not_mem_nil, or_false] at hop
  rcases hop with rfl | rfl | rfl
  · show int8 _
    decide
  · refine ⟨wellFormed_ro [Ex.r 2 3, Ex.r 3 9] (by decide) (by decide), ?_⟩
    rintro x u ⟨s, hs, -, rfl⟩
    revert s
    decide
  · intro ht
    cases ht

end ICL.Props
