import Verif.Theory.OverflowFlip
import Verif.Theory.MapFlip
import Verif.Props.Overflow

/-!
# C65: associated values of a bounded type, intersections and symmetric differences
-/

set_option linter.unusedSectionVars false

namespace ICL.Props
open Spec

variable {D I V : Type} [LinearOrder D] {o : IntervalOps D I} [DecidableEq V] {R : V → Prop} [DecidablePred R]

theorem fits_nil : Fits o R ([] : List (I × V)) := by
  rintro x u ⟨s, hs, -⟩
  cases hs

theorem segs_fit {m : List (I × V)} (hm : MapWellFormed o m) {P : V → Prop} (hv : ∀ x u, Assoc o m x u → P u) :
    ∀ s ∈ m, P s.2 := by
  intro s hs
  have w := mapWellFormed_iff.1 hm
  obtain ⟨x, hx⟩ := w.nonempty s hs
  exact hv x s.2 ((valueAt_assoc hm x s.2).1 ((valueAt_some w).2 ⟨s, hs, hx, rfl⟩))

/-- `m &= {k, v}` of partial maps computes what it computes for values without bounds if this is a map of values of the
type; else there is an overflow. -/
theorem C65_inter (h : IntervalClass o) {t : MapType V} (ht : t.cfg.total = false) (oracle : List (I × V) → I → Nat)
    {m : List (I × V)} (hm : MapWellFormed o m) (hi : R t.cfg.ident) (hu : ∀ x u, Assoc o m x u → R (t.plus.version u))
    (k : I) {v : V} (hv : R (t.sect.version v)) (y : List (I × V)) :
    IMap.addInterSegR o R t oracle [] m k v = some y ↔ IMap.addInterSeg o t oracle [] m k v = some y ∧ Fits o R y := by
  have wm := mapWellFormed_iff.1 hm
  refine (IMap.addInterSegR_iff h.lawful hi ht oracle wf_nil (by simp [IMap.AllR]) wm (segs_fit hm hu) k hv
    (fun x _ => valueAt_nil ..) y).trans (and_congr_right fun e => ?_)
  obtain ⟨y', e', w, -⟩ := IMap.addInterSeg_out h.lawful ht oracle wf_nil wm k v
  obtain rfl := Option.some.inj (e.symm.trans e')
  rw [fits_iff h (mapWellFormed_iff.2 w)]

/-- `m &= n` of partial maps. -/
theorem C65_inter_map (h : IntervalClass o) {t : MapType V} (ht : t.cfg.total = false)
    (oracle : List (I × V) → I → Nat) {m n : List (I × V)} (hm : MapWellFormed o m) (hn : MapWellFormed o n)
    (hi : R t.cfg.ident) (hu : ∀ x u, Assoc o m x u → R (t.plus.version u))
    (hv : ∀ x v, Assoc o n x v → R (t.sect.version v)) (y : List (I × V)) :
    IMap.addInterMapR o R t oracle [] m n = some y ↔ IMap.addInterMap o t oracle [] m n = some y ∧ Fits o R y := by
  have wm := mapWellFormed_iff.1 hm
  have wn := mapWellFormed_iff.1 hn
  refine (IMap.addInterMapR_iff h.lawful hi ht oracle wf_nil (by simp [IMap.AllR]) wm (segs_fit hm hu) wn
    (segs_fit hn hv) (fun x _ => valueAt_nil ..) y).trans (and_congr_right fun e => ?_)
  obtain ⟨y', e', p⟩ := IMap.addInterMap_ptv h.lawful t ht oracle wf_nil wm wn
  obtain rfl := Option.some.inj (e.symm.trans e')
  rw [fits_iff h (mapWellFormed_iff.2 p.wf)]

/-- `m &= n` of partial maps, in terms of values: no overflow exactly if the values of each common key can be
combined. -/
theorem C65_inter_map_succeeds (h : IntervalClass o) {t : MapType V} (ht : t.cfg.total = false) (hV : Versions t)
    (oracle : List (I × V) → I → Nat) {m n : List (I × V)} (hm : MapWellFormed o m) (hn : MapWellFormed o n)
    (hmi : NoIdentity t m) (hni : NoIdentity t n) (hp : ∀ u, t.plus.version u = u) (hi : R t.cfg.ident)
    (hu : Fits o R m) (hv : ∀ x v, Assoc o n x v → R (t.sect.version v)) :
    (∃ y, IMap.addInterMapR o R t oracle [] m n = some y) ↔
      ∀ x u v, Assoc o m x u → Assoc o n x v → R (t.sect.apply u v) := by
  have wm := mapWellFormed_iff.1 hm
  have wn := mapWellFormed_iff.1 hn
  obtain ⟨y, e, p⟩ := IMap.addInterMap_ptv h.lawful t ht oracle (wf_nil (o := o)) wm wn
  have hx := p.at_ hV (IMap.noIdent_nil _)
  have hy := mapWellFormed_iff.2 p.wf
  have key : (∃ y, IMap.addInterMapR o R t oracle [] m n = some y) ↔ Fits o R y := by
    constructor
    · rintro ⟨z, hz⟩
      obtain ⟨h1, h2⟩ := (C65_inter_map h ht oracle hm hn hi (fun x u ha => by rw [hp]; exact hu x u ha) hv z).1 hz
      obtain rfl := Option.some.inj (e.symm.trans h1)
      exact h2
    · exact fun hf => ⟨y, (C65_inter_map h ht oracle hm hn hi (fun x u ha => by rw [hp]; exact hu x u ha) hv y).2 ⟨e, hf⟩⟩
  rw [key]
  have cell : ∀ x u v, Assoc o m x u → Assoc o n x v → valueAt o y x = IMap.keep t.cfg (t.sect.apply u v) := by
    intro x u v h1 h2
    have a1 := (IMap.noIdent_iff wm).1 (noIdentity_iff.1 hmi) x u ((valueAt_assoc hm x u).2 h1)
    have a2 := (IMap.noIdent_iff wn).1 (noIdentity_iff.1 hni) x v ((valueAt_assoc hn x v).2 h2)
    rw [hx, valueAt_nil]
    unfold IMap.over
    rw [(valueAt_assoc hn x v).2 h2]
    simp only [(valueAt_assoc hm x u).2 h1]
    simp [IMap.interF, IMap.addF, a1, a2, hp]
  constructor
  · intro hf x u v h1 h2
    have hc := cell x u v h1 h2
    unfold IMap.keep at hc
    split_ifs at hc with ha
    · have : t.sect.apply u v = t.cfg.ident := by
        simp only [IMap.absorbable, Bool.and_eq_true, decide_eq_true_eq] at ha
        exact ha.2
      rw [this]; exact hi
    · exact hf x _ ((valueAt_assoc hy x _).1 hc)
  · intro hh x w hw
    have hw := (valueAt_assoc hy x w).2 hw
    cases h1 : valueAt o m x with
    | none =>
      rw [hx, valueAt_nil] at hw
      unfold IMap.over at hw
      simp only [h1] at hw
      cases h2 : valueAt o n x <;> simp [h2, IMap.interF] at hw
    | some u =>
      cases h2 : valueAt o n x with
      | none =>
        rw [hx, valueAt_nil] at hw
        unfold IMap.over at hw
        rw [h2] at hw
        cases hw
      | some v =>
        have g1 := (valueAt_assoc hm x u).1 h1
        have g2 := (valueAt_assoc hn x v).1 h2
        rw [cell x u v g1 g2] at hw
        unfold IMap.keep at hw
        split_ifs at hw
        exact Option.some.inj hw ▸ hh x u v g1 g2

/-- Copying a map into an empty one with `+=`. -/
theorem copy_fits (h : IntervalClass o) {t : MapType V} (hN : Neutral t) (oracle : List (I × V) → I → Nat)
    {m : List (I × V)} (hm : MapWellFormed o m) (hi : R t.cfg.ident)
    (hu : ∀ x u, Assoc o m x u → R (t.plus.version u)) :
    ∃ l, IMap.addMap o t oracle [] m = some l ∧ IMap.addMapR o R t oracle [] m = some l ∧ MapWellFormed o l ∧
      NoIdentity t l ∧ Fits o R l := by
  have wm := mapWellFormed_iff.1 hm
  obtain ⟨l, e, p⟩ := IMap.addMap_pt h.lawful t oracle (wf_nil (o := o)) wm
  have hl := mapWellFormed_iff.2 p.wf
  have h0 : MapWellFormed o ([] : List (I × V)) := mapWellFormed_iff.2 wf_nil
  have n0 : NoIdentity t ([] : List (I × V)) := noIdentity_iff.2 (IMap.noIdent_nil _)
  have hf : Fits o R l := by
    intro x w hw
    have hw := (valueAt_assoc hl x w).2 hw
    rw [p.at_ hN (IMap.noIdent_nil _), valueAt_nil] at hw
    unfold IMap.over at hw
    cases h1 : valueAt o m x with
    | none => rw [h1] at hw; cases hw
    | some u =>
      rw [h1] at hw
      simp only [IMap.addF] at hw
      split_ifs at hw
      exact Option.some.inj hw ▸ hu x u ((valueAt_assoc hm x u).1 h1)
  exact ⟨l, e, (C65_add_map (R := R) h hN oracle h0 hm n0 fits_nil hi hu l).2 ⟨e, hf⟩, hl,
    noIdentity_iff.2 (p.noIdent hN (IMap.noIdent_nil _)), hf⟩

/-- `m &= n` of total maps, which adds. -/
theorem C65_inter_total (h : IntervalClass o) {t : MapType V} (ht : t.cfg.total = true) (hN : Neutral t)
    (oracle : List (I × V) → I → Nat) {m n : List (I × V)} (hm : MapWellFormed o m) (hn : MapWellFormed o n)
    (hi : R t.cfg.ident) (hu : ∀ x u, Assoc o m x u → R (t.plus.version u))
    (hv : ∀ x v, Assoc o n x v → R (t.plus.version v)) (y : List (I × V)) :
    IMap.addInterMapR o R t oracle [] m n = some y ↔ IMap.addInterMap o t oracle [] m n = some y ∧ Fits o R y := by
  obtain ⟨l, e, e', hl, hli, hf⟩ := copy_fits h hN oracle hm hi hu
  unfold IMap.addInterMapR IMap.addInterMap
  simp only [ht, if_true, e, e', Option.bind_eq_bind, Option.bind_some]
  exact C65_add_map h hN oracle hl hn hli hf hi hv y

/-- `m &= {k, v}` of total maps. -/
theorem C65_inter_total_segment (h : IntervalClass o) {t : MapType V} (ht : t.cfg.total = true) (hN : Neutral t)
    (oracle : List (I × V) → I → Nat) {m : List (I × V)} (hm : MapWellFormed o m)
    (hi : R t.cfg.ident) (hu : ∀ x u, Assoc o m x u → R (t.plus.version u)) (k : I) {v : V}
    (hv : R (t.plus.version v)) (y : List (I × V)) :
    IMap.addInterSegR o R t oracle [] m k v = some y ↔ IMap.addInterSeg o t oracle [] m k v = some y ∧ Fits o R y := by
  obtain ⟨l, e, e', hl, hli, hf⟩ := copy_fits h hN oracle hm hi hu
  unfold IMap.addInterSegR IMap.addInterSeg
  simp only [ht, if_true, e, e', Option.bind_eq_bind, Option.bind_some]
  exact C65_call h hN hl hli hf hi (.add k v) hv y

/-- `m ^= n` of total maps: a map that absorbs identity elements becomes empty; else the sums are computed before all
values become the identity element, and there is an overflow exactly if `m += n` overflows. -/
theorem C65_flip_total [DecidableEq I] (h : IntervalClass o) {t : MapType V} (ht : t.cfg.total = true) (hN : Neutral t)
    (oracle : List (I × V) → I → Nat) {m n : List (I × V)} (hm : MapWellFormed o m) (hn : MapWellFormed o n)
    (hi : NoIdentity t m) (hf : Fits o R m) (hr : R t.cfg.ident) (hv : ∀ x v, Assoc o n x v → R (t.plus.version v))
    (y : List (I × V)) :
    IMap.flipTotalMapR o R t oracle m n = some y ↔ IMap.flipMap o t oracle m n = some y ∧
      (t.cfg.absorbs = false → ∀ z, IMap.addMap o t oracle m n = some z → Fits o R z) := by
  unfold IMap.flipTotalMapR IMap.flipMap
  rw [if_pos ht]
  cases ha : t.cfg.absorbs with
  | true => simp
  | false =>
    simp only [Bool.false_eq_true, if_false]
    obtain ⟨l, e, -⟩ := IMap.addMap_pt h.lawful t oracle (mapWellFormed_iff.1 hm) (mapWellFormed_iff.1 hn)
    have key := C65_add_map h hN oracle hm hn hi hf hr hv
    rw [e]
    simp only [Option.bind_some, Option.some.injEq, true_implies, forall_eq']
    constructor
    · intro hy
      cases h2 : IMap.addMapR o R t oracle m n with
      | none => rw [h2] at hy; cases hy
      | some z =>
        obtain ⟨h3, h4⟩ := (key z).1 h2
        obtain rfl := Option.some.inj (e.symm.trans h3)
        rw [h2] at hy
        exact ⟨hy, h4⟩
    · rintro ⟨h1, h2⟩
      rw [(key l).2 ⟨e, h2⟩]
      exact h1

/-- `flip(m, {k, v})` on total maps. -/
theorem C65_flip_total_segment [DecidableEq I] (h : IntervalClass o) {t : MapType V} (ht : t.cfg.total = true)
    (hN : Neutral t) (oracle : List (I × V) → I → Nat) {m : List (I × V)} (hm : MapWellFormed o m)
    (hi : NoIdentity t m) (hf : Fits o R m) (hr : R t.cfg.ident) (k : I) {v : V} (hv : R (t.plus.version v))
    (y : List (I × V)) :
    IMap.flipTotalSegR o R t m k v = some y ↔ IMap.flipSeg o t oracle m k v = some y ∧
      (t.cfg.absorbs = false → ∀ z, IMap.addSeg o t m k v = some z → Fits o R z) := by
  unfold IMap.flipTotalSegR IMap.flipSeg
  rw [if_pos ht]
  cases ha : t.cfg.absorbs with
  | true => simp
  | false =>
    simp only [Bool.false_eq_true, if_false]
    obtain ⟨l, e, -⟩ := IMap.addSeg_pt h.lawful t (mapWellFormed_iff.1 hm) k v
    have key : ∀ y, IMap.addSegR o R t m k v = some y ↔ IMap.addSeg o t m k v = some y ∧ Fits o R y :=
      C65_call h hN hm hi hf hr (.add k v) hv
    rw [e]
    simp only [Option.bind_some, Option.some.injEq, true_implies, forall_eq']
    constructor
    · intro hy
      cases h2 : IMap.addSegR o R t m k v with
      | none => rw [h2] at hy; cases hy
      | some z =>
        obtain ⟨h3, h4⟩ := (key z).1 h2
        obtain rfl := Option.some.inj (e.symm.trans h3)
        rw [h2] at hy
        exact ⟨hy, h4⟩
    · rintro ⟨h1, h2⟩
      rw [(key l).2 ⟨e, h2⟩]
      exact h1

/-- `m ^= n` of partial maps of numbers never overflows: it drops the values of common keys without combining them. -/
theorem C65_flip_map [DecidableEq I] (h : IntervalClass o) {t : MapType V} (ht : t.cfg.total = false)
    (hN : Neutral t) (hp : ∀ u, t.plus.version u = u) (hs : t.setLike = false) (oracle : List (I × V) → I → Nat)
    {m n : List (I × V)} (hm : MapWellFormed o m) (hn : MapWellFormed o n) (hi : NoIdentity t m) (hr : R t.cfg.ident)
    (hu : Fits o R m) (hv : Fits o R n) :
    ∃ y, IMap.flipPartialMapR o R t oracle m n = some y ∧ IMap.flipMap o t oracle m n = some y ∧ Fits o R y := by
  obtain ⟨y, e1, e2, ha⟩ := IMap.flipPartialMapR_ok h.lawful hr ht hN hp hs oracle (mapWellFormed_iff.1 hm)
    (mapWellFormed_iff.1 hn) (noIdentity_iff.1 hi) ((fits_iff h hm).1 hu) ((fits_iff h hn).1 hv)
  obtain ⟨y', e3, p⟩ := IMap.flipMap_pt h.lawful t ht oracle (mapWellFormed_iff.1 hm) (mapWellFormed_iff.1 hn)
  obtain rfl := Option.some.inj (e2.symm.trans e3)
  exact ⟨y, e1, e2, (fits_iff h (mapWellFormed_iff.2 p.wf)).2 ha⟩

/-- `flip(m, {k, v})` on partial maps of numbers. -/
theorem C65_flip [DecidableEq I] (h : IntervalClass o) {t : MapType V} (ht : t.cfg.total = false)
    (hN : Neutral t) (hp : ∀ u, t.plus.version u = u) (hs : t.setLike = false) (oracle : List (I × V) → I → Nat)
    {m : List (I × V)} (hm : MapWellFormed o m) (hi : NoIdentity t m) (hr : R t.cfg.ident)
    (hu : Fits o R m) {k : I} (hk : ∃ x, In o x k) {v : V} (hv : R v) :
    ∃ y, IMap.flipSegR o R t oracle m k v = some y ∧ IMap.flipSeg o t oracle m k v = some y ∧ Fits o R y := by
  obtain ⟨y, e1, e2, ha⟩ := IMap.flipSegR_ok h.lawful hr ht hN hp hs oracle (mapWellFormed_iff.1 hm)
    (noIdentity_iff.1 hi) ((fits_iff h hm).1 hu) (k := k) hk hv
  obtain ⟨y', e3, p⟩ := IMap.flipSeg_pt h.lawful t ht oracle (mapWellFormed_iff.1 hm) (k := k) hk v
  obtain rfl := Option.some.inj (e2.symm.trans e3)
  exact ⟨y, e1, e2, (fits_iff h (mapWellFormed_iff.2 p.wf)).2 ha⟩

/-- 100 and 100 at common keys, of a map that absorbs zeros and of one that keeps them. -/
example : IMap.flipPartialMapR Ex.ro int8 (exMap true true false) (fun _ _ => 0) [(Ex.r 0 4, 100)]
      [(Ex.r 2 6, 100), (Ex.r 8 9, 127)] = some [(Ex.r 0 2, 100), (Ex.r 4 6, 100), (Ex.r 8 9, 127)] ∧
    IMap.flipPartialMapR Ex.ro int8 (.numeric true false false true) (fun _ _ => 0) [(Ex.r 0 4, 100)]
      [(Ex.r 2 6, 100)] = some [(Ex.r 0 2, 100), (Ex.r 2 4, 0), (Ex.r 4 6, 100)] := by
  constructor <;> decide +kernel

/-- `m ^= n` of a total map that keeps zeros: all values of the result are zero, yet the call computes 100 + 100. -/
theorem C65_flip_overflow : ∃ m n y : List (SItv ℤ × ℤ), MapWellFormed Ex.ro m ∧ MapWellFormed Ex.ro n ∧
    Fits Ex.ro int8 m ∧ Fits Ex.ro int8 n ∧
    IMap.flipMap Ex.ro (.numeric true false true true) (fun _ _ => 0) m n = some y ∧ Fits Ex.ro int8 y ∧
    IMap.flipTotalMapR Ex.ro int8 (.numeric true false true true) (fun _ _ => 0) m n = none := by
  have fits : ∀ {m : List (SItv ℤ × ℤ)}, (∀ s ∈ m, int8 s.2) → Fits Ex.ro int8 m := by
    rintro m hm x u ⟨s, hs, -, rfl⟩
    exact hm s hs
  exact ⟨[(Ex.r 0 4, 100)], [(Ex.r 2 6, 100)], [(Ex.r 0 6, 0)], wellFormed_ro [Ex.r 0 4] (by decide) (by decide),
    wellFormed_ro [Ex.r 2 6] (by decide) (by decide), fits (by decide), fits (by decide), by decide +kernel,
    fits (by decide), by decide +kernel⟩

/-- With 120 stored at [0,4), `&=` with 7 at [2,6) fits and with 8 overflows; where the keys differ nothing does. -/
example : MapWellFormed Ex.ro [(Ex.r 0 4, (120 : ℤ))] ∧ Fits Ex.ro int8 [(Ex.r 0 4, (120 : ℤ))] ∧
    IMap.addInterMapR Ex.ro int8 (exMap true true false) (fun _ _ => 0) [] [(Ex.r 0 4, 120)]
      [(Ex.r 2 6, 7), (Ex.r 6 8, 100)] = some [(Ex.r 2 4, 127)] ∧
    IMap.addInterMapR Ex.ro int8 (exMap true true false) (fun _ _ => 0) [] [(Ex.r 0 4, 120)] [(Ex.r 2 6, 8)] = none ∧
    IMap.addInterSegR Ex.ro int8 (exMap true true false) (fun _ _ => 0) [] [(Ex.r 0 4, 120)] (Ex.r 3 6) 7 =
      some [(Ex.r 3 4, 127)] ∧
    IMap.addInterMapR Ex.ro int8 (exMap true true true) (fun _ _ => 0) [] [(Ex.r 0 4, 120)] [(Ex.r 2 6, 7)] =
      some [(Ex.r 0 2, 120), (Ex.r 2 4, 127), (Ex.r 4 6, 7)] ∧
    IMap.flipTotalMapR Ex.ro int8 (.numeric true false true true) (fun _ _ => 0) [(Ex.r 0 4, 120)] [(Ex.r 2 6, 7)] =
      some [(Ex.r 0 6, 0)] := by
  refine ⟨wellFormed_ro [Ex.r 0 4] (by decide) (by decide), ?_, by decide +kernel, by decide +kernel,
    by decide +kernel, by decide +kernel, by decide +kernel⟩
  rintro x u ⟨s, hs, -, rfl⟩
  revert s
  decide

end ICL.Props
