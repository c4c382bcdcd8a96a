import Verif.Props.Maps

/-!
# Properties of interval maps: C22, C23, and the parts of C13, C24, C29, C30 that concern maps
-/

set_option linter.unusedSectionVars false
set_option linter.unusedVariables false

namespace ICL.Props
open Spec

variable {D I V : Type} [LinearOrder D] {o : IntervalOps D I} [DecidableEq V]

/-! ## C22: canonical form -/

theorem maps_valueAt {m n : List (I × V)} (hm : MapWellFormed o m) (hn : MapWellFormed o n) :
    (∀ x v, Maps o mapSeg m x v ↔ Maps o mapSeg n x v) ↔ ∀ x, valueAt o m x = valueAt o n x := by
  constructor
  · intro hh x
    apply Option.ext
    intro v
    rw [valueAt_assoc hm, valueAt_assoc hn]; exact hh x v
  · intro hh x v
    have := hh x
    rw [← assoc_iff, ← assoc_iff, ← valueAt_assoc hm, ← valueAt_assoc hn, this]

/-- Two interval maps that are well-formed and fully joined are equal exactly if they represent the same function. -/
theorem C22_canonical (h : IntervalClass o) {m n : List (I × V)} (hm : MapWellFormed o m) (hn : MapWellFormed o n)
    (jm : MapFullyJoined o m) (jn : MapFullyJoined o n) :
    eqC o mapSeg m n = true ↔ ∀ x, valueAt o m x = valueAt o n x := by
  have wm := mapWellFormed_iff.1 hm
  have wn := mapWellFormed_iff.1 hn
  rw [eqC_joined h.lawful wm wn ((mapFullyJoined_iff h.lawful wm).1 jm) ((mapFullyJoined_iff h.lawful wn).1 jn)]
  exact maps_valueAt hm hn

/-- So are any two `interval_map`s, whatever histories produced them; and then they consist of the same
segments. -/
theorem C22_histories [DecidableEq I] {E : Option (ElemFns D I)} (h : SetClass o E) {t t' : MapType V}
    (ht : t.cfg.joining = true) (ht' : t'.cfg.joining = true) {m n : List (I × V)} (hm : MReachable o E t m)
    (hn : MReachable o E t' n) (hv : ∀ x, valueAt o m x = valueAt o n x) :
    eqC o mapSeg m n = true ∧ SameSegments o m n := by
  have he := (C22_canonical h.cls (C15_well_formed h hm) (C15_well_formed h hn) (C16_fully_joined h ht hm)
    (C16_fully_joined h ht' hn)).2 hv
  exact ⟨he, (C31_map_eq h.cls (C15_well_formed h hm) (C15_well_formed h hn)).1 he⟩

/-- `{} += ([2,4), 1)`, `+= ([0,2), 1)`, `+= ([5,9), 2)` equals `{} += ([5,9), 1)`, `+= ([0,9), 1)`,
`erase [4,5)`. -/
example : ∃ m n, MReachable Ex.ro (some exE) (exMap true true false) m ∧
    MReachable Ex.ro (some exE) (exMap true true false) n ∧ m = n ∧ m.length = 2 :=
  ⟨exN, exN, .op (.add (Ex.r 5 9) 2) (.op (.add (Ex.r 0 2) 1) (.op (.add (Ex.r 2 4) 1) (.empty _)
      (l' := [(Ex.r 2 4, 1)]) (by decide)) (l' := [(Ex.r 0 4, 1)]) (by decide)) (by decide),
    .op (.eraseKeys (Ex.r 4 5)) (.op (.add (Ex.r 0 9) 1) (.op (.add (Ex.r 5 9) 1) (.empty _)
      (l' := [(Ex.r 5 9, 1)]) (by decide)) (l' := [(Ex.r 0 5, 1), (Ex.r 5 9, 2)]) (by decide)) (by decide), rfl, rfl⟩
example : MapFullyJoined Ex.ro exN ∧ ¬ MapFullyJoined Ex.ro exM := by
  constructor
  · rw [mapFullyJoined_iff Ex.ro_cls.lawful (mapWellFormed_iff.1 exM_wf.2)]; exact joined_of (by decide)
  · rw [mapFullyJoined_iff Ex.ro_cls.lawful (mapWellFormed_iff.1 exM_wf.1)]
    intro hj
    have := hj (Ex.r 0 2, 1) (by decide) (Ex.r 2 4, 1) (by decide) fun x y hx hy => by
      simp only [mapSeg, Ex.ro, Ex.r, IntervalOps.Mem, rightOpenOps, Bool.and_eq_true, decide_eq_true_eq] at hx hy
      omega
    revert this
    decide

/-! ## C13: segmentation of a split_interval_map -/

/-- After `m.add({k, v})` on a `split_interval_map` two keys are in the same segment exactly if both are in `k` and
were in the same segment (that has not been absorbed) or had no key between them, or they were in the same segment
and `k` does not come between them. -/
theorem C13_split_map_add (h : IntervalClass o) (t : MapType V) (ht : t.cfg.joining = false) {m : List (I × V)}
    (hm : MapWellFormed o m) (k : I) (v : V) (hv : ¬ Ignored t v) :
    ∃ m', IMap.addSeg o t m k v = some m' ∧ MapWellFormed o m' ∧ ∀ x y, SameMapSegment o m' x y ↔
      (In o x k ∧ In o y k ∧ ((SameMapSegment o m x y ∧ Key o m' x) ∨ ∀ z, Between x y z → ¬ Key o m z)) ∨
      (SameMapSegment o m x y ∧ ∀ z, Between x y z → ¬ In o z k) := by
  obtain ⟨m', e, _, hs⟩ := IMap.addC_spec h.lawful t.cfg t.plus (mapWellFormed_iff.1 hm) k v
  obtain ⟨m'', e', w, a, _⟩ := C18_add h t hm k v
  have : m'' = m' := by unfold IMap.addSeg at e'; rw [e] at e'; cases e'; rfl
  subst this
  have hs := hs (absorbable_false_iff.2 hv)
  refine ⟨m'', e, mapWellFormed_iff.2 hs.wf, fun x y => ?_⟩
  have hsame : ∀ l : List (I × V), SameMapSegment o l x y ↔ ∃ w, Joint o l x y w := by
    intro l
    constructor
    · rintro ⟨s, hs, h1, h2⟩; exact ⟨s.2, s, hs, h1, h2, rfl⟩
    · rintro ⟨w, s, hs, h1, h2, _⟩; exact ⟨s, hs, h1, h2⟩
  have hd : ∀ x y w, Joint o m'' x y w ↔
      Eff o (IMap.upd t.cfg t.plus v) (some (t.plus.version v)) m k x y w :=
    fun x y w => hs.joint x y w (fun hj => by rw [ht] at hj; cases hj)
  rw [hsame, hsame]
  simp only [hd, Eff, between_iff]
  constructor
  · rintro ⟨w, ⟨hx, hy, (⟨u, hj, hu⟩ | ⟨hf, hfree⟩)⟩ | ⟨hn, hj⟩⟩
    · refine Or.inl ⟨hx, hy, Or.inl ⟨⟨u, hj⟩, ?_⟩⟩
      rw [← valueAt_key (mapWellFormed_iff.2 hs.wf), a x hx,
        (valueAt_assoc hm x u).2 hj.maps]
      simp only [added, combined, hv, if_false]
      rw [stored_eq]
      unfold IMap.upd at hu
      unfold IMap.keep
      rw [hu]; simp
    · exact Or.inl ⟨hx, hy, Or.inr hfree⟩
    · exact Or.inr ⟨⟨w, hj⟩, hn⟩
  · rintro (⟨hx, hy, (⟨⟨u, hj⟩, hk⟩ | hfree)⟩ | ⟨⟨w, hj⟩, hn⟩)
    · rw [← valueAt_key (mapWellFormed_iff.2 hs.wf), a x hx, (valueAt_assoc hm x u).2 hj.maps] at hk
      simp only [added, combined, hv, if_false] at hk
      rw [stored_eq] at hk
      obtain ⟨w, hw⟩ := Option.ne_none_iff_exists'.1 hk
      exact ⟨w, Or.inl ⟨hx, hy, Or.inl ⟨u, hj, hw⟩⟩⟩
    · exact ⟨_, Or.inl ⟨hx, hy, Or.inr ⟨rfl, hfree⟩⟩⟩
    · exact ⟨w, Or.inr ⟨hn, hj⟩⟩

example : IMap.addSeg Ex.ro (exMap false true false) exN (Ex.r 3 8) 1 =
    some [(Ex.r 0 3, 1), (Ex.r 3 4, 2), (Ex.r 4 5, 1), (Ex.r 5 8, 3), (Ex.r 8 9, 2)] := by decide

/-! ## C23: operations with containers -/

/-- `m += n` -/
theorem C23_add (h : IntervalClass o) {t : MapType V} (hN : Neutral t) (oracle : List (I × V) → I → Nat)
    {m n : List (I × V)} (hm : MapWellFormed o m) (hn : MapWellFormed o n) (hi : NoIdentity t m) :
    ∃ m', IMap.addMap o t oracle m n = some m' ∧ MapWellFormed o m' ∧
      (∀ x v, valueAt o n x = some v → valueAt o m' x = added t v (valueAt o m x)) ∧
      ∀ x, valueAt o n x = none → valueAt o m' x = valueAt o m x := by
  obtain ⟨m', e, p⟩ := IMap.addMap_pt h.lawful t oracle (mapWellFormed_iff.1 hm) (mapWellFormed_iff.1 hn)
  simp only [added_eq]
  exact ⟨m', e, mapWellFormed_iff.2 p.wf, over_split (p.at_ hN (noIdentity_iff.1 hi))⟩

/-- `m -= n` -/
theorem C23_subtract (h : IntervalClass o) (t : MapType V) {m n : List (I × V)} (hm : MapWellFormed o m)
    (hn : MapWellFormed o n) :
    ∃ m', IMap.subMap o t m n = some m' ∧ MapWellFormed o m' ∧
      (∀ x v, valueAt o n x = some v → valueAt o m' x = subtracted t v (valueAt o m x)) ∧
      ∀ x, valueAt o n x = none → valueAt o m' x = valueAt o m x := by
  obtain ⟨m', e, p⟩ := subMap_at h.lawful t (mapWellFormed_iff.1 hm) (mapWellFormed_iff.1 hn)
  simp only [subtracted_eq]
  exact ⟨m', e, mapWellFormed_iff.2 p.wf, over_split (Pt.enriched_at p)⟩

/-- `insert(m, n)` -/
theorem C23_insert (h : IntervalClass o) (t : MapType V) (oracle : List (I × V) → I → Nat) {m n : List (I × V)}
    (hm : MapWellFormed o m) (hn : MapWellFormed o n) :
    ∃ m', IMap.insertMap o t oracle m n = some m' ∧ MapWellFormed o m' ∧
      (∀ x v, valueAt o n x = some v → valueAt o m' x = inserted t v (valueAt o m x)) ∧
      ∀ x, valueAt o n x = none → valueAt o m' x = valueAt o m x := by
  obtain ⟨m', e, p⟩ := insertMap_at h.lawful t oracle (mapWellFormed_iff.1 hm) (mapWellFormed_iff.1 hn)
  simp only [inserted_eq]
  exact ⟨m', e, mapWellFormed_iff.2 p.wf, over_split (Pt.enriched_at p)⟩

/-- `erase(m, n)` for a map `n` -/
theorem C23_erase (h : IntervalClass o) (t : MapType V) {m n : List (I × V)} (hm : MapWellFormed o m)
    (hn : MapWellFormed o n) :
    ∃ m', IMap.eraseMap o t m n = some m' ∧ MapWellFormed o m' ∧
      (∀ x v, valueAt o n x = some v → valueAt o m' x = erased t v (valueAt o m x)) ∧
      ∀ x, valueAt o n x = none → valueAt o m' x = valueAt o m x := by
  obtain ⟨m', e, p⟩ := eraseMap_at h.lawful t (mapWellFormed_iff.1 hm) (mapWellFormed_iff.1 hn)
  simp only [erased_eq]
  exact ⟨m', e, mapWellFormed_iff.2 p.wf, over_split (Pt.enriched_at p)⟩

/-- `m -= s`, `erase(m, s)` for a set `s` -/
theorem C23_erase_set (h : IntervalClass o) {m : List (I × V)} {s : List I} (hm : MapWellFormed o m)
    (hs : WellFormed o s) :
    ∃ m', IMap.eraseSet o m s = some m' ∧ MapWellFormed o m' ∧
      (∀ x, Elem o s x → valueAt o m' x = none) ∧ ∀ x, ¬ Elem o s x → valueAt o m' x = valueAt o m x := by
  cases m with
  | nil =>
    have e : IMap.eraseSet o ([] : List (I × V)) s = some [] := by
      unfold IMap.eraseSet commonRange; cases s <;> simp
    exact ⟨[], e, hm, fun _ _ => rfl, fun _ _ => rfl⟩
  | cons a m =>
    obtain ⟨m', e, w, _, h1, h2⟩ := eraseSet_at h.lawful ⟨false, false, false, a.2⟩ (mapWellFormed_iff.1 hm)
      (wellFormed_iff.1 hs)
    exact ⟨m', e, mapWellFormed_iff.2 w, h1, h2⟩

/-- `m & n`, `m &= n` for partial maps: the keys of both. -/
theorem C23_intersect (h : IntervalClass o) {t : MapType V} (hv : Versions t) (ht : t.cfg.total = false)
    (oracle : List (I × V) → I → Nat) {m n : List (I × V)} (hm : MapWellFormed o m) (hn : MapWellFormed o n) :
    ∃ m', IMap.addInterMap o t oracle [] m n = some m' ∧ MapWellFormed o m' ∧
      (∀ x u v, valueAt o m x = some u → valueAt o n x = some v → valueAt o m' x = sectioned t u v) ∧
      ∀ x, valueAt o m x = none ∨ valueAt o n x = none → valueAt o m' x = none := by
  obtain ⟨m', e, p⟩ := IMap.addInterMap_ptv h.lawful t ht oracle wf_nil (mapWellFormed_iff.1 hm)
    (mapWellFormed_iff.1 hn)
  obtain ⟨h1, h2⟩ := over_split (p.at_ hv (IMap.noIdent_nil _))
  refine ⟨m', e, mapWellFormed_iff.2 p.wf, fun x u v hu hv => ?_, fun x hx => ?_⟩
  · rw [h1 x v hv, hu, sectioned_eq]; rfl
  · cases hb : valueAt o n x with
    | none => exact h2 x hb
    | some v =>
      rw [hb] at hx
      have hx : valueAt o m x = none := by simpa using hx
      rw [h1 x v hb, hx]; rfl

/-- `m & n`, `m &= n` for total maps is addition. -/
theorem C23_intersect_total (h : IntervalClass o) {t : MapType V} (hN : Neutral t) (ht : t.cfg.total = true)
    (oracle : List (I × V) → I → Nat) {m n : List (I × V)} (hm : MapWellFormed o m) (hn : MapWellFormed o n) :
    ∃ m', IMap.addInterMap o t oracle [] m n = some m' ∧ MapWellFormed o m' ∧
      ∀ x, valueAt o m' x = (match valueAt o n x with
        | none => (valueAt o m x).bind fun u => added t u none
        | some v => added t v ((valueAt o m x).bind fun u => added t u none)) := by
  obtain ⟨m', e, p⟩ := IMap.addInterMap_total_pt h.lawful t ht oracle wf_nil (mapWellFormed_iff.1 hm)
    (mapWellFormed_iff.1 hn)
  refine ⟨m', e, mapWellFormed_iff.2 p.wf, fun x => ?_⟩
  rw [p.at_ hN (IMap.noIdent_nil _)]
  simp only [IMap.over, added_eq]
  cases valueAt o n x <;> cases valueAt o m x <;> rfl

/-- `m & s`, `m &= s` for a set `s`: the keys in `s`. -/
theorem C23_intersect_set (h : IntervalClass o) {t : MapType V} (hN : Neutral t) (oracle : List (I × V) → I → Nat)
    {m : List (I × V)} {s : List I} (hm : MapWellFormed o m) (hs : WellFormed o s) :
    ∃ m', IMap.addInterSet o t oracle [] m s = some m' ∧ MapWellFormed o m' ∧
      (∀ x, Elem o s x → valueAt o m' x = (valueAt o m x).bind fun u => added t u none) ∧
      ∀ x, ¬ Elem o s x → valueAt o m' x = none := by
  have ws := wellFormed_iff.1 hs
  obtain ⟨m', e, p⟩ := IMap.addInterSet_pt h.lawful t oracle wf_nil (mapWellFormed_iff.1 hm) ws
  obtain ⟨h1, h2⟩ := over_split (p.at_ hN (IMap.noIdent_nil _))
  refine ⟨m', e, mapWellFormed_iff.2 p.wf, fun x hx => ?_, fun x hx => h2 x ((unitMap_at ws x).2 hx)⟩
  rw [h1 x () ((unitMap_at ws x).1 hx)]
  simp only [IMap.over, added_eq]
  cases valueAt o m x <;> rfl

/-- `m & k`, `m &= k` for an interval `k`: the keys in `k`. -/
theorem C23_intersect_interval (h : IntervalClass o) {t : MapType V} (hN : Neutral t)
    (oracle : List (I × V) → I → Nat) {m : List (I × V)} (hm : MapWellFormed o m) (k : I) :
    ∃ m', IMap.addInterItv o t oracle [] m k = some m' ∧ MapWellFormed o m' ∧
      (∀ x, In o x k → valueAt o m' x = (valueAt o m x).bind fun u => added t u none) ∧
      ∀ x, ¬ In o x k → valueAt o m' x = none := by
  obtain ⟨m', e, p⟩ := IMap.addInterItv_pt h.lawful t oracle wf_nil (mapWellFormed_iff.1 hm) k
  obtain ⟨h1, h2⟩ := on_split (p.at_ hN (IMap.noIdent_nil _))
  refine ⟨m', e, mapWellFormed_iff.2 p.wf, fun x hx => ?_, h2⟩
  rw [h1 x hx]
  simp only [IMap.over, added_eq]
  cases valueAt o m x <;> rfl

/-- `m & {k, v}`, `m &= {k, v}` for partial maps -/
theorem C23_intersect_segment (h : IntervalClass o) {t : MapType V} (hv : Versions t) (ht : t.cfg.total = false)
    (oracle : List (I × V) → I → Nat) {m : List (I × V)} (hm : MapWellFormed o m) (k : I) (v : V) :
    ∃ m', IMap.addInterSeg o t oracle [] m k v = some m' ∧ MapWellFormed o m' ∧
      (∀ x, In o x k → valueAt o m' x = (valueAt o m x).bind fun u => sectioned t u v) ∧
      ∀ x, ¬ In o x k → valueAt o m' x = none := by
  obtain ⟨m', e, p⟩ := IMap.addInterSeg_ptv h.lawful t ht oracle wf_nil (mapWellFormed_iff.1 hm) k v
  obtain ⟨h1, h2⟩ := on_split (p.at_ hv (IMap.noIdent_nil _))
  refine ⟨m', e, mapWellFormed_iff.2 p.wf, fun x hx => ?_, h2⟩
  rw [h1 x hx]
  cases hu : valueAt o m x with
  | none => rfl
  | some u => simp only [Option.bind_some, sectioned_eq]; rfl

/-- `m &= {k, v}` for total maps is addition. -/
theorem C23_intersect_segment_total (h : IntervalClass o) {t : MapType V} (hN : Neutral t) (ht : t.cfg.total = true)
    (oracle : List (I × V) → I → Nat) {m : List (I × V)} (hm : MapWellFormed o m) (k : I) (v : V) :
    ∃ m', IMap.addInterSeg o t oracle [] m k v = some m' ∧ MapWellFormed o m' ∧
      (∀ x, In o x k → valueAt o m' x = added t v ((valueAt o m x).bind fun u => added t u none)) ∧
      ∀ x, ¬ In o x k → valueAt o m' x = (valueAt o m x).bind fun u => added t u none := by
  obtain ⟨m', e, p⟩ := IMap.addInterSeg_total_pt h.lawful t ht oracle wf_nil (mapWellFormed_iff.1 hm) k v
  have a : ∀ x, valueAt o m' x = IMap.on o k (fun _ => IMap.addF t.cfg t.plus v) x
      ((valueAt o m x).bind fun u => added t u none) := by
    intro x
    rw [p.at_ hN (IMap.noIdent_nil _)]
    simp only [IMap.over, added_eq]
    cases valueAt o m x <;> rfl
  obtain ⟨h1, h2⟩ := on_split a
  exact ⟨m', e, mapWellFormed_iff.2 p.wf, fun x hx => by rw [h1 x hx, added_eq], h2⟩

/-- `m ^= n` for partial maps -/
theorem C23_flip [DecidableEq I] (h : IntervalClass o) {t : MapType V} (hN : Neutral t) (ht : t.cfg.total = false)
    (oracle : List (I × V) → I → Nat) {m n : List (I × V)} (hm : MapWellFormed o m) (hn : MapWellFormed o n)
    (hi : NoIdentity t m) :
    ∃ m', IMap.flipMap o t oracle m n = some m' ∧ MapWellFormed o m' ∧
      (∀ x v, valueAt o m x = none → valueAt o n x = some v → valueAt o m' x = added t v none) ∧
      (∀ x u v, valueAt o m x = some u → valueAt o n x = some v → valueAt o m' x = flipped t u v) ∧
      ∀ x, valueAt o n x = none → valueAt o m' x = valueAt o m x := by
  obtain ⟨m', e, p⟩ := IMap.flipMap_pt h.lawful t ht oracle (mapWellFormed_iff.1 hm) (mapWellFormed_iff.1 hn)
  obtain ⟨h1, h2⟩ := over_split (p.at_ hN (noIdentity_iff.1 hi))
  refine ⟨m', e, mapWellFormed_iff.2 p.wf, fun x v hu hv => ?_, fun x u v hu hv => ?_, h2⟩
  · rw [h1 x v hv, hu, added_eq]; rfl
  · rw [h1 x v hv, hu, flipped_eq hN]

/-- `m ^= {k, v}`, `m.flip({k, v})` for partial maps and a non-empty interval -/
theorem C23_flip_segment [DecidableEq I] (h : IntervalClass o) {t : MapType V} (hN : Neutral t)
    (ht : t.cfg.total = false) (oracle : List (I × V) → I → Nat) {m : List (I × V)} (hm : MapWellFormed o m)
    (hi : NoIdentity t m) (k : I) (hk : ∃ x, In o x k) (v : V) :
    ∃ m', IMap.flipSeg o t oracle m k v = some m' ∧ MapWellFormed o m' ∧
      (∀ x, In o x k → valueAt o m x = none → valueAt o m' x = added t v none) ∧
      (∀ x u, In o x k → valueAt o m x = some u → valueAt o m' x = flipped t u v) ∧
      ∀ x, ¬ In o x k → valueAt o m' x = valueAt o m x := by
  obtain ⟨m', e, p⟩ := IMap.flipSeg_pt h.lawful t ht oracle (mapWellFormed_iff.1 hm) hk v
  obtain ⟨h1, h2⟩ := on_split (p.at_ hN (noIdentity_iff.1 hi))
  refine ⟨m', e, mapWellFormed_iff.2 p.wf, fun x hx hu => ?_, fun x u hx hu => ?_, h2⟩
  · rw [h1 x hx, hu, added_eq]; rfl
  · rw [h1 x hx, hu, flipped_eq hN]

/-- `m ^= {k, v}`, `m.flip({k, v})` for total maps: nothing remains of an absorber, even if `k` is empty; an enricher
has all its keys and those of `k`, with identity elements. -/
theorem C23_flip_segment_total [DecidableEq I] (h : IntervalClass o) {t : MapType V} (hN : Neutral t)
    (ht : t.cfg.total = true) (oracle : List (I × V) → I → Nat) {m : List (I × V)} (hm : MapWellFormed o m) (k : I)
    (v : V) : ∃ m', IMap.flipSeg o t oracle m k v = some m' ∧ MapWellFormed o m' ∧
      (t.cfg.absorbs = true → m' = []) ∧
      (t.cfg.absorbs = false → ∀ x w, Assoc o m' x w ↔ w = t.cfg.ident ∧ (Key o m x ∨ In o x k)) := by
  obtain ⟨m', e, p⟩ := IMap.flipSeg_total_pt h.lawful t ht oracle (mapWellFormed_iff.1 hm) k v
  have w := mapWellFormed_iff.2 p.wf
  refine ⟨m', e, w, fun ha => ?_, fun ha x u => ?_⟩
  · unfold IMap.flipSeg at e; simpa [ht, ha] using e.symm
  · rw [← valueAt_assoc w, p.at_ hN (IMap.noIdent_of_enricher ha _), ← valueAt_key hm]
    have hadd : ∀ v a, IMap.addF t.cfg t.plus v a ≠ none := by
      intro v a
      rw [← added_eq]
      have : ∀ v, ¬ Ignored t v := fun v hv => by rw [hv.1] at ha; cases ha
      cases a <;> simp [added, combined, stored, this]
    simp only [IMap.flipTotalF, ha, Bool.false_eq_true, if_false, IMap.on]
    by_cases hx : In o x k
    · obtain ⟨w, hw⟩ := Option.ne_none_iff_exists'.1 (hadd v (valueAt o m x))
      have hx' : o.contains k x = true := hx
      simp [hx', hw, hx, eq_comm]
    · have hx' : o.contains k x = false := by simpa [In] using hx
      cases hmx : valueAt o m x with
      | none => simp [hx', hx]
      | some u => simp [hx', hx, eq_comm]

/-- `m ^= n` for total maps: nothing remains of an absorber; an enricher has all keys of both, with identity
elements. -/
theorem C23_flip_total [DecidableEq I] (h : IntervalClass o) {t : MapType V} (hN : Neutral t)
    (ht : t.cfg.total = true) (oracle : List (I × V) → I → Nat) {m n : List (I × V)} (hm : MapWellFormed o m)
    (hn : MapWellFormed o n) :
    ∃ m', IMap.flipMap o t oracle m n = some m' ∧ MapWellFormed o m' ∧
      (t.cfg.absorbs = true → m' = []) ∧
      (t.cfg.absorbs = false → ∀ x v, Assoc o m' x v ↔ v = t.cfg.ident ∧ (Key o m x ∨ Key o n x)) := by
  obtain ⟨m', e, p⟩ := IMap.flipMap_total_pt h.lawful t ht oracle (mapWellFormed_iff.1 hm) (mapWellFormed_iff.1 hn)
  have w := mapWellFormed_iff.2 p.wf
  refine ⟨m', e, w, fun ha => ?_, fun ha x v => ?_⟩
  · unfold IMap.flipMap at e; simpa [ht, ha] using e.symm
  · rw [← valueAt_assoc w, p.at_ hN (IMap.noIdent_of_enricher ha _), ← valueAt_key hm, ← valueAt_key hn]
    simp only [IMap.flipTotalF, ha, Bool.false_eq_true, if_false, IMap.over]
    have hadd : ∀ v a, IMap.addF t.cfg t.plus v a ≠ none := by
      intro v a
      rw [← added_eq]
      have : ∀ v, ¬ Ignored t v := fun v hv => by rw [hv.1] at ha; cases ha
      cases a <;> simp [added, combined, stored, this]
    cases hnx : valueAt o n x with
    | none =>
      cases hmx : valueAt o m x with
      | none => simp
      | some u => simp [eq_comm]
    | some u =>
      obtain ⟨w, hw⟩ := Option.ne_none_iff_exists'.1 (hadd u (valueAt o m x))
      simp only [hw]
      simp [eq_comm]

/-- `intersects(m, s)` for a set `s`, if the map stores no identity element: a key of `m` is in `s`. -/
theorem C23_intersects_set (h : IntervalClass o) {t : MapType V} (hN : Neutral t) (oracle : List (I × V) → I → Nat)
    {m : List (I × V)} {s : List I} (hm : MapWellFormed o m) (hs : WellFormed o s) (hi : NoIdentity t m) :
    ∃ b, IMap.intersectsSet o t oracle m s = some b ∧ (b = true ↔ ∃ x, Elem o s x ∧ Key o m x) := by
  obtain ⟨b, e, hb⟩ := IMap.intersectsSet_spec h.lawful t oracle hN (mapWellFormed_iff.1 hm) (wellFormed_iff.1 hs)
  refine ⟨b, e, hb.trans ?_⟩
  constructor
  · rintro ⟨x, u, hx, hu, _⟩
    exact ⟨x, hx, (valueAt_key hm x).1 (by rw [hu]; simp)⟩
  · rintro ⟨x, hx, hk⟩
    obtain ⟨u, hu⟩ := Option.ne_none_iff_exists'.1 ((valueAt_key hm x).2 hk)
    exact ⟨x, u, hx, hu, (IMap.noIdent_iff (mapWellFormed_iff.1 hm)).1 (noIdentity_iff.1 hi) x u hu⟩

/-- If one of the maps is total, `intersects(m, n)` is true, even for empty maps. -/
theorem C23_intersects_total (t : MapType V) (totalR : Bool) (ht : t.cfg.total = true ∨ totalR = true)
    (oracle : List (I × V) → I → Nat) (m n : List (I × V)) : IMap.intersectsMap o t totalR oracle m n = some true := by
  have : (t.cfg.total || totalR) = true := by simpa using ht
  simp [IMap.intersectsMap, this]

/-- `intersects(m, n)` for partial maps says whether `m & n` is not empty. -/
theorem C23_intersects (h : IntervalClass o) {t : MapType V} (hN : Neutral t) (ht : t.cfg.total = false)
    (oracle : List (I × V) → I → Nat) {m n : List (I × V)} (hm : MapWellFormed o m) (hn : MapWellFormed o n) :
    ∃ b, IMap.intersectsMap o t false oracle m n = some b ∧
      (b = true ↔ ∃ x u v, valueAt o m x = some u ∧ valueAt o n x = some v ∧ sectioned t u v ≠ none) := by
  obtain ⟨b, e, hb⟩ := IMap.intersectsMap_spec h.lawful t ht oracle hN (mapWellFormed_iff.1 hm)
    (mapWellFormed_iff.1 hn)
  refine ⟨b, e, hb.trans ?_⟩
  constructor
  · rintro ⟨x, v, hv, hne⟩
    cases hu : valueAt o m x with
    | none => rw [hu] at hne; exact absurd rfl hne
    | some u => exact ⟨x, u, v, hu, hv, by rw [sectioned_eq, ← hu]; exact hne⟩
  · rintro ⟨x, u, v, hu, hv, hne⟩
    exact ⟨x, v, hv, by rw [hu, ← sectioned_eq]; exact hne⟩

/-- `intersects(m, {k, v})` for a segment: always for total maps; for partial maps it says whether `m & {k, v}` is not
empty. -/
theorem C23_intersects_segment (h : IntervalClass o) {t : MapType V} (hN : Neutral t) (oracle : List (I × V) → I → Nat)
    {m : List (I × V)} (hm : MapWellFormed o m) (k : I) (v : V) :
    ∃ b, IMap.intersectsSeg o t oracle m k v = some b ∧
      (b = true ↔ t.cfg.total = true ∨ ∃ x u, In o x k ∧ valueAt o m x = some u ∧ sectioned t u v ≠ none) := by
  cases ht : t.cfg.total with
  | true => exact ⟨true, by unfold IMap.intersectsSeg; simp [ht], by simp⟩
  | false =>
    obtain ⟨b, e, hb⟩ := IMap.intersectsSeg_spec h.lawful t ht oracle hN (mapWellFormed_iff.1 hm) k v
    refine ⟨b, e, hb.trans ?_⟩
    simp only [Bool.false_eq_true, false_or]
    constructor
    · rintro ⟨x, hx, hne⟩
      cases hu : valueAt o m x with
      | none => rw [hu] at hne; exact absurd rfl hne
      | some u => exact ⟨x, u, hx, hu, by rw [sectioned_eq, ← hu]; exact hne⟩
    · rintro ⟨x, u, hx, hu, hne⟩
      exact ⟨x, hx, by rw [hu, ← sectioned_eq]; exact hne⟩

/-- Values that cancel out do not intersect. -/
example : IMap.intersectsSeg Ex.ro (exMap true true false) (fun _ _ => 0) exN (Ex.r 1 4) (-1) = some false ∧
    IMap.intersectsSeg Ex.ro (exMap true true false) (fun _ _ => 0) exN (Ex.r 1 6) (-1) = some true ∧
    IMap.intersectsSeg Ex.ro (exMap true true true) (fun _ _ => 0) exN (Ex.r 4 5) (-1) = some true := by decide

/-- For the maps of numbers and sets with the default functors, in words: `&` adds numbers and intersects sets;
`^` drops the common keys of maps of numbers and yields the symmetric difference of sets (an absorber drops
results that are zero or empty). -/
theorem C23_in_words {W α : Type} [DecidableEq W] [AddGroup W] [DecidableEq α] (joining signed : Bool) :
    (∀ u v : W, u ≠ 0 → sectioned (.numeric joining true false signed) u v = if u + v = 0 then none else some (u + v)) ∧
    (∀ u v : W, sectioned (.numeric joining false false signed) u v = some (u + v)) ∧
    (∀ u v : W, flipped (.numeric joining true false signed) u v = none) ∧
    (∀ u v : W, flipped (.numeric joining false false signed) u v = some 0) ∧
    (∀ u v : Finset α, u ≠ ∅ → v ≠ ∅ →
      sectioned (.collector joining true false) u v = if u ∩ v = ∅ then none else some (u ∩ v)) ∧
    (∀ u v : Finset α, sectioned (.collector joining false false) u v = some (u ∩ v)) ∧
    (∀ u v : Finset α, flipped (.collector joining true false) u v = if u = v then none else some (symmDiff v u)) ∧
    (∀ u v : Finset α, flipped (.collector joining false false) u v = some (symmDiff v u)) := by
  refine ⟨fun u v hu => ?_, fun u v => ?_, fun u v => ?_, fun u v => ?_, fun u v hu hv => ?_, fun u v => ?_,
    fun u v => ?_, fun u v => ?_⟩
  · by_cases hv : v = 0 <;> simp [sectioned, combined, stored, Ignored, MapType.numeric, Combiner.plus, hu, hv]
  · simp [sectioned, combined, stored, Ignored, MapType.numeric, Combiner.plus]
  · simp [flipped, Ignored, MapType.numeric]
  · simp [flipped, Ignored, MapType.numeric, Combiner.plus]
  · simp [sectioned, combined, stored, Ignored, MapType.collector, Combiner.union, Combiner.inter, hu, hv]
  · simp [sectioned, combined, stored, Ignored, MapType.collector, Combiner.union, Combiner.inter]
  · have : symmDiff v u = ∅ ↔ u = v := by rw [← Finset.bot_eq_empty, symmDiff_eq_bot]; exact eq_comm
    simp [flipped, Ignored, MapType.collector, Combiner.union, this]
  · simp [flipped, Ignored, MapType.collector, Combiner.union]

example : IMap.addMap Ex.ro (exMap true true false) (fun _ _ => 0) exN [(Ex.r 1 3, -1), (Ex.r 4 6, 3)] =
      some [(Ex.r 0 1, 1), (Ex.r 3 4, 1), (Ex.r 4 5, 3), (Ex.r 5 6, 5), (Ex.r 6 9, 2)] ∧
    IMap.subMap Ex.ro (exMap true true false) exN [(Ex.r 1 3, 1), (Ex.r 4 6, 3)] =
      some [(Ex.r 0 1, 1), (Ex.r 3 4, 1), (Ex.r 5 6, -1), (Ex.r 6 9, 2)] ∧
    IMap.addInterMap Ex.ro (exMap true true false) (fun _ _ => 0) [] exN [(Ex.r 1 3, 1), (Ex.r 4 6, 3)] =
      some [(Ex.r 1 3, 2), (Ex.r 5 6, 5)] ∧
    IMap.flipMap Ex.ro (exMap true true false) (fun _ _ => 0) exN [(Ex.r 1 3, 1), (Ex.r 4 6, 3)] =
      some [(Ex.r 0 1, 1), (Ex.r 3 4, 1), (Ex.r 4 5, 3), (Ex.r 6 9, 2)] ∧
    IMap.addInterSet Ex.ro (exMap true true false) (fun _ _ => 0) [] exN [Ex.r 1 3, Ex.r 4 6] =
      some [(Ex.r 1 3, 1), (Ex.r 5 6, 2)] ∧
    IMap.eraseSet Ex.ro exN [Ex.r 1 3, Ex.r 4 6] = some [(Ex.r 0 1, 1), (Ex.r 3 4, 1), (Ex.r 6 9, 2)] := by decide
example : IMap.flipMap Ex.ro exCollect (fun _ _ => 0) [(Ex.r 0 5, {1, 2})] [(Ex.r 3 8, {2, 3})] =
    some [(Ex.r 0 3, {1, 2}), (Ex.r 3 5, {1, 3}), (Ex.r 5 8, {2, 3})] := by decide
example : NoIdentity (exMap true true false) exN := by unfold NoIdentity; decide

/-! ## C24: hints -/

theorem jointEq_eqC (h : o.Lawful) {c : MapCfg V} {a b : List (I × V)} (ha : WF o mapSeg a) (hb : WF o mapSeg b)
    (ja : c.joining = true → Joined o mapSeg a) (jb : c.joining = true → Joined o mapSeg b)
    (hj : JointEq o c a b) : eqC o mapSeg a b = true := by
  have hm : ∀ x v, Maps o mapSeg a x v ↔ Maps o mapSeg b x v := by
    intro x v
    rw [← joint_self, ← joint_self]; exact hj x x v (dg_self c x)
  cases hc : c.joining with
  | true => exact (eqC_joined h ha hb (ja hc) (jb hc)).2 hm
  | false =>
    refine (eqC_spec h ha hb).2 ⟨fun x y => ?_, hm⟩
    rw [joint_iff_same, joint_iff_same]
    exact exists_congr fun w => hj x y w fun hd => by rw [hc] at hd; cases hd

/-- `m.insert(prior, {k, v})` yields a map equal to that of `m.insert({k, v})`, whatever the hint. -/
theorem C24_insert_hint (h : IntervalClass o) (t : MapType V) (n : Nat) (b : Bool) {m : List (I × V)}
    (hm : MapWellFormed o m) (hj : t.cfg.joining = true → MapFullyJoined o m) (k : I) (v : V) :
    ∃ m₁ m₂, IMap.insertHint o t.cfg n b m k v = some m₁ ∧ IMap.insert o t.cfg m k v = some m₂ ∧
      eqC o mapSeg m₁ m₂ = true := by
  have w := mapWellFormed_iff.1 hm
  have hj' := fun hc => (mapFullyJoined_iff h.lawful w).1 (hj hc)
  obtain ⟨m₁, e1, a1, b1⟩ := IMap.insertHint_spec h.lawful t.cfg n b w k v
  obtain ⟨m₂, e2, a2, b2⟩ := IMap.insert_spec h.lawful t.cfg w k v
  refine ⟨m₁, m₂, e1, e2, ?_⟩
  cases hv : IMap.absorbable t.cfg v with
  | true =>
    obtain rfl := a1 hv
    obtain rfl := a2 hv
    exact jointEq_eqC h.lawful w w hj' hj' (JointEq.refl t.cfg _)
  | false =>
    have s1 := b1 hv
    have s2 := b2 hv
    exact jointEq_eqC h.lawful s1.wf s2.wf (fun hc => s1.joined hc (hj' hc)) (fun hc => s2.joined hc (hj' hc))
      fun x y w hd => (s1.joint x y w hd).trans (s2.joint x y w hd).symm

/-- `m.add(prior, {k, v})` yields a map equal to that of `m.add({k, v})`, whatever the hint, provided the identity
element is neutral for the functor of the map. -/
theorem C24_add_hint_partial (h : IntervalClass o) {t : MapType V} (hN : Neutral t) (n : Nat) {m : List (I × V)}
    (hm : MapWellFormed o m) (hj : t.cfg.joining = true → MapFullyJoined o m) (hi : NoIdentity t m) (k : I) (v : V) :
    ∃ m₁ m₂, IMap.addHint o t n m k v = some m₁ ∧ IMap.addSeg o t m k v = some m₂ ∧
      eqC o mapSeg m₁ m₂ = true := by
  have w := mapWellFormed_iff.1 hm
  have hj' := fun hc => (mapFullyJoined_iff h.lawful w).1 (hj hc)
  obtain ⟨m₁, e1, a1, b1⟩ := IMap.addHintC_gen h.lawful t.cfg t.plus n w k v
  obtain ⟨m₂, e2, a2, b2⟩ := IMap.addC_spec h.lawful t.cfg t.plus w k v
  refine ⟨m₁, m₂, e1, e2, ?_⟩
  cases hv : IMap.absorbable t.cfg v with
  | true =>
    obtain rfl := a1 hv
    obtain rfl := a2 hv
    exact jointEq_eqC h.lawful w w hj' hj' (JointEq.refl t.cfg _)
  | false =>
    obtain ⟨up, u, s1, hup, hu1, hu2⟩ := b1 hv
    have s2 := b2 hv
    have hu : u = t.plus.version v := by
      by_cases hd : ∃ x, Dom o mapSeg m x ∧ o.Mem x k
      · exact hu2 hd
      · rw [hu1 fun x hx hk => hd ⟨x, hx, hk⟩]; exact hN.plus_ident v
    rw [hu, hup (noIdentity_iff.1 hi)] at s1
    exact jointEq_eqC h.lawful s1.wf s2.wf (fun hc => s1.joined hc (hj' hc)) (fun hc => s2.joined hc (hj' hc))
      fun x y w hd => (s1.joint x y w hd).trans (s2.joint x y w hd).symm

/-- Without that condition the claim is false: in a map of maxima of integers, `add` with a hint of a negative value
to a gap stores zero. -/
theorem C24_counterexample :
    IMap.addHint Ex.ro exMax 0 [(Ex.r 7 9, 3)] (Ex.r 0 5) (-1) = some [(Ex.r 0 5, 0), (Ex.r 7 9, 3)] ∧
    IMap.addSeg Ex.ro exMax [(Ex.r 7 9, 3)] (Ex.r 0 5) (-1) = some [(Ex.r 0 5, -1), (Ex.r 7 9, 3)] := by decide

example : IMap.addHint Ex.ro (exMap true true false) 5 exN (Ex.r 3 8) 1 =
    IMap.addSeg Ex.ro (exMap true true false) exN (Ex.r 3 8) 1 := by decide

/-! ## C29: domain, gaps, hull (maps) -/

/-- `domain(dom, m)`: the keys of `m`. -/
theorem C29_map_domain (h : IntervalClass o) (st : Style) (oracle : List I → I → Nat) {m : List (I × V)}
    (hm : MapWellFormed o m) : ∃ s, IMap.domain o st oracle m = some s ∧ WellFormed o s ∧
      ∀ x, Elem o s x ↔ Key o m x := by
  obtain ⟨s, h1, h2⟩ := ISet.addSet_spec h.lawful st oracle (wf_nil (o := o) (g := setSeg)) (m.map Prod.fst)
  refine ⟨s, h1, wellFormed_iff.2 h2.wf, fun x => ?_⟩
  rw [elem_iff, h2.dom, key_iff, ← dom_fst]; simp

/-- `between(gaps, m)`: the values between two keys of `m` that are no keys. -/
theorem C29_map_between (h : IntervalClass o) (st : Style) (oracle : List I → I → Nat) {m : List (I × V)}
    (hm : MapWellFormed o m) : ∃ s, IMap.between o st oracle m = some s ∧ WellFormed o s ∧
      ∀ x, Elem o s x ↔ ¬ Key o m x ∧ ∃ y z, Key o m y ∧ Key o m z ∧ y < x ∧ x < z := by
  obtain ⟨s, h1, h2⟩ := ISet.addSet_spec h.lawful st oracle (wf_nil (o := o) (g := setSeg))
    (ISet.gaps o (m.map Prod.fst))
  refine ⟨s, h1, wellFormed_iff.2 h2.wf, fun x => ?_⟩
  rw [elem_iff, h2.dom, dom_gaps h.lawful (wf_fst.2 (mapWellFormed_iff.1 hm))]
  simp only [key_iff, ← dom_fst]; simp

/-- `hull(m)`: the values between two keys of `m`. -/
theorem C29_map_hull (h : IntervalClass o) {m : List (I × V)} (hm : MapWellFormed o m) (x : D) :
    In o x (hullC o mapSeg m) ↔ ∃ y z, Key o m y ∧ Key o m z ∧ y ≤ x ∧ x ≤ z :=
  hullC_spec h.lawful (mapWellFormed_iff.1 hm) x

example : IMap.domain Ex.ro .joining (fun _ _ => 0) exM = some [Ex.r 0 4, Ex.r 5 9] ∧
    IMap.between Ex.ro .joining (fun _ _ => 0) exM = some [Ex.r 4 5] ∧ hullC Ex.ro mapSeg exM = Ex.r 0 9 := by
  decide

/-! ## C30: conversions (maps) -/

/-- Assignment of any interval map to a `split_interval_map` keeps all segments. -/
theorem C30_assign_split_map (h : IntervalClass o) {t : MapType V} (ht : t.cfg.joining = false)
    (oracle : List (I × V) → I → Nat) {m : List (I × V)} (hm : MapWellFormed o m) :
    IMap.assign o t oracle m = some m :=
  IMap.assign_split h.lawful t ht oracle (mapWellFormed_iff.1 hm)

/-- Assignment to an `interval_map` keeps the values (up to the treatment of single values by the functor: an absorber
drops identity elements) and joins, provided the identity element is neutral for the functor of the map. -/
theorem C30_assign_map_partial (h : IntervalClass o) {t : MapType V} (hN : Neutral t) (ht : t.cfg.joining = true)
    (oracle : List (I × V) → I → Nat) {m : List (I × V)} (hm : MapWellFormed o m) :
    ∃ m', IMap.assign o t oracle m = some m' ∧ MapWellFormed o m' ∧ MapFullyJoined o m' ∧
      ∀ x, valueAt o m' x = (valueAt o m x).bind fun v => added t v none := by
  obtain ⟨m', e, w, j, a, _⟩ := IMap.assign_join h.lawful t ht oracle (mapWellFormed_iff.1 hm)
  simp only [added_eq]
  exact ⟨m', e, mapWellFormed_iff.2 w, (mapFullyJoined_iff h.lawful w).2 j, a hN⟩

/-- In particular for maps of numbers and sets the values are the same. -/
theorem C30_assign_map_same (h : IntervalClass o) {t : MapType V} (hN : Neutral t) (ht : t.cfg.joining = true)
    (hv : ∀ v, t.plus.version v = v) (oracle : List (I × V) → I → Nat) {m : List (I × V)} (hm : MapWellFormed o m)
    (hi : NoIdentity t m) :
    ∃ m', IMap.assign o t oracle m = some m' ∧ ∀ x, valueAt o m' x = valueAt o m x := by
  obtain ⟨m', e, _, _, a⟩ := C30_assign_map_partial h hN ht oracle hm
  refine ⟨m', e, fun x => ?_⟩
  rw [a x]
  cases hx : valueAt o m x with
  | none => rfl
  | some v =>
    have hv' : ¬ Ignored t v := absorbable_false_iff.1
      ((IMap.noIdent_iff (mapWellFormed_iff.1 hm)).1 (noIdentity_iff.1 hi) x v hx)
    simp [added, combined, hv', hv]

/-- Without the condition values are lost: a `split_interval_map` of maxima with a negative value, assigned to an
`interval_map`. -/
theorem C30_counterexample :
    IMap.assign Ex.ro (.maxima true false false) (fun _ _ => 0) [(Ex.r 0 5, -1)] = some [(Ex.r 0 5, 0)] := by decide

/-- `join(m)` keeps the values and leaves a fully joined map. -/
theorem C30_join_map (h : IntervalClass o) {m : List (I × V)} (hm : MapWellFormed o m) :
    ∃ m', joinAll o mapSeg m = some m' ∧ MapWellFormed o m' ∧ (∀ x, valueAt o m' x = valueAt o m x) ∧
      MapFullyJoined o m' := by
  obtain ⟨m', e, h1, h2, h3⟩ := joinAll_spec h.lawful mapSeg_lawful (mapWellFormed_iff.1 hm)
  have w := mapWellFormed_iff.2 h1
  exact ⟨m', e, w, (maps_valueAt w hm).1 h2, (mapFullyJoined_iff h.lawful h1).2 h3⟩

/-- `absorb_identities(m)` drops the identity elements from an enricher and nothing else. -/
theorem C30_absorb_identities (h : IntervalClass o) (t : MapType V) (ht : t.cfg.absorbs = false) {m : List (I × V)}
    (hm : MapWellFormed o m) : MapWellFormed o (IMap.absorbIdentities t m) ∧
      ∀ x v, Assoc o (IMap.absorbIdentities t m) x v ↔ Assoc o m x v ∧ v ≠ t.cfg.ident := by
  obtain ⟨w, _, a⟩ := IMap.absorbIdentities_spec h.lawful t (mapWellFormed_iff.1 hm)
  refine ⟨mapWellFormed_iff.2 w, fun x v => ?_⟩
  rw [← valueAt_assoc (mapWellFormed_iff.2 w), ← valueAt_assoc hm, a]
  simp [ht, Option.filter_eq_some_iff]

example : IMap.assign Ex.ro (exMap true true false) (fun _ _ => 0) exM = some exN ∧
    IMap.absorbIdentities (exMap true false false) [(Ex.r 0 2, 1), (Ex.r 2 4, 0), (Ex.r 4 5, 1)] =
      [(Ex.r 0 2, 1), (Ex.r 4 5, 1)] := by decide

end ICL.Props
