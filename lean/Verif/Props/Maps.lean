import Verif.Theory.MapBridge
import Verif.Theory.MapPlain
import Verif.Props.Compare

/-!
# Properties of interval maps: C15-C23, and the parts of C13, C24, C29, C30 that concern maps

`IntervalClass o` ranges over the interval classes. A map type `t` ranges over `interval_map`
(`t.cfg.joining = true`) and `split_interval_map`, over the four traits (`t.cfg.absorbs`, `t.cfg.total`), over all
types of associated values and all functors. `valueAt o m x` is the value that the map `m` associates to `x`
(`none` if `x` is no key, see `C14_value_at`); `added`, `subtracted` etc. are specified in `MapSpec.lean`.
A result `some m'` says that no assertion fails on the way and that the function yields `m'`.
-/

set_option linter.unusedSectionVars false
set_option linter.unusedVariables false

namespace ICL.Props
open Spec

variable {D I V : Type} [LinearOrder D] {o : IntervalOps D I} [DecidableEq V]

/-! ## The map types of the examples -/

/-- `interval_map<int, int, partial_absorber>` etc. -/
abbrev exMap (joining absorbs total : Bool) : MapType ℤ := .numeric joining absorbs total true
/-- `interval_map<int, int, partial_absorber, std::less, inplace_max>` -/
abbrev exMax : MapType ℤ := .maxima true true false
/-- `interval_map<int, std::set<int>>` -/
abbrev exCollect : MapType (Finset ℤ) := .collector true true false

/-- Maps of numbers under addition satisfy the condition on functors, whatever the traits. -/
theorem numeric_neutral {W : Type} [DecidableEq W] [AddGroup W] (joining absorbs total signed : Bool) :
    Neutral (.numeric (V := W) joining absorbs total signed) where
  plus_ident := by intro v; simp [MapType.numeric, Combiner.plus]
  plus_ne := by intro v hv; exact hv
  minus_ne := by intro _ _ v hv; simpa [MapType.numeric, Combiner.minus] using hv
  sect_ne := by intro v hv; exact hv

/-- So do maps of sets under union. -/
theorem collector_neutral {α : Type} [DecidableEq α] (joining absorbs total : Bool) :
    Neutral (.collector (α := α) joining absorbs total) where
  plus_ident := by intro v; simp [MapType.collector, Combiner.union]
  plus_ne := by intro v hv; exact hv
  minus_ne := by intro _ hh; simp [MapType.collector] at hh
  sect_ne := by intro v hv; exact hv

/-- So do maps of bit sets. -/
theorem bits_neutral {n : Nat} (joining absorbs total : Bool) :
    Neutral (.bits (n := n) joining absorbs total) where
  plus_ident := by intro v; simp [MapType.bits, Combiner.bitAdd]
  plus_ne := by intro v hv; exact hv
  minus_ne := by intro _ hh; simp [MapType.bits] at hh
  sect_ne := by intro v hv; exact hv

/-- Maps of maxima satisfy a part of it, but not all. -/
theorem maxima_versions (joining absorbs total : Bool) : Versions (.maxima joining absorbs total) where
  plus_ne := by intro v hv; exact hv
  minus_ne := by intro _ _ v hv; exact hv
  sect_ne := by intro v hv; exact hv

theorem maxima_not_neutral (joining absorbs total : Bool) : ¬ Neutral (.maxima joining absorbs total) := by
  intro hn
  have := hn.plus_ident (-1)
  simp [MapType.maxima, Combiner.max] at this

/-! ## The function that a map represents -/

/-- `valueAt` is the function that a well-formed map represents. -/
theorem C14_value_at {m : List (I × V)} (hm : MapWellFormed o m) (x : D) :
    (∀ v, valueAt o m x = some v ↔ Assoc o m x v) ∧ (valueAt o m x = none ↔ ¬ Key o m x) :=
  ⟨valueAt_assoc hm x, valueAt_none⟩

/-! ## C15: well-formed under every history -/

section
variable [DecidableEq I]

/-- Every interval map that any history of operations produces is well-formed. -/
theorem C15_well_formed {E : Option (ElemFns D I)} (h : SetClass o E) {t : MapType V} {m : List (I × V)}
    (hr : MReachable o E t m) : MapWellFormed o m :=
  mapWellFormed_iff.2 (hr.good h).wf

/-- On a reachable map every operation whose precondition is met yields a result (no assertion fails). -/
theorem C15_no_failure {E : Option (ElemFns D I)} (h : SetClass o E) {t : MapType V} {m : List (I × V)}
    (hr : MReachable o E t m) (c : MapOp D I V) (hc : c.Pre o E t m) :
    ∃ m', c.run o E t m = some m' ∧ MReachable o E t m' := by
  obtain ⟨m', h1, _⟩ := MapOp.run_good h (hr.good h) c hc
  exact ⟨m', h1, .op c hr h1⟩

/-- On reachable maps every operation with a map operand yields a result (no assertion fails). -/
theorem C15_no_failure2 {E : Option (ElemFns D I)} (h : SetClass o E) {t t' : MapType V} {m n : List (I × V)}
    (hm : MReachable o E t m) (hn : MReachable o E t' n) (c : MapOp2 I V) :
    ∃ m', c.run o t m n = some m' ∧ MReachable o E t m' := by
  obtain ⟨m', h1, _⟩ := MapOp2.run_good h.cls.lawful (hm.good h) (hn.good h).wf c
  exact ⟨m', h1, .op2 c hm hn h1⟩

/-- On reachable maps every operation with a set operand yields a result (no assertion fails). -/
theorem C15_no_failure3 {E : Option (ElemFns D I)} (h : SetClass o E) {t : MapType V} {st : Style}
    {m : List (I × V)} {s : List I} (hm : MReachable o E t m) (hs : Reachable o E st s) (c : MapOp3 I V) :
    ∃ m', c.run o t m s = some m' ∧ MReachable o E t m' := by
  obtain ⟨m', h1, _⟩ := MapOp3.run_good h.cls.lawful (hm.good h) (hs.good h).1 c
  exact ⟨m', h1, .op3 c hm hs h1⟩

/-- A reachable map: `{} += ([0,5), 1)`, `+= ([3,8), 2)`, `-= ([1,2), 1)`, `set ([7,9), 4)`. -/
theorem ex_mreachable : MReachable Ex.ro (some exE) (exMap true true false)
    [(Ex.r 0 1, 1), (Ex.r 2 3, 1), (Ex.r 3 5, 3), (Ex.r 5 7, 2), (Ex.r 7 9, 4)] :=
  .op (.set (Ex.r 7 9) 4) (.op (.subtract (Ex.r 1 2) 1) (.op (.add (Ex.r 3 8) 2) (.op (.add (Ex.r 0 5) 1) (.empty _)
    (l' := [(Ex.r 0 5, 1)]) (by decide)) (l' := [(Ex.r 0 3, 1), (Ex.r 3 5, 3), (Ex.r 5 8, 2)]) (by decide))
    (l' := [(Ex.r 0 1, 1), (Ex.r 2 3, 1), (Ex.r 3 5, 3), (Ex.r 5 8, 2)]) (by decide)) (by decide)

example : MapWellFormed Ex.ro [(Ex.r 0 1, (1 : ℤ)), (Ex.r 2 3, 1), (Ex.r 3 5, 3), (Ex.r 5 7, 2), (Ex.r 7 9, 4)] :=
  C15_well_formed ex_cls ex_mreachable

/-- `flip` on a partial map with an empty interval violates a precondition that the caller cannot see: the
assertion of the comparison of intervals fails, unless the map is empty. -/
theorem C15_flip_empty :
    IMap.flipSeg Ex.ro (exMap true true false) (fun _ _ => 0) [(Ex.r 0 5, 1)] (Ex.r 3 3) 1 = none := by decide

/-! ## C16: interval_map is joined -/

/-- Every `interval_map` that any history of operations produces is fully joined. -/
theorem C16_fully_joined {E : Option (ElemFns D I)} (h : SetClass o E) {t : MapType V} (ht : t.cfg.joining = true)
    {m : List (I × V)} (hr : MReachable o E t m) : MapFullyJoined o m :=
  (mapFullyJoined_iff h.cls.lawful (hr.good h).wf).2 ((hr.good h).joined ht)

example : MapFullyJoined Ex.ro [(Ex.r 0 1, (1 : ℤ)), (Ex.r 2 3, 1), (Ex.r 3 5, 3), (Ex.r 5 7, 2), (Ex.r 7 9, 4)] :=
  C16_fully_joined ex_cls rfl ex_mreachable

/-! ## C17: absorbers store no identity element -/

/-- No reachable absorbing map stores the identity element, provided the identity element is neutral for the
functor of the map. -/
theorem C17_no_identity_partial {E : Option (ElemFns D I)} (h : SetClass o E) {t : MapType V} (hn : Neutral t)
    (ht : t.cfg.absorbs = true) {m : List (I × V)} (hr : MReachable o E t m) : ∀ s ∈ m, s.2 ≠ t.cfg.ident :=
  fun s hs he => noIdentity_iff.2 ((hr.good h).noIdent hn) s hs ⟨ht, he⟩

/-- For all functors: no absorbing map that is made without hinted additions stores the identity element. -/
theorem C17_no_identity_plain {E : Option (ElemFns D I)} (h : SetClass o E) {t : MapType V} (hv : Versions t)
    (ht : t.cfg.absorbs = true) {m : List (I × V)} (hr : MPlain o E t m) : ∀ s ∈ m, s.2 ≠ t.cfg.ident :=
  fun s hs he => noIdentity_iff.2 (hr.noIdent h hv) s hs ⟨ht, he⟩

/-- Without that condition the claim is false: in an absorbing map of maxima of integers, adding `([0,5), -1)`
with a hint, or by `+=` of a map, stores the identity element `0`. -/
theorem C17_counterexample : (∃ m, MReachable Ex.ro (some exE) exMax m ∧ ∃ s ∈ m, s.2 = exMax.cfg.ident) ∧
    IMap.addMap Ex.ro exMax (fun _ _ => 0) [] [(Ex.r 0 5, -1)] = some [(Ex.r 0 5, 0)] :=
  ⟨⟨[(Ex.r 0 5, 0)], .op (.addHint 0 (Ex.r 0 5) (-1)) (.empty _) (by decide), _, List.mem_singleton.2 rfl, rfl⟩,
    by decide⟩

example : MPlain Ex.ro (some exE) exMax [(Ex.r 0 3, -1), (Ex.r 3 8, 2)] :=
  .op (.add (Ex.r 3 8) 2) rfl (.op (.add (Ex.r 0 5) (-1)) rfl (.empty _) (l' := [(Ex.r 0 5, -1)]) (by decide))
    (by decide)
example : Neutral (exMap true true false) ∧ Neutral exCollect ∧ Versions exMax :=
  ⟨numeric_neutral _ _ _ _, collector_neutral _ _ _, maxima_versions _ _ _⟩

end

/-! ## C18: addition -/

/-- `m.add({k, v})`, `m += {k, v}` -/
theorem C18_add (h : IntervalClass o) (t : MapType V) {m : List (I × V)} (hm : MapWellFormed o m) (k : I) (v : V) :
    ∃ m', IMap.addSeg o t m k v = some m' ∧ MapWellFormed o m' ∧
      (∀ x, In o x k → valueAt o m' x = added t v (valueAt o m x)) ∧
      ∀ x, ¬ In o x k → valueAt o m' x = valueAt o m x := by
  obtain ⟨m', e, w, _, a⟩ := IMap.addC_at h.lawful t.cfg t.plus (mapWellFormed_iff.1 hm) k v
  simp only [added_eq]
  exact ⟨m', e, mapWellFormed_iff.2 w, on_split a⟩

/-- `m.add({a, v})`, `m += {a, v}` for an element `a` that has a one-element interval -/
theorem C18_add_element {sing : D → I} (h : SingletonClass o sing) (t : MapType V) {m : List (I × V)}
    (hm : MapWellFormed o m) (a : D) (ha : o.isEmpty (sing a) = false) (v : V) :
    ∃ m', IMap.addSeg o t m (sing a) v = some m' ∧ MapWellFormed o m' ∧
      valueAt o m' a = added t v (valueAt o m a) ∧ ∀ x, x ≠ a → valueAt o m' x = valueAt o m x := by
  obtain ⟨m', e, w, h1, h2⟩ := C18_add h.cls t hm (sing a) v
  exact ⟨m', e, w, h1 a ((h.mem ha a).2 rfl), fun x hx => h2 x fun hi => hx ((h.mem ha x).1 hi)⟩

/-- In words, for an absorbing map of numbers: overlapping values are added, the rest of `k` gets `v`, and sums
that are zero vanish. -/
theorem C18_add_numbers {W : Type} [DecidableEq W] [AddGroup W] (joining total signed : Bool) (v : W) :
    (∀ u, u ≠ 0 →
      added (.numeric joining true total signed) v (some u) = if u + v = 0 then none else some (u + v)) ∧
      added (.numeric joining true total signed) v none = if v = 0 then none else some v := by
  refine ⟨fun u hu => ?_, ?_⟩
  · by_cases hv : v = 0 <;>
      simp [added, combined, stored, Ignored, MapType.numeric, Combiner.plus, hv, hu]
  · simp [added, combined, Ignored, MapType.numeric, Combiner.plus]

example : IMap.addSeg Ex.ro (exMap true true false) [(Ex.r 0 5, 1), (Ex.r 7 9, -2)] (Ex.r 3 8) 2 =
      some [(Ex.r 0 3, 1), (Ex.r 3 5, 3), (Ex.r 5 7, 2), (Ex.r 8 9, -2)] ∧
    IMap.addSeg Ex.ro (exMap false false true) [(Ex.r 0 5, 1), (Ex.r 7 9, -2)] (Ex.r 3 8) 2 =
      some [(Ex.r 0 3, 1), (Ex.r 3 5, 3), (Ex.r 5 7, 2), (Ex.r 7 8, 0), (Ex.r 8 9, -2)] ∧
    IMap.addSeg Ex.ro exMax [(Ex.r 0 5, 1), (Ex.r 7 9, -2)] (Ex.r 3 8) (-1) =
      some [(Ex.r 0 5, 1), (Ex.r 5 8, -1), (Ex.r 8 9, -2)] := by decide
example : MapWellFormed Ex.ro exM ∧ SingletonClass Ex.ro Ex.roE.singleton ∧
    Ex.ro.isEmpty (Ex.roE.singleton 5) = false :=
  ⟨exM_wf.1, .discrete Ex.ro_disc, by decide⟩

/-! ## C19: subtraction -/

/-- `m.subtract({k, v})`, `m -= {k, v}` -/
theorem C19_subtract (h : IntervalClass o) (t : MapType V) {m : List (I × V)} (hm : MapWellFormed o m) (k : I)
    (v : V) : ∃ m', IMap.subSeg o t m k v = some m' ∧ MapWellFormed o m' ∧
      (∀ x, In o x k → valueAt o m' x = subtracted t v (valueAt o m x)) ∧
      ∀ x, ¬ In o x k → valueAt o m' x = valueAt o m x := by
  obtain ⟨m', e, w, _, a⟩ := subSeg_at h.lawful t (mapWellFormed_iff.1 hm) k v
  simp only [subtracted_eq]
  exact ⟨m', e, mapWellFormed_iff.2 w, on_split a⟩

/-- `m.subtract({a, v})`, `m -= {a, v}` for an element `a` that has a one-element interval -/
theorem C19_subtract_element {sing : D → I} (h : SingletonClass o sing) (t : MapType V) {m : List (I × V)}
    (hm : MapWellFormed o m) (a : D) (ha : o.isEmpty (sing a) = false) (v : V) :
    ∃ m', IMap.subSeg o t m (sing a) v = some m' ∧ MapWellFormed o m' ∧
      valueAt o m' a = subtracted t v (valueAt o m a) ∧ ∀ x, x ≠ a → valueAt o m' x = valueAt o m x := by
  obtain ⟨m', e, w, h1, h2⟩ := C19_subtract h.cls t hm (sing a) v
  exact ⟨m', e, w, h1 a ((h.mem ha a).2 rfl), fun x hx => h2 x fun hi => hx ((h.mem ha x).1 hi)⟩

/-- Subtraction undoes addition on a map that stores no identity element, for numbers. -/
theorem C19_subtract_undoes_add {W : Type} [DecidableEq W] [AddGroup W] (h : IntervalClass o)
    (joining total signed : Bool) {m : List (I × W)} (hm : MapWellFormed o m)
    (hn : NoIdentity (.numeric joining true total signed) m) (k : I) (v : W) :
    ∃ m' m'', IMap.addSeg o (.numeric joining true total signed) m k v = some m' ∧
      IMap.subSeg o (.numeric joining true total signed) m' k v = some m'' ∧
      (total = true → signed = true → ∀ x, valueAt o m'' x = valueAt o m x) ∧
      ∀ x, valueAt o m' x ≠ none → valueAt o m'' x = valueAt o m x := by
  obtain ⟨m', e1, w1, a1, b1⟩ := C18_add h (.numeric joining true total signed) hm k v
  obtain ⟨m'', e2, w2, a2, b2⟩ := C19_subtract h (.numeric joining true total signed) w1 k v
  have key : ∀ x, (total = true ∧ signed = true) ∨ valueAt o m' x ≠ none → valueAt o m'' x = valueAt o m x := by
    intro x hc
    by_cases hx : In o x k
    · rw [a1 x hx] at hc
      rw [a2 x hx, a1 x hx]
      cases hv : valueAt o m x with
      | none =>
        by_cases h0 : v = 0 <;>
          simp [added, subtracted, combined, stored, Ignored, MapType.numeric, Combiner.plus, Combiner.minus, h0]
      | some u =>
        have hu : u ≠ 0 := by
          obtain ⟨s, hs, _, rfl⟩ := (valueAt_assoc hm x u).1 hv
          exact fun h0 => hn s hs ⟨rfl, h0⟩
        rw [hv] at hc
        by_cases h0 : v = 0
        · simp [added, subtracted, combined, Ignored, MapType.numeric, h0]
        · by_cases h1 : u + v = 0
          · simp [added, combined, stored, Ignored, MapType.numeric, Combiner.plus, h0, h1] at hc
            have : 0 - v = u := by rw [← h1]; simp
            simp [added, subtracted, combined, stored, Ignored, MapType.numeric, Combiner.plus, Combiner.minus,
              h0, h1, hc]
            simpa using this
          · simp [added, subtracted, combined, stored, Ignored, MapType.numeric, Combiner.plus, Combiner.minus,
              h0, h1, hu]
    · rw [b2 x hx, b1 x hx]
  exact ⟨m', m'', e1, e2, fun h1 h2 x => key x (Or.inl ⟨h1, h2⟩), fun x hx => key x (Or.inr hx)⟩

example : IMap.subSeg Ex.ro (exMap true true false) [(Ex.r 0 5, 1), (Ex.r 7 9, 2)] (Ex.r 3 8) 2 =
      some [(Ex.r 0 3, 1), (Ex.r 3 5, -1), (Ex.r 8 9, 2)] ∧
    IMap.subSeg Ex.ro (exMap true true true) [(Ex.r 0 5, 1), (Ex.r 7 9, 2)] (Ex.r 3 8) 2 =
      some [(Ex.r 0 3, 1), (Ex.r 3 5, -1), (Ex.r 5 7, -2), (Ex.r 8 9, 2)] := by decide
example : NoIdentity (exMap true true true) exM := by unfold NoIdentity; decide

/-! ## C20: insertion and set -/

/-- `m.insert({k, v})` -/
theorem C20_insert (h : IntervalClass o) (t : MapType V) {m : List (I × V)} (hm : MapWellFormed o m) (k : I)
    (v : V) : ∃ m', IMap.insert o t.cfg m k v = some m' ∧ MapWellFormed o m' ∧
      (∀ x u, valueAt o m x = some u → valueAt o m' x = some u) ∧
      (∀ x, In o x k → valueAt o m x = none → valueAt o m' x = stored t v) ∧
      ∀ x, ¬ In o x k → valueAt o m' x = valueAt o m x := by
  obtain ⟨m', e, w, _, a⟩ := IMap.insert_at h.lawful t.cfg (mapWellFormed_iff.1 hm) k v
  obtain ⟨h1, h2⟩ := on_split a
  refine ⟨m', e, mapWellFormed_iff.2 w, fun x u hu => ?_, fun x hx hu => ?_, h2⟩
  · by_cases hx : In o x k
    · rw [h1 x hx, hu, ← inserted_eq]; rfl
    · rw [h2 x hx, hu]
  · rw [h1 x hx, hu, ← inserted_eq]; rfl

/-- `m.insert(prior, {k, v})` does the same, whatever the hint -/
theorem C20_insert_hint (h : IntervalClass o) (t : MapType V) (n : Nat) (b : Bool) {m : List (I × V)}
    (hm : MapWellFormed o m) (k : I) (v : V) :
    ∃ m', IMap.insertHint o t.cfg n b m k v = some m' ∧ MapWellFormed o m' ∧
      (∀ x u, valueAt o m x = some u → valueAt o m' x = some u) ∧
      (∀ x, In o x k → valueAt o m x = none → valueAt o m' x = stored t v) ∧
      ∀ x, ¬ In o x k → valueAt o m' x = valueAt o m x := by
  obtain ⟨m', e, w, _, a⟩ := IMap.insertHint_at h.lawful t.cfg n b (mapWellFormed_iff.1 hm) k v
  obtain ⟨h1, h2⟩ := on_split a
  refine ⟨m', e, mapWellFormed_iff.2 w, fun x u hu => ?_, fun x hx hu => ?_, h2⟩
  · by_cases hx : In o x k
    · rw [h1 x hx, hu, ← inserted_eq]; rfl
    · rw [h2 x hx, hu]
  · rw [h1 x hx, hu, ← inserted_eq]; rfl

/-- `m.set({k, v})` -/
theorem C20_set (h : IntervalClass o) (t : MapType V) {m : List (I × V)} (hm : MapWellFormed o m) (k : I)
    (v : V) : ∃ m', IMap.setAt o t.cfg m k v = some m' ∧ MapWellFormed o m' ∧
      (∀ x, In o x k → valueAt o m' x = stored t v) ∧ ∀ x, ¬ In o x k → valueAt o m' x = valueAt o m x := by
  obtain ⟨m', e, w, _, a⟩ := IMap.setAt_at h.lawful t.cfg (mapWellFormed_iff.1 hm) k v
  simp only [stored_eq]
  exact ⟨m', e, mapWellFormed_iff.2 w, on_split a⟩

/-- `m.set({a, v})` and `m.insert({a, v})` for an element `a` that has a one-element interval -/
theorem C20_set_insert_element {sing : D → I} (h : SingletonClass o sing) (t : MapType V) {m : List (I × V)}
    (hm : MapWellFormed o m) (a : D) (ha : o.isEmpty (sing a) = false) (v : V) :
    (∃ m', IMap.setAt o t.cfg m (sing a) v = some m' ∧ MapWellFormed o m' ∧
      valueAt o m' a = stored t v ∧ ∀ x, x ≠ a → valueAt o m' x = valueAt o m x) ∧
    ∃ m', IMap.insert o t.cfg m (sing a) v = some m' ∧ MapWellFormed o m' ∧
      valueAt o m' a = inserted t v (valueAt o m a) ∧ ∀ x, x ≠ a → valueAt o m' x = valueAt o m x := by
  obtain ⟨m', e, w, h1, h2⟩ := C20_set h.cls t hm (sing a) v
  obtain ⟨m'', e', w', h1', h2', h3'⟩ := C20_insert h.cls t hm (sing a) v
  refine ⟨⟨m', e, w, h1 a ((h.mem ha a).2 rfl), fun x hx => h2 x fun hi => hx ((h.mem ha x).1 hi)⟩,
    m'', e', w', ?_, fun x hx => h3' x fun hi => hx ((h.mem ha x).1 hi)⟩
  cases hv : valueAt o m a with
  | none => rw [h2' a ((h.mem ha a).2 rfl) hv]; rfl
  | some u => rw [h1' a u hv]; rfl

example : IMap.insert Ex.ro (exMap true true false).cfg exN (Ex.r 3 8) 7 =
      some [(Ex.r 0 4, 1), (Ex.r 4 5, 7), (Ex.r 5 9, 2)] ∧
    IMap.insertHint Ex.ro (exMap false true false).cfg 1 true exN (Ex.r 3 8) 1 =
      some [(Ex.r 0 4, 1), (Ex.r 4 5, 1), (Ex.r 5 9, 2)] ∧
    IMap.setAt Ex.ro (exMap true true false).cfg exN (Ex.r 3 8) 1 = some [(Ex.r 0 8, 1), (Ex.r 8 9, 2)] ∧
    IMap.setAt Ex.ro (exMap true true false).cfg exN (Ex.r 3 8) 0 = some [(Ex.r 0 3, 1), (Ex.r 8 9, 2)] := by
  decide

/-! ## C21: erasure -/

/-- `m.erase(k)`, `m -= k` -/
theorem C21_erase_interval (h : IntervalClass o) {m : List (I × V)} (hm : MapWellFormed o m) (k : I) :
    ∃ m', IMap.eraseItv o m k = some m' ∧ MapWellFormed o m' ∧
      ∀ x v, Assoc o m' x v ↔ Assoc o m x v ∧ ¬ In o x k := by
  obtain ⟨m', e, w, _, a⟩ := IMap.eraseItv_at h.lawful (mapWellFormed_iff.1 hm) k
  have w' := mapWellFormed_iff.2 w
  obtain ⟨h1, h2⟩ := on_split a
  refine ⟨m', e, w', fun x v => ?_⟩
  rw [← valueAt_assoc w', ← valueAt_assoc hm]
  by_cases hx : In o x k
  · rw [h1 x hx]; simp [hx]
  · rw [h2 x hx]; simp [hx]

/-- `m.erase({k, v})`. An absorbing map ignores the identity element (which it does not store, C17). -/
theorem C21_erase_segment (h : IntervalClass o) (t : MapType V) {m : List (I × V)} (hm : MapWellFormed o m) (k : I)
    (v : V) : ∃ m', IMap.eraseSeg o t.cfg m k v = some m' ∧ MapWellFormed o m' ∧
      (Ignored t v → m' = m) ∧
      (¬ Ignored t v → ∀ x w, Assoc o m' x w ↔ Assoc o m x w ∧ ¬ (In o x k ∧ w = v)) := by
  obtain ⟨m', e, hi, _⟩ := IMap.eraseSeg_spec h.lawful t.cfg (mapWellFormed_iff.1 hm) k v
  obtain ⟨m'', e', w, _, a⟩ := IMap.eraseSeg_at h.lawful t.cfg (mapWellFormed_iff.1 hm) k v
  rw [e] at e'; cases e'
  have w' := mapWellFormed_iff.2 w
  obtain ⟨h1, h2⟩ := on_split a
  refine ⟨m', e, w', fun hv => hi (absorbable_iff.2 hv), fun hv x u => ?_⟩
  rw [← valueAt_assoc w', ← valueAt_assoc hm]
  by_cases hx : In o x k
  · rw [h1 x hx, ← erased_eq]
    cases hu : valueAt o m x with
    | none => simp [erased]
    | some u' =>
      simp only [erased, hv, if_false, hx, true_and, Option.some.injEq]
      constructor
      · intro hh
        split at hh
        · cases hh
        · cases hh; exact ⟨rfl, by assumption⟩
      · rintro ⟨rfl, hne⟩; simp [hne]
  · rw [h2 x hx]; simp [hx]

example : IMap.eraseItv Ex.ro exM (Ex.r 3 8) = some [(Ex.r 0 2, 1), (Ex.r 2 3, 1), (Ex.r 8 9, 2)] ∧
    IMap.eraseSeg Ex.ro (exMap true true false).cfg exM (Ex.r 3 8) 2 =
      some [(Ex.r 0 2, 1), (Ex.r 2 4, 1), (Ex.r 8 9, 2)] := by decide

end ICL.Props
